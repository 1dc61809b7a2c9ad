import Verif.Lemmas.LegChebReal

/-!
# C64: the built-in cosine transform of length 18
-/

namespace FT.Props.Lc
open FT FT.Model.Lc FT.Fftw Real

/-- One transform: for every distance `st` between the entries and wherever the vectors lie in their arrays, the entries of the output are the cosine sums of the input, nothing else is written and
nothing is read or written outside the arrays. -/
theorem C64_dct_is_cosine_sum (junk : Int → ℝ) (inp out : Buf ℝ) (bi bo st : Int) (b0 : 0 ≤ bi) (s0 : 0 < st) (b1 : bi + 17 * st < inp.size) (o0 : 0 ≤ bo) (o1 : bo + 17 * st < out.size) :
    ∃ o, dctRadix23 realTrig junk inp bi out bo st = some o ∧ o.size = out.size ∧
      (∀ k, 0 ≤ k → k < 18 → o.val (bo + k * st) = ∑ j ∈ Finset.Ico (0 : Int) 18, inp.val (bi + j * st) * cos (k * (π * (j + 1 / 2) / 18))) ∧
      ∀ p, (∀ k, 0 ≤ k → k < 18 → p ≠ bo + k * st) → o.val p = out.val p :=
  dctRadix23_spec junk inp out b0 s0 b1 o0 o1

example : ∃ o, dctRadix23 realTrig (fun _ => 7) ⟨324, fun j => j⟩ 2 ⟨324, fun _ => 0⟩ 2 18 = some o ∧ o.val (2 + 0 * 18) = ∑ j ∈ Finset.Ico (0 : Int) 18, ((2 + j * 18 : Int) : ℝ) * cos ((0 : Int) * (π * (j + 1 / 2) / 18)) :=
  let ⟨o, e, _, h, _⟩ := C64_dct_is_cosine_sum (fun _ => 7) ⟨324, fun j => j⟩ ⟨324, fun _ => 0⟩ 2 2 18 (by norm_num) (by norm_num) (by norm_num) (by norm_num) (by norm_num)
  ⟨o, e, h 0 le_rfl (by norm_num)⟩

/-- The two-dimensional transform gives the coefficients of the Chebyshev interpolant at the 18 by 18 points: for a combination of products of Chebyshev polynomials, sampled at these points, it returns
the coefficients. -/
theorem C64_dct2_interpolates (junk : Int → ℝ) (a : Int → Int → ℝ) (inp out : Buf ℝ) (bo : Int) (hi : 324 ≤ inp.size) (o0 : 0 ≤ bo) (o1 : bo + 324 ≤ out.size)
    (hv : ∀ i j, 0 ≤ i → i < 18 → 0 ≤ j → j < 18 → inp.val (i * 18 + j) =
      ∑ m ∈ Finset.Ico (0 : Int) 18, ∑ n ∈ Finset.Ico (0 : Int) 18, a m n * (cos (m * (π * (i + 1 / 2) / 18)) * cos (n * (π * (j + 1 / 2) / 18)))) :
    ∃ o, dct2 realTrig junk inp out bo = some o ∧ o.size = out.size ∧
      (∀ k l, 0 ≤ k → k < 18 → 0 ≤ l → l < 18 → o.val (bo + (k * 18 + l)) = a k l) ∧
      ∀ p, p < bo ∨ bo + 324 ≤ p → o.val p = out.val p := by
  obtain ⟨o, e, hs, h, hu⟩ := dct2_spec junk inp out hi o0 o1
  refine ⟨o, e, hs, fun k l k0 k1 l0 l1 => ?_, hu⟩
  rw [h k l k0 k1 l0 l1]
  have hk : (hf k : ℝ) ≠ 0 := by unfold hf; split_ifs <;> norm_num
  have hl : (hf l : ℝ) ≠ 0 := by unfold hf; split_ifs <;> norm_num
  have e18 {m : Int} : (18 : ℝ) / (2 * hf m) = 9 / hf m := by rw [show (18 : ℝ) = 2 * 9 by norm_num, mul_div_mul_left _ _ two_ne_zero]
  have hh (i j : Int) : (cos ((i : ℝ) * (π * ((j : ℝ) + 1 / 2) / 18))) = cos (i * FT.Fftw.grid 18 j) := by unfold FT.Fftw.grid; push_cast; rfl
  have inner (i : Int) (i0 : 0 ≤ i) (i1 : i < 18) : ∑ j ∈ Finset.Ico (0 : Int) 18, inp.val (i * 18 + j) * (cos (k * FT.Fftw.grid 18 i) * cos (l * FT.Fftw.grid 18 j)) =
      ∑ m ∈ Finset.Ico (0 : Int) 18, a m l * (9 / hf l) * (cos (k * FT.Fftw.grid 18 i) * cos (m * FT.Fftw.grid 18 i)) := by
    rw [sum_Ico_congr (g := fun j => ∑ m ∈ Finset.Ico (0 : Int) 18, ∑ n ∈ Finset.Ico (0 : Int) 18, (cos (k * FT.Fftw.grid 18 i) * cos (m * FT.Fftw.grid 18 i)) *
      (a m n * (cos (l * FT.Fftw.grid 18 j) * cos (n * FT.Fftw.grid 18 j)))) fun j j0 j1 => by
        simp only [hv i j i0 i1 j0 j1, hh, Finset.sum_mul]
        exact Finset.sum_congr rfl fun m _ => Finset.sum_congr rfl fun n _ => by ring]
    rw [Finset.sum_comm]
    refine Finset.sum_congr rfl fun m _ => ?_
    rw [Finset.sum_comm, sum_Ico_congr (g := fun n => if n = l then (cos (k * FT.Fftw.grid 18 i) * cos (m * FT.Fftw.grid 18 i)) * (a m l * (9 / hf l)) else 0) fun n n0 n1 => by
      rw [← Finset.mul_sum, ← Finset.mul_sum, real_orth (by norm_num) l n l0 l1 n0 n1]
      by_cases c : n = l
      · subst c; rw [if_pos rfl, if_pos rfl]; push_cast; rw [e18]
      · rw [if_neg c, if_neg (Ne.symm c), mul_zero, mul_zero]]
    rw [Finset.sum_ite_eq' , if_pos (Finset.mem_Ico.2 ⟨l0, l1⟩)]; ring
  rw [sum_Ico_congr inner, Finset.sum_comm, sum_Ico_congr (g := fun m => if m = k then a k l * (9 / hf l) * (9 / hf k) else 0) fun m m0 m1 => by
    rw [← Finset.mul_sum, real_orth (by norm_num) k m k0 k1 m0 m1]
    by_cases c : m = k
    · subst c; rw [if_pos rfl, if_pos rfl]; push_cast; rw [e18]
    · rw [if_neg c, if_neg (Ne.symm c), mul_zero]]
  rw [Finset.sum_ite_eq', if_pos (Finset.mem_Ico.2 ⟨k0, k1⟩)]
  field_simp; ring

example : ∃ o, dct2 realTrig (fun _ => 7) ⟨324, fun p => ∑ m ∈ Finset.Ico (0 : Int) 18, ∑ n ∈ Finset.Ico (0 : Int) 18, ((m + 2 * n : Int) : ℝ) * (cos (m * (π * ((p / 18 : Int) + 1 / 2) / 18)) * cos (n * (π * ((p % 18 : Int) + 1 / 2) / 18)))⟩
    ⟨400, fun _ => 0⟩ 5 = some o ∧ o.val (5 + (3 * 18 + 4)) = 11 := by
  obtain ⟨o, e, _, h, _⟩ := C64_dct2_interpolates (fun _ => 7) (fun m n => ((m + 2 * n : Int) : ℝ)) ⟨324, fun p => ∑ m ∈ Finset.Ico (0 : Int) 18, ∑ n ∈ Finset.Ico (0 : Int) 18, ((m + 2 * n : Int) : ℝ) * (cos (m * (π * ((p / 18 : Int) + 1 / 2) / 18)) * cos (n * (π * ((p % 18 : Int) + 1 / 2) / 18)))⟩
    ⟨400, fun _ => 0⟩ 5 le_rfl (by norm_num) (by norm_num) fun i j i0 i1 j0 j1 => by
      dsimp only
      rw [(divmod j0 j1).1, (divmod j0 j1).2]
  exact ⟨o, e, by rw [h 3 4 (by norm_num) (by norm_num) (by norm_num) (by norm_num)]; norm_num⟩

end FT.Props.Lc
