import Verif.Lemmas.LegChebKern
import Verif.Props.LegCheb
import Mathlib.NumberTheory.Real.Irrational
import Mathlib.Analysis.SpecialFunctions.Gaussian.GaussianIntegral
import Verif.Lemmas.Cosine
import Verif.Lemmas.BaryCheb
import Verif.Lemmas.Dct18
import Mathlib.Analysis.SpecialFunctions.Gamma.Basic
import Mathlib.Analysis.SpecialFunctions.Gamma.Deriv

/-! # The functions of the C library and of FFTW in real numbers -/

namespace FT.Props.Lc
open Polynomial FT FT.Poly FT.Model.Lc FT.Fftw Real

/-- What the code of `dct2` leaves in its output. -/
noncomputable def dct2Val (f : Int → ℝ) (p : Int) : ℝ :=
  match dct2 realTrig (fun _ => 0) ⟨324, f⟩ ⟨324, fun _ => 0⟩ 0 with
  | some o => o.val p
  | none => 0

theorem dct2Val_spec (f : Int → ℝ) {k l : Int} (k0 : 0 ≤ k) (k1 : k < 18) (l0 : 0 ≤ l) (l1 : l < 18) :
    dct2Val f (k * 18 + l) = hf k * hf l * (1 / 81) * ∑ i ∈ Finset.Ico (0 : Int) 18, ∑ j ∈ Finset.Ico (0 : Int) 18,
      f (i * 18 + j) * (cos (k * FT.Fftw.grid 18 i) * cos (l * FT.Fftw.grid 18 j)) := by
  obtain ⟨o, e, _, h, _⟩ := dct2_spec (fun _ => 0) ⟨324, f⟩ ⟨324, fun _ => 0⟩ (bo := 0) le_rfl le_rfl (by norm_num)
  have := h k l k0 k1 l0 l1
  rw [zero_add] at this
  unfold dct2Val
  rw [e]
  exact this

attribute [irreducible] dct2Val

/-- `Λ(x) = Γ(x + 1/2) / Γ(x + 1)`, the Chebyshev points, sines, discrete cosine transforms, and, for 18 points, the code of `dct2`. -/
noncomputable def realNodes : Nodes ℝ where
  lam x := Gamma (x + 1 / 2) / Gamma (x + 1)
  xj M i := cos ((i + 0.5) * π / M)
  wj M i := sin ((i + 0.5) * π / M)
  cosAcos k x := cos (k * arccos x)
  redft1 M f k := redft10 M f k
  redft2 M f p := redft10 M (fun i => redft10 M (fun j => f (i * M + j)) (p % M)) (p / M)
  dct18 := dct2Val

theorem realNodes_xj (M i : Int) : realNodes.xj M i = cos (FT.Fftw.grid M i) := by
  show cos ((i + 0.5) * π / M) = _
  unfold FT.Fftw.grid; congr 1; ring

theorem cheb_cos (k : Int) (t : ℝ) : cheb k (cos t) = cos (k * t) := Chebyshev.T_real_cos t k

theorem realNodes_cheb (k M i : Int) : cheb k (realNodes.xj M i) = cos (k * FT.Fftw.grid M i) := by rw [realNodes_xj, cheb_cos]

theorem real_orth {M : Int} (hM : 0 < M) (k l : Int) (k0 : 0 ≤ k) (k1 : k < M) (l0 : 0 ≤ l) (l1 : l < M) :
    ∑ i ∈ Finset.Ico 0 M, cos (k * FT.Fftw.grid M i) * cos (l * FT.Fftw.grid M i) = if k = l then (M : ℝ) / (2 * hf k) else 0 := by
  have h := redft_orth hM k l k0 k1 l0 l1
  rw [sum_Ico_congr (g := fun i => (2 * if l = 0 then 1 else 2 : ℝ) * (cos (k * FT.Fftw.grid M i) * cos (l * FT.Fftw.grid M i))) fun i _ _ => by ring, ← Finset.mul_sum] at h
  have c : (2 * if l = 0 then 1 else 2 : ℝ) ≠ 0 := by split_ifs <;> norm_num
  rw [← mul_right_inj' c, h]
  by_cases e : k = l
  · subst e
    rw [if_pos rfl, if_pos rfl]
    unfold hf
    push_cast
    split_ifs <;> field_simp <;> norm_num
  · rw [if_neg e, if_neg e, mul_zero]

theorem real_compl {M : Int} (hM : 0 < M) {i j : Int} (i0 : 0 ≤ i) (i1 : i < M) (j0 : 0 ≤ j) (j1 : j < M) :
    ∑ k ∈ Finset.Ico 0 M, hf k * (cos (k * FT.Fftw.grid M i) * cos (k * FT.Fftw.grid M j)) = if i = j then (M : ℝ) / 2 else 0 := by
  have hM' : (M : ℝ) ≠ 0 := by exact_mod_cast hM.ne'
  rw [← inverse_comm hM.le (div_ne_zero hM' two_ne_zero) (A := fun i k => cos (k * FT.Fftw.grid M i)) (B := fun k i => hf k * cos (k * FT.Fftw.grid M i)) (fun k l k0 k1 l0 l1 => ?_) i0 i1 j0 j1]
  · exact sum_Ico_congr fun k _ _ => by ring
  · rw [sum_Ico_congr (g := fun i => hf k * (cos (k * FT.Fftw.grid M i) * cos (l * FT.Fftw.grid M i))) fun i _ _ => by ring, ← Finset.mul_sum, real_orth hM k l k0 k1 l0 l1]
    split_ifs
    · have : (hf k : ℝ) ≠ 0 := by unfold hf; split_ifs <;> norm_num
      field_simp
    · rw [mul_zero]

theorem redft10_cos (M : Int) (f : Int → ℝ) (k : Int) : redft10 M f k = 2 * ∑ j ∈ Finset.Ico 0 M, f j * cos (k * FT.Fftw.grid M j) := by
  unfold redft10 FT.Fftw.grid
  refine congrArg _ (Finset.sum_congr rfl fun j _ => ?_)
  rw [show π * ((j : ℝ) + 1 / 2) * k / M = k * (π * (j + 1 / 2) / M) by ring]

theorem divmod {M k l : Int} (l0 : 0 ≤ l) (l1 : l < M) : (k * M + l) / M = k ∧ (k * M + l) % M = l := by
  constructor
  · rw [Int.add_comm, Int.add_mul_ediv_right _ _ (by omega), Int.ediv_eq_zero_of_lt l0 l1, zero_add]
  · rw [Int.add_comm, Int.add_mul_emod_self_right, Int.emod_eq_of_lt l0 l1]

theorem realNodes_ok {M : Int} (hM : 1 ≤ M) : NodesOk realNodes M where
  anti i i0 i1 := by
    rw [realNodes_xj, realNodes_xj, ← cos_pi_sub]
    have hM' : (M : ℝ) ≠ 0 := by exact_mod_cast (show M ≠ 0 by omega)
    congr 1
    unfold FT.Fftw.grid; push_cast; field_simp; ring
  orth k l k0 k1 l0 l1 := by simp only [realNodes_cheb]; exact real_orth (by omega) k l k0 k1 l0 l1
  compl i j i0 i1 j0 j1 := by simp only [realNodes_cheb]; exact real_compl (by omega) i0 i1 j0 j1
  acos k j k0 k1 j0 j1 := by
    show cos (k * arccos ((realNodes.xj M j - 1) / 2)) = _
    rw [← cheb_cos, cos_arccos]
    · rw [realNodes_xj]; have := neg_one_le_cos (FT.Fftw.grid M j); linarith
    · rw [realNodes_xj]; have := cos_le_one (FT.Fftw.grid M j); linarith
  redft1 f k k0 k1 := by
    simp only [realNodes_cheb]
    exact redft10_cos M f k
  redft2 f k l k0 k1 l0 l1 := by
    simp only [realNodes_cheb]
    show redft10 M (fun i => redft10 M (fun j => f (i * M + j)) ((k * M + l) % M)) ((k * M + l) / M) = _
    rw [(divmod l0 l1).1, (divmod l0 l1).2, redft10_cos, show (4 : ℝ) = 2 * 2 by norm_num, mul_assoc]
    congr 1
    rw [Finset.mul_sum]
    refine (sum_Ico_congr fun i _ _ => ?_)
    rw [redft10_cos, mul_assoc, Finset.sum_mul]
    refine congrArg _ (sum_Ico_congr fun j _ _ => by ring)
  dct18 e f k l k0 k1 l0 l1 := by
    subst e
    simp only [realNodes_cheb]
    have e : realNodes.dct18 = dct2Val := rfl
    rw [e, dct2Val_spec f k0 k1 l0 l1]
  wt := by
    have hM' : (0 : ℝ) < M := by exact_mod_cast (show 0 < M by omega)
    have en : realNodes.xj M = node1 M := funext fun i => by
      show cos ((i + 0.5) * π / M) = cos ((2 * i + 1) * π / (2 * M))
      congr 1; field_simp; ring
    refine ⟨(2 ^ (M.natAbs - 1) / M : ℝ)⁻¹, inv_ne_zero (by positivity), fun j j0 j1 => ?_⟩
    rw [en, weight1 (by omega) (Finset.mem_Ico.2 ⟨j0, j1⟩), ← mul_assoc, inv_mul_cancel₀ (by positivity), one_mul, mul_comm]
    show sin ((j + 0.5) * π / M) * sgn j = _
    congr 2
    field_simp; ring

theorem realNodes_sep (M : Int) : Separated realNodes M where
  abs_le i _ _ := by rw [realNodes_xj]; exact abs_cos_le_one _
  ne t ht := (div_pos (Gamma_pos_of_pos (by linarith)) (Gamma_pos_of_pos (by linarith))).ne'

theorem realNodes_lam (n : Int) (hn : 0 ≤ n) : realNodes.lam n = realLam.lamI n := by
  obtain ⟨m, rfl⟩ := Int.eq_ofNat_of_zero_le hn
  clear hn
  rw [lamI_eq realLam_ok (by omega)]
  show Gamma (((m : Int) : ℝ) + 1 / 2) / Gamma (((m : Int) : ℝ) + 1) = √π * cZ (m : Int)
  induction m with
  | zero => rw [Nat.cast_zero, cZ_zero]; simp [show Gamma 2⁻¹ = √π by rw [← one_div]; exact Real.Gamma_one_half_eq]
  | succ m ih =>
    have e : (((m + 1 : ℕ) : Int) : ℝ) = ((m : Int) : ℝ) + 1 := by push_cast; ring
    have g1 : (0 : ℝ) < ((m : Int) : ℝ) + 1 := by positivity
    have g2 : (0 : ℝ) < ((m : Int) : ℝ) + 1 / 2 := by positivity
    rw [e, show ((m : Int) : ℝ) + 1 + 1 / 2 = ((m : Int) : ℝ) + 1 / 2 + 1 by ring, Gamma_add_one g2.ne', Gamma_add_one g1.ne', Nat.cast_succ, cZ_succ (by omega), ← mul_assoc, ← ih]
    have := (Gamma_pos_of_pos g1).ne'
    field_simp

theorem sqrt_two_ne (a b : Int) : (a : ℝ) / b ≠ √2 := fun h => irrational_sqrt_two ⟨(a : ℚ) / b, by push_cast; exact h⟩

/-- Two points: irrational, so nothing is divided by zero. -/
theorem realNodes_generic {s : Int} (hs : 1 ≤ s) : Generic realNodes 2 s := by
  have x : ∀ j : Int, 0 ≤ j → j < 2 → realNodes.xj 2 j = ((1 - 2 * j : Int) : ℝ) * (√2 / 2) := fun j j0 j1 => by
    rw [realNodes_xj]
    unfold Fftw.grid
    rcases (show j = 0 ∨ j = 1 by omega) with rfl | rfl
    · rw [show π * (((0 : Int) : ℝ) + 1 / 2) / ((2 : Int) : ℝ) = π / 4 by push_cast; ring, cos_pi_div_four]; push_cast; ring
    · rw [show π * (((1 : Int) : ℝ) + 1 / 2) / ((2 : Int) : ℝ) = π - π / 4 by push_cast; ring, cos_pi_sub, cos_pi_div_four]; push_cast; ring
  have sq : √2 * √2 = 2 := Real.mul_self_sqrt (by norm_num)
  have key : ∀ b c d : Int, b ≠ 0 → d ≠ 0 → (b : ℝ) * (√2 / 2) ≠ c / d := fun b c d hb hd h => by
    refine sqrt_two_ne (2 * c) (b * d) ?_
    have hb' : (b : ℝ) ≠ 0 := by exact_mod_cast hb
    have hd' : (d : ℝ) ≠ 0 := by exact_mod_cast hd
    push_cast
    field_simp at h ⊢
    linarith
  constructor
  · intro i j _ _ j0 j1 h
    rw [x j j0 j1] at h
    have hs' : (s : ℝ) ≠ 0 := by exact_mod_cast (show s ≠ 0 by omega)
    refine key (1 - 2 * j) (i - s) s (by omega) (by omega) ?_
    push_cast at h ⊢
    rw [sub_div, div_self hs']; linarith
  · intro i j i0 i1 j0 j1 h
    rw [x j j0 j1, x i i0 i1] at h
    refine key ((1 - 2 * i) - 2 * (1 - 2 * j)) 1 1 (by omega) (by omega) ?_
    push_cast at h ⊢
    linarith
  · intro i j i0 i1 j0 j1 h
    rw [x j j0 j1, x i i0 i1] at h
    refine key (2 * (1 - 2 * j) - (1 - 2 * i)) 1 1 (by omega) (by omega) ?_
    push_cast at h ⊢
    linarith

end FT.Props.Lc
