import Verif.Props.SpinTransforms
import Verif.Props.GridValues

/-!
# Property C78: values on the grid of the sphere, functions of spin `s`

Transform and synthesis together evaluate the expansion in spin-weighted spherical harmonics at the points of the grid, as in C76.  Complex numbers are pairs of rows: row `2i` holds the real parts,
row `2i+1` the imaginary parts.
-/

namespace FT.Props.Fun
open FT FT.Model FT.Poly FT.Fftw FT.Props.Plan FT.Props.Ops Polynomial

/-- Part `a` (0 real, 1 imaginary) of `i^b` times the spin-weighted spherical harmonic of spin `s`, in row `l` of column `c`: order `m = 0, -1, 1, -2, 2, …`, degree `l + max(|m|, |s|)`; it is
`e^{imφ}/√(2π)` times the function of colatitude. -/
noncomputable def spinHarmonic (s c l : Int) (θ φ : ℝ) (a b : Int) : ℝ :=
  turn (spinOrd c * φ) a b / √(2 * Real.pi) * spinFun realLibm s (Real.cos θ, Real.sin θ) (spinOrd c) l

theorem sum_parts (N : Int) (f : Int → ℝ) : ∑ q ∈ Finset.Ico 0 (2 * N), f q = ∑ i ∈ Finset.Ico 0 N, f (2 * i + 0) + ∑ i ∈ Finset.Ico 0 N, f (2 * i + 1) := by
  have h := sumTo_two N f
  unfold sumTo at h
  rw [sum_range_int (n := 2 * N) f, sum_range_int (n := N) fun l => f (2 * l), sum_range_int (n := N) fun l => f (2 * l + 1)] at h
  simp only [add_zero]
  exact h

section
variable {N M s : Int} {P : SpinHPlan ℝ} {P1 P2 Q1 Q2 : Buf ℝ} {F : Libm ℝ}

theorem spin_last (hP : SpinPlanOK F N s P P1 P2 Q1 Q2) (hN : 1 ≤ N) (hM : M % 2 = 1) (hM1 : 3 ≤ M) (hM2 : M ≤ 2 * N - 1) {x : SpinChoice ℝ} (hx : x.OK P.szB) {A A' : Buf ℝ}
    (hA : 2 * N * M ≤ A.size) (e : Spinsph2fourier x false P N M A A') {c : Int} (c0 : 0 ≤ c) (c1 : c < M) (hz : ShortC N (N * c) 1 (N - max |spinOrd c| |s|) A)
    (hs : spinPar s (spinOrd c) = 1) {b : Int} (hb : b = 0 ∨ b = 1) : A'.val (2 * (N - 1 + N * c) + b) = 0 := by
  obtain ⟨R, eR, eD⟩ : ∃ A1, RunSpin x true P.SRP M A A1 ∧ spinDense false false P N M A1 = some A' := by simpa [Spinsph2fourier] using e
  have hx' := spin_ok hP hN hM2 hx
  obtain ⟨⟨R', r, sR, v⟩, -⟩ := hP.drivers M hM hM1 A (by rw [hP.n]; exact hA)
  rw [← (r x hx').2 R eR] at sR v
  have hv := (v c c0 c1 (by rw [hP.n, hP.spin]; exact hz)).1
  rw [hP.n, hP.spin, hs] at hv
  obtain ⟨A2, e2, a⟩ := (spinDense_ok (M := M) hP hN false).1.2 R (by rw [sR]; exact hA)
  rw [eD] at e2; cases e2
  rw [show 2 * (N - 1 + N * c) + b = (2 * (N - 1) + b) + c * (2 * N) by ring, a.val (2 * (N - 1) + b) c (by omega) (by omega) c0 c1]
  unfold colOp zF
  rw [show (2 * (N - 1) + b) / 2 = N - 1 by omega, show (2 * (N - 1) + b) % 2 = b by omega]
  have z := hv b (N - 1) hb (by omega) le_rfl (by omega)
  rw [show 2 * (N * c + (N - 1) * 1) + b = (2 * (N - 1) + b) + c * (2 * N) by ring] at z
  have key : ∀ V : Buf ℝ, sumTo N (fun l => opU false V N (N - 1) l * R.val (2 * l + b + c * (2 * N))) = 0 := fun V => last_zero V (fun l => R.val (2 * l + b + c * (2 * N))) z
  unfold sel4
  by_cases h1 : s % 2 = 0 <;> by_cases h2 : c % 4 = 0 ∨ c % 4 = 3 <;> simp only [h1, h2, if_true, if_false] <;> exact key _

end

/-- **C78**, values on the grid. -/
theorem C78_spin_grid (junk u u' : Int → ℝ) {N : Int} (hN : 1 ≤ N) (s : Int) : ∃ P, planSpinsph2fourier realLibm junk N s = some P ∧ ∀ M, M % 2 = 1 → 3 ≤ M → M ≤ 2 * N - 1 →
    Evaluates (SpinChoice.OK P.szB) (2 * N) M (2 * N * M) (fun y => Spinsph2fourier y false P N M) (fun y => Fourier2spinsph y false P N M)
      (spinSynthesis 'N' consts (Fftw.spinS s N M) u N M) (spinAnalysis 'N' consts (Fftw.spinA s N M) u' N M) (fun c => 2 * (N - max |spinOrd c| |s|))
      (fun c l i k => spinHarmonic s c (l / 2) (grid N (i / 2)) (circ M k) (i % 2) (l % 2)) := by
  obtain ⟨P, P1, P2, Q1, Q2, e, hP⟩ := spin_tplan (junk := junk) realLibm_ok hN s
  refine ⟨P, e, fun M hM hM1 hM2 => evaluates_of (by omega) (by omega) (spin_inverse hP hN hM hM1 hM2 false)
    (fun y A A' hy hA e => fwd_size (runSpin_ok hP hN hM hM1 hM2 hy true) (spinDense_ok hP hN false).1 hA (by simpa [Spinsph2fourier] using e))
    (fun y A A' hy hA e => back_size (runSpin_ok hP hN hM hM1 hM2 hy false) (spinDense_ok hP hN false).2 hA (by simpa [Fourier2spinsph] using e))
    (C57_spin_sphere (by omega) (by omega) hM s) (C41_spin_sphere (by omega) (by omega) hM consts_ok (spin_pair (by omega) (by omega) hM s)).2.1 fun y A A' hy hA hz e i k i0 i1 k0 k1 => ?_⟩
  unfold expansion
  refine sum_Ico_congr fun c c0 c1 => ?_
  have hz' : ShortC N (N * c) 1 (N - max |spinOrd c| |s|) A := by
    intro b i hb j0 j1 j2
    have hq : 2 * (N - max |spinOrd c| |s|) ≤ 2 * i + b := by
      generalize max |spinOrd c| |s| = q at j1 ⊢
      omega
    have := hz c c0 c1 (2 * i + b) (by omega) hq (by omega)
    rw [← this]
    congr 1
    ring
  have ho : |spinOrd c| = order c := by
    unfold spinOrd order
    split_ifs
    · rw [abs_of_nonneg (by omega)]; omega
    · rw [abs_neg, abs_of_nonneg (by omega)]
  have hs : (order c + s) % 2 = spinPar s (spinOrd c) := by
    unfold spinPar
    rw [ho]
    rcases abs_choice s with h | h <;> rw [h] <;> omega
  have part : ∀ b, b = 0 ∨ b = 1 → ∑ j ∈ Finset.Ico 0 N, spinSeries s N M (i + k * (2 * N)) (2 * j + b + c * (2 * N)) * A'.val (2 * j + b + c * (2 * N)) =
      ∑ l ∈ Finset.Ico 0 N, A.val (2 * l + b + c * (2 * N)) * spinHarmonic s c ((2 * l + b) / 2) (grid N (i / 2)) (circ M k) (i % 2) ((2 * l + b) % 2) := by
    intro b hb
    have f := spin_forward realLibm_ok hP hN hM hM1 hM2 hy hA e c0 c1 hz' (on_circle (grid N (i / 2))) hb
    have := congrArg (turn (spinOrd c * circ M k) (i % 2) b / √(2 * Real.pi) * ·) f
    simp only [trig_real, Finset.mul_sum] at this
    refine Eq.trans (sum_Ico_congr fun j j0 j1 => ?_) (this.trans (sum_Ico_congr fun l l0 l1 => ?_))
    · obtain ⟨-, -, b1, b2⟩ := flat_pos (N := 2 * N) (M := M) (by omega) k0 k1 i0 i1
      obtain ⟨-, -, b3, b4⟩ := flat_pos (N := 2 * N) (M := M) (c := c) (i := 2 * j + b) (by omega) c0 c1 (by omega) (by omega)
      have m1 : (i + k * (2 * N)) % 2 = i % 2 := by rw [show i + k * (2 * N) = i + 2 * (k * N) by ring]; omega
      have m2 : (2 * j + b + c * (2 * N)) % 2 = b := by rw [show 2 * j + b + c * (2 * N) = b + 2 * (j + c * N) by ring]; omega
      have ix : 2 * (j + N * c) + b = 2 * j + b + c * (2 * N) := by ring
      unfold spinSeries
      dsimp only
      rw [b1, b2, b3, b4, m1, m2, hs, ix, show (2 * j + b) / 2 = j by omega, show freq c = spinOrd c from rfl, mul_assoc]
      congr 1
      rcases (show spinPar s (spinOrd c) = 0 ∨ spinPar s (spinOrd c) = 1 by unfold spinPar; omega) with h | h
      · rw [h, if_pos rfl, if_pos (by norm_num)]
        exact mul_comm _ _
      · rw [h, if_neg (by norm_num), if_neg (by norm_num), sine_last fun hj => by
          rw [← ix, hj]; exact spin_last hP hN hM hM1 hM2 hy hA e c0 c1 hz' h hb]
        exact mul_comm _ _
    · unfold spinHarmonic
      rw [show (2 * l + b) / 2 = l by omega, show (2 * l + b) % 2 = b by omega, show 2 * (l + N * c) + b = 2 * l + b + c * (2 * N) by ring]
      ring
  rw [sum_parts, sum_parts, part 0 (Or.inl rfl), part 1 (Or.inr rfl)]

/-- Spin -1, two degrees, three columns: one coefficient, of the function of order 1 and degree 1. -/
example : ∃ P, planSpinsph2fourier realLibm (fun _ => 7) 2 (-1) = some P ∧ ∃ A', Spinsph2fourier (.one .scalar 1) false P 2 3 ⟨12, fun q => if q = 8 then 1 else 0⟩ A' ∧
    ∃ X W', spinSynthesis 'N' consts (Fftw.spinS (-1) 2 3) (fun _ => 7) 2 3 A' ⟨12, fun _ => 7⟩ = some (X, W') ∧
      X.val (1 + 2 * 4) = spinHarmonic (-1) 2 0 (grid 2 0) (circ 3 2) 1 0 := by
  obtain ⟨P, e, h⟩ := C78_spin_grid (fun _ => 7) (fun _ => 7) (fun _ => 7) (show (1 : Int) ≤ 2 by omega) (-1)
  refine ⟨P, e, ?_⟩
  obtain ⟨⟨A', f⟩, g⟩ := (h 3 (by norm_num) (by norm_num) (by norm_num) (.one .scalar 1) (show 0 < 1 by omega) ⟨12, fun _ => 7⟩ (by norm_num)).1 ⟨12, fun q => if q = 8 then 1 else 0⟩ (by norm_num) (by
    intro c c0 c1 i i0 i1 i2
    refine if_neg fun hq => ?_
    rcases (by omega : c = 0 ∨ c = 1 ∨ c = 2) with rfl | rfl | rfl
    · omega
    · omega
    · have : max |spinOrd 2| |(-1 : Int)| = 1 := by decide
      simp only [this] at i1
      omega)
  refine ⟨A', f, ?_⟩
  obtain ⟨X, W', eX, -, v⟩ := g A' f
  refine ⟨X, W', eX, ?_⟩
  have := v 1 2 (by norm_num) (by norm_num) (by norm_num) (by norm_num)
  norm_num at this
  rw [show (1 : Int) + 2 * 4 = 9 by norm_num, this]
  unfold expansion
  rw [Finset.sum_eq_single 2]
  · rw [Finset.sum_eq_single 0]
    · norm_num
    · intro l hl hl0
      have := Finset.mem_Ico.1 hl
      simp only
      rw [if_neg (by omega), zero_mul]
    · intro h; exact absurd (Finset.mem_Ico.2 ⟨by norm_num, by norm_num⟩) h
  · intro c hc hc2
    have := Finset.mem_Ico.1 hc
    refine Finset.sum_eq_zero fun l hl => ?_
    have := Finset.mem_Ico.1 hl
    simp only
    rw [if_neg (by omega), zero_mul]
  · intro h; exact absurd (Finset.mem_Ico.2 ⟨by norm_num, by norm_num⟩) h

end FT.Props.Fun
