import Verif.Model.Lambda
import Verif.Lemmas.Lambda
import Mathlib.Analysis.Real.Pi.Bounds
import Mathlib.Analysis.SpecialFunctions.Gaussian.GaussianIntegral
import Mathlib.Tactic.NormNum.OfScientific

/-!
# The series and the table of the code
-/

namespace FT.Props.Lc
open Real FT FT.Model.Lc

/-- What the series of the code differs by from the truncated series, and from the function. -/
theorem lambdaY_error {z : ℝ} (hz : 10 ≤ z) : |lambdaY z (1 / ((z + 0.25) * (z + 0.25))) - gammaRatio z * √(z + 0.25)| ≤ 2.1e-16 := by
  obtain ⟨u, rfl⟩ : ∃ u, z = u - 1 / 4 := ⟨z + 1 / 4, by ring⟩
  rw [show u - 1 / 4 + 0.25 = u by norm_num]
  have hu : 1 ≤ u := by linarith
  have u0 : 0 < u := by linarith
  have iv (k : ℕ) : 0 < (u ^ k)⁻¹ := by positivity
  have bd (a : ℝ) (ha : 0 < a) (hau : a ≤ u) (k : ℕ) : (u ^ k)⁻¹ ≤ (a ^ k)⁻¹ := inv_anti₀ (by positivity) (pow_le_pow_left₀ ha.le hau k)
  have p2 : 1 / (u * u) = (u ^ 2)⁻¹ := by rw [one_div]; ring_nf
  have p4 : (u ^ 2)⁻¹ * (u ^ 2)⁻¹ = (u ^ 4)⁻¹ := by rw [← mul_inv]; ring_nf
  have p6 : (u ^ 4)⁻¹ * (u ^ 2)⁻¹ = (u ^ 6)⁻¹ := by rw [← mul_inv]; ring_nf
  have p8 : (u ^ 6)⁻¹ * (u ^ 2)⁻¹ = (u ^ 8)⁻¹ := by rw [← mul_inv]; ring_nf
  have p10 : (u ^ 8)⁻¹ * (u ^ 2)⁻¹ = (u ^ 10)⁻¹ := by rw [← mul_inv]; ring_nf
  have p12 : (u ^ 10)⁻¹ * (u ^ 2)⁻¹ = (u ^ 12)⁻¹ := by rw [← mul_inv]; ring_nf
  unfold lambdaY
  dsimp only
  rw [p2, p4, p6, p8, p10, p12]
  have err (m : ℕ) (h1 : 1 ≤ m) (h6 : m ≤ 6) := abs_le.1 (series_error m h1 h6 u hu)
  split_ifs with c1 c2 c3 c4 c5
  · have e := err 1 le_rfl (by norm_num)
    have b := bd 2014.25 (by norm_num) (by norm_num; linarith) 4
    norm_num [cser, cf, Finset.sum_range_succ, div_eq_mul_inv] at e b ⊢
    rw [abs_le]; constructor <;> linarith [e.1, e.2]
  · have e := err 2 (by norm_num) (by norm_num)
    have b := bd 141.25 (by norm_num) (by norm_num; linarith) 6
    norm_num [cser, cf, Finset.sum_range_succ, div_eq_mul_inv] at e b ⊢
    rw [abs_le]; constructor <;> linarith [e.1, e.2]
  · have e := err 3 (by norm_num) (by norm_num)
    have b := bd 40.25 (by norm_num) (by norm_num; linarith) 8
    norm_num [cser, cf, Finset.sum_range_succ, div_eq_mul_inv] at e b ⊢
    rw [abs_le]; constructor <;> linarith [e.1, e.2]
  · have e := err 4 (by norm_num) (by norm_num)
    have b := bd 20.25 (by norm_num) (by norm_num; linarith) 10
    norm_num [cser, cf, Finset.sum_range_succ, div_eq_mul_inv] at e b ⊢
    rw [abs_le]; constructor <;> linarith [e.1, e.2]
  · have e := err 5 (by norm_num) (by norm_num)
    have b := bd 14.25 (by norm_num) (by norm_num; linarith) 12
    have b' := bd 14.25 (by norm_num) (by norm_num; linarith) 10
    have i' := iv 10
    norm_num [cser, cf, Finset.sum_range_succ, div_eq_mul_inv] at e b b' ⊢
    rw [abs_le]; constructor <;> linarith [e.1, e.2]
  · have e := err 6 (by norm_num) (by norm_num)
    have b := bd 10.25 (by norm_num) (by norm_num; linarith) 14
    have b' := bd 10.25 (by norm_num) (by norm_num; linarith) 10
    have i' := iv 10
    have b'' := bd 10.25 (by norm_num) (by norm_num; linarith) 12
    have i'' := iv 12
    norm_num [cser, cf, Finset.sum_range_succ, div_eq_mul_inv] at e b b' b'' ⊢
    rw [abs_le]; constructor <;> linarith [e.1, e.2]

/-- From ten on. -/
theorem lambda_large {z : ℝ} (hz : 10 ≤ z) (n : ℕ) : ∃ v, lambda (√·) (n + 1) z = some v ∧ |v - gammaRatio z| ≤ 2 ^ (-52 : Int) * gammaRatio z := by
  have u0 : 0 < z + 0.25 := by norm_num; linarith
  have s0 : 0 < √(z + 0.25) := sqrt_pos.2 u0
  refine ⟨lambdaY z (1 / ((z + 0.25) * (z + 0.25))) * (1 / √(z + 0.25)), ?_, ?_⟩
  · show (if z < 10 then _ else _) = _
    rw [if_neg (not_lt.2 hz), divC, if_neg s0.ne', Option.bind_some, divC, if_neg (by positivity), Option.bind_some]
  · have h := lambdaY_error hz
    have l := gr_lower (z := z) (by linarith)
    have g := gr_pos (z := z) (by linarith)
    have lo : 0.98 ≤ gammaRatio z * √(z + 0.25) := by
      refine le_of_sq_le_sq ?_ (by positivity)
      rw [mul_pow, sq_sqrt u0.le]
      norm_num
      nlinarith [sq_nonneg (gammaRatio z), mul_nonneg (sq_nonneg (gammaRatio z)) (show 0 ≤ z - 10 by linarith)]
    have e : lambdaY z (1 / ((z + 0.25) * (z + 0.25))) * (1 / √(z + 0.25)) - gammaRatio z = (lambdaY z (1 / ((z + 0.25) * (z + 0.25))) - gammaRatio z * √(z + 0.25)) / √(z + 0.25) := by field_simp
    rw [e, abs_div, abs_of_pos s0, div_le_iff₀ s0, mul_assoc]
    refine h.trans ?_
    norm_num at lo ⊢
    linarith

/-- `1 · 3 · ⋯ · (2n - 1)`. -/
def oddProd : ℕ → ℕ
  | 0 => 1
  | n + 1 => (2 * n + 1) * oddProd n

/-- `2 · 4 · ⋯ · 2n`. -/
def evenProd : ℕ → ℕ
  | 0 => 1
  | n + 1 => (2 * n + 2) * evenProd n

theorem prod_pos (n : ℕ) : 0 < oddProd n ∧ 0 < evenProd n := by
  induction n with
  | zero => exact ⟨one_pos, one_pos⟩
  | succ n ih => exact ⟨Nat.mul_pos (by omega) ih.1, Nat.mul_pos (by omega) ih.2⟩

theorem gr_nat (n : ℕ) : gammaRatio n = √π * (oddProd n / evenProd n) := by
  induction n with
  | zero =>
    unfold gammaRatio
    rw [Nat.cast_zero, zero_add, zero_add, Real.Gamma_one_half_eq, Gamma_one]
    simp [oddProd, evenProd]
  | succ n ih =>
    have e := gr_succ (z := n) (by have : (0 : ℝ) ≤ n := Nat.cast_nonneg n; linarith)
    have p : (0 : ℝ) < (n : ℝ) + 1 := by positivity
    have q : (0 : ℝ) < evenProd n := by exact_mod_cast (prod_pos n).2
    rw [Nat.cast_succ, ← mul_left_inj' p.ne', e, ih]
    show _ = √π * ((((2 * n + 1) * oddProd n : ℕ) : ℝ) / (((2 * n + 2) * evenProd n : ℕ) : ℝ)) * (n + 1)
    push_cast
    field_simp

/-- The check of the whole table, in integers: `√π` is between `1.77245385090551602729` and `1.772453850905516028`. -/
def tableOk (n : ℕ) (t : ℕ) : Prop :=
  t * evenProd n * 2 ^ 53 * 10 ^ 20 ≤ (2 ^ 53 + 1) * 177245385090551602729 * oddProd n * 10 ^ 18 ∧
  (2 ^ 53 - 1) * 1772453850905516028 * oddProd n ≤ t * evenProd n * 2 ^ 53

instance (n t : ℕ) : Decidable (tableOk n t) := inferInstanceAs (Decidable (_ ∧ _))

theorem table_check : ∀ n < 256, tableOk n (lamInt.getD n 0) := by decide +kernel

theorem sqrt_pi_bounds : 1.77245385090551602729 ≤ √π ∧ √π ≤ 1.772453850905516028 := by
  constructor
  · refine le_sqrt_of_sq_le (le_trans ?_ pi_gt_d20.le); norm_num
  · refine sqrt_le_iff.2 ⟨by norm_num, pi_lt_d20.le.trans ?_⟩; norm_num

end FT.Props.Lc
