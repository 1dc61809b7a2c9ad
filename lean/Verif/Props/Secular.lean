import Verif.Props.RankOne
import Mathlib.Algebra.Order.BigOperators.Ring.Finset

/-! # Properties of the secular equation and its eigenvectors: C35 -/

namespace FT.Props
open FT

noncomputable section
variable {K : Type*}

/-! ## Specification -/

/-- The secular function of `diag(d) + ρ z zᵀ`: `1/ρ + Σ z_i²/(d_i - t)`. -/
def secularF [Field K] (n : Int) (d z : Int → K) (rho t : K) : K := 1 / rho + ∑ i ∈ Finset.Ico 0 n, z i * z i / (d i - t)

/-- The secular function of the pencil `(diag(d) + ρ z zᵀ, I + σ z zᵀ)`: `1/(ρ - σ t) + Σ z_i²/(d_i - t)`. -/
def secularGF [Field K] (n : Int) (d z : Int → K) (rho sigma t : K) : K := 1 / (rho - sigma * t) + ∑ i ∈ Finset.Ico 0 n, z i * z i / (d i - t)

/-- No pole among the first `n` at `t`. -/
def NoPole [Field K] (n : Int) (d : Int → K) (t : K) : Prop := ∀ i, 0 ≤ i → i < n → d i ≠ t

theorem NoPole.sub [Field K] {n : Int} {d : Int → K} {lo hi : K} (h : NoPole n d (hi + lo)) : ∀ i, 0 ≤ i → i < n → d i - hi - lo ≠ 0 := fun i h0 h1 e =>
  h i h0 h1 (by linear_combination e)

/-! ## Values -/

/-- **C35.** The routine returns the secular function at `lambdahi + lambdalo`. -/
theorem C35_secular [Field K] [DecidableEq K] {A : Dpr1 K} (hd : A.n ≤ A.d.size) (hz : A.n ≤ A.z.size) (hr : A.rho ≠ 0) {lo hi : K} (hp : NoPole A.n A.d.val (hi + lo)) :
    secular A lo hi = some (secularF A.n A.d.val A.z.val A.rho (hi + lo)) := by
  unfold secular secularF
  rw [divC_of hr, Option.bind_some, poleSum_eq hd hz hp.sub (g' := fun z t _ => z * t) fun _ _ _ _ => rfl]
  congr 2
  exact Finset.sum_congr rfl fun i _ => by rw [mul_div_assoc, sub_sub]

/-- **C35.** The generalised routine. -/
theorem C35_secular_generalised [Field K] [DecidableEq K] {A : Dpr1 K} (hd : A.n ≤ A.d.size) (hz : A.n ≤ A.z.size) {sigma : K} (hs : sigma ≠ 0) {lo hi : K}
    (hr : A.rho - sigma * (hi + lo) ≠ 0) (hp : NoPole A.n A.d.val (hi + lo)) :
    secularG A sigma lo hi = some (secularGF A.n A.d.val A.z.val A.rho sigma (hi + lo)) := by
  have e : sigma * (A.rho / sigma - hi - lo) = A.rho - sigma * (hi + lo) := by field_simp; ring
  unfold secularG secularGF
  rw [divC_of hs, Option.bind_some, e, divC_of hr, Option.bind_some, poleSum_eq hd hz hp.sub (g' := fun z t _ => z * t) fun _ _ _ _ => rfl]
  congr 2
  exact Finset.sum_congr rfl fun i _ => by rw [mul_div_assoc, sub_sub]

/-! ## Derivatives -/

theorem pole_deriv {a c t : ℝ} (h : c ≠ t) : HasDerivAt (fun t => a / (c - t)) (a / ((c - t) * (c - t))) t := by
  have h0 : c - t ≠ 0 := sub_ne_zero.2 h
  have h1 : HasDerivAt (fun t => c - t) (-1) t := (hasDerivAt_id t).const_sub c
  refine ((hasDerivAt_const t a).fun_div h1 h0).congr_deriv ?_
  rw [pow_two]; ring

theorem pole_deriv2 {a c t : ℝ} (h : c ≠ t) : HasDerivAt (fun t => a / ((c - t) * (c - t))) (2 * (a / ((c - t) * (c - t) * (c - t)))) t := by
  have h0 : c - t ≠ 0 := sub_ne_zero.2 h
  have h1 : HasDerivAt (fun t => c - t) (-1) t := (hasDerivAt_id t).const_sub c
  refine ((hasDerivAt_const t a).fun_div (h1.fun_mul h1) (mul_ne_zero h0 h0)).congr_deriv ?_
  field_simp
  ring

theorem lin_deriv {r s t : ℝ} (h : r - s * t ≠ 0) : HasDerivAt (fun t => 1 / (r - s * t)) (s / ((r - s * t) * (r - s * t))) t := by
  have h1 : HasDerivAt (fun t => r - s * t) (-(s * 1)) t := ((hasDerivAt_id t).const_mul s).const_sub r
  refine ((hasDerivAt_const t 1).fun_div h1 h).congr_deriv ?_
  rw [pow_two]; ring

theorem lin_deriv2 {r s t : ℝ} (h : r - s * t ≠ 0) : HasDerivAt (fun t => s / ((r - s * t) * (r - s * t))) (2 * (s * s / ((r - s * t) * (r - s * t) * (r - s * t)))) t := by
  have h1 : HasDerivAt (fun t => r - s * t) (-(s * 1)) t := ((hasDerivAt_id t).const_mul s).const_sub r
  refine ((hasDerivAt_const t s).fun_div (h1.fun_mul h1) (mul_ne_zero h h)).congr_deriv ?_
  field_simp
  ring

/-- The derivative of the secular function: `Σ z_i²/(d_i - t)²`. -/
def secularF' (n : Int) (d z : Int → ℝ) (t : ℝ) : ℝ := ∑ i ∈ Finset.Ico 0 n, z i * z i / ((d i - t) * (d i - t))

theorem sum_deriv {n : Int} {d z : Int → ℝ} {t : ℝ} (hp : NoPole n d t) : HasDerivAt (fun t => ∑ i ∈ Finset.Ico 0 n, z i * z i / (d i - t)) (secularF' n d z t) t := by
  exact HasDerivAt.fun_sum (u := Finset.Ico 0 n) (A := fun i t => z i * z i / (d i - t)) (A' := fun i => z i * z i / ((d i - t) * (d i - t))) (x := t)
    fun i hi => pole_deriv (hp i (Finset.mem_Ico.1 hi).1 (Finset.mem_Ico.1 hi).2)

/-- **C35.** The first-derivative routine returns the derivative of the secular function. -/
theorem C35_derivative {A : Dpr1 ℝ} (hd : A.n ≤ A.d.size) (hz : A.n ≤ A.z.size) {lo hi : ℝ} (hp : NoPole A.n A.d.val (hi + lo)) :
    ∃ v, secularD A lo hi = some v ∧ HasDerivAt (secularF A.n A.d.val A.z.val A.rho) v (hi + lo) := by
  refine ⟨secularF' A.n A.d.val A.z.val (hi + lo), ?_, (sum_deriv hp).const_add _⟩
  unfold secularD secularF'
  rw [poleSum_eq hd hz hp.sub (g' := fun _ t _ => t * t) fun _ _ _ _ => rfl, zero_add]
  congr 1
  exact Finset.sum_congr rfl fun i _ => by rw [div_mul_div_comm, sub_sub]

/-- **C35.** The generalised first-derivative routine. -/
theorem C35_derivative_generalised {A : Dpr1 ℝ} (hd : A.n ≤ A.d.size) (hz : A.n ≤ A.z.size) {sigma : ℝ} (hs : sigma ≠ 0) {lo hi : ℝ}
    (hr : A.rho - sigma * (hi + lo) ≠ 0) (hp : NoPole A.n A.d.val (hi + lo)) :
    ∃ v, secularGD A sigma lo hi = some v ∧ HasDerivAt (secularGF A.n A.d.val A.z.val A.rho sigma) v (hi + lo) := by
  have e : sigma * (A.rho / sigma - hi - lo) = A.rho - sigma * (hi + lo) := by field_simp; ring
  refine ⟨_, ?_, (lin_deriv hr).fun_add (sum_deriv hp)⟩
  unfold secularGD secularF'
  rw [poleSum_eq hd hz hp.sub (g' := fun _ t _ => t * t) fun _ _ _ _ => rfl, zero_add, Option.bind_some, divC_of hs, Option.bind_some]
  simp only [e]
  rw [divC_of (mul_ne_zero hr hr), Option.map_some]
  congr 2
  exact Finset.sum_congr rfl fun i _ => by rw [div_mul_div_comm, sub_sub]

theorem sum_deriv2 {n : Int} {d z : Int → ℝ} {t : ℝ} (hp : NoPole n d t) : HasDerivAt (secularF' n d z) (2 * ∑ i ∈ Finset.Ico 0 n, z i * z i / ((d i - t) * (d i - t) * (d i - t))) t := by
  have := HasDerivAt.fun_sum (u := Finset.Ico 0 n) (A := fun i t => z i * z i / ((d i - t) * (d i - t))) (A' := fun i => 2 * (z i * z i / ((d i - t) * (d i - t) * (d i - t)))) (x := t)
    fun i hi => pole_deriv2 (hp i (Finset.mem_Ico.1 hi).1 (Finset.mem_Ico.1 hi).2)
  exact this.congr_deriv (Finset.mul_sum _ _ _).symm

theorem poleSum_cube {A : Dpr1 ℝ} {m : Int} (hd : m ≤ A.d.size) (hz : m ≤ A.z.size) {lo hi : ℝ} (hp : NoPole m A.d.val (hi + lo)) :
    poleSum A m lo hi 0 (fun _ t w => divC (t * t) w) =
      some (∑ i ∈ Finset.Ico 0 m, A.z.val i * A.z.val i / ((A.d.val i - (hi + lo)) * (A.d.val i - (hi + lo)) * (A.d.val i - (hi + lo)))) := by
  rw [poleSum_eq hd hz hp.sub (g' := fun _ t w => t * t / w) fun _ _ _ hw => divC_of hw, zero_add]
  congr 1
  exact Finset.sum_congr rfl fun i _ => by rw [div_mul_div_comm, div_div, sub_sub]

/-- **C35 (partial: the routine leaves out the last pole).** The second-derivative routine returns the derivative of the first derivative *minus*
the term `2 z²/(d-t)³` of the last pole; so it is the second derivative exactly when the last entry of `z` is zero.  Missing for the full claim:
nothing can be added, the claim fails otherwise (`C35_second_derivative_defect`). -/
theorem C35_second_derivative_partial {A : Dpr1 ℝ} (hn : 1 ≤ A.n) (hd : A.n ≤ A.d.size) (hz : A.n ≤ A.z.size) {lo hi : ℝ} (hp : NoPole A.n A.d.val (hi + lo)) :
    ∃ v, secularDD A lo hi = some v ∧
      HasDerivAt (secularF' A.n A.d.val A.z.val) (v + 2 * (A.z.val (A.n - 1) * A.z.val (A.n - 1) / (A.d.val (A.n - 1) - (hi + lo)) ^ 3)) (hi + lo) ∧
      (HasDerivAt (secularF' A.n A.d.val A.z.val) v (hi + lo) ↔ A.z.val (A.n - 1) = 0) := by
  have hp' : NoPole (A.n - 1) A.d.val (hi + lo) := fun i h0 h1 => hp i h0 (by omega)
  have hl : A.d.val (A.n - 1) - (hi + lo) ≠ 0 := sub_ne_zero.2 (hp (A.n - 1) (by omega) (by omega))
  have h2 := sum_deriv2 (z := A.z.val) hp
  have hsum : ∀ f : Int → ℝ, ∑ i ∈ Finset.Ico 0 A.n, f i = (∑ i ∈ Finset.Ico 0 (A.n - 1), f i) + f (A.n - 1) := fun f => by
    have := sum_Ico_succ (lo := 0) (i := A.n - 1) (by omega) f
    rwa [sub_add_cancel] at this
  rw [hsum, mul_add] at h2
  have h3 := h2
  rw [show (A.d.val (A.n - 1) - (hi + lo)) * (A.d.val (A.n - 1) - (hi + lo)) * (A.d.val (A.n - 1) - (hi + lo)) = (A.d.val (A.n - 1) - (hi + lo)) ^ 3 by ring] at h3
  refine ⟨_, ?_, h3, fun h => ?_, fun h => ?_⟩
  · unfold secularDD
    rw [poleSum_cube (by omega) (by omega) hp', Option.map_some]
  · have hu := h.unique h3
    have hzero : 2 * (A.z.val (A.n - 1) * A.z.val (A.n - 1) / (A.d.val (A.n - 1) - (hi + lo)) ^ 3) = 0 := by linarith
    rcases mul_eq_zero.1 hzero with h | h
    · norm_num at h
    · rcases div_eq_zero_iff.1 h with h | h
      · exact mul_self_eq_zero.1 h
      · exact absurd h (pow_ne_zero 3 hl)
  · rw [h] at h3; simpa using h3

/-- **C35, refuted for the second derivative:** a problem of size one on which the routine returns 0 though the second derivative is 2. -/
theorem C35_second_derivative_defect : ∃ (A : Dpr1 ℝ) (v : ℝ), secularDD A 0 0 = some v ∧ NoPole A.n A.d.val (0 + 0) ∧ A.n ≤ A.d.size ∧ A.n ≤ A.z.size ∧
    ¬ HasDerivAt (secularF' A.n A.d.val A.z.val) v (0 + 0) := by
  let A : Dpr1 ℝ := ⟨1, ⟨1, fun _ => 1⟩, ⟨1, fun _ => 1⟩, 1⟩
  have hp : NoPole A.n A.d.val ((0 : ℝ) + 0) := fun i _ _ => by show (1 : ℝ) ≠ 0 + 0; norm_num
  have h1 : A.n ≤ A.d.size := by show (1 : Int) ≤ ((1 : Nat) : Int); norm_num
  have h2 : A.n ≤ A.z.size := by show (1 : Int) ≤ ((1 : Nat) : Int); norm_num
  obtain ⟨v, e, _, hiff⟩ := C35_second_derivative_partial (A := A) (le_refl _) h1 h2 hp
  exact ⟨A, v, e, hp, h1, h2, fun h => by have := hiff.1 h; change (1 : ℝ) = 0 at this; norm_num at this⟩

/-- **C35 (partial).** The generalised second-derivative routine leaves out the last pole in the same way. -/
theorem C35_second_derivative_generalised_partial {A : Dpr1 ℝ} (hn : 1 ≤ A.n) (hd : A.n ≤ A.d.size) (hz : A.n ≤ A.z.size) {sigma : ℝ} (hs : sigma ≠ 0) {lo hi : ℝ}
    (hr : A.rho - sigma * (hi + lo) ≠ 0) (hp : NoPole A.n A.d.val (hi + lo)) :
    ∃ v, secularGDD A sigma lo hi = some v ∧
      HasDerivAt (fun t => sigma / ((A.rho - sigma * t) * (A.rho - sigma * t)) + secularF' A.n A.d.val A.z.val t)
        (v + 2 * (A.z.val (A.n - 1) * A.z.val (A.n - 1) / (A.d.val (A.n - 1) - (hi + lo)) ^ 3)) (hi + lo) := by
  have e : sigma * (A.rho / sigma - hi - lo) = A.rho - sigma * (hi + lo) := by field_simp; ring
  have hp' : NoPole (A.n - 1) A.d.val (hi + lo) := fun i h0 h1 => hp i h0 (by omega)
  have h2 := (lin_deriv2 hr).fun_add (sum_deriv2 (z := A.z.val) hp)
  have hsum : ∀ f : Int → ℝ, ∑ i ∈ Finset.Ico 0 A.n, f i = (∑ i ∈ Finset.Ico 0 (A.n - 1), f i) + f (A.n - 1) := fun f => by
    have := sum_Ico_succ (lo := 0) (i := A.n - 1) (by omega) f
    rwa [sub_add_cancel] at this
  rw [hsum] at h2
  suffices h : ∃ v, secularGDD A sigma lo hi = some v ∧ v = 2 * (sigma * sigma / ((A.rho - sigma * (hi + lo)) * (A.rho - sigma * (hi + lo)) * (A.rho - sigma * (hi + lo)))) +
      2 * ∑ i ∈ Finset.Ico 0 (A.n - 1), A.z.val i * A.z.val i / ((A.d.val i - (hi + lo)) * (A.d.val i - (hi + lo)) * (A.d.val i - (hi + lo))) by
    obtain ⟨v, e1, e2⟩ := h
    refine ⟨v, e1, h2.congr_deriv ?_⟩
    rw [e2]
    ring
  refine ⟨2 * (sigma / (A.rho - sigma * (hi + lo)) * sigma / ((A.rho - sigma * (hi + lo)) * (A.rho - sigma * (hi + lo))) +
    ∑ i ∈ Finset.Ico 0 (A.n - 1), A.z.val i * A.z.val i / ((A.d.val i - (hi + lo)) * (A.d.val i - (hi + lo)) * (A.d.val i - (hi + lo)))), ?_, ?_⟩
  · unfold secularGDD
    rw [poleSum_cube (by omega) (by omega) hp', Option.bind_some, divC_of hs, Option.bind_some]
    simp only [e]
    rw [divC_of hr, Option.bind_some, divC_of (mul_ne_zero hr hr), Option.map_some]
  · generalize (∑ i ∈ Finset.Ico 0 (A.n - 1), A.z.val i * A.z.val i / ((A.d.val i - (hi + lo)) * (A.d.val i - (hi + lo)) * (A.d.val i - (hi + lo)))) = S
    field_simp
    try ring

/-! ## Eigenvectors -/

section
variable [Field K] [LinearOrder K] [IsStrictOrderedRing K]

theorem eigU_mul {A : Dpr1 K} {lo hi : Buf K} {j i : Int} (h : A.d.val i ≠ hi.val j + lo.val j) : A.d.val i * eigU A lo hi j i = (hi.val j + lo.val j) * eigU A lo hi j i + A.z.val i := by
  unfold eigU
  have : A.d.val i - hi.val j - lo.val j ≠ 0 := fun e => h (by linear_combination e)
  field_simp
  ring

theorem secular_dot {A : Dpr1 K} {lo hi : Buf K} {j : Int} : ∑ i ∈ Finset.Ico 0 A.n, A.z.val i * A.z.val i / (A.d.val i - (hi.val j + lo.val j)) = dotN A.n A.z.val (eigU A lo hi j) :=
  Finset.sum_congr rfl fun i _ => by unfold eigU; rw [mul_div_assoc, sub_sub]

theorem eig_gram {A : Dpr1 K} {lo hi : Buf K} {j k : Int} (hj : NoPole A.n A.d.val (hi.val j + lo.val j)) (hk : NoPole A.n A.d.val (hi.val k + lo.val k)) :
    (hi.val j + lo.val j - (hi.val k + lo.val k)) * dotN A.n (eigU A lo hi j) (eigU A lo hi k) = dotN A.n A.z.val (eigU A lo hi j) - dotN A.n A.z.val (eigU A lo hi k) := by
  unfold dotN
  rw [Finset.mul_sum, ← Finset.sum_sub_distrib]
  refine sum_Ico_congr fun i i0 i1 => ?_
  have e1 := eigU_mul (hj i i0 i1)
  have e2 := eigU_mul (hk i i0 i1)
  linear_combination eigU A lo hi j i * e2 - eigU A lo hi k i * e1

theorem eigU_sq_pos {A : Dpr1 K} {lo hi : Buf K} {j : Int} (hj : NoPole A.n A.d.val (hi.val j + lo.val j)) (hz : ∃ i, 0 ≤ i ∧ i < A.n ∧ A.z.val i ≠ 0) :
    0 < dotN A.n (eigU A lo hi j) (eigU A lo hi j) := by
  obtain ⟨i, i0, i1, hi'⟩ := hz
  refine Finset.sum_pos' (fun i _ => mul_self_nonneg _) ⟨i, Finset.mem_Ico.2 ⟨i0, i1⟩, ?_⟩
  have : eigU A lo hi j i ≠ 0 := div_ne_zero hi' (fun e => hj i i0 i1 (by linear_combination e))
  exact mul_self_pos.2 this

theorem eig_col {sqrt : K → K} {A : Dpr1 K} {lo hi : Buf K} {s : Int → K} {m j i : Int} (hm : m ≤ A.n) (j0 : 0 ≤ j) (j1 : j < m) (i0 : 0 ≤ i) (i1 : i < A.n) :
    (mix ⟨(A.n * m).toNat, fun _ => 0⟩ 0 (max 0 m * A.n) fun k => eigV sqrt A lo hi s (k / A.n) (k % A.n)).val (i + j * A.n) = eigV sqrt A lo hi s j i := by
  have hpos : 0 < A.n := by omega
  have hle := mulj_le (n := A.n) (m := m) (j := j) (by omega) j1
  have hjn : 0 ≤ j * A.n := Int.mul_nonneg j0 (by omega)
  rw [mix_val_in (by omega) (by rw [max_eq_right (by omega), Int.mul_comm m]; omega), Int.add_mul_ediv_right _ _ (by omega), Int.add_mul_emod_self_right,
    Int.ediv_eq_zero_of_lt i0 i1, Int.emod_eq_of_lt i0 i1, zero_add]

theorem eigV_dot {sqrt : K → K} {A : Dpr1 K} {lo hi : Buf K} {s : Int → K} {j k : Int} :
    dotN A.n (eigV sqrt A lo hi s j) (eigV sqrt A lo hi s k) =
      copysignK (1 / sqrt (s j)) (eigU A lo hi j j) * copysignK (1 / sqrt (s k)) (eigU A lo hi k k) * dotN A.n (eigU A lo hi j) (eigU A lo hi k) := by
  unfold dotN eigV
  rw [Finset.mul_sum]
  exact Finset.sum_congr rfl fun i _ => by ring

theorem eigV_dotz {sqrt : K → K} {A : Dpr1 K} {lo hi : Buf K} {s : Int → K} {j : Int} :
    dotN A.n A.z.val (eigV sqrt A lo hi s j) = copysignK (1 / sqrt (s j)) (eigU A lo hi j j) * dotN A.n A.z.val (eigU A lo hi j) := by
  unfold dotN eigV
  rw [Finset.mul_sum]
  exact Finset.sum_congr rfl fun i _ => by ring

theorem inv_sqrt_sq {sqrt : K → K} (hsq : IsSqrt sqrt) {s : K} (hs : 0 < s) : 1 / sqrt s * (1 / sqrt s) * s = 1 := by
  obtain ⟨_, h⟩ := hsq s (le_of_lt hs)
  have := ne_of_gt (sqrt_pos hsq hs)
  rw [div_mul_div_comm, h, one_mul, div_mul_cancel₀ _ (ne_of_gt hs)]

/-- **C35.** The eigenvector routine: given approximations away from the poles and a nonzero `z`, it fills an `n × m` array whose columns have unit
norm and nonnegative diagonal; a column whose value is a root of the secular function is an eigenvector of `diag(d) + ρ z zᵀ` for it, and columns of
different roots are orthogonal. -/
theorem C35_eigenvectors {sqrt : K → K} (hsq : IsSqrt sqrt) {A : Dpr1 K} {lo hi : Buf K} {m : Int} (hn : 0 ≤ A.n) (hm : m ≤ A.n) (hd : A.n ≤ A.d.size) (hz : A.n ≤ A.z.size)
    (hlo : m ≤ lo.size) (hhi : m ≤ hi.size) (hr : A.rho ≠ 0) (hp : ∀ j, 0 ≤ j → j < m → NoPole A.n A.d.val (hi.val j + lo.val j)) (hnz : ∃ i, 0 ≤ i ∧ i < A.n ∧ A.z.val i ≠ 0) :
    ∃ Q, eigvecs sqrt A lo hi m = some Q ∧
      (∀ j, 0 ≤ j → j < m → (∑ i ∈ Finset.Ico 0 A.n, Q.val (i + j * A.n) * Q.val (i + j * A.n)) = 1 ∧ 0 ≤ Q.val (j + j * A.n) ∧
        (secularF A.n A.d.val A.z.val A.rho (hi.val j + lo.val j) = 0 → ∀ i, 0 ≤ i → i < A.n →
          rowMul A.n (dpr1M A.d.val A.rho A.z.val) (fun i => Q.val (i + j * A.n)) i = (hi.val j + lo.val j) * Q.val (i + j * A.n))) ∧
      ∀ j k, 0 ≤ j → j < m → 0 ≤ k → k < m → hi.val j + lo.val j ≠ hi.val k + lo.val k → secularF A.n A.d.val A.z.val A.rho (hi.val j + lo.val j) = 0 →
        secularF A.n A.d.val A.z.val A.rho (hi.val k + lo.val k) = 0 → (∑ i ∈ Finset.Ico 0 A.n, Q.val (i + j * A.n) * Q.val (i + k * A.n)) = 0 := by
  have hroot : ∀ j, secularF A.n A.d.val A.z.val A.rho (hi.val j + lo.val j) = 0 → dotN A.n A.z.val (eigU A lo hi j) = -(1 / A.rho) := fun j h => by
    unfold secularF at h
    rw [secular_dot] at h
    linear_combination h
  refine ⟨_, eigLoop hsq hn hm hd hz hlo hhi (fun i j i0 i1 j0 j1 => (hp j j0 j1).sub i i0 i1) (fun j => dotN A.n (eigU A lo hi j) (eigU A lo hi j))
    (fun j j0 j1 => eigU_sq_pos (hp j j0 j1) hnz) (fun j Q j0 j1 q0 q1 hQ => ?_), fun j j0 j1 => ⟨?_, ?_, fun h i i0 i1 => ?_⟩, fun j k j0 j1 k0 k1 hne hj hk => ?_⟩
  · rw [eigDot_eq (w' := fun i => Q.val (j * A.n + i)) q0 q1 (fun i i0 i1 => Buf.rd_of (b := Q) (by omega) (by omega))]
    congr 1
    exact dotN_congr fun i i0 i1 => ⟨hQ i i0 i1, hQ i i0 i1⟩
  · rw [sum_Ico_congr (g := fun i => eigV sqrt A lo hi _ j i * eigV sqrt A lo hi _ j i) fun i i0 i1 => by rw [eig_col hm j0 j1 i0 i1]]
    show dotN A.n _ _ = 1
    rw [eigV_dot, copysignK_sq]
    exact inv_sqrt_sq hsq (eigU_sq_pos (hp j j0 j1) hnz)
  · rw [eig_col hm j0 j1 j0 (by omega)]
    unfold eigV
    rw [copysignK_mul_self]
    exact mul_nonneg (abs_nonneg _) (abs_nonneg _)
  · rw [rowMul_dpr1 i0 i1, dotN_congr (a' := A.z.val) (b' := eigV sqrt A lo hi _ j) fun i i0 i1 => ⟨rfl, eig_col hm j0 j1 i0 i1⟩, eig_col hm j0 j1 i0 i1, eigV_dotz, hroot j h]
    unfold eigV
    have e := eigU_mul (hp j j0 j1 i i0 i1)
    rw [← mul_assoc, e]
    field_simp
    ring
  · rw [sum_Ico_congr (g := fun i => eigV sqrt A lo hi _ j i * eigV sqrt A lo hi _ k i) fun i i0 i1 => by rw [eig_col hm j0 j1 i0 i1, eig_col hm k0 k1 i0 i1]]
    show dotN A.n _ _ = 0
    have hg := eig_gram (hp j j0 j1) (hp k k0 k1)
    rw [hroot j hj, hroot k hk, sub_self] at hg
    rw [eigV_dot, (mul_eq_zero.1 hg).resolve_left (sub_ne_zero.2 hne), mul_zero]

/-- **C35.** The eigenvector routine of the definite pencil: columns are `I + σ z zᵀ`-normalised and satisfy the generalised eigenvalue equation at
roots of the generalised secular function. -/
theorem C35_eigenvectors_definite {sqrt : K → K} (hsq : IsSqrt sqrt) {A : Dpr1 K} {lo hi : Buf K} {m : Int} (hn : 0 ≤ A.n) (hm : m ≤ A.n) (hd : A.n ≤ A.d.size) (hz : A.n ≤ A.z.size)
    (hlo : m ≤ lo.size) (hhi : m ≤ hi.size) (hp : ∀ j, 0 ≤ j → j < m → NoPole A.n A.d.val (hi.val j + lo.val j)) (hnz : ∃ i, 0 ≤ i ∧ i < A.n ∧ A.z.val i ≠ 0)
    {sigma : K} (hB : 0 < 1 + sigma * ∑ i ∈ Finset.Ico 0 A.n, A.z.val i * A.z.val i) (hr : ∀ j, 0 ≤ j → j < m → A.rho - sigma * (hi.val j + lo.val j) ≠ 0) :
    ∃ V, eigvecsDef sqrt A sigma lo hi m = some V ∧
      (∀ j, 0 ≤ j → j < m → (∑ i ∈ Finset.Ico 0 A.n, V.val (i + j * A.n) * rowMul A.n (idpr1M sigma A.z.val) (fun i => V.val (i + j * A.n)) i) = 1 ∧ 0 ≤ V.val (j + j * A.n) ∧
        (secularGF A.n A.d.val A.z.val A.rho sigma (hi.val j + lo.val j) = 0 → ∀ i, 0 ≤ i → i < A.n →
          rowMul A.n (dpr1M A.d.val A.rho A.z.val) (fun i => V.val (i + j * A.n)) i =
            (hi.val j + lo.val j) * rowMul A.n (idpr1M sigma A.z.val) (fun i => V.val (i + j * A.n)) i)) ∧
      ∀ j k, 0 ≤ j → j < m → 0 ≤ k → k < m → hi.val j + lo.val j ≠ hi.val k + lo.val k → secularGF A.n A.d.val A.z.val A.rho sigma (hi.val j + lo.val j) = 0 →
        secularGF A.n A.d.val A.z.val A.rho sigma (hi.val k + lo.val k) = 0 →
        (∑ i ∈ Finset.Ico 0 A.n, V.val (i + j * A.n) * rowMul A.n (idpr1M sigma A.z.val) (fun i => V.val (i + k * A.n)) i) = 0 := by
  have hroot : ∀ j, 0 ≤ j → j < m → secularGF A.n A.d.val A.z.val A.rho sigma (hi.val j + lo.val j) = 0 →
      dotN A.n A.z.val (eigU A lo hi j) = -(1 / (A.rho - sigma * (hi.val j + lo.val j))) := fun j j0 j1 h => by
    unfold secularGF at h
    rw [secular_dot] at h
    linear_combination h
  have hpos : ∀ j, 0 ≤ j → j < m → 0 < dotN A.n (eigU A lo hi j) (eigU A lo hi j) + sigma * dotN A.n (eigU A lo hi j) A.z.val * dotN A.n (eigU A lo hi j) A.z.val := fun j j0 j1 => by
    have hu := eigU_sq_pos (hp j j0 j1) hnz
    have cs : dotN A.n (eigU A lo hi j) A.z.val ^ 2 ≤ dotN A.n (eigU A lo hi j) (eigU A lo hi j) * dotN A.n A.z.val A.z.val := by
      have := Finset.sum_mul_sq_le_sq_mul_sq (Finset.Ico 0 A.n) (eigU A lo hi j) A.z.val
      simp only [pow_two] at this ⊢
      exact this
    have hB' : 0 < 1 + sigma * dotN A.n A.z.val A.z.val := hB
    rcases le_or_gt 0 sigma with h | h
    · have : 0 ≤ sigma * (dotN A.n (eigU A lo hi j) A.z.val * dotN A.n (eigU A lo hi j) A.z.val) := mul_nonneg h (mul_self_nonneg _)
      rw [mul_assoc]; linarith
    · have h1 := mul_le_mul_of_nonpos_left cs (le_of_lt h)
      have h2 := mul_pos hu hB'
      rw [pow_two] at h1
      linarith [mul_assoc sigma (dotN A.n (eigU A lo hi j) A.z.val) (dotN A.n (eigU A lo hi j) A.z.val),
        mul_assoc sigma (dotN A.n (eigU A lo hi j) (eigU A lo hi j)) (dotN A.n A.z.val A.z.val),
        mul_comm (dotN A.n (eigU A lo hi j) (eigU A lo hi j)) sigma,
        mul_left_comm (dotN A.n (eigU A lo hi j) (eigU A lo hi j)) sigma (dotN A.n A.z.val A.z.val)]
  have gram : ∀ (V : Buf K) (s : Int → K), (∀ j i, 0 ≤ j → j < m → 0 ≤ i → i < A.n → V.val (i + j * A.n) = eigV sqrt A lo hi s j i) → ∀ j k, 0 ≤ j → j < m → 0 ≤ k → k < m →
      (∑ i ∈ Finset.Ico 0 A.n, V.val (i + j * A.n) * rowMul A.n (idpr1M sigma A.z.val) (fun i => V.val (i + k * A.n)) i) =
      copysignK (1 / sqrt (s j)) (eigU A lo hi j j) * copysignK (1 / sqrt (s k)) (eigU A lo hi k k) *
        (dotN A.n (eigU A lo hi j) (eigU A lo hi k) + sigma * dotN A.n A.z.val (eigU A lo hi j) * dotN A.n A.z.val (eigU A lo hi k)) := by
    intro V s hV j k j0 j1 k0 k1
    rw [sum_Ico_congr (g := fun i => eigV sqrt A lo hi s j i * eigV sqrt A lo hi s k i + dotN A.n A.z.val (eigV sqrt A lo hi s k) * sigma * (A.z.val i * eigV sqrt A lo hi s j i))
      fun i i0 i1 => by
        rw [rowMul_idpr1 i0 i1, hV j i j0 j1 i0 i1, hV k i k0 k1 i0 i1, dotN_congr (a' := A.z.val) (b' := eigV sqrt A lo hi s k) fun i i0 i1 => ⟨rfl, hV k i k0 k1 i0 i1⟩]
        ring]
    rw [Finset.sum_add_distrib, ← Finset.mul_sum]
    show dotN A.n _ _ + _ * dotN A.n _ _ = _
    rw [eigV_dot, eigV_dotz, eigV_dotz]
    ring
  refine ⟨_, eigLoop hsq hn hm hd hz hlo hhi (fun i j i0 i1 j0 j1 => (hp j j0 j1).sub i i0 i1) (nrm := fun j Q => (eigDot A.n j Q (fun i => Q.rd (j * A.n + i))).bind fun s1 =>
      (eigDot A.n j Q A.z.rd).bind fun s2 => some (s1 + sigma * s2 * s2))
    (fun j => dotN A.n (eigU A lo hi j) (eigU A lo hi j) + sigma * dotN A.n (eigU A lo hi j) A.z.val * dotN A.n (eigU A lo hi j) A.z.val)
    hpos (fun j Q j0 j1 q0 q1 hQ => ?_) |> (Eq.trans ?_), fun j j0 j1 => ⟨?_, ?_, fun h i i0 i1 => ?_⟩, fun j k j0 j1 k0 k1 hne hj hk => ?_⟩
  · unfold eigvecsDef
    congr 1
    funext j Q
    cases eigFill A lo hi j Q with
    | none => rfl
    | some Q =>
      simp only [Option.bind_some]
      cases eigDot A.n j Q (fun i => Q.rd (j * A.n + i)) with
      | none => rfl
      | some s1 =>
        simp only [Option.bind_some]
        cases eigDot A.n j Q A.z.rd <;> rfl
  · rw [eigDot_eq (w' := fun i => Q.val (j * A.n + i)) q0 q1 (fun i i0 i1 => Buf.rd_of (b := Q) (by omega) (by omega)), Option.bind_some,
      eigDot_eq (w' := A.z.val) q0 q1 (fun i i0 i1 => Buf.rd_of (b := A.z) (by omega) (by omega)), Option.bind_some,
      dotN_congr (a' := eigU A lo hi j) (b' := eigU A lo hi j) fun i i0 i1 => ⟨hQ i i0 i1, hQ i i0 i1⟩,
      dotN_congr (a' := eigU A lo hi j) (b' := A.z.val) fun i i0 i1 => ⟨hQ i i0 i1, rfl⟩]
  · rw [gram _ _ (fun j i j0 j1 i0 i1 => eig_col hm j0 j1 i0 i1) j j j0 j1 j0 j1, copysignK_sq]
    have := inv_sqrt_sq hsq (hpos j j0 j1)
    rw [dotN_comm A.n (eigU A lo hi j) A.z.val] at this ⊢
    exact this
  · rw [eig_col hm j0 j1 j0 (by omega)]
    unfold eigV
    rw [copysignK_mul_self]
    exact mul_nonneg (abs_nonneg _) (abs_nonneg _)
  · rw [rowMul_dpr1 i0 i1, rowMul_idpr1 i0 i1, dotN_congr (a' := A.z.val) (b' := eigV sqrt A lo hi _ j) fun i i0 i1 => ⟨rfl, eig_col hm j0 j1 i0 i1⟩, eig_col hm j0 j1 i0 i1, eigV_dotz,
      hroot j j0 j1 h]
    unfold eigV
    have e := eigU_mul (hp j j0 j1 i i0 i1)
    have hr' := hr j j0 j1
    rw [← mul_assoc, e]
    generalize copysignK (K := K) _ _ = c
    generalize hi.val j + lo.val j = l at hr' ⊢
    generalize eigU A lo hi j i = u
    generalize A.z.val i = z
    have hw : 1 / (A.rho - sigma * l) * (A.rho - sigma * l) = 1 := div_mul_cancel₀ _ hr'
    linear_combination -(c * z) * hw
  · rw [gram _ _ (fun j i j0 j1 i0 i1 => eig_col hm j0 j1 i0 i1) j k j0 j1 k0 k1]
    have hg := eig_gram (hp j j0 j1) (hp k k0 k1)
    rw [hroot j j0 j1 hj, hroot k k0 k1 hk] at hg ⊢
    have h1 := hr j j0 j1
    have h2 := hr k k0 k1
    have hne' := sub_ne_zero.2 hne
    have : dotN A.n (eigU A lo hi j) (eigU A lo hi k) = -(sigma / ((A.rho - sigma * (hi.val j + lo.val j)) * (A.rho - sigma * (hi.val k + lo.val k)))) := by
      apply mul_left_cancel₀ hne'
      rw [hg]
      field_simp
      ring
    rw [this]
    field_simp
    ring

/-! ## Witnesses -/

/-- A problem of size two over ℝ meeting the hypotheses of the value and derivative theorems. -/
def wSec : Dpr1 ℝ := ⟨2, ⟨2, fun i => if i = 0 then 1 else 3⟩, ⟨2, fun _ => 1⟩, 2⟩

theorem wSec_noPole : NoPole wSec.n wSec.d.val ((2 : ℝ) + 0) := fun i _ _ => by
  show (if i = 0 then (1 : ℝ) else 3) ≠ 2 + 0
  split_ifs <;> norm_num

example : secular wSec 0 2 = some (secularF wSec.n wSec.d.val wSec.z.val wSec.rho (2 + 0)) :=
  C35_secular (by simp [wSec]) (by simp [wSec]) (by simp [wSec]) wSec_noPole

example : ∃ v, secularD wSec 0 2 = some v ∧ HasDerivAt (secularF wSec.n wSec.d.val wSec.z.val wSec.rho) v (2 + 0) :=
  C35_derivative (by simp [wSec]) (by simp [wSec]) wSec_noPole

example : ∃ v, secularGD wSec 3 0 2 = some v ∧ HasDerivAt (secularGF wSec.n wSec.d.val wSec.z.val wSec.rho 3) v (2 + 0) :=
  C35_derivative_generalised (by simp [wSec]) (by simp [wSec]) (by norm_num) (by simp [wSec]; norm_num) wSec_noPole

/-- `diag(0, 0) + 1·(1,0)(1,0)ᵀ` has the eigenvalue 1, and 1 is a root of its secular function. -/
def wEig : Dpr1 ℝ := ⟨2, ⟨2, fun _ => 0⟩, ⟨2, fun i => if i = 0 then 1 else 0⟩, 1⟩

theorem wEig_noPole : ∀ j : Int, 0 ≤ j → j < 1 → NoPole wEig.n wEig.d.val ((1 : ℝ) + 0) := fun _ _ _ i _ _ => by
  show (0 : ℝ) ≠ 1 + 0
  norm_num

example : secularF wEig.n wEig.d.val wEig.z.val wEig.rho ((1 : ℝ) + 0) = 0 ∧ ∃ Q, eigvecs Real.sqrt wEig ⟨1, fun _ => 0⟩ ⟨1, fun _ => 1⟩ 1 = some Q := by
  refine ⟨?_, ?_⟩
  · simp [secularF, wEig, show Finset.Ico (0 : Int) 2 = {0, 1} from by decide]
  · obtain ⟨Q, e, _⟩ := C35_eigenvectors (sqrt := Real.sqrt) (fun x h => ⟨Real.sqrt_nonneg x, Real.mul_self_sqrt h⟩) (A := wEig) (lo := ⟨1, fun _ => 0⟩) (hi := ⟨1, fun _ => 1⟩) (m := 1)
      (by simp [wEig]) (by simp [wEig]) (by simp [wEig]) (by simp [wEig]) (by simp) (by simp) (by simp [wEig]) wEig_noPole ⟨0, by simp, by simp [wEig], by simp [wEig]⟩
    exact ⟨Q, e⟩

example : ∃ V, eigvecsDef Real.sqrt wEig 3 ⟨1, fun _ => 0⟩ ⟨1, fun _ => 1⟩ 1 = some V := by
  obtain ⟨Q, e, _⟩ := C35_eigenvectors_definite (sqrt := Real.sqrt) (fun x h => ⟨Real.sqrt_nonneg x, Real.mul_self_sqrt h⟩) (A := wEig) (lo := ⟨1, fun _ => 0⟩) (hi := ⟨1, fun _ => 1⟩) (m := 1)
    (by simp [wEig]) (by simp [wEig]) (by simp [wEig]) (by simp [wEig]) (by simp) (by simp) wEig_noPole ⟨0, by simp, by simp [wEig], by simp [wEig]⟩ (sigma := 3)
    (by simp [wEig, show Finset.Ico (0 : Int) 2 = {0, 1} from by decide]; norm_num) (fun j _ _ => by simp [wEig]; norm_num)
  exact ⟨Q, e⟩

end
end

end FT.Props
