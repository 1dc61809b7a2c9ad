import Verif.Lemmas.Monic
import Verif.Lemmas.Accum

/-! # Factors of the standard and of the normalised families -/

set_option linter.unusedSectionVars false

namespace FT.Poly
open Polynomial
variable {K : Type*} [Field K]

theorem lead_zero (r : Int → K) : lead r 0 = 1 := by unfold lead; simp

theorem lead_succ (r : Int → K) {n : Int} (hn : 0 ≤ n) : lead r (n + 1) = lead r n * r n := by
  unfold lead
  rw [show Finset.Ico 0 (n + 1) = insert n (Finset.Ico 0 n) by ext; simp; omega, Finset.prod_insert (by simp), mul_comm]

theorem gram_zero (g0 : K) (b : Int → K) : gram g0 b 0 = g0 := by unfold gram; simp

theorem gram_succ (g0 : K) (b : Int → K) {n : Int} (hn : 0 ≤ n) : gram g0 b (n + 1) = gram g0 b n * b (n + 1) := by
  unfold gram
  rw [show Finset.Ico 1 (n + 1 + 1) = insert (n + 1) (Finset.Ico 1 (n + 1)) by ext; simp; omega, Finset.prod_insert (by simp), mul_assoc, mul_comm (b (n + 1))]

theorem lead_ne {r : Int → K} (hr : ∀ n, 0 ≤ n → r n ≠ 0) (n : Int) : lead r n ≠ 0 := by
  unfold lead
  exact Finset.prod_ne_zero_iff.2 fun i hi => hr i (Finset.mem_Ico.1 hi).1

section order
variable [LinearOrder K] [IsStrictOrderedRing K]

theorem gram_pos {g0 : K} {b : Int → K} (hg : 0 < g0) (hb : ∀ n, 1 ≤ n → 0 < b n) (n : Int) : 0 < gram g0 b n :=
  mul_pos hg (Finset.prod_pos fun i hi => hb i (Finset.mem_Ico.1 hi).1)

theorem sqrt_mul {sqrt : K → K} (hs : IsSqrt sqrt) {a b : K} (ha : 0 ≤ a) (hb : 0 ≤ b) : sqrt (a * b) = sqrt a * sqrt b := by
  obtain ⟨a1, a2⟩ := hs a ha
  obtain ⟨b1, b2⟩ := hs b hb
  exact sqrt_unique hs (mul_nonneg ha hb) (mul_nonneg a1 b1) (by rw [mul_mul_mul_comm, a2, b2])

theorem sqrt_sq {sqrt : K → K} (hs : IsSqrt sqrt) {a : K} (ha : 0 ≤ a) : sqrt (a * a) = a := sqrt_unique hs (mul_nonneg ha ha) ha rfl

/-- Two nonnegative numbers with the same square are equal. -/
theorem eq_of_sq {a b : K} (ha : 0 ≤ a) (hb : 0 ≤ b) (h : a * a = b * b) : a = b := (mul_self_inj ha hb).1 h

theorem sqrt_one {sqrt : K → K} (hs : IsSqrt sqrt) : sqrt 1 = 1 := sqrt_unique hs zero_le_one zero_le_one (one_mul 1)

/-- The quotient of consecutive factors. -/
def step (sqrt : K → K) (norm : Bool) (r b : Int → K) (n : Int) : K := if norm then r n / sqrt (r n * r n * b (n + 1)) else r n

variable {sqrt : K → K} {norm : Bool} {g0 : K} {r b : Int → K}

theorem scale_zero : scale sqrt norm g0 r b 0 = if norm then 1 / sqrt g0 else 1 := by
  unfold scale
  rw [lead_zero, gram_zero, one_mul, one_mul]

theorem scale_succ (hs : IsSqrt sqrt) (hg : 0 < g0) (hr : ∀ n, 0 ≤ n → r n ≠ 0) (hb : ∀ n, 1 ≤ n → 0 < b n) {n : Int} (hn : 0 ≤ n) :
    scale sqrt norm g0 r b (n + 1) = scale sqrt norm g0 r b n * step sqrt norm r b n := by
  unfold scale step
  cases norm
  · simp only [Bool.false_eq_true, if_false]; rw [lead_succ r hn]
  · simp only [if_true]
    have l0 := lead_ne hr n
    have gp := gram_pos hg hb n
    have p1 : 0 < lead r n * lead r n * gram g0 b n := mul_pos (mul_self_pos.2 l0) gp
    have p2 : 0 < r n * r n * b (n + 1) := mul_pos (mul_self_pos.2 (hr n hn)) (hb _ (by omega))
    rw [lead_succ r hn, gram_succ g0 b hn, show lead r n * r n * (lead r n * r n) * (gram g0 b n * b (n + 1)) = lead r n * lead r n * gram g0 b n * (r n * r n * b (n + 1)) by ring,
      sqrt_mul hs (le_of_lt p1) (le_of_lt p2), mul_div_mul_comm]

theorem step_ne (hs : IsSqrt sqrt) (hr : ∀ n, 0 ≤ n → r n ≠ 0) (hb : ∀ n, 1 ≤ n → 0 < b n) {n : Int} (hn : 0 ≤ n) : step sqrt norm r b n ≠ 0 := by
  unfold step
  split_ifs
  · exact div_ne_zero (hr n hn) (ne_of_gt (sqrt_pos hs (mul_pos (mul_self_pos.2 (hr n hn)) (hb _ (by omega)))))
  · exact hr n hn

theorem scale_ne (hs : IsSqrt sqrt) (hg : 0 < g0) (hr : ∀ n, 0 ≤ n → r n ≠ 0) (hb : ∀ n, 1 ≤ n → 0 < b n) (n : Int) : scale sqrt norm g0 r b n ≠ 0 := by
  unfold scale
  split_ifs
  · exact div_ne_zero (lead_ne hr n) (ne_of_gt (sqrt_pos hs (mul_pos (mul_self_pos.2 (lead_ne hr n)) (gram_pos hg hb n))))
  · exact lead_ne hr n

/-- For a positive ratio the normalised step is the reciprocal of the root of the recurrence coefficient. -/
theorem step_pos (hs : IsSqrt sqrt) {n : Int} (hr : 0 < r n) (hb : 0 < b (n + 1)) : step sqrt true r b n = 1 / sqrt (b (n + 1)) := by
  unfold step
  rw [if_pos rfl, sqrt_mul hs (le_of_lt (mul_pos hr hr)) (le_of_lt hb), sqrt_sq hs (le_of_lt hr), div_mul_eq_div_div, div_self (ne_of_gt hr)]

theorem step_neg (hs : IsSqrt sqrt) {n : Int} (hr : r n < 0) (hb : 0 < b (n + 1)) : step sqrt true r b n = -(1 / sqrt (b (n + 1))) := by
  unfold step
  have h : 0 < -r n := neg_pos.2 hr
  rw [if_pos rfl, sqrt_mul hs (le_of_lt (mul_pos_of_neg_of_neg hr hr)) (le_of_lt hb), ← neg_mul_neg (r n), sqrt_sq hs (le_of_lt h), div_mul_eq_div_div,
    div_neg, div_self (ne_of_lt hr), neg_div]

/-- Equality of two families of factors from their first terms and their steps. -/
theorem eq_of_steps {s t : Int → K} (h0 : s 0 = t 0) (h : ∀ n, 0 ≤ n → s n = t n → s (n + 1) = t (n + 1)) {n : Int} (hn : 0 ≤ n) : s n = t n := by
  obtain ⟨k, rfl⟩ := Int.eq_ofNat_of_zero_le hn
  clear hn
  induction k with
  | zero => exact h0
  | succ k ih => exact_mod_cast h k (by omega) ih

end order

/-! ## Matrices of operators -/

theorem IsMatrix.congr {T : K[X] → K[X]} {p q : Int → K[X]} {M N : Int → Int → K} (h : IsMatrix T p q M) (e : ∀ i j, 0 ≤ i → 0 ≤ j → M i j = N i j) : IsMatrix T p q N := fun j hj =>
  ⟨fun i hi => by rw [← e i j (by omega) hj]; exact (h j hj).1 i hi, by
    rw [(h j hj).2]
    exact sum_Ico_congr fun i i0 _ => by rw [e i j i0 hj]⟩

/-- Changing the factors of both families. -/
theorem IsMatrix.scale {T : K[X] → K[X]} {p q : Int → K[X]} {M : Int → Int → K} (h : IsMatrix T p q M) (hT : ∀ c p, T (C c * p) = C c * T p) (s t : Int → K) (ht : ∀ n, 0 ≤ n → t n ≠ 0) :
    IsMatrix T (scaled s p) (scaled t q) fun i j => s j * M i j / t i := fun j hj =>
  ⟨fun i hi => by simp only [(h j hj).1 i hi, mul_zero, zero_div], by
    unfold scaled
    rw [hT, (h j hj).2, Finset.mul_sum]
    exact sum_Ico_congr fun i i0 _ => by
      rw [← mul_assoc, ← mul_assoc, ← C_mul, ← C_mul, div_mul_cancel₀ _ (ht i i0)]⟩

theorem C_comm_id (c : K) (p : K[X]) : id (C c * p) = C c * id p := rfl
theorem C_comm_mul (r : K[X]) (c : K) (p : K[X]) : r * (C c * p) = C c * (r * p) := by ring
theorem C_comm_der (c : K) (p : K[X]) : derivative (C c * p) = C c * derivative p := derivative_C_mul c p

end FT.Poly
