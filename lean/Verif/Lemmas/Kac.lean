import Mathlib.Algebra.Polynomial.Derivative
import Mathlib.Algebra.Order.Field.Basic
import Mathlib.Tactic.ComputeDegree
import Mathlib.Tactic.Ring
import Mathlib.Tactic.Linarith
import Mathlib.Tactic.FieldSimp
import Mathlib.Tactic.LinearCombination

/-! # Coefficients of `(1+x)^a (1-x)^c`

They are the eigenvectors of the angular momentum about the y-axis in the basis of eigenvectors of the angular momentum about the z-axis. -/

namespace FT.Kac
open Polynomial
variable {K : Type*} [Field K]

/-- `(1+x)^a (1-x)^c`. -/
noncomputable def poly (K : Type*) [Field K] (a c : Nat) : K[X] := (1 + X) ^ a * (1 - X) ^ c

theorem poly_deriv (a c : Nat) : (1 - X ^ 2) * derivative (poly K a c) = (C ((a : K) - c) - C ((a : K) + c) * X) * poly K a c := by
  have h1 : ∀ n : Nat, (1 + X) * derivative ((1 + X : K[X]) ^ n) = C (n : K) * (1 + X) ^ n := by
    intro n
    cases n with
    | zero => simp
    | succ n => rw [derivative_pow_succ]; simp; ring
  have h2 : ∀ n : Nat, (1 - X) * derivative ((1 - X : K[X]) ^ n) = - C (n : K) * (1 - X) ^ n := by
    intro n
    cases n with
    | zero => simp
    | succ n => rw [derivative_pow_succ]; simp; ring
  unfold poly
  rw [derivative_mul, map_sub, map_add]
  linear_combination (1 - X) * (1 - X) ^ c * h1 a + (1 + X) * (1 + X) ^ a * h2 c

/-- The coefficients, zero outside. -/
noncomputable def co (K : Type*) [Field K] (a c : Nat) (k : Int) : K := if 0 ≤ k then (poly K a c).coeff k.toNat else 0

theorem co_nat (a c n : Nat) : co K a c (n : Int) = (poly K a c).coeff n := by
  unfold co; rw [if_pos (by omega), Int.toNat_natCast]

theorem co_neg (a c : Nat) {k : Int} (h : k < 0) : co K a c k = 0 := by
  unfold co; rw [if_neg (by omega)]

theorem co_zero (a c : Nat) : co K a c 0 = 1 := by
  have := co_nat (K := K) a c 0
  rw [Nat.cast_zero] at this
  rw [this, coeff_zero_eq_eval_zero]; simp [poly]

theorem poly_natDegree (a c : Nat) : (poly K a c).natDegree ≤ a + c := by
  unfold poly
  refine natDegree_mul_le.trans (add_le_add ?_ ?_)
  · exact (natDegree_pow_le_of_le a (m := 1) (by compute_degree)).trans (by omega)
  · exact (natDegree_pow_le_of_le c (m := 1) (by compute_degree)).trans (by omega)

theorem co_above (a c : Nat) {k : Int} (h : (a + c : Int) < k) : co K a c k = 0 := by
  obtain ⟨n, rfl⟩ := Int.eq_ofNat_of_zero_le (show 0 ≤ k by omega)
  rw [co_nat]
  exact coeff_eq_zero_of_natDegree_lt (lt_of_le_of_lt (poly_natDegree a c) (by omega))

/-- The eigenvalue equation of the Kac matrix. -/
theorem co_rec (a c : Nat) (k : Int) : ((k : K) + 1) * co K a c (k + 1) + ((a : K) + c - k + 1) * co K a c (k - 1) = ((a : K) - c) * co K a c k := by
  rcases lt_trichotomy k (-1) with h | h | h
  · rw [co_neg a c (by omega), co_neg a c (by omega), co_neg a c (by omega)]; ring
  · subst h; rw [co_neg a c (k := -1 - 1) (by omega), co_neg a c (k := -1) (by omega)]; push_cast; ring
  · obtain ⟨n, rfl⟩ := Int.eq_ofNat_of_zero_le (show 0 ≤ k by omega)
    have e := congrArg (fun p : K[X] => p.coeff n) (poly_deriv (K := K) a c)
    rw [show (1 - X ^ 2) * derivative (poly K a c) = derivative (poly K a c) - X * (X * derivative (poly K a c)) by ring,
      show (C ((a : K) - c) - C ((a : K) + c) * X) * poly K a c = C ((a : K) - c) * poly K a c - C ((a : K) + c) * (X * poly K a c) by ring,
      coeff_sub, coeff_sub, coeff_C_mul, coeff_C_mul, coeff_derivative] at e
    rw [show ((n : Int) + 1) = ((n + 1 : Nat) : Int) by push_cast; ring, co_nat, co_nat]
    cases n with
    | zero =>
      rw [coeff_X_mul_zero, coeff_X_mul_zero] at e
      rw [co_neg a c (by simp)]
      push_cast at e ⊢
      linear_combination e
    | succ n =>
      rw [coeff_X_mul, coeff_X_mul] at e
      rw [show (((n + 1 : Nat) : Int) - 1) = (n : Int) by push_cast; ring, co_nat]
      cases n with
      | zero =>
        rw [coeff_X_mul_zero] at e
        push_cast at e ⊢
        linear_combination e
      | succ n =>
        rw [coeff_X_mul, coeff_derivative] at e
        push_cast at e ⊢
        linear_combination e

theorem co_top (a c : Nat) : co K a c (a + c) = (-1) ^ c := by
  have := co_nat (K := K) a c (a + c)
  push_cast at this
  rw [this]
  unfold poly
  rw [coeff_mul_add_eq_of_natDegree_le (df := a) (dg := c)  ((natDegree_pow_le_of_le a (m := 1) (by compute_degree)).trans (by omega)) ((natDegree_pow_le_of_le c (m := 1) (by compute_degree)).trans (by omega))]
  have h1 : ((1 + X : K[X]) ^ a).coeff a = 1 := by
    have := coeff_pow_of_natDegree_le (p := (1 + X : K[X])) (m := a) (n := 1) (by compute_degree)
    simpa [coeff_one] using this
  have h2 : ((1 - X : K[X]) ^ c).coeff c = (-1) ^ c := by
    have := coeff_pow_of_natDegree_le (p := (1 - X : K[X])) (m := c) (n := 1) (by compute_degree)
    simpa [coeff_one] using this
  rw [h1, h2, one_mul]

/-- Reflection. -/
theorem co_flip [CharZero K] (a c : Nat) (k : Int) : co K a c (a + c - k) = (-1) ^ c * co K a c k := by
  rcases lt_or_ge k 0 with h | h
  · rw [co_neg a c h, co_above a c (by omega), mul_zero]
  obtain ⟨n, rfl⟩ := Int.eq_ofNat_of_zero_le h
  suffices H : ∀ n : Nat, co K a c (a + c - n) = (-1) ^ c * co K a c n ∧ co K a c (a + c - (n + 1)) = (-1) ^ c * co K a c (n + 1) from (H n).1
  have step : ∀ n : Int, 0 ≤ n → co K a c (a + c - n) = (-1) ^ c * co K a c n → co K a c (a + c - (n - 1)) = (-1) ^ c * co K a c (n - 1) →
      co K a c (a + c - (n + 1)) = (-1) ^ c * co K a c (n + 1) := by
    intro n n0 e1 e2
    have r1 := co_rec (K := K) a c n
    have r2 := co_rec (K := K) a c (a + c - n)
    have hz : ((n : K) + 1) ≠ 0 := by
      have : ((n + 1 : Int) : K) ≠ 0 := by rw [Int.cast_ne_zero]; omega
      push_cast at this; exact this
    rw [show (a + c - n + 1 : Int) = a + c - (n - 1) by ring, show (a + c - n - 1 : Int) = a + c - (n + 1) by ring, e1, e2] at r2
    push_cast at r2
    apply mul_left_cancel₀ hz
    linear_combination r2 - (-1) ^ c * r1
  intro n
  induction n with
  | zero =>
    have z : co K a c (a + c - (0 : Nat)) = (-1) ^ c * co K a c (0 : Nat) := by
      rw [Nat.cast_zero, sub_zero, co_top, co_zero, mul_one]
    exact ⟨z, by
      have := step 0 le_rfl (by simpa using z) (by rw [co_neg a c (k := 0 - 1) (by omega), co_above a c (k := a + c - (0 - 1)) (by omega), mul_zero])
      simpa using this⟩
  | succ n ih =>
    refine ⟨by push_cast; exact ih.2, ?_⟩
    have := step (n + 1) (by omega) ih.2 (by rw [show (n + 1 - 1 : Int) = n by ring]; exact ih.1)
    push_cast; exact this

/-- The square of the Kac matrix. -/
theorem co_rec2 (a c : Nat) (k : Int) :
    ((k : K) + 1) * (k + 2) * co K a c (k + 2) + ((k + 1) * (a + c - k) + (a + c - k + 1) * k) * co K a c k + (a + c - k + 1) * (a + c - k + 2) * co K a c (k - 2)
      = ((a : K) - c) ^ 2 * co K a c k := by
  have r0 := co_rec (K := K) a c k
  have r1 := co_rec (K := K) a c (k + 1)
  have r2 := co_rec (K := K) a c (k - 1)
  rw [show k + 1 + 1 = k + 2 by ring, show k + 1 - 1 = k by ring] at r1
  rw [show k - 1 + 1 = k by ring, show k - 1 - 1 = k - 2 by ring] at r2
  push_cast at r1 r2
  linear_combination ((a : K) - c) * r0 + (k + 1) * r1 + (a + c - k + 1) * r2

theorem co_one (a c : Nat) : co K a c 1 = (a : K) - c := by
  have := co_rec (K := K) a c 0
  rw [co_neg a c (k := 0 - 1) (by omega), co_zero] at this
  simpa using this

end FT.Kac
