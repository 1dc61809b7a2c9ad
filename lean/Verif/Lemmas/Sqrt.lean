import Mathlib.Algebra.Order.Field.Basic
import Mathlib.Tactic.Ring
import Mathlib.Tactic.Linarith

/-! # What is assumed of the square root -/

namespace FT
variable {K : Type*} [Field K] [LinearOrder K] [IsStrictOrderedRing K]

omit [IsStrictOrderedRing K] in
/-- `sqrt` is a nonnegative square root on nonnegative numbers. -/
def IsSqrt (sqrt : K → K) : Prop := ∀ x, 0 ≤ x → 0 ≤ sqrt x ∧ sqrt x * sqrt x = x

theorem sqrt_pos {sqrt : K → K} (hs : IsSqrt sqrt) {a : K} (h : 0 < a) : 0 < sqrt a := by
  obtain ⟨h1, h2⟩ := hs a (le_of_lt h)
  rcases lt_or_eq_of_le h1 with h3 | h3
  · exact h3
  · rw [← h3, zero_mul] at h2; exact absurd h2 (ne_of_lt h)

theorem sqrt_unique {sqrt : K → K} (hs : IsSqrt sqrt) {a b : K} (ha : 0 ≤ a) (hb : 0 ≤ b) (h : b * b = a) : sqrt a = b := by
  obtain ⟨h1, h2⟩ := hs a ha
  have : (sqrt a - b) * (sqrt a + b) = 0 := by ring_nf; rw [pow_two, pow_two, h2, h]; ring
  rcases mul_eq_zero.1 this with h3 | h3
  · exact sub_eq_zero.1 h3
  · have : sqrt a = 0 ∧ b = 0 := by constructor <;> linarith
    rw [this.1, this.2]

end FT
