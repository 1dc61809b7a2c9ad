import Verif.Lemmas.Compose

/-! # Classical polynomials are eigenfunctions of their differential operators -/

set_option linter.unusedSectionVars false

namespace FT.Poly
open Polynomial
variable {K : Type*} [Field K] [LinearOrder K] [IsStrictOrderedRing K] {F : Libm K} {norm : Bool} {α β lam : K}

theorem ode1 {s d m : K} (h0 : m ≠ 0) (h2 : m + 2 ≠ 0) : -((m - s) / 2 * ((m - s) / 2 - 1) * gE (s + 2) d (m - 2)) + (m - s) / 2 * d + (m - s) / 2 * (s + 2) * gA (s + 2) d m = (m - s) / 2 * ((m + s) / 2 + 1) * gR s d m := by
  unfold gE gA gR
  rw [show m - 2 + 2 = m by ring, show m - 2 + 4 = m + 2 by ring]
  field_simp
  ring

theorem ode2 {s d m : K} (h0 : m ≠ 0) (h1 : m - 1 ≠ 0) (h2 : m + 1 ≠ 0) : -((m - s) / 2 * ((m - s) / 2 - 1) * gF (s + 2) d (m - 2)) + (m - s) / 2 * (s + 2) * gB (s + 2) d m = (m - s) / 2 * ((m + s) / 2 + 1) * gT s d m := by
  unfold gF gB gT
  rw [show m - 2 + 2 = m by ring, show m - 2 + 1 = m - 1 by ring, show m - 2 + 3 = m + 1 by ring]
  field_simp
  ring

theorem jacLb_up (hα : -1 < α) (hβ : -1 < β) (n : Int) : jacLb (α + 1) (β + 1) n = gF (α + β + 2) (α - β) (2 * n + (α + β) + 2) := by
  unfold jacLb
  rw [show α + 1 + (β + 1) = α + β + 2 by ring, show α + 1 - (β + 1) = α - β by ring]
  split_ifs with h
  · subst h
    unfold gF
    push_cast
    have h3 : α + β + 3 ≠ 0 := by linarith
    have h4 : α + β + 4 ≠ 0 := by linarith
    have h5 : α + β + 5 ≠ 0 := by linarith
    rw [show 2 * 0 + (α + β) + 2 + 2 - (α - β) = 2 * (β + 2) by ring, show 2 * 0 + (α + β) + 2 + 2 + (α - β) = 2 * (α + 2) by ring, show 2 * 0 + (α + β) + 2 + (α + β + 2) + 2 = 2 * (α + β + 3) by ring,
      show 2 * 0 + (α + β) + 2 + (α + β + 2) + 4 = 2 * (α + β + 4) by ring, show 2 * 0 + (α + β) + 2 + 2 = α + β + 4 by ring, show 2 * 0 + (α + β) + 2 + 1 = α + β + 3 by ring,
      show 2 * 0 + (α + β) + 2 + 3 = α + β + 5 by ring, show α + β + 2 + 2 = α + β + 4 by ring, show α + β + 2 + 3 = α + β + 5 by ring, show α + 1 + 1 = α + 2 by ring, show β + 1 + 1 = β + 2 by ring]
    generalize α + β + 4 = v at *
    generalize α + β + 3 = w at *
    generalize α + β + 5 = x at *
    field_simp
    ring
  · congr 1
    ring

theorem jacobi_eigen (hα : -1 < α) (hβ : -1 < β) {j : Int} (hj : 0 ≤ j) : jacOp α β (jacobi α β j) = C (j * (j + α + β + 1)) * jacobi α β j := by
  unfold jacOp
  rw [jacobi_derivative hα hβ hj, derivative_C_mul]
  rcases eq_or_lt_of_le hj with h | h
  · subst h; simp
  rcases eq_or_lt_of_le (show 1 ≤ j from h) with h' | h'
  · subst h'
    have h2 : α + β + 2 ≠ 0 := by linarith
    unfold jacobi
    rw [sub_self, monic_zero, monic_one, derivative_one]
    unfold jacA
    rw [if_pos rfl]
    have e : C (α + β + 2) * C ((β - α) / (α + β + 2)) = C (β - α) := by rw [← C_mul, mul_div_cancel₀ _ h2]
    push_cast
    rw [show 1 * (1 + α + β + 1) = α + β + 2 by ring, map_one]
    have e2 : C (α - β) = -C (β - α) := by rw [← C_neg]; congr 1; ring
    rw [e2]
    linear_combination e
  have m2 := m_pos2 hα hβ h'
  have e2 := jacobi_derivative (α := α + 1) (β := β + 1) (by linarith) (by linarith) (show 0 ≤ j - 1 by omega)
  have e3 := monic_mul (a := jacA (α + 1) (β + 1)) (b := jacB (α + 1) (β + 1)) (show 0 ≤ j - 1 by omega)
  have e4 := jacobi_lower (α := α + 1) (β := β + 1) (by linarith) (by linarith) (show 0 ≤ j - 1 - 1 by omega)
  have e5 := jacobi_raise hα hβ hj
  change X * jacobi (α + 1) (β + 1) (j - 1) = jacobi (α + 1) (β + 1) (j - 1 + 1) + C (jacA (α + 1) (β + 1) (j - 1)) * jacobi (α + 1) (β + 1) (j - 1) + C (jacB (α + 1) (β + 1) (j - 1)) * jacobi (α + 1) (β + 1) (j - 1 - 1) at e3
  rw [sub_add_cancel] at e3
  rw [show j - 1 - 1 + 2 = j by ring, show j - 1 - 1 + 1 = j - 1 by ring] at e4
  rw [show j - 2 = j - 1 - 1 by ring] at e5
  rw [e2]
  have k1 := ode1 (s := α + β) (d := α - β) (m := 2 * j + (α + β)) (by linarith) (by linarith)
  have k2 := ode2 (s := α + β) (d := α - β) (m := 2 * j + (α + β)) (by linarith) (by linarith) (by linarith)
  have f1 : jacLa (α + 1) (β + 1) (j - 1 - 1) = gE (α + β + 2) (α - β) (2 * j + (α + β) - 2) := by unfold jacLa; push_cast; congr 1 <;> ring
  have f2 : jacLb (α + 1) (β + 1) (j - 1 - 1) = gF (α + β + 2) (α - β) (2 * j + (α + β) - 2) := by rw [jacLb_up hα hβ]; push_cast; congr 1; ring
  have f3 : jacA (α + 1) (β + 1) (j - 1) = gA (α + β + 2) (α - β) (2 * j + (α + β)) := by rw [jacA_up hα hβ]; push_cast; congr 1; ring
  have f4 : jacB (α + 1) (β + 1) (j - 1) = gB (α + β + 2) (α - β) (2 * j + (α + β)) := by rw [jacB_up hα hβ]; push_cast; congr 1; ring
  rw [← f1, ← f3, show gR (α + β) (α - β) (2 * j + (α + β)) = jacRa α β j from rfl, show (2 * (j : K) + (α + β) - (α + β)) / 2 = j by ring, show (2 * (j : K) + (α + β) + (α + β)) / 2 + 1 = j + α + β + 1 by ring] at k1
  rw [← f2, ← f4, show gT (α + β) (α - β) (2 * j + (α + β)) = jacRb α β j from rfl, show (2 * (j : K) + (α + β) - (α + β)) / 2 = j by ring, show (2 * (j : K) + (α + β) + (α + β)) / 2 + 1 = j + α + β + 1 by ring] at k2
  have k1' := congrArg (C : K → K[X]) k1
  have k2' := congrArg (C : K → K[X]) k2
  push_cast
  simp only [C_add, C_mul, C_neg, C_sub, C_1, C_ofNat] at *
  linear_combination (-(C (j : K) * (C (j : K) - 1))) * e4 + (C α + C β + 2) * C (j : K) * e3 - C (j : K) * (C (j : K) + C α + C β + 1) * e5 +
    k1' * jacobi (α + 1) (β + 1) (j - 1) + k2' * jacobi (α + 1) (β + 1) (j - 1 - 1)

theorem ult_eigen (hm : -1 / 2 < lam) {j : Int} (hj : 0 ≤ j) : ultOp lam (jacobi (lam - 1 / 2) (lam - 1 / 2) j) = C (j * (j + 2 * lam)) * jacobi (lam - 1 / 2) (lam - 1 / 2) j := by
  rw [sym_op hm hj, sym_raise hm hj, sub_self, mul_zero, add_zero]
  simp only [C_mul]
  ring

theorem lag_eigen {j : Int} (hj : 0 ≤ j) : lagOp α (laguerre α j) = C (j : K) * laguerre α j := by
  rw [lag_op α α hj, laguerre_raise (α := α) hj, add_sub_cancel_right, C_mul]
  ring

end FT.Poly
