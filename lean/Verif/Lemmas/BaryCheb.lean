import Verif.Lemmas.Bary
import Mathlib.LinearAlgebra.Lagrange
import Mathlib.Analysis.SpecialFunctions.Trigonometric.Basic
import Mathlib.Analysis.SpecialFunctions.Trigonometric.Chebyshev.Basic

/-! # Barycentric weights of the Chebyshev points -/

set_option linter.unusedSectionVars false

namespace FT
open Polynomial Polynomial.Chebyshev

/-- `1, -1, 1, …` -/
def sgn (k : Int) : ℝ := if k % 2 = 0 then 1 else -1

theorem sgn_succ (k : Int) : sgn (k + 1) = -sgn k := by unfold sgn; split_ifs <;> first | omega | simp

theorem sgn_sq (k : Int) : sgn k * sgn k = 1 := by unfold sgn; split_ifs <;> norm_num

theorem cos_pi_int (k : Int) : Real.cos (k * Real.pi) = sgn k := by
  rw [Real.cos_int_mul_pi]
  unfold sgn
  split_ifs with h
  · exact Even.neg_one_zpow (Int.even_iff.2 h)
  · exact Odd.neg_one_zpow (Int.odd_iff.2 (by omega))

theorem negOnePow_sgn (k : Int) : ((k.negOnePow : ℤ) : ℝ) = sgn k := by
  unfold sgn
  split_ifs with h
  · rw [Int.negOnePow_even k (Int.even_iff.2 h)]; simp
  · rw [Int.negOnePow_odd k (Int.odd_iff.2 (by omega))]; simp

/-- The weights are read off any polynomial of the right degree which vanishes at the nodes. -/
theorem weight_of_poly {n : Int} (hn : 0 < n) {v : Int → ℝ} (hinj : Set.InjOn v (Finset.Ico 0 n)) {P : ℝ[X]} (hdeg : P.degree = (n.toNat : ℕ)) (hroot : ∀ k ∈ Finset.Ico 0 n, P.eval (v k) = 0)
    {k : Int} (hk : k ∈ Finset.Ico 0 n) : Lagrange.nodalWeight (Finset.Ico 0 n) v k = P.leadingCoeff / (derivative P).eval (v k) := by
  have hcard : (Finset.Ico 0 n).card = n.toNat := by simp
  have hP0 : P ≠ 0 := fun h => by rw [h, degree_zero] at hdeg; cases hdeg
  have hlc : P.leadingCoeff ≠ 0 := leadingCoeff_ne_zero.2 hP0
  have hP : P = C P.leadingCoeff * Lagrange.nodal (Finset.Ico 0 n) v := by
    have hd : P.degree = (C P.leadingCoeff * Lagrange.nodal (Finset.Ico 0 n) v).degree := by
      rw [degree_C_mul hlc, Lagrange.degree_nodal, hcard, hdeg]
    refine Polynomial.eq_of_degree_sub_lt_of_eval_index_eq (Finset.Ico 0 n) hinj ?_ fun i hi => ?_
    · rw [hcard, ← hdeg]
      exact degree_sub_lt hd hP0 (by rw [leadingCoeff_mul, leadingCoeff_C, Lagrange.nodal_monic.leadingCoeff, mul_one])
    · rw [hroot i hi, eval_mul, Lagrange.eval_nodal_at_node hi, mul_zero]
  rw [Lagrange.nodalWeight_eq_eval_derivative_nodal hk]
  have : (derivative P).eval (v k) = P.leadingCoeff * (derivative (Lagrange.nodal (Finset.Ico 0 n) v)).eval (v k) := by
    conv_lhs => rw [hP]
    rw [derivative_C_mul, eval_C_mul]
  rw [this, div_mul_eq_div_div, div_self hlc, one_div]

/-- Points of the first kind. -/
noncomputable def node1 (n k : Int) : ℝ := Real.cos ((2 * k + 1) * Real.pi / (2 * n))

/-- Points of the second kind. -/
noncomputable def node2 (n k : Int) : ℝ := Real.cos (k * Real.pi / (n - 1))

theorem node1_injOn {n : Int} : Set.InjOn (node1 n) (Finset.Ico 0 n) := by
  intro i hi j hj h
  rw [Finset.coe_Ico, Set.mem_Ico] at hi hj
  have hn : (0 : ℝ) < n := by exact_mod_cast (show 0 < n by omega)
  have mem : ∀ k : Int, 0 ≤ k ∧ k < n → (2 * k + 1) * Real.pi / (2 * n) ∈ Set.Icc 0 Real.pi := fun k hk => by
    have h0 : (0 : ℝ) ≤ k := by exact_mod_cast hk.1
    have h1 : (k : ℝ) + 1 ≤ n := by exact_mod_cast hk.2
    have hp := Real.pi_pos
    refine ⟨by positivity, ?_⟩
    rw [div_le_iff₀ (by positivity)]
    nlinarith
  have := Real.injOn_cos (mem i hi) (mem j hj) h
  rw [div_left_inj' (by positivity), mul_left_inj' Real.pi_ne_zero] at this
  have : (i : ℝ) = j := by linarith
  exact_mod_cast this

theorem node2_injOn {n : Int} (hn : 2 ≤ n) : Set.InjOn (node2 n) (Finset.Ico 0 n) := by
  intro i hi j hj h
  rw [Finset.coe_Ico, Set.mem_Ico] at hi hj
  have hn : (0 : ℝ) < n - 1 := by have : (2 : ℝ) ≤ n := by exact_mod_cast hn
                                  linarith
  have mem : ∀ k : Int, 0 ≤ k ∧ k < n → k * Real.pi / (n - 1) ∈ Set.Icc 0 Real.pi := fun k hk => by
    have h0 : (0 : ℝ) ≤ k := by exact_mod_cast hk.1
    have h1 : (k : ℝ) + 1 ≤ n := by exact_mod_cast hk.2
    have hp := Real.pi_pos
    refine ⟨by positivity, ?_⟩
    rw [div_le_iff₀ hn]
    nlinarith
  have := Real.injOn_cos (mem i hi) (mem j hj) h
  rw [div_left_inj' hn.ne', mul_left_inj' Real.pi_ne_zero] at this
  exact_mod_cast this

/-- First kind: the weights are proportional to `(-1)ᵏ sin θₖ`. -/
theorem weight1 {n : Int} (hn : 0 < n) {k : Int} (hk : k ∈ Finset.Ico 0 n) :
    Lagrange.nodalWeight (Finset.Ico 0 n) (node1 n) k = 2 ^ (n.natAbs - 1) / n * (Real.sin ((2 * k + 1) * Real.pi / (2 * n)) * sgn k) := by
  rw [Finset.mem_Ico] at hk
  have hn' : (0 : ℝ) < n := by exact_mod_cast hn
  have hcos : ∀ j : Int, Real.cos (n * ((2 * j + 1) * Real.pi / (2 * n))) = 0 ∧ Real.sin (n * ((2 * j + 1) * Real.pi / (2 * n))) = sgn j := fun j => by
    have e : (n : ℝ) * ((2 * j + 1) * Real.pi / (2 * n)) = j * Real.pi + Real.pi / 2 := by field_simp
    rw [e, Real.cos_add_pi_div_two, Real.sin_add_pi_div_two, Real.sin_int_mul_pi, cos_pi_int, neg_zero]
    exact ⟨rfl, rfl⟩
  rw [weight_of_poly (P := T ℝ n) hn node1_injOn (by rw [degree_T]; congr 1; omega) (fun j hj => by unfold node1; rw [T_real_cos]; exact (hcos j).1) (Finset.mem_Ico.2 hk), leadingCoeff_T, T_derivative_eq_U]
  have hs : 0 < Real.sin ((2 * k + 1) * Real.pi / (2 * n)) := by
    have h0 : (0 : ℝ) ≤ k := by exact_mod_cast hk.1
    have h1 : (k : ℝ) + 1 ≤ n := by exact_mod_cast hk.2
    have hp := Real.pi_pos
    refine Real.sin_pos_of_pos_of_lt_pi (by positivity) ?_
    rw [div_lt_iff₀ (by positivity)]
    nlinarith
  have hU := U_real_cos ((2 * k + 1) * Real.pi / (2 * n)) (n - 1)
  have hU' : (U ℝ (n - 1)).eval (node1 n k) * Real.sin ((2 * k + 1) * Real.pi / (2 * n)) = sgn k := by
    rw [← (hcos k).2]; unfold node1; rw [hU]; push_cast; ring_nf
  rw [eval_mul, eval_intCast]
  generalize (U ℝ (n - 1)).eval (node1 n k) = u at hU'
  generalize Real.sin ((2 * k + 1) * Real.pi / (2 * n)) = s at *
  have hu : u ≠ 0 := fun h => by rw [h, zero_mul] at hU'; have := sgn_sq k; rw [← hU'] at this; norm_num at this
  rw [div_mul_eq_mul_div, div_eq_div_iff (by positivity) hn'.ne']
  have h2 := sgn_sq k
  rw [← hU'] at h2 ⊢
  linear_combination (-(2 : ℝ) ^ (n.natAbs - 1) * n) * h2

/-- Second kind: the weights are proportional to `(-1)ᵏ`, halved at the ends. -/
theorem weight2 {n : Int} (hn : 2 ≤ n) {k : Int} (hk : k ∈ Finset.Ico 0 n) :
    Lagrange.nodalWeight (Finset.Ico 0 n) (node2 n) k = 2 ^ (n.natAbs - 1) / (2 * (n - 1)) * ((if k = 0 ∨ k = n - 1 then 1 / 2 else 1) * sgn k) := by
  rw [Finset.mem_Ico] at hk
  have hN : (0 : ℝ) < n - 1 := by have : (2 : ℝ) ≤ n := by exact_mod_cast hn
                                  linarith
  have htrig : ∀ j : Int, Real.cos ((n - 1) * (j * Real.pi / (n - 1))) = sgn j ∧ Real.sin ((n - 1) * (j * Real.pi / (n - 1))) = 0 := fun j => by
    have e : ((n : ℝ) - 1) * (j * Real.pi / (n - 1)) = j * Real.pi := by field_simp
    rw [e, cos_pi_int, Real.sin_int_mul_pi]
    exact ⟨rfl, rfl⟩
  have hlt : (T ℝ (n - 2)).degree < (T ℝ n).degree := by rw [degree_T, degree_T]; exact_mod_cast (show (n - 2).natAbs < n.natAbs by omega)
  have hroot : ∀ j ∈ Finset.Ico 0 n, (T ℝ n - T ℝ (n - 2)).eval (node2 n j) = 0 := fun j hj => by
    unfold node2
    rw [eval_sub, T_real_cos, T_real_cos]
    obtain ⟨h1, h2⟩ := htrig j
    set θ := (j : ℝ) * Real.pi / (n - 1)
    have e1 : (n : ℝ) * θ = (n - 1) * θ + θ := by ring
    have e2 : ((n - 2 : Int) : ℝ) * θ = (n - 1) * θ - θ := by push_cast; ring
    rw [e1, e2, Real.cos_add, Real.cos_sub, h2]
    ring
  rw [weight_of_poly (P := T ℝ n - T ℝ (n - 2)) (by omega) (node2_injOn hn) (by rw [degree_sub_eq_left_of_degree_lt hlt, degree_T]; congr 1; omega) hroot (Finset.mem_Ico.2 hk),
    leadingCoeff_sub_of_degree_lt hlt, leadingCoeff_T, derivative_sub, T_derivative_eq_U, T_derivative_eq_U, eval_sub, eval_mul, eval_mul, eval_intCast, eval_intCast]
  have key : (n : ℝ) * (U ℝ (n - 1)).eval (node2 n k) - ((n - 2 : Int) : ℝ) * (U ℝ (n - 2 - 1)).eval (node2 n k) = 2 * (n - 1) / (if k = 0 ∨ k = n - 1 then 1 / 2 else 1) * sgn k := by
    by_cases h0 : k = 0
    · have e : node2 n k = 1 := by unfold node2; rw [h0]; simp
      rw [e, U_eval_one, U_eval_one, if_pos (.inl h0), h0]
      unfold sgn
      push_cast
      norm_num
      ring
    · by_cases h1 : k = n - 1
      · have e : node2 n k = -1 := by unfold node2; rw [h1]; push_cast; rw [mul_comm, mul_div_assoc, div_self hN.ne', mul_one, Real.cos_pi]
        rw [e, U_eval_neg_one, U_eval_neg_one, if_pos (.inr h1), negOnePow_sgn, negOnePow_sgn, h1]
        have : sgn (n - 2 - 1) = sgn (n - 1) := by unfold sgn; split_ifs <;> first | omega | rfl
        rw [this]
        push_cast
        ring
      · rw [if_neg (by omega)]
        have hs : 0 < Real.sin (k * Real.pi / (n - 1)) := by
          have h2 : (0 : ℝ) < k := by exact_mod_cast (show 0 < k by omega)
          have h3 : (k : ℝ) < n - 1 := by have : (k : ℝ) + 1 < n := by exact_mod_cast (show k + 1 < n by omega)
                                          linarith
          have hp := Real.pi_pos
          refine Real.sin_pos_of_pos_of_lt_pi (by positivity) ?_
          rw [div_lt_iff₀ hN]
          nlinarith
        have hU1 := U_real_cos (k * Real.pi / (n - 1)) (n - 1)
        have hU2 := U_real_cos (k * Real.pi / (n - 1)) (n - 2 - 1)
        obtain ⟨c1, c2⟩ := htrig k
        unfold node2
        set θ := (k : ℝ) * Real.pi / (n - 1)
        have e1 : (((n - 1 : Int) : ℝ) + 1) * θ = (n - 1) * θ + θ := by push_cast; ring
        have e2 : (((n - 2 - 1 : Int) : ℝ) + 1) * θ = (n - 1) * θ - θ := by push_cast; ring
        rw [e1, Real.sin_add, c1, c2] at hU1
        rw [e2, Real.sin_sub, c1, c2] at hU2
        have q1 : (U ℝ (n - 1)).eval (Real.cos θ) = sgn k := mul_right_cancel₀ hs.ne' (by linear_combination hU1)
        have q2 : (U ℝ (n - 2 - 1)).eval (Real.cos θ) = -sgn k := mul_right_cancel₀ hs.ne' (by linear_combination hU2)
        rw [q1, q2]
        push_cast
        ring
  rw [key]
  have h2 := sgn_sq k
  have hs : sgn k ≠ 0 := fun h => by rw [h] at h2; norm_num at h2
  have hw : (if k = 0 ∨ k = n - 1 then 1 / 2 else 1 : ℝ) ≠ 0 := by split_ifs <;> norm_num
  generalize (if k = 0 ∨ k = n - 1 then 1 / 2 else 1 : ℝ) = w at *
  field_simp
  linear_combination -h2

end FT
