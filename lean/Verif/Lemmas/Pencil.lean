import Verif.Lemmas.LagOps

/-! # Pencils of connection problems between ultraspherical polynomials -/

set_option linter.unusedSectionVars false

namespace FT.Poly
open Polynomial
variable {K : Type*} [Field K] [LinearOrder K] [IsStrictOrderedRing K] {F : Libm K} {norm : Bool} {lam mu : K}

/-- Coefficient of the raising relation of monic ultraspherical polynomials. -/
def symR (mu : K) (j : Int) : K := -(j * (j - 1)) / (4 * (j + mu) * (j + mu - 1))

theorem symRb (hm : -1 / 2 < mu) {j : Int} (hj : 0 ≤ j) : jacRb (mu - 1 / 2) (mu - 1 / 2) j = symR mu j := by
  unfold jacRb gT symR
  rcases eq_or_lt_of_le hj with h | h
  · subst h; simp
  · have h0 : (1 : K) ≤ j := by exact_mod_cast h
    rcases eq_or_lt_of_le (show 1 ≤ j from h) with h | h
    · subst h; norm_num
    have h1 : (2 : K) ≤ j := by exact_mod_cast h
    have e1 : 2 * (j : K) + (mu - 1 / 2 + (mu - 1 / 2)) = 2 * (j + mu) - 1 := by ring
    have n1 : 2 * (j + mu) - 1 ≠ 0 := by linarith
    have n2 : j + mu ≠ 0 := by linarith
    have n3 : j + mu - 1 ≠ 0 := by linarith
    rw [e1, sub_self, show 2 * (j + mu) - 1 - (mu - 1 / 2 + (mu - 1 / 2)) = 2 * j by ring, show 2 * (j + mu) - 1 - 1 = 2 * (j + mu - 1) by ring, sub_zero, add_zero, sub_add_cancel]
    generalize 2 * (j + mu) - 1 = v at *
    field_simp

theorem sym_raise (hm : -1 / 2 < mu) {j : Int} (hj : 0 ≤ j) :
    jacobi (mu - 1 / 2) (mu - 1 / 2) j = jacobi (mu + 1 / 2) (mu + 1 / 2) j + C (symR mu j) * jacobi (mu + 1 / 2) (mu + 1 / 2) (j - 2) := by
  have h := jacobi_raise (α := mu - 1 / 2) (β := mu - 1 / 2) (by linarith) (by linarith) hj
  rw [show mu - 1 / 2 + 1 = mu + 1 / 2 by ring, symRb hm hj, show jacRa (mu - 1 / 2) (mu - 1 / 2) j = 0 by unfold jacRa gR; rw [sub_self, zero_mul, zero_div], map_zero, zero_mul, add_zero] at h
  exact h

theorem symLa (n : Int) : jacLa mu mu n = 0 := by unfold jacLa gE; rw [sub_self, zero_mul, zero_div]
theorem symA (n : Int) : jacA mu mu n = 0 := by unfold jacA; rw [sub_self, zero_mul, zero_div, zero_div, ite_self]

theorem symB (hm : -1 < mu) {n : Int} (hn : 1 ≤ n) (h : n + mu - 1 / 2 ≠ 0) : jacB mu mu n = n * (n + 2 * mu) / (4 * (n + mu - 1 / 2) * (n + mu + 1 / 2)) := by
  have h0 : (1 : K) ≤ n := by exact_mod_cast hn
  have n1 : n + mu ≠ 0 := by linarith
  have n2 : n + mu + 1 / 2 ≠ 0 := by linarith
  unfold jacB
  split_ifs with h1
  · subst h1
    push_cast at *
    rw [show 4 * (mu + 1) * (mu + 1) / ((mu + mu + 2) * (mu + mu + 2) * (mu + mu + 3)) = 1 / (2 * (1 + mu + 1 / 2)) by
      rw [show mu + mu + 2 = 2 * (1 + mu) by ring, show mu + mu + 3 = 2 * (1 + mu + 1 / 2) by ring]
      field_simp
      ring]
    rw [show 1 * (1 + 2 * mu) = 2 * (1 + mu - 1 / 2) by ring]
    generalize 1 + mu + 1 / 2 = v at *
    generalize 1 + mu - 1 / 2 = v' at *
    field_simp
    norm_num
  · rw [show 2 * (n : K) + mu + mu = 2 * (n + mu) by ring, show 2 * (n + mu) - 1 = 2 * (n + mu - 1 / 2) by ring, show 2 * (n + mu) + 1 = 2 * (n + mu + 1 / 2) by ring, show (n : K) + mu + mu = n + 2 * mu by ring]
    generalize n + mu + 1 / 2 = v at *
    generalize n + mu - 1 / 2 = v' at *
    field_simp
    norm_num

theorem symLb (hm : -1 < mu) {n : Int} (hn : 0 ≤ n) (h : n + mu + 1 / 2 ≠ 0) : jacLb mu mu n = (n + 2 * mu + 1) * (n + 2 * mu + 2) / (4 * (n + mu + 1 / 2) * (n + mu + 3 / 2)) := by
  have h0 : (0 : K) ≤ n := by exact_mod_cast hn
  have n1 : n + mu + 1 ≠ 0 := by linarith
  have n2 : n + mu + 3 / 2 ≠ 0 := by linarith
  unfold jacLb gF
  split_ifs with h1
  · subst h1
    push_cast at *
    rw [show mu + mu + 2 = 2 * (mu + 1) by ring, show mu + mu + 3 = 2 * (0 + mu + 3 / 2) by ring, show 0 + 2 * mu + 1 = 2 * (0 + mu + 1 / 2) by ring]
    have : mu + 1 ≠ 0 := by linarith
    generalize 0 + mu + 3 / 2 = v at *
    generalize 0 + mu + 1 / 2 = v' at *
    field_simp
    ring
  · rw [sub_self, show 2 * (n : K) + (mu + mu) + 2 = 2 * (n + mu + 1) by ring, show 2 * (n : K) + (mu + mu) + (mu + mu) + 2 = 2 * (n + 2 * mu + 1) by ring,
      show 2 * (n : K) + (mu + mu) + (mu + mu) + 4 = 2 * (n + 2 * mu + 2) by ring, show 2 * (n : K) + (mu + mu) + 1 = 2 * (n + mu + 1 / 2) by ring, show 2 * (n : K) + (mu + mu) + 3 = 2 * (n + mu + 3 / 2) by ring]
    generalize n + mu + 3 / 2 = v at *
    generalize n + mu + 1 / 2 = v' at *
    generalize (n : K) + mu + 1 = w at *
    field_simp
    ring

theorem ultOp_comm (lam c : K) (p : K[X]) : ultOp lam (C c * p) = C c * ultOp lam p := by
  unfold ultOp
  rw [derivative_C_mul, derivative_C_mul]
  ring

theorem sym_op (hm : -1 / 2 < mu) {j : Int} (hj : 0 ≤ j) :
    ultOp lam (jacobi (mu - 1 / 2) (mu - 1 / 2) j) =
      C (j * (j + 2 * lam)) * jacobi (mu + 1 / 2) (mu + 1 / 2) j + C ((j + 2 * mu) * (j + 2 * (mu - lam)) * symR mu j) * jacobi (mu + 1 / 2) (mu + 1 / 2) (j - 2) := by
  have e1 := jacobi_derivative (α := mu - 1 / 2) (β := mu - 1 / 2) (by linarith) (by linarith) hj
  rw [show mu - 1 / 2 + 1 = mu + 1 / 2 by ring] at e1
  unfold ultOp
  rw [e1, derivative_C_mul]
  rcases eq_or_lt_of_le hj with h | h
  · subst h
    unfold symR jacobi
    rw [monic_neg (show (0 : Int) - 1 < 0 by norm_num)]
    simp
  have h1 : (1 : K) ≤ j := by exact_mod_cast h
  have e2 := jacobi_derivative (α := mu + 1 / 2) (β := mu + 1 / 2) (by linarith) (by linarith) (show 0 ≤ j - 1 by omega)
  have e3 := monic_mul (a := jacA (mu + 1 / 2) (mu + 1 / 2)) (b := jacB (mu + 1 / 2) (mu + 1 / 2)) (show 0 ≤ j - 1 by omega)
  rw [sub_add_cancel, symA, map_zero, zero_mul, add_zero, show j - 1 - 1 = j - 2 by ring] at e3
  change X * jacobi (mu + 1 / 2) (mu + 1 / 2) (j - 1) = jacobi (mu + 1 / 2) (mu + 1 / 2) j + C (jacB (mu + 1 / 2) (mu + 1 / 2) (j - 1)) * jacobi (mu + 1 / 2) (mu + 1 / 2) (j - 2) at e3
  rw [e2]
  rcases eq_or_lt_of_le (show 1 ≤ j from h) with h' | h'
  · subst h'
    rw [show jacobi (mu + 1 / 2) (mu + 1 / 2) (1 - 2) = 0 from monic_neg (by norm_num), mul_zero, add_zero] at e3
    rw [show jacobi (mu + 1 / 2) (mu + 1 / 2) (1 - 2) = 0 from monic_neg (by norm_num), ← e3]
    simp only [sub_self, Int.cast_zero, map_zero, zero_mul, mul_zero, zero_add, add_zero, Int.cast_one, map_one, one_mul]
    rw [add_comm (2 * lam) 1]
    ring
  have h2 : (2 : K) ≤ j := by exact_mod_cast h'
  have e4 := jacobi_lower (α := mu + 1 / 2) (β := mu + 1 / 2) (by linarith) (by linarith) (show 0 ≤ j - 2 by omega)
  rw [symLa, map_zero, zero_mul, add_zero, sub_add_cancel] at e4
  rw [show j - 1 - 1 = j - 2 by ring]
  have f1 := symB (mu := mu + 1 / 2) (n := j - 1) (by linarith) (by omega) (by push_cast; linarith)
  have f2 := symLb (mu := mu + 1 / 2) (n := j - 2) (by linarith) (by omega) (by push_cast; linarith)
  have n1 : j + mu ≠ 0 := by linarith
  have n2 : j + mu - 1 ≠ 0 := by linarith
  have key : -(j * (j - 1) * jacLb (mu + 1 / 2) (mu + 1 / 2) (j - 2)) + (2 * lam + 1) * j * jacB (mu + 1 / 2) (mu + 1 / 2) (j - 1) = (j + 2 * mu) * (j + 2 * (mu - lam)) * symR mu j := by
    rw [f1, f2]
    unfold symR
    push_cast
    rw [show (j : K) - 1 + (mu + 1 / 2) - 1 / 2 = j + mu - 1 by ring, show (j : K) - 1 + (mu + 1 / 2) + 1 / 2 = j + mu by ring, show (j : K) - 2 + (mu + 1 / 2) + 1 / 2 = j + mu - 1 by ring,
      show (j : K) - 2 + (mu + 1 / 2) + 3 / 2 = j + mu by ring]
    field_simp
    ring
  rw [← key]
  push_cast
  simp only [C_add, C_mul, C_neg, C_sub, map_one]
  linear_combination (-(C (j : K) * (C (j : K) - 1))) * e4 + (C (2 : K) * C lam + 1) * C (j : K) * e3

/-! ## The factors -/

/-- Factors that make monic polynomials orthonormal with positive leading coefficients. -/
def posS (sqrt : K → K) (g0 : K) (b : Int → K) (n : Int) : K := 1 / sqrt (gram g0 b n)

section factors
variable {sqrt : K → K} {g0 : K} {r b : Int → K}

theorem posS_succ (hs : IsSqrt sqrt) (hg : 0 < g0) (hb : ∀ n, 1 ≤ n → 0 < b n) {n : Int} (hn : 0 ≤ n) : posS sqrt g0 b (n + 1) = posS sqrt g0 b n * (1 / sqrt (b (n + 1))) := by
  unfold posS
  rw [gram_succ _ _ hn, sqrt_mul hs (le_of_lt (gram_pos hg hb n)) (le_of_lt (hb _ (by omega)))]
  ring

theorem scale_posS (hs : IsSqrt sqrt) (hg : 0 < g0) (hb : ∀ n, 1 ≤ n → 0 < b n) {n : Int} (hl : 0 < lead r n) : scale sqrt true g0 r b n = posS sqrt g0 b n := by
  unfold scale posS
  rw [if_pos rfl, sqrt_mul hs (by positivity) (le_of_lt (gram_pos hg hb n)), sqrt_sq hs (le_of_lt hl), div_mul_eq_div_div, div_self (ne_of_gt hl)]

theorem scale_negS (hs : IsSqrt sqrt) (hg : 0 < g0) (hb : ∀ n, 1 ≤ n → 0 < b n) {n : Int} (hl : lead r n < 0) : scale sqrt true g0 r b n = -posS sqrt g0 b n := by
  unfold scale posS
  have h : 0 < -lead r n := neg_pos.2 hl
  rw [if_pos rfl, ← neg_mul_neg (lead r n), sqrt_mul hs (by positivity) (le_of_lt (gram_pos hg hb n)), sqrt_sq hs (le_of_lt h), div_mul_eq_div_div, div_neg, div_self (ne_of_lt hl), neg_div]

theorem posS_pos (hs : IsSqrt sqrt) (hg : 0 < g0) (hb : ∀ n, 1 ≤ n → 0 < b n) (n : Int) : 0 < posS sqrt g0 b n := one_div_pos.2 (sqrt_pos hs (gram_pos hg hb n))

end factors

theorem gram_up {α β g0 : K} (hα : -1 < α) (hβ : -1 < β) {n : Int} (hn : 0 ≤ n) : gram (jacLb α β 0 * g0) (jacB (α + 1) (β + 1)) n = jacLb α β n * gram g0 (jacB α β) n := by
  refine eq_of_steps (s := gram (jacLb α β 0 * g0) (jacB (α + 1) (β + 1))) (t := fun n => jacLb α β n * gram g0 (jacB α β) n) ?_ (fun n hn ih => ?_) hn
  · rw [gram_zero, gram_zero]
  · have := jacLb_mul hα hβ (show 1 ≤ n + 1 by omega)
    rw [add_sub_cancel_right] at this
    rw [gram_succ _ _ hn, gram_succ _ _ hn, ih]
    linear_combination (-gram g0 (jacB α β) n) * this

theorem posS_up {sqrt : K → K} (hs : IsSqrt sqrt) {α β g0 : K} (hg : 0 < g0) (hα : -1 < α) (hβ : -1 < β) {n : Int} (hn : 0 ≤ n) :
    posS sqrt g0 (jacB α β) n = posS sqrt (jacLb α β 0 * g0) (jacB (α + 1) (β + 1)) n * sqrt (jacLb α β n) := by
  have h1 := jacLb_pos hα hβ hn
  have h2 := gram_pos hg (fun n h => jacB_pos hα hβ h) n
  unfold posS
  rw [gram_up hα hβ hn, sqrt_mul hs (le_of_lt h1) (le_of_lt h2)]
  have := sqrt_pos hs h1
  have := sqrt_pos hs h2
  field_simp

section ult
variable (hF : IsLibm F) (hm : -1 / 2 < mu)
include hF hm

theorem ultG_pos : 0 < ultG F mu := div_pos (mul_pos (hF.gamma_pos _ (by norm_num)) (hF.gamma_pos _ (by linarith))) (hF.gamma_pos _ (by linarith))

theorem ultG_up : ultG F (mu + 1) = jacLb (mu - 1 / 2) (mu - 1 / 2) 0 * ultG F mu := by
  unfold ultG jacLb
  rw [if_pos rfl, hF.gamma_succ (mu + 1) (by linarith), show mu + 1 + 1 / 2 = mu + 1 / 2 + 1 by ring, hF.gamma_succ (mu + 1 / 2) (by linarith), show mu - 1 / 2 + 1 = mu + 1 / 2 by ring,
    show mu - 1 / 2 + (mu - 1 / 2) + 2 = 2 * (mu + 1 / 2) by ring, show mu - 1 / 2 + (mu - 1 / 2) + 3 = 2 * (mu + 1) by ring]
  have h1 : mu + 1 ≠ 0 := by linarith
  have h2 : mu + 1 / 2 ≠ 0 := by linarith
  have h3 := ne_of_gt (hF.gamma_pos (mu + 1) (by linarith))
  generalize mu + 1 / 2 = v at *
  field_simp
  ring

/-- Positive factors of ultraspherical polynomials. -/
theorem ultP_up {n : Int} (hn : 0 ≤ n) : posS F.sqrt (ultG F mu) (jacB (mu - 1 / 2) (mu - 1 / 2)) n =
    posS F.sqrt (ultG F (mu + 1)) (jacB (mu + 1 - 1 / 2) (mu + 1 - 1 / 2)) n * F.sqrt (jacLb (mu - 1 / 2) (mu - 1 / 2) n) := by
  rw [ultG_up hF hm, show mu + 1 - 1 / 2 = mu - 1 / 2 + 1 by ring]
  exact posS_up hF.sqrt (ultG_pos hF hm) (by linarith) (by linarith) hn

omit hF in
theorem symRLb {j : Int} (hj : 2 ≤ j) (h0 : mu ≠ 0) :
    jacLb (mu - 1 / 2) (mu - 1 / 2) (j - 2) * -symR mu j = jacB (mu - 1 / 2) (mu - 1 / 2) (j - 1) * jacB (mu - 1 / 2) (mu - 1 / 2) j := by
  have h2 : (2 : K) ≤ j := by exact_mod_cast hj
  have n0 : j - 2 + mu ≠ 0 := by
    rcases eq_or_lt_of_le hj with h | h
    · subst h; push_cast; simpa using h0
    · have h3 : (3 : K) ≤ j := by exact_mod_cast h
      linarith
  have n1 : j - 1 + mu ≠ 0 := by linarith
  have n2 : j + mu ≠ 0 := by linarith
  have e1 : ((j - 2 : Int) : K) + (mu - 1 / 2) + 1 / 2 = j - 2 + mu := by push_cast; ring
  have e2 : ((j - 2 : Int) : K) + (mu - 1 / 2) + 3 / 2 = j - 1 + mu := by push_cast; ring
  have e3 : ((j - 1 : Int) : K) + (mu - 1 / 2) - 1 / 2 = j - 2 + mu := by push_cast; ring
  have e4 : ((j - 1 : Int) : K) + (mu - 1 / 2) + 1 / 2 = j - 1 + mu := by push_cast; ring
  have e5 : (j : K) + (mu - 1 / 2) - 1 / 2 = j - 1 + mu := by ring
  have e6 : (j : K) + (mu - 1 / 2) + 1 / 2 = j + mu := by ring
  rw [symLb (by linarith) (by omega) (by rw [e1]; exact n0), symB (by linarith) (by omega) (by rw [e3]; exact n0), symB (n := j) (by linarith) (by omega) (by rw [e5]; exact n1), e1, e2, e3, e4, e5, e6]
  unfold symR
  rw [show j + mu - 1 = j - 1 + mu by ring]
  push_cast
  generalize (j : K) - 2 + mu = v0 at *
  generalize (j : K) - 1 + mu = v1 at *
  field_simp
  ring

/-- Entries of the conversion matrix, for positive factors. -/
theorem ultP_R {j : Int} (hj : 2 ≤ j) (h0 : mu ≠ 0) : posS F.sqrt (ultG F mu) (jacB (mu - 1 / 2) (mu - 1 / 2)) j * symR mu j =
    posS F.sqrt (ultG F (mu + 1)) (jacB (mu + 1 - 1 / 2) (mu + 1 - 1 / 2)) (j - 2) * -F.sqrt (j * (j - 1) / (4 * (j + mu) * (j + mu - 1))) := by
  have h2 : (2 : K) ≤ j := by exact_mod_cast hj
  have a0 : -1 < mu - 1 / 2 := by linarith
  have hb : ∀ n, 1 ≤ n → 0 < jacB (mu - 1 / 2) (mu - 1 / 2) n := fun n h => jacB_pos a0 a0 h
  have hg := ultG_pos hF hm
  have s1 := posS_succ hF.sqrt hg hb (show 0 ≤ j - 2 by omega)
  have s2 := posS_succ hF.sqrt hg hb (show 0 ≤ j - 1 by omega)
  rw [show j - 2 + 1 = j - 1 by ring] at s1
  rw [sub_add_cancel] at s2
  rw [s2, s1, ultP_up hF hm (by omega)]
  have l0 := jacLb_pos a0 a0 (show 0 ≤ j - 2 by omega)
  have b1 := hb (j - 1) (by omega)
  have b2 := hb j (by omega)
  have key := symRLb hm hj h0
  have hR : j * (j - 1) / (4 * (j + mu) * (j + mu - 1)) = -symR mu j := by unfold symR; ring
  have hRp : 0 < -symR mu j := by
    rw [← hR]
    exact div_pos (mul_pos (by linarith) (by linarith)) (mul_pos (mul_pos (by norm_num) (by linarith)) (by linarith))
  rw [hR]
  have e := congrArg F.sqrt key
  rw [sqrt_mul hF.sqrt (le_of_lt l0) (le_of_lt hRp), sqrt_mul hF.sqrt (le_of_lt b1) (le_of_lt b2)] at e
  have r1 := sqrt_pos hF.sqrt b1
  have r2 := sqrt_pos hF.sqrt b2
  have r3 := (hF.sqrt _ (le_of_lt hRp)).2
  have r4 := sqrt_pos hF.sqrt hRp
  have e' : F.sqrt (jacLb (mu - 1 / 2) (mu - 1 / 2) (j - 2)) * (1 / F.sqrt (jacB (mu - 1 / 2) (mu - 1 / 2) (j - 1))) * (1 / F.sqrt (jacB (mu - 1 / 2) (mu - 1 / 2) j)) * symR mu j =
      -F.sqrt (-symR mu j) := by
    have : symR mu j = -(F.sqrt (-symR mu j) * F.sqrt (-symR mu j)) := by rw [r3, neg_neg]
    generalize F.sqrt (-symR mu j) = x at *
    generalize F.sqrt (jacLb (mu - 1 / 2) (mu - 1 / 2) (j - 2)) = y at *
    generalize F.sqrt (jacB (mu - 1 / 2) (mu - 1 / 2) (j - 1)) = z at *
    generalize F.sqrt (jacB (mu - 1 / 2) (mu - 1 / 2) j) = w at *
    have z0 := ne_of_gt r1
    have w0 := ne_of_gt r2
    rw [this]
    field_simp
    linear_combination -e
  linear_combination posS F.sqrt (ultG F (mu + 1)) (jacB (mu + 1 - 1 / 2) (mu + 1 - 1 / 2)) (j - 2) * e'

omit hF in
theorem ultR_pos {n : Int} (hn : 1 ≤ n) : 0 < ultR mu n := by
  have h1 : (1 : K) ≤ n := by exact_mod_cast hn
  unfold ultR
  exact div_pos (mul_pos zero_lt_two (by linarith)) (by linarith)

omit hF in
theorem ult_lead_sign (h0 : mu ≠ 0) {n : Int} (hn : 0 ≤ n) : if n = 0 ∨ 0 < mu then 0 < lead (ultR mu) n else lead (ultR mu) n < 0 := by
  obtain ⟨k, rfl⟩ := Int.eq_ofNat_of_zero_le hn
  clear hn
  induction k with
  | zero => simp [lead_zero]
  | succ k ih =>
    push_cast
    rw [lead_succ _ (by omega)]
    rcases Nat.eq_zero_or_pos k with h | h
    · subst h
      have e : ultR mu 0 = 2 * mu := by unfold ultR; push_cast; simp
      simp only [Nat.cast_zero, lead_zero, e, one_mul, zero_add, one_ne_zero, false_or]
      split_ifs with h
      · linarith
      · have := lt_of_le_of_ne (not_lt.1 h) h0
        linarith
    · have hp := ultR_pos hm (n := k) (by omega)
      rw [if_congr (show ((k : Int) = 0 ∨ 0 < mu) ↔ 0 < mu from ⟨fun h' => h'.resolve_left (by omega), .inr⟩) rfl rfl] at ih
      rw [if_congr (show ((k : Int) + 1 = 0 ∨ 0 < mu) ↔ 0 < mu from ⟨fun h' => h'.resolve_left (by omega), .inr⟩) rfl rfl]
      split_ifs at ih ⊢
      · exact mul_pos ih hp
      · exact mul_neg_of_neg_of_pos ih hp

/-- The normalised factor is the positive one up to a sign. -/
theorem ultS_true (h0 : mu ≠ 0) {n : Int} (hn : 0 ≤ n) :
    ultS F true mu n = (if n = 0 ∨ 0 < mu then 1 else -1) * posS F.sqrt (ultG F mu) (jacB (mu - 1 / 2) (mu - 1 / 2)) n := by
  have a0 : -1 < mu - 1 / 2 := by linarith
  have hb : ∀ n, 1 ≤ n → 0 < jacB (mu - 1 / 2) (mu - 1 / 2) n := fun n h => jacB_pos a0 a0 h
  have := ult_lead_sign hm h0 hn
  unfold ultS
  split_ifs at this ⊢
  · rw [scale_posS hF.sqrt (ultG_pos hF hm) hb this, one_mul]
  · rw [scale_negS hF.sqrt (ultG_pos hF hm) hb this, neg_one_mul]

end ult

/-- Entries of the matrix that converts ultraspherical polynomials to the next parameter. -/
def ultD (F : Libm K) (norm : Bool) (mu : K) (j : Int) : K :=
  if norm then if j = 0 then F.sqrt (F.div (2 * mu + 1) (2 * mu + 2)) else copysignK (F.sqrt (F.div ((j + 2 * mu) * (j + 2 * mu + 1)) (4 * (j + mu) * (j + mu + 1)))) mu
  else if j = 0 then 1 else F.div mu (j + mu)
def ultU (F : Libm K) (norm : Bool) (mu : K) (j : Int) : K :=
  if norm then -copysignK (F.sqrt (F.div (j * (j - 1)) (4 * (j + mu) * (j + mu - 1)))) mu else F.div (-mu) (j + mu)

theorem ult_lead_up (hm : -1 / 2 < mu) (h0 : mu ≠ 0) {n : Int} (hn : 0 ≤ n) : lead (ultR mu) n = lead (ultR (mu + 1)) n * (mu / (n + mu)) := by
  refine eq_of_steps (s := lead (ultR mu)) (t := fun n => lead (ultR (mu + 1)) n * (mu / (n + mu))) ?_ (fun n hn ih => ?_) hn
  · rw [lead_zero, lead_zero, Int.cast_zero, zero_add, div_self h0, mul_one]
  · have h1 : (0 : K) ≤ n := by exact_mod_cast hn
    have n1 : (n : K) + mu ≠ 0 := by
      rcases eq_or_lt_of_le hn with h | h
      · subst h; simpa using h0
      · have h3 : (1 : K) ≤ n := by exact_mod_cast h
        linarith
    have n2 : (n : K) + (mu + 1) ≠ 0 := by linarith
    have n3 : (n : K) + 1 ≠ 0 := by linarith
    rw [lead_succ _ hn, lead_succ _ hn, ih]
    unfold ultR
    push_cast
    rw [show (n : K) + 1 + mu = n + (mu + 1) by ring]
    field_simp

theorem ult_D (hF : IsLibm F) (hm : -1 / 2 < mu) (h0 : mu ≠ 0) {j : Int} (hj : 0 ≤ j) : ultS F norm mu j = ultS F norm (mu + 1) j * ultD F norm mu j := by
  have h1 : (0 : K) ≤ j := by exact_mod_cast hj
  have a0 : -1 < mu - 1 / 2 := by linarith
  cases norm
  · show lead (ultR mu) j = lead (ultR (mu + 1)) j * ultD F false mu j
    rw [ult_lead_up hm h0 hj]
    unfold ultD
    simp only [Bool.false_eq_true, if_false]
    split_ifs with h
    · rw [h, Int.cast_zero, zero_add, div_self h0]
    · have h2 : (1 : K) ≤ j := by exact_mod_cast (by omega : 1 ≤ j)
      rw [hF.div _ _ (by linarith)]
  · have hu := ultS_true (mu := mu + 1) hF (by linarith) (by linarith) hj
    rw [if_pos (.inr (by linarith : 0 < mu + 1)), one_mul] at hu
    rw [ultS_true hF hm h0 hj, hu, ultP_up hF hm hj]
    have hq := symLb (mu := mu - 1 / 2) a0 hj
    unfold ultD
    simp only [if_true]
    rcases eq_or_lt_of_le hj with h | h
    · subst h
      rw [if_pos (.inl rfl), if_pos rfl, hF.div _ _ (by linarith), one_mul]
      congr 2
      unfold jacLb
      rw [if_pos rfl, show mu - 1 / 2 + 1 = mu + 1 / 2 by ring, show mu - 1 / 2 + (mu - 1 / 2) + 2 = 2 * (mu + 1 / 2) by ring, show mu - 1 / 2 + (mu - 1 / 2) + 3 = 2 * (mu + 1) by ring,
        show 2 * mu + 1 = 2 * (mu + 1 / 2) by ring, show 2 * mu + 2 = 2 * (mu + 1) by ring]
      have : mu + 1 / 2 ≠ 0 := by linarith
      have : mu + 1 ≠ 0 := by linarith
      generalize mu + 1 / 2 = v at *
      field_simp
      norm_num
    · have h2 : (1 : K) ≤ j := by exact_mod_cast h
      have e1 : (j : K) + (mu - 1 / 2) + 1 / 2 = j + mu := by ring
      have e2 : (j : K) + (mu - 1 / 2) + 3 / 2 = j + mu + 1 := by ring
      have p1 : 0 < (j : K) + mu := by linarith
      have p2 : 0 < (j : K) + mu + 1 := by linarith
      rw [hq (by rw [e1]; linarith), e1, e2, if_neg (show ¬ j = 0 by omega), show (j : K) + 2 * (mu - 1 / 2) + 1 = j + 2 * mu by ring, show (j : K) + 2 * (mu - 1 / 2) + 2 = j + 2 * mu + 1 by ring,
        hF.div _ _ (by positivity)]
      have hp : 0 < F.sqrt ((j + 2 * mu) * (j + 2 * mu + 1) / (4 * (j + mu) * (j + mu + 1))) := sqrt_pos hF.sqrt (div_pos (mul_pos (by linarith) (by linarith)) (by positivity))
      unfold copysignK
      rw [abs_of_pos hp]
      by_cases hmu : 0 < mu
      · rw [if_pos (.inr hmu), if_neg (not_lt.2 (le_of_lt hmu)), one_mul]
      · rw [if_neg (by rintro (h' | h'); · omega
                       · exact hmu h'), if_pos (lt_of_le_of_ne (not_lt.1 hmu) h0)]
        ring

theorem ult_U (hF : IsLibm F) (hm : -1 / 2 < mu) (h0 : mu ≠ 0) {j : Int} (hj : 2 ≤ j) : ultS F norm mu j * symR mu j = ultS F norm (mu + 1) (j - 2) * ultU F norm mu j := by
  have h1 : (2 : K) ≤ j := by exact_mod_cast hj
  have n2 : (j : K) + mu - 1 ≠ 0 := by linarith
  have n3 : (j : K) + mu ≠ 0 := by linarith
  cases norm
  · show lead (ultR mu) j * symR mu j = lead (ultR (mu + 1)) (j - 2) * ultU F false mu j
    have s1 := lead_succ (ultR mu) (show 0 ≤ j - 2 by omega)
    have s2 := lead_succ (ultR mu) (show 0 ≤ j - 1 by omega)
    rw [show j - 2 + 1 = j - 1 by ring] at s1
    rw [sub_add_cancel] at s2
    rw [s2, s1, ult_lead_up hm h0 (by omega)]
    unfold ultU ultR symR
    simp only [Bool.false_eq_true, if_false]
    rw [hF.div _ _ n3]
    push_cast
    have n1 : (j : K) - 2 + mu ≠ 0 := by
      rcases eq_or_lt_of_le hj with h | h
      · subst h; push_cast; simpa using h0
      · have h3 : (3 : K) ≤ j := by exact_mod_cast h
        linarith
    have n4 : (j : K) ≠ 0 := by linarith
    have n5 : (j : K) - 1 ≠ 0 := by linarith
    rw [show (j : K) - 2 + 1 = j - 1 by ring, sub_add_cancel, show (j : K) - 1 + mu = j + mu - 1 by ring]
    generalize (j : K) - 2 + mu = v at *
    generalize (j : K) + mu = w at *
    field_simp
    ring
  · have hu := ultS_true (mu := mu + 1) hF (by linarith) (by linarith) (show 0 ≤ j - 2 by omega)
    rw [if_pos (.inr (by linarith : 0 < mu + 1)), one_mul] at hu
    rw [ultS_true hF hm h0 (by omega), hu, mul_assoc, ultP_R hF hm hj h0]
    unfold ultU
    simp only [if_true]
    have p1 : 0 < (j : K) + mu := by linarith
    have p2 : 0 < (j : K) + mu - 1 := by linarith
    rw [hF.div _ _ (by positivity)]
    have hp : 0 < F.sqrt (j * (j - 1) / (4 * (j + mu) * (j + mu - 1))) := sqrt_pos hF.sqrt (div_pos (mul_pos (by linarith) (by linarith)) (by positivity))
    unfold copysignK
    rw [abs_of_pos hp]
    by_cases hmu : 0 < mu
    · rw [if_pos (.inr hmu), if_neg (not_lt.2 (le_of_lt hmu)), one_mul]
    · rw [if_neg (by rintro (h' | h'); · omega
                     · exact hmu h'), if_pos (lt_of_le_of_ne (not_lt.1 hmu) h0)]
      ring

end FT.Poly
