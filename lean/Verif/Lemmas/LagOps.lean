import Verif.Lemmas.Der

/-! # Entries of the operators on Laguerre and Hermite polynomials -/

set_option linter.unusedSectionVars false

namespace FT.Poly
open Polynomial
variable {K : Type*} [Field K] [LinearOrder K] [IsStrictOrderedRing K] {F : Libm K} {norm : Bool} {α β : K}

theorem lagR_neg {n : Int} (hn : 0 ≤ n) : lagR (K := K) n < 0 := by
  have : (0 : K) ≤ n := by exact_mod_cast hn
  exact div_neg_of_neg_of_pos (by norm_num) (by linarith)

theorem lagB_pos (hα : -1 < α) {n : Int} (hn : 1 ≤ n) : 0 < lagB α n := by
  have : (1 : K) ≤ n := by exact_mod_cast hn
  exact mul_pos (by linarith) (by linarith)

theorem herB_pos {n : Int} (hn : 1 ≤ n) : 0 < herB (K := K) n := by
  have : (1 : K) ≤ n := by exact_mod_cast hn
  exact div_pos (by linarith) zero_lt_two

/-- Quotients of consecutive factors. -/
def lagStep (F : Libm K) (norm : Bool) (α : K) (n : Int) : K := if norm then -(1 / F.sqrt ((n + 1) * (n + α + 1))) else -1 / (n + 1)
def herStep (F : Libm K) (norm : Bool) (n : Int) : K := if norm then 1 / F.sqrt ((n + 1) / 2) else 2
/-- The quotient of the factors of the same degree in the family and in the raised family. -/
def lagTau (F : Libm K) (norm : Bool) (α : K) (n : Int) : K := if norm then F.sqrt (n + α + 1) else 1
/-- The quotient of the factors of degree `n + 1` of the family and of degree `n` of the raised family. -/
def lagST (F : Libm K) (norm : Bool) (n : Int) : K := if norm then -(1 / F.sqrt (n + 1)) else -1 / (n + 1)

theorem herS_succ (hF : IsLibm F) {n : Int} (hn : 0 ≤ n) : herS F norm (n + 1) = herS F norm n * herStep F norm n := by
  unfold herS
  rw [scale_succ hF.sqrt (r := herR) (b := herB) (hF.gamma_pos _ (by norm_num)) (fun _ _ => two_ne_zero) (fun _ h => herB_pos h) hn]
  congr 1
  unfold herStep
  cases norm
  · rfl
  · rw [step_pos hF.sqrt (by unfold herR; norm_num) (herB_pos (by omega)), if_pos rfl]
    unfold herB
    push_cast
    rfl

section
variable (hF : IsLibm F) (hα : -1 < α)
include hF hα

theorem lagS_succ {n : Int} (hn : 0 ≤ n) : lagS F norm α (n + 1) = lagS F norm α n * lagStep F norm α n := by
  unfold lagS
  rw [scale_succ hF.sqrt (hF.gamma_pos _ (by linarith)) (fun _ h => ne_of_lt (lagR_neg h)) (fun _ h => lagB_pos hα h) hn]
  congr 1
  unfold lagStep
  cases norm
  · rfl
  · rw [step_neg hF.sqrt (lagR_neg hn) (lagB_pos hα (by omega)), if_pos rfl]
    unfold lagB
    push_cast
    rw [show (n : K) + 1 + α = n + α + 1 by ring]

theorem lagTau_step {n : Int} (hn : 0 ≤ n) : lagStep F norm α n * lagTau F norm α n = lagST F norm n := by
  have h0 : (0 : K) ≤ n := by exact_mod_cast hn
  unfold lagStep lagTau lagST
  split_ifs
  · have h1 := sqrt_pos hF.sqrt (show 0 < (n : K) + 1 by linarith)
    have h2 := sqrt_pos hF.sqrt (show 0 < (n : K) + α + 1 by linarith)
    rw [sqrt_mul hF.sqrt (by linarith) (by linarith)]
    field_simp
  · rw [mul_one]

theorem lagTau_pos {n : Int} (hn : 0 ≤ n) : 0 < lagTau F norm α n := by
  have h0 : (0 : K) ≤ n := by exact_mod_cast hn
  unfold lagTau
  split_ifs
  · exact sqrt_pos hF.sqrt (by linarith)
  · exact zero_lt_one

theorem lagS_up {n : Int} (hn : 0 ≤ n) : lagS F norm α n = lagS F norm (α + 1) n * lagTau F norm α n := by
  refine eq_of_steps (t := fun n => lagS F norm (α + 1) n * lagTau F norm α n) ?_ (fun n hn ih => ?_) hn
  · unfold lagS
    rw [scale_zero, scale_zero]
    unfold lagTau
    split_ifs
    · have h1 := sqrt_pos hF.sqrt (hF.gamma_pos (α + 1) (by linarith))
      have h2 := sqrt_pos hF.sqrt (show 0 < α + 1 by linarith)
      rw [hF.gamma_succ (α + 1) (by linarith), sqrt_mul hF.sqrt (by linarith) (le_of_lt (hF.gamma_pos _ (by linarith)))]
      push_cast
      rw [zero_add]
      field_simp
    · rw [mul_one]
  · have h0 : (0 : K) ≤ n := by exact_mod_cast hn
    rw [lagS_succ hF hα hn, ih]
    rw [lagS_succ hF (by linarith : -1 < α + 1) hn, mul_assoc, mul_comm (lagTau F norm α n), lagTau_step hF hα hn, mul_assoc]
    congr 1
    unfold lagStep lagTau lagST
    split_ifs
    · have h1 := sqrt_pos hF.sqrt (show 0 < (n : K) + 1 by linarith)
      have h2 := sqrt_pos hF.sqrt (show 0 < (n : K) + (α + 1) + 1 by linarith)
      rw [sqrt_mul hF.sqrt (by linarith) (by linarith)]
      push_cast
      rw [show (n : K) + 1 + α + 1 = n + (α + 1) + 1 by ring]
      field_simp
    · rw [mul_one]

theorem lagS_1 {n : Int} (hn : 0 ≤ n) : lagS F norm α (n + 1) = lagS F norm (α + 1) n * lagST F norm n := by
  rw [lagS_succ hF hα hn, lagS_up hF hα hn, mul_assoc, mul_comm (lagTau F norm α n), lagTau_step hF hα hn]

omit hα in
theorem lagDer {j : Int} (hj : 1 ≤ j) : j * lagST F norm (j - 1) = if norm then -F.sqrt j else -1 := by
  have h0 : (1 : K) ≤ j := by exact_mod_cast hj
  unfold lagST
  push_cast
  rw [sub_add_cancel]
  split_ifs
  · have h1 := sqrt_pos hF.sqrt (show 0 < (j : K) by linarith)
    have h2 := (hF.sqrt (j : K) (by linarith)).2
    field_simp
    linear_combination h2
  · have : (j : K) ≠ 0 := by linarith
    field_simp

theorem Lag_derivative {j : Int} (hj : 1 ≤ j) : derivative (Lag F norm α j) = C (if norm then -F.sqrt j else -1) * Lag F norm (α + 1) (j - 1) := by
  have := lagS_1 (norm := norm) hF hα (show 0 ≤ j - 1 by omega)
  rw [sub_add_cancel] at this
  unfold Lag scaled
  rw [derivative_C_mul, laguerre_derivative (by omega), this, ← lagDer hF hj, C_mul, C_mul]
  ring

end

theorem herDer (hF : IsLibm F) {j : Int} (hj : 1 ≤ j) : j * herStep F norm (j - 1) = if norm then F.sqrt (2 * j) else 2 * j := by
  have h0 : (1 : K) ≤ j := by exact_mod_cast hj
  unfold herStep
  push_cast
  rw [sub_add_cancel]
  split_ifs
  · have h1 := sqrt_pos hF.sqrt (show 0 < (j : K) / 2 by linarith)
    have h2 := hF.sqrt ((j : K) / 2) (by linarith)
    rw [mul_one_div, div_eq_iff (ne_of_gt h1), ← sqrt_mul hF.sqrt (by linarith) (by linarith), show 2 * (j : K) * (j / 2) = j * j by ring, sqrt_sq hF.sqrt (by linarith)]
  · ring

theorem Her_derivative (hF : IsLibm F) {j : Int} (hj : 1 ≤ j) : derivative (Her F norm j) = C (if norm then F.sqrt (2 * j) else 2 * j) * Her F norm (j - 1) := by
  have := herS_succ (norm := norm) hF (show 0 ≤ j - 1 by omega)
  rw [sub_add_cancel] at this
  unfold Her scaled
  rw [derivative_C_mul, hermite_derivative (by omega), this, ← herDer hF hj, C_mul, C_mul]
  ring

/-- The recurrence of scaled polynomials. -/
theorem scaled_rec {a b s σ : Int → K} (hs : ∀ n, 0 ≤ n → s (n + 1) = s n * σ n) {n : Int} (hn : 0 ≤ n) {A B c : K} (hA : A = σ n) (hB : B = -(a n * σ n)) (hc : 1 ≤ n → c = b n * σ n * σ (n - 1)) :
    scaled s (monic a b) (n + 1) = (C A * X + C B) * scaled s (monic a b) n - C c * scaled s (monic a b) (n - 1) := by
  unfold scaled
  rw [monic_succ hn, hs n hn, hA, hB]
  rcases lt_or_ge n 1 with h | h
  · rw [monic_neg (show n - 1 < 0 by omega)]
    simp only [C_mul, C_neg]
    ring
  · have := hs (n - 1) (by omega)
    rw [sub_add_cancel] at this
    rw [hc h, this]
    simp only [C_mul, C_neg]
    ring

section recurrence
variable (hF : IsLibm F) (hα : -1 < α) (hβ : -1 < β)
include hF hα hβ

/-- The root that the coefficients have in common. -/
theorem step_root {n : Int} (hn : 1 ≤ n) :
    (2 * n + α + β + 2) / 2 * F.sqrt ((2 * n + α + β + 1) * (2 * n + α + β + 3) / ((n + 1) * (n + α + 1) * (n + β + 1) * (n + α + β + 1))) = jacStep F true α β n := by
  have h0 : (1 : K) ≤ n := by exact_mod_cast hn
  have h1 : 0 < n + α + 1 := by linarith
  have h2 : 0 < n + β + 1 := by linarith
  have h3 : 0 < n + α + β + 1 := by linarith
  have h5 : 0 < 2 * n + α + β + 1 := by linarith
  have h6 : 0 < 2 * n + α + β + 2 := by linarith
  have h7 : 0 < 2 * n + α + β + 3 := by linarith
  have h8 : (0 : K) < n + 1 := by linarith
  refine coef_sqrt hF.sqrt (by positivity) (by positivity) (le_of_lt (jacStep_pos hF hα hβ (by omega))) ?_
  rw [jacStep_sq hF hα hβ (by omega)]
  unfold jacB
  rw [if_neg (by omega)]
  push_cast
  rw [show (n : K) + 1 + α = n + α + 1 by ring, show (n : K) + 1 + β = n + β + 1 by ring, show (n : K) + α + 1 + β = n + α + β + 1 by ring,
    show 2 * ((n : K) + 1) + α + β = 2 * n + α + β + 2 by ring, show 2 * (n : K) + α + β + 2 - 1 = 2 * n + α + β + 1 by ring, show 2 * (n : K) + α + β + 2 + 1 = 2 * n + α + β + 3 by ring]
  have := ne_of_gt h5
  have := ne_of_gt h6
  have := ne_of_gt h7
  generalize 2 * (n : K) + α + β + 1 = v1 at *
  generalize 2 * (n : K) + α + β + 2 = v2 at *
  generalize 2 * (n : K) + α + β + 3 = v3 at *
  field_simp
  norm_num

theorem step_root0 : (α + β + 2) / 2 * F.sqrt ((α + β + 3) / ((α + 1) * (β + 1))) = jacStep F true α β 0 := by
  have h1 : 0 < α + 1 := by linarith
  have h2 : 0 < β + 1 := by linarith
  have h6 : 0 < α + β + 2 := by linarith
  have h7 : 0 < α + β + 3 := by linarith
  refine coef_sqrt hF.sqrt (by positivity) (by positivity) (le_of_lt (jacStep_pos hF hα hβ le_rfl)) ?_
  rw [jacStep_sq hF hα hβ le_rfl]
  unfold jacB
  rw [if_pos (by norm_num)]
  field_simp
  norm_num

theorem recA_eq {n : Int} (hn : 0 ≤ n) : recAJacobi F norm n α β = jacStep F norm α β n := by
  have h0 : (0 : K) ≤ n := by exact_mod_cast hn
  have h1 : 0 < α + 1 := by linarith
  have h2 : 0 < β + 1 := by linarith
  unfold recAJacobi
  cases norm
  · unfold jacStep jacR
    simp only [Bool.false_eq_true, if_false]
    split_ifs with h
    · rw [hF.div _ _ two_ne_zero]
    · have h3 : (1 : K) ≤ n := by exact_mod_cast (by omega : 1 ≤ n)
      rw [hF.div _ _ (mul_ne_zero (mul_ne_zero two_ne_zero (by linarith)) (by linarith))]
  · simp only [if_true]
    split_ifs with h
    · rw [h, hF.div _ _ two_ne_zero, hF.div _ _ (by positivity), step_root0 hF hα hβ]
    · have h3 : (1 : K) ≤ n := by exact_mod_cast (by omega : 1 ≤ n)
      have h1 : 0 < n + α + 1 := by linarith
      have h2 : 0 < n + β + 1 := by linarith
      have h4 : 0 < n + α + β + 1 := by linarith
      have h5 : 0 < 2 * n + α + β + 1 := by linarith
      have h6 : 0 < 2 * n + α + β + 2 := by linarith
      have h7 : 0 < 2 * n + α + β + 3 := by linarith
      rw [hF.div _ _ two_ne_zero, hF.div _ _ (by positivity), ← step_root hF hα hβ (by omega),
        show (2 * (n : K) + α + β + 1) * (2 * n + α + β + 2) * (2 * n + α + β + 2) * (2 * n + α + β + 3) / ((n + 1) * (n + α + 1) * (n + β + 1) * (n + α + β + 1)) =
          ((2 * n + α + β + 2) * (2 * n + α + β + 2)) * ((2 * n + α + β + 1) * (2 * n + α + β + 3) / ((n + 1) * (n + α + 1) * (n + β + 1) * (n + α + β + 1))) by ring,
        sqrt_mul hF.sqrt (by positivity) (by positivity), sqrt_sq hF.sqrt (le_of_lt h6)]
      ring

theorem recB_eq {n : Int} (hn : 0 ≤ n) : recBJacobi F norm n α β = -(jacA α β n * jacStep F norm α β n) := by
  have h0 : (0 : K) ≤ n := by exact_mod_cast hn
  have h1 : 0 < α + 1 := by linarith
  have h2 : 0 < β + 1 := by linarith
  have h8 : α + β + 2 ≠ 0 := by linarith
  unfold recBJacobi jacA
  cases norm
  · unfold jacStep jacR
    simp only [Bool.false_eq_true, if_false]
    split_ifs with h
    · rw [hF.div _ _ two_ne_zero]
      field_simp
      ring
    · have h3 : (1 : K) ≤ n := by exact_mod_cast (by omega : 1 ≤ n)
      have h4 : (n : K) + α + β + 1 ≠ 0 := by linarith
      have h6 : 2 * (n : K) + α + β + 2 ≠ 0 := by linarith
      have h7 : 2 * (n : K) + α + β ≠ 0 := by linarith
      have h9 : (n : K) + 1 ≠ 0 := by linarith
      rw [hF.div _ _ (mul_ne_zero (mul_ne_zero (mul_ne_zero two_ne_zero h9) h4) h7)]
      generalize 2 * (n : K) + α + β + 2 = v2 at *
      generalize 2 * (n : K) + α + β = v0 at *
      generalize (n : K) + α + β + 1 = w at *
      field_simp
      ring
  · simp only [if_true]
    split_ifs with h
    · rw [h, hF.div _ _ two_ne_zero, hF.div _ _ (by positivity), ← step_root0 hF hα hβ]
      field_simp
      ring
    · have h3 : (1 : K) ≤ n := by exact_mod_cast (by omega : 1 ≤ n)
      have h1 : 0 < n + α + 1 := by linarith
      have h2 : 0 < n + β + 1 := by linarith
      have h4 : 0 < n + α + β + 1 := by linarith
      have h6 : 2 * (n : K) + α + β + 2 ≠ 0 := by linarith
      have h7 : 2 * (n : K) + α + β ≠ 0 := by linarith
      rw [hF.div _ _ (mul_ne_zero two_ne_zero h7), hF.div _ _ (by positivity), ← step_root hF hα hβ (by omega)]
      generalize F.sqrt _ = r
      generalize 2 * (n : K) + α + β + 2 = v2 at *
      generalize 2 * (n : K) + α + β = v0 at *
      field_simp
      ring

theorem recC_eq {n : Int} (hn : 1 ≤ n) : recCJacobi F norm n α β = jacB α β n * jacStep F norm α β n * jacStep F norm α β (n - 1) := by
  have h0 : (1 : K) ≤ n := by exact_mod_cast hn
  have h1 : 0 < n + α := by linarith
  have h2 : 0 < n + β := by linarith
  have h1' : 0 < n + α + 1 := by linarith
  have h2' : 0 < n + β + 1 := by linarith
  have h3 : 0 < n + α + β + 1 := by linarith
  have h4 : 0 < 2 * n + α + β := by linarith
  have h5 : 0 < 2 * n + α + β + 1 := by linarith
  have h6 : 0 < 2 * n + α + β + 2 := by linarith
  have h7 : 0 < 2 * n + α + β + 3 := by linarith
  have h9 : (0 : K) < n + 1 := by linarith
  have h10 : (0 : K) < n := by linarith
  unfold recCJacobi
  cases norm
  · rw [show jacB α β n * jacStep F false α β n * jacStep F false α β (n - 1) = jacStep F false α β (n - 1) * jacB α β n * jacStep F false α β n by ring, muldn hF hα hβ hn]
    unfold jacStep jacR
    simp only [Bool.false_eq_true, if_false]
    rw [if_neg (by omega), hF.div _ _ (by positivity), hF.div _ _ (by positivity)]
    have := ne_of_gt h4
    have := ne_of_gt h5
    have := ne_of_gt h6
    generalize 2 * (n : K) + α + β + 2 = v2 at *
    generalize 2 * (n : K) + α + β + 1 = v1 at *
    generalize 2 * (n : K) + α + β = v0 at *
    generalize (n : K) + α + β + 1 = w at *
    field_simp
  · simp only [if_true]
    have hb := jacB_pos hα hβ hn
    have hb' := jacB_pos hα hβ (show 1 ≤ n + 1 by omega)
    have e1 := jacStep_pos (norm := true) hF hα hβ (show 0 ≤ n by omega)
    have e2 := jacStep_pos (norm := true) hF hα hβ (show 0 ≤ n - 1 by omega)
    have q1 := jacStep_sq hF hα hβ (show 0 ≤ n by omega)
    have q2 := jacStep_sq hF hα hβ (show 0 ≤ n - 1 by omega)
    rw [sub_add_cancel] at q2
    have hy : jacB α β n * jacStep F true α β n * jacStep F true α β (n - 1) * (jacB α β n * jacStep F true α β n * jacStep F true α β (n - 1)) = jacB α β n / jacB α β (n + 1) := by
      rw [mul_mul_mul_comm, mul_mul_mul_comm (jacB α β n), q1, q2]
      field_simp
    have hB' : jacB α β (n + 1) = 4 * (n + 1) * (n + α + 1) * (n + β + 1) * (n + α + β + 1) / ((2 * n + α + β + 2) * (2 * n + α + β + 2) * (2 * n + α + β + 1) * (2 * n + α + β + 3)) := by
      unfold jacB
      rw [if_neg (by omega)]
      push_cast
      congr 1 <;> ring
    split_ifs with h
    · subst h
      have s1 : 0 < α + 1 := by linarith
      have s2 : 0 < β + 1 := by linarith
      have s3 : 0 < α + 2 := by linarith
      have s4 : 0 < β + 2 := by linarith
      have s5 : 0 < α + β + 2 := by linarith
      have s6 : 0 < α + β + 3 := by linarith
      have s7 : 0 < α + β + 4 := by linarith
      have s8 : 0 < α + β + 5 := by linarith
      rw [hF.div _ _ (by positivity), hF.div _ _ (by positivity)]
      refine coef_sqrt hF.sqrt (by positivity) (by positivity) (by positivity) ?_
      rw [hy, hB']
      unfold jacB
      rw [if_pos rfl]
      push_cast
      rw [show (1 : K) + 1 = 2 by norm_num, show (1 : K) + α + 1 = α + 2 by ring, show (1 : K) + β + 1 = β + 2 by ring, show (1 : K) + α + β + 1 = α + β + 2 by ring,
        show 2 * (1 : K) + α + β + 2 = α + β + 4 by ring, show 2 * (1 : K) + α + β + 1 = α + β + 3 by ring, show 2 * (1 : K) + α + β + 3 = α + β + 5 by ring]
      have := ne_of_gt s5
      have := ne_of_gt s6
      have := ne_of_gt s7
      generalize α + β + 2 = v2 at *
      generalize α + β + 3 = v3 at *
      generalize α + β + 4 = v4 at *
      generalize α + β + 5 = v5 at *
      field_simp
    · have k0 : (2 : K) ≤ n := by exact_mod_cast (by omega : 2 ≤ n)
      have k1 : 0 < n + α + β := by linarith
      have k2 : 0 < 2 * n + α + β - 1 := by linarith
      rw [hF.div _ _ (ne_of_gt h4), hF.div _ _ (ne_of_gt k2), hF.div _ _ (by positivity)]
      refine coef_sqrt hF.sqrt (by positivity) (by positivity) (by positivity) ?_
      rw [hy, hB']
      unfold jacB
      rw [if_neg h]
      have := ne_of_gt h4
      have := ne_of_gt h5
      have := ne_of_gt h6
      have := ne_of_gt h7
      have := ne_of_gt k2
      generalize 2 * (n : K) + α + β + 3 = v3 at *
      generalize 2 * (n : K) + α + β + 2 = v2 at *
      generalize 2 * (n : K) + α + β + 1 = v1 at *
      generalize 2 * (n : K) + α + β - 1 = v9 at *
      generalize 2 * (n : K) + α + β = v0 at *
      generalize (n : K) + α + β + 1 = w at *
      generalize (n : K) + α + β = w' at *
      field_simp

end recurrence
end FT.Poly
