import Verif.Lemmas.Scale

/-! # Factors of the Jacobi families -/

set_option linter.unusedSectionVars false

namespace FT.Poly
open Polynomial
variable {K : Type*} [Field K] [LinearOrder K] [IsStrictOrderedRing K] {F : Libm K} {norm : Bool} {α β : K}

theorem jacB_pos (hα : -1 < α) (hβ : -1 < β) {n : Int} (hn : 1 ≤ n) : 0 < jacB α β n := by
  unfold jacB
  split_ifs with h
  · have h1 : 0 < α + 1 := by linarith
    have h2 : 0 < β + 1 := by linarith
    have h3 : 0 < α + β + 2 := by linarith
    have h4 : 0 < α + β + 3 := by linarith
    positivity
  · have h0 : (2 : K) ≤ n := by exact_mod_cast (by omega : 2 ≤ n)
    have h1 : 0 < n + α := by linarith
    have h2 : 0 < n + β := by linarith
    have h3 : 0 < n + α + β := by linarith
    have h4 : 0 < 2 * n + α + β := by linarith
    have h5 : 0 < 2 * n + α + β - 1 := by linarith
    have h6 : 0 < 2 * n + α + β + 1 := by linarith
    have h7 : (0 : K) < n := by linarith
    positivity

theorem jacR_pos (hα : -1 < α) (hβ : -1 < β) {n : Int} (hn : 0 ≤ n) : 0 < jacR α β n := by
  unfold jacR
  split_ifs with h
  · have : 0 < α + β + 2 := by linarith
    positivity
  · have h0 : (1 : K) ≤ n := by exact_mod_cast (by omega : 1 ≤ n)
    have h1 : 0 < n + α + β + 1 := by linarith
    have h2 : 0 < 2 * n + α + β + 1 := by linarith
    have h3 : 0 < 2 * n + α + β + 2 := by linarith
    have h7 : (0 : K) < n + 1 := by linarith
    positivity

theorem jacLb_pos (hα : -1 < α) (hβ : -1 < β) {n : Int} (hn : 0 ≤ n) : 0 < jacLb α β n := by
  unfold jacLb
  split_ifs with h
  · have h1 : 0 < α + 1 := by linarith
    have h2 : 0 < β + 1 := by linarith
    have h3 : 0 < α + β + 2 := by linarith
    have h4 : 0 < α + β + 3 := by linarith
    positivity
  · have h0 : (1 : K) ≤ n := by exact_mod_cast (by omega : 1 ≤ n)
    unfold gF
    have h1 : 0 < 2 * n + (α + β) + 2 - (α - β) := by linarith
    have h2 : 0 < 2 * n + (α + β) + 2 + (α - β) := by linarith
    have h3 : 0 < 2 * n + (α + β) + (α + β) + 2 := by linarith
    have h4 : 0 < 2 * n + (α + β) + (α + β) + 4 := by linarith
    have h5 : 0 < 2 * n + (α + β) + 2 := by linarith
    have h6 : 0 < 2 * n + (α + β) + 1 := by linarith
    have h7 : 0 < 2 * n + (α + β) + 3 := by linarith
    positivity

theorem jacG_pos (hF : IsLibm F) (hα : -1 < α) (hβ : -1 < β) : 0 < jacG F α β := by
  unfold jacG
  have := hF.gamma_pos (α + 1) (by linarith)
  have := hF.gamma_pos (β + 1) (by linarith)
  have := hF.gamma_pos (α + β + 2) (by linarith)
  have := hF.pow2_pos (α + β + 1)
  positivity

theorem jacG_up (hF : IsLibm F) (hα : -1 < α) (hβ : -1 < β) : jacG F (α + 1) (β + 1) = jacLb α β 0 * jacG F α β := by
  unfold jacG jacLb
  have h1 := ne_of_gt (hF.gamma_pos (α + β + 2) (by linarith))
  have h2 : α + β + 2 ≠ 0 := by linarith
  have h3 : α + β + 3 ≠ 0 := by linarith
  rw [if_pos rfl, hF.gamma_succ (α + 1) (by linarith), hF.gamma_succ (β + 1) (by linarith), show α + 1 + (β + 1) + 1 = α + β + 1 + 1 + 1 by ring, hF.pow2_succ, hF.pow2_succ,
    show α + 1 + (β + 1) + 2 = α + β + 2 + 1 + 1 by ring, hF.gamma_succ (α + β + 2 + 1) (by linarith), hF.gamma_succ (α + β + 2) (by linarith), show α + β + 2 + 1 = α + β + 3 by ring]
  field_simp
  ring

section
variable (hF : IsLibm F) (hα : -1 < α) (hβ : -1 < β)
include hF hα hβ

theorem jacS_ne (n : Int) : jacS F norm α β n ≠ 0 :=
  scale_ne hF.sqrt (jacG_pos hF hα hβ) (fun _ h => ne_of_gt (jacR_pos hα hβ h)) (fun _ h => jacB_pos hα hβ h) n

/-- The quotient of consecutive factors. -/
def jacStep (F : Libm K) (norm : Bool) (α β : K) (n : Int) : K := if norm then 1 / F.sqrt (jacB α β (n + 1)) else jacR α β n

theorem jacS_succ {n : Int} (hn : 0 ≤ n) : jacS F norm α β (n + 1) = jacS F norm α β n * jacStep F norm α β n := by
  unfold jacS
  rw [scale_succ hF.sqrt (jacG_pos hF hα hβ) (fun _ h => ne_of_gt (jacR_pos hα hβ h)) (fun _ h => jacB_pos hα hβ h) hn]
  congr 1
  unfold jacStep
  cases norm
  · rfl
  · rw [step_pos hF.sqrt (jacR_pos hα hβ hn) (jacB_pos hα hβ (by omega)), if_pos rfl]

theorem jacStep_pos {n : Int} (hn : 0 ≤ n) : 0 < jacStep F norm α β n := by
  unfold jacStep
  split_ifs
  · exact div_pos one_pos (sqrt_pos hF.sqrt (jacB_pos hα hβ (by omega)))
  · exact jacR_pos hα hβ hn

/-- The quotient of the factors of the family and of the raised family. -/
def jacTau (F : Libm K) (norm : Bool) (α β : K) (n : Int) : K :=
  if norm then F.sqrt (jacLb α β n) else if n = 0 then 1 else (n + α + β + 1) * (n + α + β + 2) / ((2 * n + α + β + 1) * (2 * n + α + β + 2))

theorem jacTau_pos {n : Int} (hn : 0 ≤ n) : 0 < jacTau F norm α β n := by
  unfold jacTau
  split_ifs with h1 h2
  · exact sqrt_pos hF.sqrt (jacLb_pos hα hβ hn)
  · exact one_pos
  · have h0 : (1 : K) ≤ n := by exact_mod_cast (by omega : 1 ≤ n)
    have h1 : 0 < n + α + β + 1 := by linarith
    have h2 : 0 < n + α + β + 2 := by linarith
    have h3 : 0 < 2 * n + α + β + 1 := by linarith
    have h4 : 0 < 2 * n + α + β + 2 := by linarith
    positivity

/-- The quotient of the factors of degree `n + 1` of the family and of degree `n` of the raised family. -/
theorem jacTau_step {n : Int} (hn : 0 ≤ n) :
    jacStep F norm α β n * jacTau F norm α β n = if norm then F.sqrt ((n + α + β + 2) / (n + 1)) else (n + α + β + 2) / (2 * (n + 1)) := by
  have hn' : (0 : K) ≤ n := by exact_mod_cast hn
  have hα' : 0 < α + 1 := by linarith
  have hβ' : 0 < β + 1 := by linarith
  have hn1 : (n : K) + 1 ≠ 0 := by linarith
  cases norm
  · unfold jacStep jacTau jacR
    simp only [Bool.false_eq_true, if_false]
    split_ifs with h
    · subst h
      push_cast
      field_simp
      ring
    · have h0 : (1 : K) ≤ n := by exact_mod_cast (by omega : 1 ≤ n)
      have h1 : n + α + β + 1 ≠ 0 := by linarith
      have h3 : 2 * n + α + β + 1 ≠ 0 := by linarith
      have h4 : 2 * n + α + β + 2 ≠ 0 := by linarith
      field_simp
  · unfold jacStep jacTau
    simp only [if_true]
    have b1 := jacB_pos hα hβ (show 1 ≤ n + 1 by omega)
    have f1 := jacLb_pos hα hβ hn
    have p : 0 < (n + α + β + 2) / ((n : K) + 1) := div_pos (by linarith) (by linarith)
    have q1 := sqrt_pos hF.sqrt b1
    have e : (n + α + β + 2) / ((n : K) + 1) * jacB α β (n + 1) = jacLb α β n := by
      unfold jacB jacLb
      by_cases h : n = 0
      · subst h
        have h2 : α + β + 2 ≠ 0 := by linarith
        have h3 : α + β + 3 ≠ 0 := by linarith
        rw [if_pos rfl, if_pos (by omega)]
        push_cast
        rw [zero_add, zero_add]
        field_simp
      · have h0 : (1 : K) ≤ n := by exact_mod_cast (by omega : 1 ≤ n)
        have h5 : 2 * (n : K) + (α + β) + 2 ≠ 0 := by linarith
        have h6 : 2 * (n : K) + (α + β) + 1 ≠ 0 := by linarith
        have h7 : 2 * (n : K) + (α + β) + 3 ≠ 0 := by linarith
        rw [if_neg h, if_neg (by omega)]
        unfold gF
        push_cast
        rw [show 2 * ((n : K) + 1) + α + β - 1 = 2 * n + (α + β) + 1 by ring, show 2 * ((n : K) + 1) + α + β + 1 = 2 * n + (α + β) + 3 by ring, show 2 * ((n : K) + 1) + α + β = 2 * n + (α + β) + 2 by ring]
        field_simp
        ring
    rw [← e, sqrt_mul hF.sqrt (le_of_lt p) (le_of_lt b1)]
    field_simp

theorem jacS_up {n : Int} (hn : 0 ≤ n) : jacS F norm α β n = jacS F norm (α + 1) (β + 1) n * jacTau F norm α β n := by
  have hα' : -1 < α + 1 := by linarith
  have hβ' : -1 < β + 1 := by linarith
  refine eq_of_steps (s := jacS F norm α β) (t := fun n => jacS F norm (α + 1) (β + 1) n * jacTau F norm α β n) ?_ (fun n hn ih => ?_) hn
  · unfold jacS jacTau
    rw [scale_zero, scale_zero]
    cases norm
    · simp
    · simp only [if_true]
      have g := jacG_pos hF hα hβ
      have f := jacLb_pos hα hβ (le_refl 0)
      rw [jacG_up hF hα hβ, sqrt_mul hF.sqrt (le_of_lt f) (le_of_lt g)]
      have := sqrt_pos hF.sqrt g
      have := sqrt_pos hF.sqrt f
      field_simp
  · have hn' : (0 : K) ≤ n := by exact_mod_cast hn
    beta_reduce
    rw [jacS_succ hF hα hβ hn, jacS_succ hF hα' hβ' hn, ih, mul_assoc, mul_assoc]
    congr 1
    cases norm
    · rw [mul_comm, jacTau_step hF hα hβ hn]
      unfold jacStep jacTau jacR
      simp only [Bool.false_eq_true, if_false]
      rw [if_neg (by omega : ¬ n + 1 = 0)]
      push_cast
      by_cases h : n = 0
      · subst h
        rw [if_pos rfl, show α + 1 + (β + 1) + 2 = α + β + 4 by ring]
        push_cast
        rw [show 0 + 1 + α + β + 1 = α + β + 2 by ring, show 0 + 1 + α + β + 2 = α + β + 3 by ring, show 2 * (0 + 1) + α + β + 1 = α + β + 3 by ring, show 2 * (0 + 1) + α + β + 2 = α + β + 4 by ring]
        have h3 : α + β + 3 ≠ 0 := by linarith
        have h4 : α + β + 4 ≠ 0 := by linarith
        field_simp
        ring
      · have h0 : (1 : K) ≤ n := by exact_mod_cast (by omega : 1 ≤ n)
        have k5 : n * 2 + α + β + 3 ≠ 0 := by linarith
        have k6 : n * 2 + α + β + 4 ≠ 0 := by linarith
        rw [if_neg h]
        have h1 : n + α + β + 1 ≠ 0 := by linarith
        have h2 : n + α + β + 3 ≠ 0 := by linarith
        have h3 : 2 * n + α + β + 1 ≠ 0 := by linarith
        have h4 : 2 * n + α + β + 2 ≠ 0 := by linarith
        have h5 : 2 * n + α + β + 3 ≠ 0 := by linarith
        have h6 : 2 * n + α + β + 4 ≠ 0 := by linarith
        have h7 : (n : K) + 1 ≠ 0 := by linarith
        rw [show (n : K) + 1 + α + β + 1 = n + α + β + 2 by ring, show (n : K) + 1 + α + β + 2 = n + α + β + 3 by ring, show 2 * ((n : K) + 1) + α + β + 1 = 2 * n + α + β + 3 by ring,
          show 2 * ((n : K) + 1) + α + β + 2 = 2 * n + α + β + 4 by ring, show 2 * (n : K) + (α + 1) + (β + 1) + 1 = 2 * n + α + β + 3 by ring, show 2 * (n : K) + (α + 1) + (β + 1) + 2 = 2 * n + α + β + 4 by ring,
          show (n : K) + (α + 1) + (β + 1) + 1 = n + α + β + 3 by ring]
        field_simp
    · unfold jacStep jacTau
      simp only [if_true]
      have b1 := jacB_pos hα hβ (show 1 ≤ n + 1 by omega)
      have b2 := jacB_pos hα' hβ' (show 1 ≤ n + 1 by omega)
      have f1 := jacLb_pos hα hβ hn
      have f2 := jacLb_pos hα hβ (show 0 ≤ n + 1 by omega)
      have e := jacLb_mul hα hβ (show 1 ≤ n + 1 by omega)
      rw [add_sub_cancel_right] at e
      have e2 := congrArg F.sqrt e
      rw [sqrt_mul hF.sqrt (le_of_lt f2) (le_of_lt b1), sqrt_mul hF.sqrt (le_of_lt b2) (le_of_lt f1)] at e2
      have := sqrt_pos hF.sqrt b1
      have := sqrt_pos hF.sqrt b2
      field_simp
      linear_combination -e2

end
end FT.Poly
