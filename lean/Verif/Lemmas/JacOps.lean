import Verif.Lemmas.Ops

/-! # Entries of the operators on Jacobi polynomials -/

set_option linter.unusedSectionVars false

namespace FT.Poly
open Polynomial
variable {K : Type*} [Field K] [LinearOrder K] [IsStrictOrderedRing K] {F : Libm K} {norm : Bool} {α β : K}

/-- The quotient of the factors of degree `n + 1` of the family and of degree `n` of the raised family. -/
def jacST (F : Libm K) (norm : Bool) (α β : K) (n : Int) : K := if norm then F.sqrt ((n + α + β + 2) / (n + 1)) else (n + α + β + 2) / (2 * (n + 1))

section
variable (hF : IsLibm F) (hα : -1 < α) (hβ : -1 < β)
include hF hα hβ

theorem jacS_1 {n : Int} (hn : 0 ≤ n) : jacS F norm α β (n + 1) = jacS F norm (α + 1) (β + 1) n * jacST F norm α β n := by
  rw [jacS_succ hF hα hβ hn, jacS_up hF hα hβ hn, mul_assoc, mul_comm (jacTau F norm α β n), jacTau_step hF hα hβ hn]
  rfl

theorem jacS_2 {n : Int} (hn : 0 ≤ n) : jacS F norm α β (n + 2) = jacS F norm (α + 1) (β + 1) n * (jacST F norm α β n * jacStep F norm α β (n + 1)) := by
  rw [show n + 2 = n + 1 + 1 by ring, jacS_succ hF hα hβ (by omega), jacS_1 hF hα hβ hn, mul_assoc]

omit hF in
theorem ratio_pos {n : Int} (hn : 0 ≤ n) : 0 < (n + α + β + 2) / ((n : K) + 1) := by
  have : (0 : K) ≤ n := by exact_mod_cast hn
  exact div_pos (by linarith) (by linarith)

theorem jacST_pos {n : Int} (hn : 0 ≤ n) : 0 < jacST F norm α β n := by
  have h := ratio_pos hα hβ hn
  have h0 : (0 : K) ≤ n := by exact_mod_cast hn
  unfold jacST
  split_ifs
  · exact sqrt_pos hF.sqrt h
  · exact div_pos (by linarith) (by linarith)

theorem jacST_sq {n : Int} (hn : 0 ≤ n) : jacST F true α β n * jacST F true α β n = (n + α + β + 2) / (n + 1) := (hF.sqrt _ (le_of_lt (ratio_pos hα hβ hn))).2

theorem jacStep_sq {n : Int} (hn : 0 ≤ n) : jacStep F true α β n * jacStep F true α β n = 1 / jacB α β (n + 1) := by
  unfold jacStep
  rw [if_pos rfl, div_mul_div_comm, (hF.sqrt _ (le_of_lt (jacB_pos hα hβ (by omega)))).2, one_mul]

theorem jacTau_sq {n : Int} (hn : 0 ≤ n) : jacTau F true α β n * jacTau F true α β n = jacLb α β n := (hF.sqrt _ (le_of_lt (jacLb_pos hα hβ hn))).2

end

/-- `c √X = y` for numbers of the same sign from their squares. -/
theorem coef_sqrt {sqrt : K → K} (hs : IsSqrt sqrt) {c X y : K} (hX : 0 ≤ X) (hc : 0 ≤ c) (hy : 0 ≤ y) (h : c * c * X = y * y) : c * sqrt X = y := by
  obtain ⟨h1, h2⟩ := hs X hX
  exact eq_of_sq (mul_nonneg hc h1) hy (by rw [mul_mul_mul_comm, h2, h])

section raising
variable (hF : IsLibm F) (hα : -1 < α) (hβ : -1 < β)
include hF hα hβ

theorem raise0 {j : Int} (hj : 0 ≤ j) :
    (if norm then if j = 0 then 2 * F.sqrt (F.div ((α + 1) * (β + 1)) ((α + β + 2) * (α + β + 3)))
        else 2 * F.sqrt (F.div ((j + α + 1) * (j + β + 1) * (j + α + β + 1) * (j + α + β + 2)) ((2 * j + α + β + 1) * (2 * j + α + β + 2) * (2 * j + α + β + 2) * (2 * j + α + β + 3)))
      else if j = 0 then 1 else F.div ((j + α + β + 1) * (j + α + β + 2)) ((2 * j + α + β + 1) * (2 * j + α + β + 2))) = jacTau F norm α β j := by
  have t0 := jacTau_pos (norm := norm) hF hα hβ hj
  have t2 := jacTau_sq hF hα hβ hj
  have hα' : 0 < α + 1 := by linarith
  have hβ' : 0 < β + 1 := by linarith
  have s2 : 0 < α + β + 2 := by linarith
  have s3 : 0 < α + β + 3 := by linarith
  cases norm
  · simp only [Bool.false_eq_true, if_false]
    unfold jacTau
    simp only [Bool.false_eq_true, if_false]
    split_ifs with h
    · rfl
    · have h0 : (1 : K) ≤ j := by exact_mod_cast (by omega : 1 ≤ j)
      rw [hF.div _ _ (mul_ne_zero (by linarith) (by linarith))]
  · simp only [if_true]
    unfold jacLb at t2
    split_ifs with h
    · rw [if_pos h] at t2
      rw [hF.div _ _ (by positivity)]
      refine coef_sqrt hF.sqrt (by positivity) zero_le_two (le_of_lt t0) ?_
      rw [t2]
      field_simp
      norm_num
    · have h0 : (1 : K) ≤ j := by exact_mod_cast (by omega : 1 ≤ j)
      have h1 : 0 < j + α + 1 := by linarith
      have h2 : 0 < j + β + 1 := by linarith
      have h3 : 0 < j + α + β + 1 := by linarith
      have h4 : 0 < j + α + β + 2 := by linarith
      have h5 : 0 < 2 * j + α + β + 1 := by linarith
      have h6 : 0 < 2 * j + α + β + 2 := by linarith
      have h7 : 0 < 2 * j + α + β + 3 := by linarith
      rw [if_neg h] at t2
      rw [hF.div _ _ (by positivity)]
      refine coef_sqrt hF.sqrt (by positivity) zero_le_two (le_of_lt t0) ?_
      rw [t2]
      unfold gF
      rw [show 2 * (j : K) + (α + β) + 2 = 2 * j + α + β + 2 by ring, show 2 * (j : K) + (α + β) + 1 = 2 * j + α + β + 1 by ring, show 2 * (j : K) + (α + β) + 3 = 2 * j + α + β + 3 by ring]
      field_simp
      ring

theorem raise1 {j : Int} (hj : 1 ≤ j) :
    (if norm then F.div (2 * (α - β) * F.sqrt (j * (j + α + β + 1))) ((2 * j + α + β) * (2 * j + α + β + 2)) else F.div ((α - β) * (j + α + β + 1)) ((2 * j + α + β) * (2 * j + α + β + 2))) =
      jacRa α β j * jacST F norm α β (j - 1) := by
  have h0 : (1 : K) ≤ j := by exact_mod_cast hj
  have h5 : 2 * j + α + β ≠ 0 := by linarith
  have h6 : 2 * j + α + β + 2 ≠ 0 := by linarith
  have hj0 : (j : K) ≠ 0 := by linarith
  have hST : jacST F norm α β (j - 1) = if norm then F.sqrt ((j + α + β + 1) / j) else (j + α + β + 1) / (2 * j) := by
    unfold jacST
    push_cast
    rw [show (j : K) - 1 + α + β + 2 = j + α + β + 1 by ring, sub_add_cancel]
  rw [hST, hF.div _ _ (mul_ne_zero h5 h6), hF.div _ _ (mul_ne_zero h5 h6)]
  unfold jacRa gR
  rw [show 2 * (j : K) + (α + β) + 2 = 2 * j + α + β + 2 by ring, show 2 * (j : K) + (α + β) - (α + β) = 2 * j by ring, show 2 * (j : K) + (α + β) = 2 * j + α + β by ring]
  cases norm
  · simp only [Bool.false_eq_true, if_false]
    field_simp
  · simp only [if_true]
    rw [← coef_sqrt hF.sqrt (c := j) (X := (j + α + β + 1) / j) (y := F.sqrt (j * (j + α + β + 1))) (div_nonneg (by linarith) (by linarith)) (by linarith)
      (hF.sqrt _ (mul_nonneg (by linarith) (by linarith))).1 (by rw [(hF.sqrt _ (mul_nonneg (by linarith) (by linarith))).2]; field_simp)]
    ring

theorem raise2 {j : Int} (hj : 2 ≤ j) :
    (if norm then -2 * F.sqrt (F.div ((j - 1) * j * (j + α) * (j + β)) ((2 * j + α + β - 1) * (2 * j + α + β) * (2 * j + α + β) * (2 * j + α + β + 1)))
      else F.div (-((j + α) * (j + β))) ((2 * j + α + β) * (2 * j + α + β + 1))) = jacRb α β j * (jacST F norm α β (j - 2) * jacStep F norm α β (j - 1)) := by
  have h0 : (2 : K) ≤ j := by exact_mod_cast hj
  have h1 : 0 < j + α := by linarith
  have h2 : 0 < j + β := by linarith
  have h3 : 0 < j + α + β := by linarith
  have h4 : 0 < 2 * j + α + β - 1 := by linarith
  have h5 : 0 < 2 * j + α + β := by linarith
  have h6 : 0 < 2 * j + α + β + 1 := by linarith
  have h7 : (0 : K) < j - 1 := by linarith
  have h8 : (0 : K) < j := by linarith
  have hRb : jacRb α β j = -(4 * (j * (j - 1)) * ((j + α) * (j + β))) / ((2 * j + α + β) * (2 * j + α + β) * (2 * j + α + β - 1) * (2 * j + α + β + 1)) := by
    unfold jacRb gT
    rw [show 2 * (j : K) + (α + β) = 2 * j + α + β by ring]
    field_simp
    ring
  cases norm
  · simp only [Bool.false_eq_true, if_false]
    rw [hF.div _ _ (by positivity), hRb]
    unfold jacST jacStep jacR
    simp only [Bool.false_eq_true, if_false]
    rw [if_neg (by omega : ¬ j - 1 = 0)]
    push_cast
    rw [show (j : K) - 2 + α + β + 2 = j + α + β by ring, show (j : K) - 2 + 1 = j - 1 by ring, show 2 * ((j : K) - 1) + α + β + 1 = 2 * j + α + β - 1 by ring,
      show 2 * ((j : K) - 1) + α + β + 2 = 2 * j + α + β by ring, show (j : K) - 1 + 1 = j by ring, show (j : K) - 1 + α + β + 1 = j + α + β by ring]
    generalize 2 * (j : K) + α + β = v at *
    generalize (j : K) + α + β = w at *
    field_simp
    norm_num
  · simp only [if_true]
    have e1 := jacST_pos (norm := true) hF hα hβ (show 0 ≤ j - 2 by omega)
    have e2 := jacStep_pos (norm := true) hF hα hβ (show 0 ≤ j - 1 by omega)
    have q1 := jacST_sq hF hα hβ (show 0 ≤ j - 2 by omega)
    have q2 := jacStep_sq hF hα hβ (show 0 ≤ j - 1 by omega)
    rw [sub_add_cancel] at q2
    rw [show (((j - 2 : Int) : K) + α + β + 2) / (((j - 2 : Int) : K) + 1) = (j + α + β) / (j - 1) by push_cast; ring_nf] at q1
    have hB : jacB α β j = 4 * (j * (j + α) * (j + β) * (j + α + β)) / ((2 * j + α + β) * (2 * j + α + β) * (2 * j + α + β - 1) * (2 * j + α + β + 1)) := by
      unfold jacB
      rw [if_neg (by omega)]
      congr 1
      ring
    have hb := jacB_pos hα hβ (show 1 ≤ j by omega)
    set x := jacST F true α β (j - 2)
    set y := jacStep F true α β (j - 1)
    rw [hF.div _ _ (by positivity), hRb]
    have := coef_sqrt hF.sqrt (c := 2) (X := ((j - 1) * j * (j + α) * (j + β)) / ((2 * j + α + β - 1) * (2 * j + α + β) * (2 * j + α + β) * (2 * j + α + β + 1)))
      (y := 4 * (j * (j - 1)) * ((j + α) * (j + β)) / ((2 * j + α + β) * (2 * j + α + β) * (2 * j + α + β - 1) * (2 * j + α + β + 1)) * (x * y)) (by positivity) zero_le_two (by positivity) (by
        rw [mul_mul_mul_comm, mul_mul_mul_comm x y x y, q1, q2, hB]
        field_simp
        norm_num)
    rw [neg_mul, this]
    ring

end raising

section lowering
variable (hF : IsLibm F) (hα : -1 < α) (hβ : -1 < β)
include hF hα hβ

theorem jacTau_ne {j : Int} (hj : 0 ≤ j) : jacTau F norm α β j ≠ 0 := ne_of_gt (jacTau_pos hF hα hβ hj)

theorem lower0 {j : Int} (hj : 0 ≤ j) :
    jacTau F norm α β j * (if norm then if j = 0 then 2 * F.sqrt (F.div ((α + 1) * (β + 1)) ((α + β + 2) * (α + β + 3)))
        else 2 * F.sqrt (F.div ((j + α + 1) * (j + β + 1) * (j + α + β + 1) * (j + α + β + 2)) ((2 * j + α + β + 1) * (2 * j + α + β + 2) * (2 * j + α + β + 2) * (2 * j + α + β + 3)))
      else F.div (4 * (j + α + 1) * (j + β + 1)) ((2 * j + α + β + 2) * (2 * j + α + β + 3))) = jacLb α β j := by
  have h0 : (0 : K) ≤ j := by exact_mod_cast hj
  have h6 : 0 < 2 * j + α + β + 2 := by linarith
  have h7 : 0 < 2 * j + α + β + 3 := by linarith
  cases norm
  · simp only [Bool.false_eq_true, if_false]
    rw [hF.div _ _ (by positivity)]
    unfold jacTau jacLb
    simp only [Bool.false_eq_true, if_false]
    split_ifs with h
    · subst h
      push_cast
      simp only [zero_add, mul_zero, one_mul]
    · have h1 : (1 : K) ≤ j := by exact_mod_cast (by omega : 1 ≤ j)
      have h5 : 0 < 2 * j + α + β + 1 := by linarith
      unfold gF
      rw [show 2 * (j : K) + (α + β) + 2 = 2 * j + α + β + 2 by ring, show 2 * (j : K) + (α + β) + 1 = 2 * j + α + β + 1 by ring, show 2 * (j : K) + (α + β) + 3 = 2 * j + α + β + 3 by ring,
        show 2 * (j : K) + α + β + 2 - (α - β) = 2 * (j + β + 1) by ring, show 2 * (j : K) + α + β + 2 + (α - β) = 2 * (j + α + 1) by ring,
        show 2 * (j : K) + (α + β) + (α + β) + 2 = 2 * (j + α + β + 1) by ring, show 2 * (j : K) + (α + β) + (α + β) + 4 = 2 * (j + α + β + 2) by ring]
      generalize (j : K) + α + β + 1 = w1
      generalize (j : K) + α + β + 2 = w2
      have := ne_of_gt h5
      have := ne_of_gt h6
      have := ne_of_gt h7
      generalize 2 * (j : K) + α + β + 1 = v1 at *
      generalize 2 * (j : K) + α + β + 2 = v2 at *
      generalize 2 * (j : K) + α + β + 3 = v3 at *
      field_simp
      ring
  · have := raise0 (norm := true) hF hα hβ hj
    simp only [if_true] at this ⊢
    rw [this, jacTau_sq hF hα hβ hj]

theorem lower1 {j : Int} (hj : 0 ≤ j) :
    jacST F norm α β j * (if norm then F.div (2 * (α - β) * F.sqrt ((j + 1) * (j + α + β + 2))) ((2 * j + α + β + 2) * (2 * j + α + β + 4))
      else F.div (4 * (α - β) * (j + 1)) ((2 * j + α + β + 2) * (2 * j + α + β + 4))) = jacLa α β j := by
  have h0 : (0 : K) ≤ j := by exact_mod_cast hj
  have h5 : 2 * j + α + β + 2 ≠ 0 := by linarith
  have h6 : 2 * j + α + β + 4 ≠ 0 := by linarith
  have hj0 : (j : K) + 1 ≠ 0 := by linarith
  rw [hF.div _ _ (mul_ne_zero h5 h6), hF.div _ _ (mul_ne_zero h5 h6)]
  unfold jacLa gE
  rw [show 2 * (j : K) + (α + β) + 2 = 2 * j + α + β + 2 by ring, show 2 * (j : K) + (α + β) + (α + β) + 4 = 2 * (j + α + β + 2) by ring, show 2 * (j : K) + (α + β) + 4 = 2 * j + α + β + 4 by ring]
  unfold jacST
  cases norm
  · simp only [Bool.false_eq_true, if_false]
    generalize 2 * (j : K) + α + β + 2 = v at *
    generalize 2 * (j : K) + α + β + 4 = v' at *
    field_simp
    ring
  · simp only [if_true]
    have hp := ratio_pos hα hβ hj
    have : F.sqrt ((j + α + β + 2) / (j + 1)) * F.sqrt ((j + 1) * (j + α + β + 2)) = j + α + β + 2 := by
      rw [← sqrt_mul hF.sqrt (le_of_lt hp) (mul_nonneg (by linarith) (by linarith)), show ((j : K) + α + β + 2) / (j + 1) * ((j + 1) * (j + α + β + 2)) = (j + α + β + 2) * (j + α + β + 2) by field_simp,
        sqrt_sq hF.sqrt (by linarith)]
    linear_combination 2 * (α - β) / ((2 * j + α + β + 2) * (2 * j + α + β + 4)) * this

theorem lower2 {j : Int} (hj : 0 ≤ j) :
    jacST F norm α β j * jacStep F norm α β (j + 1) * (if norm then -2 * F.sqrt (F.div ((j + 1) * (j + 2) * (j + α + 2) * (j + β + 2)) ((2 * j + α + β + 3) * (2 * j + α + β + 4) * (2 * j + α + β + 4) * (2 * j + α + β + 5)))
      else F.div (-(4 * (j + 1) * (j + 2))) ((2 * j + α + β + 3) * (2 * j + α + β + 4))) = -1 := by
  have h0 : (0 : K) ≤ j := by exact_mod_cast hj
  have h1 : 0 < j + α + 2 := by linarith
  have h2 : 0 < j + β + 2 := by linarith
  have h3 : 0 < j + α + β + 2 := by linarith
  have h4 : 0 < 2 * j + α + β + 3 := by linarith
  have h5 : 0 < 2 * j + α + β + 4 := by linarith
  have h6 : 0 < 2 * j + α + β + 5 := by linarith
  have h7 : (0 : K) < j + 1 := by linarith
  have h8 : (0 : K) < j + 2 := by linarith
  cases norm
  · simp only [Bool.false_eq_true, if_false]
    rw [hF.div _ _ (by positivity)]
    unfold jacST jacStep jacR
    simp only [Bool.false_eq_true, if_false]
    rw [if_neg (by omega : ¬ j + 1 = 0)]
    push_cast
    rw [show 2 * ((j : K) + 1) + α + β + 1 = 2 * j + α + β + 3 by ring, show 2 * ((j : K) + 1) + α + β + 2 = 2 * j + α + β + 4 by ring, show (j : K) + 1 + 1 = j + 2 by ring,
      show (j : K) + 1 + α + β + 1 = j + α + β + 2 by ring]
    have := ne_of_gt h4
    have := ne_of_gt h5
    generalize 2 * (j : K) + α + β + 3 = v at *
    generalize 2 * (j : K) + α + β + 4 = v' at *
    generalize (j : K) + α + β + 2 = w at *
    field_simp
    norm_num
  · simp only [if_true]
    have e1 := jacST_pos (norm := true) hF hα hβ hj
    have e2 := jacStep_pos (norm := true) hF hα hβ (show 0 ≤ j + 1 by omega)
    have q1 := jacST_sq hF hα hβ hj
    have q2 := jacStep_sq hF hα hβ (show 0 ≤ j + 1 by omega)
    rw [add_assoc, show (1 : Int) + 1 = 2 from rfl] at q2
    have hB : jacB α β (j + 2) = 4 * ((j + 2) * (j + α + 2) * (j + β + 2) * (j + α + β + 2)) / ((2 * j + α + β + 4) * (2 * j + α + β + 4) * (2 * j + α + β + 3) * (2 * j + α + β + 5)) := by
      unfold jacB
      rw [if_neg (by omega)]
      push_cast
      congr 1 <;> ring
    set x := jacST F true α β j
    set y := jacStep F true α β (j + 1)
    rw [hF.div _ _ (by positivity)]
    have := coef_sqrt hF.sqrt (c := 2 * (x * y)) (X := ((j + 1) * (j + 2) * (j + α + 2) * (j + β + 2)) / ((2 * j + α + β + 3) * (2 * j + α + β + 4) * (2 * j + α + β + 4) * (2 * j + α + β + 5)))
      (y := 1) (by positivity) (by positivity) zero_le_one (by
        rw [mul_mul_mul_comm, mul_mul_mul_comm x y x y, q1, q2, hB]
        have := ne_of_gt h4
        have := ne_of_gt h5
        have := ne_of_gt h6
        generalize 2 * (j : K) + α + β + 3 = v3 at *
        generalize 2 * (j : K) + α + β + 4 = v4 at *
        generalize 2 * (j : K) + α + β + 5 = v5 at *
        generalize (j : K) + α + β + 2 = w at *
        field_simp
        norm_num)
    linear_combination (-1 : K) * this

end lowering

section multiplication
variable (hF : IsLibm F) (hα : -1 < α) (hβ : -1 < β)
include hF hα hβ

theorem sqrtB {n : Int} (hn : 1 ≤ n) :
    (if n = 1 then 2 * F.sqrt (F.div ((α + 1) * (β + 1)) ((α + β + 2) * (α + β + 2) * (α + β + 3)))
      else 2 * F.sqrt (F.div (n * (n + α) * (n + β) * (n + α + β)) ((2 * n + α + β - 1) * (2 * n + α + β) * (2 * n + α + β) * (2 * n + α + β + 1)))) = F.sqrt (jacB α β n) := by
  have hb := jacB_pos hα hβ hn
  obtain ⟨q0, q1⟩ := hF.sqrt _ (le_of_lt hb)
  have hα' : 0 < α + 1 := by linarith
  have hβ' : 0 < β + 1 := by linarith
  have s2 : 0 < α + β + 2 := by linarith
  have s3 : 0 < α + β + 3 := by linarith
  split_ifs with h
  · rw [hF.div _ _ (by positivity)]
    refine coef_sqrt hF.sqrt (by positivity) zero_le_two q0 ?_
    rw [q1]
    unfold jacB
    rw [if_pos h]
    ring
  · have h0 : (2 : K) ≤ n := by exact_mod_cast (by omega : 2 ≤ n)
    have h1 : 0 < n + α := by linarith
    have h2 : 0 < n + β := by linarith
    have h3 : 0 < n + α + β := by linarith
    have h4 : 0 < 2 * n + α + β - 1 := by linarith
    have h5 : 0 < 2 * n + α + β := by linarith
    have h6 : 0 < 2 * n + α + β + 1 := by linarith
    rw [hF.div _ _ (by positivity)]
    refine coef_sqrt hF.sqrt (by positivity) zero_le_two q0 ?_
    rw [q1]
    unfold jacB
    rw [if_neg h]
    ring

theorem mul0 {j : Int} (hj : 0 ≤ j) : (if j = 0 then F.div (β - α) (α + β + 2) else F.div ((β - α) * (α + β)) ((2 * j + α + β) * (2 * j + α + β + 2))) = jacA α β j := by
  unfold jacA
  split_ifs with h
  · rw [hF.div _ _ (by linarith)]
  · have h0 : (1 : K) ≤ j := by exact_mod_cast (by omega : 1 ≤ j)
    rw [hF.div _ _ (mul_ne_zero (by linarith) (by linarith))]

theorem mulup {j : Int} (hj : 0 ≤ j) :
    jacStep F norm α β j * (if norm then if j = 0 then 2 * F.sqrt (F.div ((α + 1) * (β + 1)) ((α + β + 2) * (α + β + 2) * (α + β + 3)))
        else 2 * F.sqrt (F.div ((j + 1) * (j + α + 1) * (j + β + 1) * (j + α + β + 1)) ((2 * j + α + β + 1) * (2 * j + α + β + 2) * (2 * j + α + β + 2) * (2 * j + α + β + 3)))
      else if j = 0 then F.div 2 (α + β + 2) else F.div (2 * (j + 1) * (j + α + β + 1)) ((2 * j + α + β + 1) * (2 * j + α + β + 2))) = 1 := by
  cases norm
  · simp only [Bool.false_eq_true, if_false]
    unfold jacStep jacR
    simp only [Bool.false_eq_true, if_false]
    split_ifs with h
    · have : α + β + 2 ≠ 0 := by linarith
      rw [hF.div _ _ this]
      field_simp
    · have h0 : (1 : K) ≤ j := by exact_mod_cast (by omega : 1 ≤ j)
      have h1 : (j : K) + 1 ≠ 0 := by linarith
      have h2 : (j : K) + α + β + 1 ≠ 0 := by linarith
      have h3 : 2 * (j : K) + α + β + 1 ≠ 0 := by linarith
      have h4 : 2 * (j : K) + α + β + 2 ≠ 0 := by linarith
      rw [hF.div _ _ (mul_ne_zero h3 h4), div_mul_div_comm, mul_comm, div_self (mul_ne_zero (mul_ne_zero (mul_ne_zero two_ne_zero h1) h2) (mul_ne_zero h3 h4))]
  · simp only [if_true]
    have h := sqrtB hF hα hβ (show 1 ≤ j + 1 by omega)
    have hp := sqrt_pos hF.sqrt (jacB_pos hα hβ (show 1 ≤ j + 1 by omega))
    unfold jacStep
    rw [if_pos rfl, ← h]
    rw [← h] at hp
    by_cases h' : j = 0
    · rw [if_pos h', if_pos (by omega)]
      rw [if_pos (by omega)] at hp
      exact one_div_mul_cancel (ne_of_gt hp)
    · rw [if_neg h', if_neg (by omega)]
      rw [if_neg (by omega)] at hp
      push_cast at hp ⊢
      rw [show (j : K) + α + 1 = j + 1 + α by ring, show (j : K) + β + 1 = j + 1 + β by ring, show (j : K) + α + β + 1 = j + 1 + α + β by ring,
        show 2 * (j : K) + α + β + 1 = 2 * (j + 1) + α + β - 1 by ring, show 2 * (j : K) + α + β + 2 = 2 * (j + 1) + α + β by ring, show 2 * (j : K) + α + β + 3 = 2 * (j + 1) + α + β + 1 by ring]
      exact one_div_mul_cancel (ne_of_gt hp)

theorem muldn {j : Int} (hj : 1 ≤ j) :
    jacStep F norm α β (j - 1) * jacB α β j = if norm then if j = 1 then 2 * F.sqrt (F.div ((α + 1) * (β + 1)) ((α + β + 2) * (α + β + 2) * (α + β + 3)))
        else 2 * F.sqrt (F.div (j * (j + α) * (j + β) * (j + α + β)) ((2 * j + α + β - 1) * (2 * j + α + β) * (2 * j + α + β) * (2 * j + α + β + 1)))
      else F.div (2 * (j + α) * (j + β)) ((2 * j + α + β) * (2 * j + α + β + 1)) := by
  have h0 : (1 : K) ≤ j := by exact_mod_cast hj
  have h5 : 2 * j + α + β ≠ 0 := by linarith
  have h6 : 2 * j + α + β + 1 ≠ 0 := by linarith
  cases norm
  · simp only [Bool.false_eq_true, if_false]
    rw [hF.div _ _ (mul_ne_zero h5 h6)]
    unfold jacStep jacR jacB
    simp only [Bool.false_eq_true, if_false]
    by_cases h : j = 1
    · subst h
      simp only [sub_self, if_true, Int.cast_one] at h5 h6 ⊢
      have : α + β + 2 ≠ 0 := by linarith
      have : α + β + 3 ≠ 0 := by linarith
      rw [show 2 * (1 : K) + α + β = α + β + 2 by ring, show α + β + 2 + 1 = α + β + 3 by ring]
      generalize α + β + 2 = v at *
      generalize α + β + 3 = v' at *
      field_simp
      ring
    · have h1 : (2 : K) ≤ j := by exact_mod_cast (by omega : 2 ≤ j)
      have h2 : 2 * j + α + β - 1 ≠ 0 := by linarith
      have h3 : j + α + β ≠ 0 := by linarith
      have h4 : (j : K) ≠ 0 := by linarith
      rw [if_neg (by omega), if_neg (by omega)]
      push_cast
      rw [show 2 * ((j : K) - 1) + α + β + 1 = 2 * j + α + β - 1 by ring, show 2 * ((j : K) - 1) + α + β + 2 = 2 * j + α + β by ring, show (j : K) - 1 + 1 = j by ring,
        show (j : K) - 1 + α + β + 1 = j + α + β by ring]
      generalize 2 * (j : K) + α + β = v at *
      generalize (j : K) + α + β = w at *
      field_simp
      norm_num
  · simp only [if_true]
    rw [sqrtB hF hα hβ hj]
    have hb := jacB_pos hα hβ hj
    obtain ⟨q0, q1⟩ := hF.sqrt _ (le_of_lt hb)
    have hp := sqrt_pos hF.sqrt hb
    unfold jacStep
    rw [if_pos rfl, sub_add_cancel]
    rw [one_div, inv_mul_eq_iff_eq_mul₀ (ne_of_gt hp), q1]

theorem der1 {j : Int} (hj : 1 ≤ j) : j * jacST F norm α β (j - 1) = if norm then F.sqrt (j * (j + α + β + 1)) else (j + α + β + 1) / 2 := by
  have h0 : (1 : K) ≤ j := by exact_mod_cast hj
  unfold jacST
  push_cast
  rw [show (j : K) - 1 + α + β + 2 = j + α + β + 1 by ring, sub_add_cancel]
  have : (j : K) ≠ 0 := by linarith
  split_ifs
  · refine coef_sqrt hF.sqrt (div_nonneg (by linarith) (by linarith)) (by linarith) (hF.sqrt _ (mul_nonneg (by linarith) (by linarith))).1 ?_
    rw [(hF.sqrt _ (mul_nonneg (by linarith) (by linarith))).2]
    field_simp
  · field_simp

end multiplication
end FT.Poly
