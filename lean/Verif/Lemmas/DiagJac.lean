import Verif.Lemmas.DiagSteps

/-!
# Quotients of consecutive diagonal connection coefficients of Jacobi polynomials
-/

namespace FT.Poly
open FT
variable {K : Type*} [Field K] [LinearOrder K] [IsStrictOrderedRing K] {F : Libm K} {α β γ δ : K}

theorem jac_pos {a b : K} (ha : -1 < a) (hb : -1 < b) {i : Int} (hi : 2 ≤ i) :
    0 < (i : K) ∧ 0 < i + a ∧ 0 < i + b ∧ 0 < i + a + b ∧ 0 < 2 * i + a + b - 1 ∧ 0 < 2 * i + a + b ∧ 0 < 2 * i + a + b + 1 := by
  have h : (2 : K) ≤ i := by exact_mod_cast hi
  refine ⟨?_, ?_, ?_, ?_, ?_, ?_, ?_⟩ <;> linarith

theorem jac_pos0 {a b : K} (ha : -1 < a) (hb : -1 < b) : 0 < a + 1 ∧ 0 < b + 1 ∧ 0 < a + b + 2 ∧ 0 < a + b + 3 := by refine ⟨?_, ?_, ?_, ?_⟩ <;> linarith

theorem jac_f0 (a b : K) : jacStep F false a b 0 = (a + b + 2) / 2 := by unfold jacStep jacR; simp

theorem jac_f1 (a b : K) {i : Int} (hi : 2 ≤ i) : jacStep F false a b (i - 1) = (2 * i + a + b - 1) * (2 * i + a + b) / (2 * i * (i + a + b)) := by
  unfold jacStep jacR
  simp only [Bool.false_eq_true, if_false]
  rw [if_neg (by omega)]
  push_cast
  rw [show 2 * ((i : K) - 1) + a + b + 2 = 2 * i + a + b by ring, show 2 * ((i : K) - 1) + a + b + 1 = 2 * i + a + b - 1 by ring, sub_add_cancel, show (i : K) - 1 + a + b + 1 = i + a + b by ring]

variable (hF : IsLibm F)
include hF

theorem jac_t1 {a b : K} (ha : -1 < a) (hb : -1 < b) {i : Int} (hi : 2 ≤ i) :
    jacStep F true a b (i - 1) = (2 * i + a + b) / 2 * F.sqrt ((2 * i + a + b - 1) * (2 * i + a + b + 1) / (i * (i + a) * (i + b) * (i + a + b))) := by
  rw [← step_root hF ha hb (show 1 ≤ i - 1 by omega)]
  push_cast
  rw [show 2 * ((i : K) - 1) + a + b + 2 = 2 * i + a + b by ring, show 2 * ((i : K) - 1) + a + b + 1 = 2 * i + a + b - 1 by ring, show 2 * ((i : K) - 1) + a + b + 3 = 2 * i + a + b + 1 by ring, sub_add_cancel,
    show (i : K) - 1 + a + 1 = i + a by ring, show (i : K) - 1 + b + 1 = i + b by ring, show (i : K) - 1 + a + b + 1 = i + a + b by ring]

variable (hα : -1 < α) (hβ : -1 < β) (hγ : -1 < γ) (hδ : -1 < δ)
include hα hβ hγ hδ

theorem jd_ff {i : Int} (hi : 2 ≤ i) : jacStep F false α β (i - 1) / jacStep F false γ δ (i - 1) =
    F.div ((2 * i + α + β - 1) * (2 * i + α + β) * (i + γ + δ)) ((i + α + β) * (2 * i + γ + δ - 1) * (2 * i + γ + δ)) := by
  obtain ⟨a1, a2, a3, a4, a5, a6, a7⟩ := jac_pos hα hβ hi
  obtain ⟨-, c2, c3, c4, c5, c6, c7⟩ := jac_pos hγ hδ hi
  rw [jac_f1 _ _ hi, jac_f1 _ _ hi, hF.div _ _ (by positivity)]
  have := ne_of_gt a5
  have := ne_of_gt c5
  generalize 2 * (i : K) + α + β - 1 = u at *
  generalize 2 * (i : K) + γ + δ - 1 = v at *
  field_simp

theorem jd_ft {i : Int} (hi : 2 ≤ i) : jacStep F false α β (i - 1) / jacStep F true γ δ (i - 1) =
    F.div ((2 * i + α + β - 1) * (2 * i + α + β)) (i * (i + α + β)) *
        F.sqrt (F.div (i * (i + γ) * (i + δ) * (i + γ + δ)) ((2 * i + γ + δ - 1) * (2 * i + γ + δ) * (2 * i + γ + δ) * (2 * i + γ + δ + 1))) := by
  obtain ⟨a1, a2, a3, a4, a5, a6, a7⟩ := jac_pos hα hβ hi
  obtain ⟨-, c2, c3, c4, c5, c6, c7⟩ := jac_pos hγ hδ hi
  have e : (i : K) * (i + γ) * (i + δ) * (i + γ + δ) / ((2 * i + γ + δ - 1) * (2 * i + γ + δ) * (2 * i + γ + δ) * (2 * i + γ + δ + 1)) =
      (i * (i + γ) * (i + δ) * (i + γ + δ)) / ((2 * i + γ + δ - 1) * (2 * i + γ + δ + 1) * ((2 * i + γ + δ) * (2 * i + γ + δ))) := by
    congr 1; ring
  have q0 : 0 < (i : K) * (i + γ) * (i + δ) * (i + γ + δ) := mul_pos (mul_pos (mul_pos a1 c2) c3) c4
  have q1 := sqrt_pos hF.sqrt (mul_pos c5 c7)
  have q2 := sqrt_pos hF.sqrt q0
  rw [jac_f1 _ _ hi, jac_t1 hF hγ hδ hi, hF.div _ _ (ne_of_gt (mul_pos a1 a4)), hF.div _ _ (ne_of_gt (mul_pos (mul_pos (mul_pos c5 c6) c6) c7)), e, sqrt_div hF.sqrt (le_of_lt q0) (mul_pos (mul_pos c5 c7) (mul_pos c6 c6)),
    sqrt_div hF.sqrt (le_of_lt (mul_pos c5 c7)) q0, sqrt_mul hF.sqrt (a := (2 * i + γ + δ - 1) * (2 * i + γ + δ + 1)) (le_of_lt (mul_pos c5 c7)) (le_of_lt (mul_pos c6 c6)), sqrt_sq hF.sqrt (le_of_lt c6)]
  clear e q0
  generalize F.sqrt ((2 * i + γ + δ - 1) * (2 * i + γ + δ + 1)) = x at *
  generalize F.sqrt ((i : K) * (i + γ) * (i + δ) * (i + γ + δ)) = y at *
  have := ne_of_gt a5
  generalize 2 * (i : K) + α + β - 1 = u at *
  field_simp

theorem jd_tf {i : Int} (hi : 2 ≤ i) : jacStep F true α β (i - 1) / jacStep F false γ δ (i - 1) =
    F.div (F.sqrt (F.div ((2 * i + α + β - 1) * (2 * i + α + β) * (2 * i + α + β) * (2 * i + α + β + 1)) (i * (i + α) * (i + β) * (i + α + β))) *
        (i * (i + γ + δ))) ((2 * i + γ + δ - 1) * (2 * i + γ + δ)) := by
  obtain ⟨a1, a2, a3, a4, a5, a6, a7⟩ := jac_pos hα hβ hi
  obtain ⟨-, c2, c3, c4, c5, c6, c7⟩ := jac_pos hγ hδ hi
  have e : (2 * (i : K) + α + β - 1) * (2 * i + α + β) * (2 * i + α + β) * (2 * i + α + β + 1) / (i * (i + α) * (i + β) * (i + α + β)) =
      (2 * i + α + β) * (2 * i + α + β) * ((2 * i + α + β - 1) * (2 * i + α + β + 1) / (i * (i + α) * (i + β) * (i + α + β))) := by ring
  have q0 : 0 < (i : K) * (i + α) * (i + β) * (i + α + β) := mul_pos (mul_pos (mul_pos a1 a2) a3) a4
  have q1 : 0 < (2 * i + α + β - 1) * (2 * i + α + β + 1) / ((i : K) * (i + α) * (i + β) * (i + α + β)) := div_pos (mul_pos a5 a7) q0
  rw [jac_f1 _ _ hi, jac_t1 hF hα hβ hi, hF.div _ _ (ne_of_gt (mul_pos c5 c6)), hF.div _ _ (ne_of_gt q0), e, sqrt_mul hF.sqrt (le_of_lt (mul_pos a6 a6)) (le_of_lt q1), sqrt_sq hF.sqrt (le_of_lt a6)]
  clear e q0 q1
  generalize F.sqrt _ = x
  have := ne_of_gt c5
  generalize 2 * (i : K) + γ + δ - 1 = u at *
  field_simp

theorem jd_tt {i : Int} (hi : 2 ≤ i) : jacStep F true α β (i - 1) / jacStep F true γ δ (i - 1) =
    F.div (2 * i + α + β) (2 * i + γ + δ) *
        F.sqrt (F.div (F.div ((2 * i + α + β - 1) * (2 * i + α + β + 1)) ((i + α) * (i + β) * (i + α + β)) * ((i + γ) * (i + δ) * (i + γ + δ))) ((2 * i + γ + δ - 1) * (2 * i + γ + δ + 1))) := by
  obtain ⟨a1, a2, a3, a4, a5, a6, a7⟩ := jac_pos hα hβ hi
  obtain ⟨-, c2, c3, c4, c5, c6, c7⟩ := jac_pos hγ hδ hi
  have e : (2 * (i : K) + α + β - 1) * (2 * i + α + β + 1) / ((i + α) * (i + β) * (i + α + β)) * ((i + γ) * (i + δ) * (i + γ + δ)) / ((2 * i + γ + δ - 1) * (2 * i + γ + δ + 1)) =
      (2 * i + α + β - 1) * (2 * i + α + β + 1) / (i * (i + α) * (i + β) * (i + α + β)) / ((2 * i + γ + δ - 1) * (2 * i + γ + δ + 1) / (i * (i + γ) * (i + δ) * (i + γ + δ))) := by
    have := ne_of_gt c5
    generalize 2 * (i : K) + γ + δ - 1 = u at *
    generalize 2 * (i : K) + α + β - 1 = v at *
    field_simp
  have p1 : 0 < (i : K) * (i + α) * (i + β) * (i + α + β) := mul_pos (mul_pos (mul_pos a1 a2) a3) a4
  have p2 : 0 < (i : K) * (i + γ) * (i + δ) * (i + γ + δ) := mul_pos (mul_pos (mul_pos a1 c2) c3) c4
  have p3 : 0 < (2 * i + α + β - 1) * (2 * i + α + β + 1) / ((i : K) * (i + α) * (i + β) * (i + α + β)) := div_pos (mul_pos a5 a7) p1
  have p4 : 0 < (2 * i + γ + δ - 1) * (2 * i + γ + δ + 1) / ((i : K) * (i + γ) * (i + δ) * (i + γ + δ)) := div_pos (mul_pos c5 c7) p2
  rw [jac_t1 hF hγ hδ hi, jac_t1 hF hα hβ hi, hF.div _ _ (ne_of_gt c6), hF.div _ _ (ne_of_gt (mul_pos (mul_pos a2 a3) a4)), hF.div _ _ (ne_of_gt (mul_pos c5 c7)), e,
    sqrt_div hF.sqrt (a := (2 * i + α + β - 1) * (2 * i + α + β + 1) / (i * (i + α) * (i + β) * (i + α + β))) (le_of_lt p3) p4]
  have := sqrt_pos hF.sqrt p4
  clear e p1 p2 p3 p4
  generalize F.sqrt ((2 * i + γ + δ - 1) * (2 * i + γ + δ + 1) / (i * (i + γ) * (i + δ) * (i + γ + δ))) = x at *
  generalize F.sqrt _ = y at *
  field_simp

theorem jd0_ft : jacStep F false α β 0 / jacStep F true γ δ 0 = F.div (α + β + 2) (γ + δ + 2) * F.sqrt (F.div ((γ + 1) * (δ + 1)) (γ + δ + 3)) := by
  obtain ⟨C1, C2, C3, C4⟩ := jac_pos0 hγ hδ
  have c := mul_pos C1 C2
  rw [jac_f0, ← step_root0 hF hγ hδ, hF.div _ _ (ne_of_gt C3), hF.div _ _ (ne_of_gt C4), sqrt_div hF.sqrt (le_of_lt C4) c, sqrt_div hF.sqrt (le_of_lt c) C4]
  have := sqrt_pos hF.sqrt C4
  have := sqrt_pos hF.sqrt c
  clear c
  generalize F.sqrt (γ + δ + 3) = x at *
  generalize F.sqrt ((γ + 1) * (δ + 1)) = y at *
  field_simp

theorem jd0_tf : jacStep F true α β 0 / jacStep F false γ δ 0 = F.div (α + β + 2) (γ + δ + 2) * F.sqrt (F.div (α + β + 3) ((α + 1) * (β + 1))) := by
  obtain ⟨A1, A2, A3, A4⟩ := jac_pos0 hα hβ
  obtain ⟨C1, C2, C3, C4⟩ := jac_pos0 hγ hδ
  rw [jac_f0, ← step_root0 hF hα hβ, hF.div _ _ (ne_of_gt C3), hF.div _ _ (ne_of_gt (mul_pos A1 A2))]
  generalize F.sqrt _ = x
  field_simp

theorem jd0_tt : jacStep F true α β 0 / jacStep F true γ δ 0 = F.div (α + β + 2) (γ + δ + 2) * F.sqrt (F.div (F.div (α + β + 3) ((α + 1) * (β + 1)) * ((γ + 1) * (δ + 1))) (γ + δ + 3)) := by
  obtain ⟨A1, A2, A3, A4⟩ := jac_pos0 hα hβ
  obtain ⟨C1, C2, C3, C4⟩ := jac_pos0 hγ hδ
  have p := div_pos C4 (mul_pos C1 C2)
  rw [← step_root0 hF hγ hδ, ← step_root0 hF hα hβ, hF.div _ _ (ne_of_gt C3), hF.div _ _ (ne_of_gt (mul_pos A1 A2)), hF.div _ _ (ne_of_gt C4),
    show (α + β + 3) / ((α + 1) * (β + 1)) * ((γ + 1) * (δ + 1)) / (γ + δ + 3) = (α + β + 3) / ((α + 1) * (β + 1)) / ((γ + δ + 3) / ((γ + 1) * (δ + 1))) by field_simp,
    sqrt_div hF.sqrt (a := (α + β + 3) / ((α + 1) * (β + 1))) (le_of_lt (div_pos A4 (mul_pos A1 A2))) p]
  have := sqrt_pos hF.sqrt p
  clear p
  generalize F.sqrt ((γ + δ + 3) / ((γ + 1) * (δ + 1))) = x at *
  generalize F.sqrt ((α + β + 3) / ((α + 1) * (β + 1))) = y at *
  field_simp

end FT.Poly
