import Verif.Lemmas.Mpfr

/-!
# Pencils of the plans in multiple precision
-/

set_option linter.unusedSectionVars false

namespace FT
open FT.Props
variable {K : Type*} [Zero K] {n b : Int} {T : TB K} {a : Int → Int → K}

theorem sets3T (h : StoresT T n b a) {j i0 i1 i2 : Int} {w0 w1 w2 : K} {v : Int → K} (hv : ∀ p, band n n 0 b p j → v p = if p = i2 then w2 else if p = i1 then w1 else if p = i0 then w0 else a p j) :
    ∃ A', ((T.set w0 i0 j).bind fun A => (A.set w1 i1 j).bind fun A => A.set w2 i2 j) = some A' ∧ StoresT A' n b fun p q => if q = j ∧ band n n 0 b p q then v p else a p q := by
  obtain ⟨A1, e1, h1⟩ := sets1T h (v := fun p => if p = i0 then w0 else a p j) (fun p _ => rfl)
  obtain ⟨A2, e2, h2⟩ := sets2T h1 (j := j) (i0 := i1) (i1 := i2) (w0 := w1) (w1 := w2) (v := v) (fun p hb => by rw [hv p hb]; split_ifs <;> first | rfl | tauto)
  refine ⟨A2, by rw [e1]; exact e2, h2.to fun p q => ?_⟩
  split_ifs <;> first | rfl | tauto

end FT

namespace FT.Poly
open Polynomial FT FT.Model FT.Fmm FT.Props FT.Props.Hier FT.Props.TbEig FT.Props.Eig FT.Props.Ops FT.Props.Plan
variable {K : Type*} [Field K] [LinearOrder K] [IsStrictOrderedRing K] {F : Libm K} {n : Int} {junk : Int → K}

omit [LinearOrder K] [IsStrictOrderedRing K] in
theorem pencil_fill3 {A0 : TB K} (c0 d1 c1 : K) (w0 w1 w2 : Int → K) (h0 : StoresT A0 n 2 fun i j => if (i = 0 ∧ j = 0) ∧ 0 < n then c0 else 0) :
    ∃ A, ((if n > 1 then (A0.set d1 0 1).bind fun A => A.set c1 1 1 else some A0).bind fun A =>
        forUp 2 n (fun i A => (A.set (w0 i) (i - 2) i).bind fun A => (A.set (w1 i) (i - 1) i).bind fun A => A.set (w2 i) i i) A) = some A ∧
      StoresT A n 2 (cut n n (diags (g3 (-2) (-1) 0 w0 (fun j => if j = 1 then d1 else w1 j) fun j => if j = 0 then c0 else if j = 1 then c1 else w2 j))) := by
  have h1 : ∃ A1, (if n > 1 then (A0.set d1 0 1).bind fun A => A.set c1 1 1 else some A0) = some A1 ∧
      StoresT A1 n 2 fun i j => if j = 1 ∧ band n n 0 2 i j then (if i = 1 then c1 else d1) else if (i = 0 ∧ j = 0) ∧ 0 < n then c0 else 0 := by
    split_ifs with h
    · exact sets2T h0 (v := fun i => if i = 1 then c1 else d1) fun p hp => by unfold band at hp; split_ifs <;> first | rfl | omega
    · exact ⟨A0, rfl, h0.to fun i j => by rw [if_neg (show ¬ (j = 1 ∧ band n n 0 2 i j) by unfold band; omega)]⟩
  obtain ⟨A1, e1, s1⟩ := h1
  rw [e1, Option.bind_some]
  obtain ⟨A2, e2, s2⟩ := fillT (lo := 2) (hi := n) (body := fun i A => (A.set (w0 i) (i - 2) i).bind fun A => (A.set (w1 i) (i - 1) i).bind fun A => A.set (w2 i) i i)
    (v := fun p j => if p = j then w2 j else if p = j - 1 then w1 j else w0 j) s1 (fun j A a' j0 j1 hA hz => sets3T hA fun p hp => by
      unfold band at hp
      split_ifs <;> first | rfl | omega)
  refine ⟨A2, e2, s2.to fun i j => ?_⟩
  unfold cut diags g3
  beta_reduce
  by_cases hr : (0 ≤ i ∧ i < n) ∧ (0 ≤ j ∧ j < n)
  · rw [if_pos hr]
    by_cases hj : 2 ≤ j ∧ j < n
    · by_cases hb : band n n 0 2 i j
      · rw [if_pos ⟨hj, hb⟩]
        unfold band at hb
        split_ifs <;> first | rfl | omega
      · rw [if_neg (show ¬ ((2 ≤ j ∧ j < n) ∧ band n n 0 2 i j) from fun h => hb h.2), if_neg (by omega), if_neg (by omega)]
        unfold band at hb
        split_ifs <;> first | rfl | omega
    · rw [if_neg (show ¬ ((2 ≤ j ∧ j < n) ∧ band n n 0 2 i j) from fun h => hj h.1)]
      by_cases hb : j = 1 ∧ band n n 0 2 i j
      · rw [if_pos hb]
        unfold band at hb
        split_ifs <;> first | rfl | omega
      · rw [if_neg hb]
        unfold band at hb
        split_ifs <;> first | rfl | omega
  · rw [if_neg hr, if_neg (show ¬ ((2 ≤ j ∧ j < n) ∧ band n n 0 2 i j) from fun h => hr (by have := h.2; unfold band at this; omega)),
      if_neg (show ¬ (j = 1 ∧ band n n 0 2 i j) from fun h => hr (by have := h.2; unfold band at this; omega)), if_neg (by omega)]

theorem g3_congr {T : K[X] → K[X]} {p q : Int → K[X]} {a b c a' b' c' : Int → K} (h : IsMatrix T p q (diags (g3 (-2) (-1) 0 a b c))) (ha : ∀ j, 2 ≤ j → a' j = a j) (hb : ∀ j, 1 ≤ j → b' j = b j)
    (hc : ∀ j, 0 ≤ j → c' j = c j) : IsMatrix T p q (diags (g3 (-2) (-1) 0 a' b' c')) := by
  intro j hj
  have e : ∀ i, 0 ≤ i → diags (g3 (-2) (-1) 0 a' b' c') i j = diags (g3 (-2) (-1) 0 a b c) i j := fun i hi => by
    unfold diags g3
    split_ifs
    · exact hc j hj
    · exact hb j (by omega)
    · exact ha j (by omega)
    all_goals rfl
  refine ⟨fun i hi => by rw [e i (by omega), (h j hj).1 i hi], ?_⟩
  rw [(h j hj).2]
  exact sum_Ico_congr fun i i0 i1 => by rw [e i i0]

theorem ofFill3 {T : K[X] → K[X]} {p q : Int → K[X]} {A : TB K} {c0 d1 c1 : K} {w0 w1 w2 a b c : Int → K}
    (s : StoresT A n 2 (cut n n (diags (g3 (-2) (-1) 0 w0 (fun j => if j = 1 then d1 else w1 j) fun j => if j = 0 then c0 else if j = 1 then c1 else w2 j))))
    (h : IsMatrix T p q (diags (g3 (-2) (-1) 0 a b c))) (h0 : c0 = c 0) (hd : d1 = b 1) (h1 : c1 = c 1) (hc : ∀ j, 2 ≤ j → w2 j = c j) (hb : ∀ j, 2 ≤ j → w1 j = b j) (ha : ∀ j, 2 ≤ j → w0 j = a j) :
    RepresentsT A n 2 T p q :=
  ⟨_, s, fun i j h => diags_band (l := 0) (u := 2) (fun d j h => by unfold g3; split_ifs <;> first | rfl | omega) i j (by omega), g3_congr h ha (fun j hj => by
    split_ifs with e
    · rw [e, hd]
    · exact hb j (by omega)) fun j hj => by
    split_ifs with e1 e2
    · rw [e1, h0]
    · rw [e2, h1]
    · exact hc j (by omega)⟩

/-! ## The Jacobi operator -/

section
variable {α β γ δ : K} (hγ : -1 < γ) (hδ : -1 < δ)
include hγ hδ

theorem jacB_Rb {j : Int} (hj : 2 ≤ j) : (j : K) * jacB (γ + 1) (δ + 1) (j - 1) = -((j + γ + δ + 1) * jacRb γ δ j) := by
  have h0 := m_pos2 hγ hδ hj
  rw [jacB_up hγ hδ]
  unfold jacRb gB gT
  push_cast
  rw [show 2 * ((j : K) - 1) + (γ + δ) + 2 = 2 * j + (γ + δ) by ring, show 2 * (j : K) + (γ + δ) - (γ + δ + 2) = 2 * (j - 1) by ring, show 2 * (j : K) + (γ + δ) + (γ + δ + 2) = 2 * (j + γ + δ + 1) by ring,
    show 2 * (j : K) + (γ + δ) - (γ + δ) - 2 = 2 * (j - 1) by ring, show 2 * (j : K) + (γ + δ) - (γ + δ) = 2 * j by ring]
  generalize 2 * (j : K) + (γ + δ) = m at *
  have m1 : m - 1 ≠ 0 := by linarith
  have m2 : m + 1 ≠ 0 := by linarith
  have m3 : m ≠ 0 := by linarith
  generalize (j : K) + γ + δ + 1 = t
  field_simp

theorem jac_op {j : Int} (hj : 0 ≤ j) : jacOp α β (jacobi γ δ j) = C ((j : K) * (j + α + β + 1)) * jacobi (γ + 1) (δ + 1) j +
    C ((j : K) * ((j + γ + δ + 1) * jacRa γ δ j + ((α - β) - (γ - δ) + ((α + β) - (γ + δ)) * jacA (γ + 1) (δ + 1) (j - 1)))) * jacobi (γ + 1) (δ + 1) (j - 1) +
    C ((j + γ + δ + 1) * (j - ((α + β) - (γ + δ))) * jacRb γ δ j) * jacobi (γ + 1) (δ + 1) (j - 2) := by
  have e : jacOp α β (jacobi γ δ j) = jacOp γ δ (jacobi γ δ j) + (C ((α - β) - (γ - δ)) + C ((α + β) - (γ + δ)) * X) * derivative (jacobi γ δ j) := by
    unfold jacOp
    simp only [C_sub, C_add]
    ring
  rw [e, jacobi_eigen hγ hδ hj, jacobi_derivative hγ hδ hj]
  have e5 := jacobi_raise hγ hδ hj
  rcases eq_or_lt_of_le hj with h | h
  · subst h
    have z1 : jacobi (γ + 1) (δ + 1) (0 - 2) = 0 := monic_neg (by norm_num)
    rw [z1]
    simp
  · have e3 := monic_mul (a := jacA (γ + 1) (δ + 1)) (b := jacB (γ + 1) (δ + 1)) (show 0 ≤ j - 1 by omega)
    change X * jacobi (γ + 1) (δ + 1) (j - 1) = jacobi (γ + 1) (δ + 1) (j - 1 + 1) + C (jacA (γ + 1) (δ + 1) (j - 1)) * jacobi (γ + 1) (δ + 1) (j - 1) + C (jacB (γ + 1) (δ + 1) (j - 1)) * jacobi (γ + 1) (δ + 1) (j - 1 - 1) at e3
    rw [sub_add_cancel, show j - 1 - 1 = j - 2 by ring] at e3
    have k : C (j : K) * C (jacB (γ + 1) (δ + 1) (j - 1)) * jacobi (γ + 1) (δ + 1) (j - 2) = -(C ((j : K) + γ + δ + 1) * C (jacRb γ δ j)) * jacobi (γ + 1) (δ + 1) (j - 2) := by
      rcases eq_or_lt_of_le (show 1 ≤ j from h) with h' | h'
      · rw [show jacobi (γ + 1) (δ + 1) (j - 2) = 0 from monic_neg (by omega), mul_zero, mul_zero]
      · rw [← C_mul, ← C_mul, ← C_neg, jacB_Rb hγ hδ h']
    rw [e5]
    simp only [C_add, C_mul, C_sub, C_1] at *
    linear_combination (C α + C β - (C γ + C δ)) * C (j : K) * e3 + (C α + C β - (C γ + C δ)) * k

variable (hF : IsLibm F)
include hF

/-- The entries of the first matrix of the pencil. -/
theorem jacA_matrix : IsMatrix (jacOp α β) (Jac F false γ δ) (Jac F false (γ + 1) (δ + 1)) (diags (g3 (-2) (-1) 0
    (fun j => (j + γ + δ + 1) * (j - ((α + β) - (γ + δ))) * F.div (-((j + γ) * (j + δ))) ((2 * j + γ + δ) * (2 * j + γ + δ + 1)))
    (fun j => ((j + γ + δ + 1) * jacRa γ δ j + ((α - β) - (γ - δ) + ((α + β) - (γ + δ)) * jacA (γ + 1) (δ + 1) (j - 1))) * ((j + γ + δ + 1) / 2))
    fun j => (j : K) * (j + α + β + 1) * jacTau F false γ δ j)) := by
  refine op3 (fun j => (j + γ + δ + 1) * (j - ((α + β) - (γ + δ))) * jacRb γ δ j)
    (fun j => (j : K) * ((j + γ + δ + 1) * jacRa γ δ j + ((α - β) - (γ - δ) + ((α + β) - (γ + δ)) * jacA (γ + 1) (δ + 1) (j - 1)))) (fun j => (j : K) * (j + α + β + 1))
    (monic_neg' _ _) (jacOp_comm α β) (fun j hj => ?_) (fun j hj hd => ?_) (fun j hj hd => ?_) fun j hj hd => ?_
  · show jacOp α β (jacobi γ δ j) = _
    rw [jac_op hγ hδ hj]
    unfold g3 jacobi
    norm_num
    ring
  · have r := raise2 (norm := false) hF hγ hδ (show 2 ≤ j by omega)
    simp only [Bool.false_eq_true, if_false] at r
    have := jacS_2 (norm := false) hF hγ hδ (show 0 ≤ j - 2 by omega)
    rw [sub_add_cancel, show j - 2 + 1 = j - 1 by ring] at this
    rw [this, ← sub_eq_add_neg, r]
    ring
  · have d := der1 (norm := false) hF hγ hδ (show 1 ≤ j by omega)
    simp only [Bool.false_eq_true, if_false] at d
    have := jacS_1 (norm := false) hF hγ hδ (show 0 ≤ j - 1 by omega)
    rw [sub_add_cancel] at this
    rw [this, ← sub_eq_add_neg, ← d]
    ring
  · beta_reduce
    rw [jacS_up hF hγ hδ hj, add_zero]
    ring

theorem jacB_matrix : IsMatrix id (Jac F false γ δ) (Jac F false (γ + 1) (δ + 1)) (diags (g3 (-2) (-1) 0
    (fun j => F.div (-((j + γ) * (j + δ))) ((2 * j + γ + δ) * (2 * j + γ + δ + 1))) (fun j => F.div ((γ - δ) * (j + γ + δ + 1)) ((2 * j + γ + δ) * (2 * j + γ + δ + 2))) fun j => jacTau F false γ δ j)) := by
  refine op3 (jacRb γ δ) (jacRa γ δ) (fun _ => 1) (monic_neg' _ _) C_comm_id (fun j hj => ?_) (fun j hj hd => ?_) (fun j hj hd => ?_) fun j hj hd => ?_
  · show jacobi γ δ j = _
    rw [jacobi_raise hγ hδ hj]
    unfold g3 jacobi
    norm_num
    ring
  · have r := raise2 (norm := false) hF hγ hδ (show 2 ≤ j by omega)
    simp only [Bool.false_eq_true, if_false] at r
    have := jacS_2 (norm := false) hF hγ hδ (show 0 ≤ j - 2 by omega)
    rw [sub_add_cancel, show j - 2 + 1 = j - 1 by ring] at this
    rw [this, ← sub_eq_add_neg, r]
    ring
  · have r := raise1 (norm := false) hF hγ hδ (show 1 ≤ j by omega)
    simp only [Bool.false_eq_true, if_false] at r
    have := jacS_1 (norm := false) hF hγ hδ (show 0 ≤ j - 1 by omega)
    rw [sub_add_cancel] at this
    rw [this, ← sub_eq_add_neg, r]
    ring
  · rw [jacS_up hF hγ hδ hj, add_zero, mul_one]

theorem mpfrA_jac (n : Int) : ∃ A, mpfrAJacJac F n α β γ δ = some A ∧ RepresentsT A n 2 (jacOp α β) (Jac F false γ δ) (Jac F false (γ + 1) (δ + 1)) := by
  obtain ⟨A, e, s⟩ := pencil_fill3 (n := n) (A0 := callocTB n 2) 0
    (F.div ((F.div (γ + δ - (α + β)) 2 + 1) * (γ + δ + 2)) (γ + δ + 2 + 2) * (γ - δ) - F.div (γ - δ - (α - β)) 2 * (γ + δ + 2)) (F.div ((α + β + 2) * (γ + δ + 2)) (γ + δ + 2 + 2))
    (fun i => -(F.div (F.div ((γ + δ + (i + 1)) * (γ + i)) (γ + i + (δ + i)) * (δ + i)) (γ + i + (δ + i) + 1) * (γ + δ - (α + β) + i)))
    (fun i => F.div (F.div (((γ + δ + (i + 1)) * i + (γ + δ + 2) * F.div (γ + δ - (α + β)) 2) * (γ - δ)) (γ + i + (δ + i)) * (γ + δ + (i + 1))) (γ + i + (δ + i) + 1 + 1) - (γ + δ + (i + 1)) * F.div (γ - δ - (α - β)) 2)
    (fun i => F.div (F.div ((α + β + (i + 1)) * i * (γ + δ + (i + 1))) (γ + i + (δ + i) + 1) * (γ + δ + (i + 1) + 1)) (γ + i + (δ + i) + 1 + 1))
    ((callocTB_stores n 2).to fun i j => by rw [ite_self])
  refine ⟨A, ?_, ofFill3 s (jacA_matrix hγ hδ hF) ?_ ?_ ?_ (fun j hj => ?_) (fun j hj => ?_) fun j hj => ?_⟩
  · rw [← e]
    unfold mpfrAJacJac
    by_cases h : n > 1 <;> simp only [h, if_true, if_false] <;> rfl
  · push_cast; ring
  · have h4 : γ + δ + 4 ≠ 0 := by linarith
    have h2 : γ + δ + 2 ≠ 0 := by linarith
    rw [hF.div _ _ (by linarith), hF.div _ _ two_ne_zero, hF.div _ _ two_ne_zero, jacA_up hγ hδ]
    unfold jacRa gR gA
    push_cast
    rw [show γ + δ + 2 + 2 = γ + δ + 4 by ring, show 2 * 1 + (γ + δ) + 2 = γ + δ + 4 by ring, show 2 * 0 + (γ + δ) + 2 + 2 = γ + δ + 4 by ring, show 2 * 0 + (γ + δ) + 2 = γ + δ + 2 by ring, show 2 * 1 + (γ + δ) = γ + δ + 2 by ring,
      show γ + δ + 2 - (γ + δ) = 2 by ring, show 1 + γ + δ + 1 = γ + δ + 2 by ring]
    generalize γ + δ + 4 = x at *
    generalize γ + δ + 2 = y at *
    field_simp
    ring
  · have h4 : γ + δ + 4 ≠ 0 := by linarith
    have h3 : γ + δ + 3 ≠ 0 := by linarith
    unfold jacTau
    simp only [Bool.false_eq_true, if_false, one_ne_zero]
    rw [hF.div _ _ (by linarith)]
    push_cast
    rw [show γ + δ + 2 + 2 = γ + δ + 4 by ring, show 2 * 1 + γ + δ + 1 = γ + δ + 3 by ring, show 2 * 1 + γ + δ + 2 = γ + δ + 4 by ring, show 1 + γ + δ + 2 = γ + δ + 3 by ring, show 1 + γ + δ + 1 = γ + δ + 2 by ring]
    generalize γ + δ + 4 = x at *
    generalize γ + δ + 3 = y at *
    field_simp
    ring
  · have h0 : (2 : K) ≤ j := by exact_mod_cast hj
    have h1 : 2 * (j : K) + γ + δ + 1 ≠ 0 := by linarith
    have h2 : 2 * (j : K) + γ + δ + 2 ≠ 0 := by linarith
    unfold jacTau
    simp only [Bool.false_eq_true, if_false]
    rw [if_neg (show ¬ j = 0 by omega), hF.div _ _ (by linarith), hF.div _ _ (by linarith), show γ + j + (δ + j) + 1 + 1 = 2 * j + γ + δ + 2 by ring, show γ + j + (δ + j) + 1 = 2 * j + γ + δ + 1 by ring]
    generalize 2 * (j : K) + γ + δ + 2 = x at *
    generalize 2 * (j : K) + γ + δ + 1 = y at *
    field_simp
    ring
  · have h0 : (2 : K) ≤ j := by exact_mod_cast hj
    have h1 : 2 * (j : K) + (γ + δ) ≠ 0 := by linarith
    have h2 : 2 * (j : K) + (γ + δ) + 2 ≠ 0 := by linarith
    rw [hF.div _ _ (by linarith), hF.div _ _ (by linarith), hF.div _ _ two_ne_zero, hF.div _ _ two_ne_zero, jacA_up hγ hδ]
    unfold jacRa gR gA
    push_cast
    rw [show 2 * ((j : K) - 1) + (γ + δ) + 2 = 2 * j + (γ + δ) by ring, show γ + j + (δ + j) + 1 + 1 = 2 * j + (γ + δ) + 2 by ring, show γ + j + (δ + j) = 2 * j + (γ + δ) by ring,
      show 2 * (j : K) + (γ + δ) - (γ + δ) = 2 * j by ring]
    generalize 2 * (j : K) + (γ + δ) + 2 = x at *
    generalize 2 * (j : K) + (γ + δ) = y at *
    field_simp
    ring
  · have h0 : (2 : K) ≤ j := by exact_mod_cast hj
    have h1 : 2 * (j : K) + γ + δ ≠ 0 := by linarith
    have h2 : 2 * (j : K) + γ + δ + 1 ≠ 0 := by linarith
    rw [hF.div _ _ (by linarith), hF.div _ _ (by linarith), hF.div _ _ (mul_ne_zero h1 h2), show γ + j + (δ + j) = 2 * j + γ + δ by ring]
    generalize 2 * (j : K) + γ + δ + 1 = x at *
    generalize 2 * (j : K) + γ + δ = y at *
    field_simp
    ring

theorem mpfrB_jac (n : Int) : ∃ B, mpfrBJacJac F n γ δ = some B ∧ RepresentsT B n 2 id (Jac F false γ δ) (Jac F false (γ + 1) (δ + 1)) := by
  have h0 : ∃ A0, (if n > 0 then (callocTB n 2 : TB K).set 1 0 0 else some (callocTB n 2)) = some A0 ∧ StoresT A0 n 2 fun i j => if (i = 0 ∧ j = 0) ∧ 0 < n then 1 else 0 := by
    split_ifs with h
    · obtain ⟨A0, e, s⟩ := C14_set_tri (callocTB_stores (K := K) n 2) 1 0 0
      exact ⟨A0, e, s.to fun i j => if_congr (by unfold band; omega) rfl rfl⟩
    · exact ⟨_, rfl, (callocTB_stores n 2).to fun i j => by rw [if_neg (by omega)]⟩
  obtain ⟨A0, e0, s0⟩ := h0
  obtain ⟨A, e, s⟩ := pencil_fill3 (n := n) (A0 := A0) 1 (F.div (γ - δ) (γ + δ + 4)) (F.div (γ + δ + 2) (γ + δ + 4))
    (fun i => -(F.div (γ + i) (γ + i + (δ + i)) * F.div (δ + i) (γ + i + (δ + i) + 1)))
    (fun i => F.div (γ - δ) (γ + i + (δ + i)) * F.div (γ + i + (δ + i) - (i - 1)) (γ + i + (δ + i) + 2))
    (fun i => F.div (γ + i + (δ + i) - (i - 1)) (γ + i + (δ + i) + 1) * F.div (γ + i + (δ + i) - (i - 1) + 1) (γ + i + (δ + i) + 2)) s0
  refine ⟨A, ?_, ofFill3 s (jacB_matrix hγ hδ hF) ?_ ?_ ?_ (fun j hj => ?_) (fun j hj => ?_) fun j hj => ?_⟩
  · rw [← e]
    have : ∀ f : TB K → Option (TB K), (if n > 0 then (callocTB n 2 : TB K).set 1 0 0 else some (callocTB n 2)).bind f = f A0 := fun f => by rw [e0, Option.bind_some]
    rw [← this fun A0 => (if n > 1 then (A0.set (F.div (γ - δ) (γ + δ + 4)) 0 1).bind fun A => A.set (F.div (γ + δ + 2) (γ + δ + 4)) 1 1 else some A0).bind _]
    unfold mpfrBJacJac
    by_cases h : n > 1 <;> by_cases h' : n > 0 <;> simp only [h, h', if_true, if_false] <;> rfl
  · unfold jacTau; simp
  · have h4 : γ + δ + 4 ≠ 0 := by linarith
    have h2 : γ + δ + 2 ≠ 0 := by linarith
    push_cast
    rw [hF.div _ _ h4, hF.div _ _ (mul_ne_zero (by linarith) (by linarith)), show 1 + γ + δ + 1 = γ + δ + 2 by ring, show 2 * 1 + γ + δ + 2 = γ + δ + 4 by ring, show 2 * 1 + γ + δ = γ + δ + 2 by ring]
    generalize γ + δ + 4 = x at *
    generalize γ + δ + 2 = y at *
    field_simp
  · have h4 : γ + δ + 4 ≠ 0 := by linarith
    have h3 : γ + δ + 3 ≠ 0 := by linarith
    unfold jacTau
    simp only [Bool.false_eq_true, if_false, one_ne_zero]
    rw [hF.div _ _ h4]
    push_cast
    rw [show 2 * 1 + γ + δ + 1 = γ + δ + 3 by ring, show 2 * 1 + γ + δ + 2 = γ + δ + 4 by ring, show 1 + γ + δ + 2 = γ + δ + 3 by ring, show 1 + γ + δ + 1 = γ + δ + 2 by ring]
    generalize γ + δ + 4 = x at *
    generalize γ + δ + 3 = y at *
    field_simp
  · have h0 : (2 : K) ≤ j := by exact_mod_cast hj
    have h1 : 2 * (j : K) + γ + δ + 1 ≠ 0 := by linarith
    have h2 : 2 * (j : K) + γ + δ + 2 ≠ 0 := by linarith
    unfold jacTau
    simp only [Bool.false_eq_true, if_false]
    rw [if_neg (show ¬ j = 0 by omega), hF.div _ _ (by linarith), hF.div _ _ (by linarith), show γ + j + (δ + j) + 2 = 2 * j + γ + δ + 2 by ring, show γ + j + (δ + j) + 1 = 2 * j + γ + δ + 1 by ring, div_mul_div_comm]
    congr 1
    ring
  · have h0 : (2 : K) ≤ j := by exact_mod_cast hj
    rw [hF.div _ _ (by linarith), hF.div _ _ (by linarith), hF.div _ _ (mul_ne_zero (by linarith) (by linarith)), div_mul_div_comm]
    congr 1 <;> ring
  · have h0 : (2 : K) ≤ j := by exact_mod_cast hj
    rw [hF.div _ _ (by linarith), hF.div _ _ (by linarith), hF.div _ _ (mul_ne_zero (by linarith) (by linarith)), div_mul_div_comm, ← neg_div]
    congr 1 <;> ring

end

/-! ## The other pencils -/

section
variable (hF : IsLibm F)
include hF

theorem mpfrA_lag {α β : K} (hβ : -1 < β) (n : Int) : ∃ A, mpfrALagLag n α β = some A ∧ RepresentsT A n 1 (lagOp α) (Lag F false β) (Lag F false (β + 1)) :=
  C48_laguerre_A (norm := false) hF hβ (fun _ => 0) n

theorem mpfrB_lag {β : K} (hβ : -1 < β) (n : Int) : ∃ A, mpfrBLagLag n = some A ∧ RepresentsT A n 1 id (Lag F false β) (Lag F false (β + 1)) := by
  obtain ⟨A, e, s⟩ := biT_fill (K := K) (fun _ => 0) n (fun _ => -1) (fun _ => 1)
  refine ⟨A, e, _, s, fun i j h => diags_band (l := 0) (u := 1) (fun d j h => by unfold FT.Poly.g2; split_ifs <;> first | rfl | omega) i j (by omega),
    op2 (fun j => j) (fun _ => 1) (monic_neg' _ _) C_comm_id (fun j hj => ?_) (fun j hj hd => ?_) fun j hj hd => ?_⟩
  · show laguerre β j = _
    rw [laguerre_raise hj]
    unfold FT.Poly.g2 laguerre
    norm_num
    ring
  · have := lagS_1 (norm := false) hF hβ (show 0 ≤ j - 1 by omega)
    rw [sub_add_cancel] at this
    have d := lagDer (F := F) (norm := false) hF (show 1 ≤ j by omega)
    simp only [Bool.false_eq_true, if_false] at d
    rw [this, ← d, ← sub_eq_add_neg]
    ring
  · rw [lagS_up hF hβ hj, add_zero, mul_one]
    rfl

theorem mpfrA_ult {lam mu : K} (hm : -1 / 2 < mu) (h0 : mu ≠ 0) (n : Int) : ∃ A, mpfrAUltUlt F n lam mu = some A ∧ RepresentsT A n 2 (ultOp lam) (Ult F false mu) (Ult F false (mu + 1)) := by
  obtain ⟨A, e, s⟩ := pencil_fill1 (n := n) (F.div ((lam * 2 + 1) * mu) (mu + 1)) (fun i => -((mu * 2 + i) * ((mu - lam) * 2 + i) * F.div mu (mu + i))) (fun i => (lam * 2 + i) * i * F.div mu (mu + i))
  refine ⟨A, ?_, ofFill s (ultA_matrix hF hm h0) ?_ ?_ (fun j hj => ?_) fun j hj => ?_⟩
  · rw [← e]
    unfold mpfrAUltUlt
    by_cases h : n > 1 <;> simp only [h, if_true, if_false] <;> rfl
  · push_cast; ring
  · rw [ultD_one hF hm]
    push_cast
    rw [hF.div _ _ (by linarith), hF.div _ _ (by linarith), add_comm mu 1]
    ring
  · have h2 : (2 : K) ≤ j := by exact_mod_cast hj
    unfold ultD
    rw [if_neg (show ¬ j = 0 by omega), if_neg (show ¬ j = 0 by omega)]
    simp only [Bool.false_eq_true, if_false]
    rw [hF.div _ _ (by linarith), hF.div _ _ (by linarith), add_comm mu (j : K)]
    ring
  · have h2 : (2 : K) ≤ j := by exact_mod_cast hj
    unfold ultU
    simp only [Bool.false_eq_true, if_false]
    rw [hF.div _ _ (by linarith), hF.div _ _ (by linarith), add_comm mu (j : K)]
    ring

theorem mpfrB_ult {mu : K} (hm : -1 / 2 < mu) (h0 : mu ≠ 0) (n : Int) : ∃ B, mpfrBUltUlt F n mu = some B ∧ RepresentsT B n 2 id (Ult F false mu) (Ult F false (mu + 1)) := by
  obtain ⟨B, e, s⟩ := pencil_fill0 (n := n) 1 (F.div mu (mu + 1)) (fun i => -F.div mu (mu + i)) (fun i => F.div mu (mu + i))
  refine ⟨B, ?_, ofFill s (ultB_matrix hF hm h0) ?_ ?_ (fun j hj => ?_) fun j hj => ?_⟩
  · rw [← e]
    unfold mpfrBUltUlt
    by_cases h : n > 1 <;> by_cases h' : n > 0 <;> simp only [h, h', if_true, if_false] <;> rfl
  · rfl
  · rw [ultD_one hF hm, add_comm]; rfl
  · unfold ultD; rw [if_neg (show ¬ j = 0 by omega), if_neg (show ¬ j = 0 by omega), add_comm]; rfl
  · have h2 : (2 : K) ≤ j := by exact_mod_cast hj
    unfold ultU
    simp only [Bool.false_eq_true, if_false]
    rw [hF.div _ _ (by linarith), hF.div _ _ (by linarith), add_comm, neg_div]

theorem mpfrA_chebleg (n : Int) : ∃ A, mpfrAChebLeg F n = some A ∧ RepresentsT A n 2 (ultOp 0) (Leg F false) (Ult F false (3 / 2)) := by
  obtain ⟨A, e, s⟩ := pencil_fill1 (n := n) (F.div 1 3) (fun i => F.div (-(i + 1) * (i + 1)) (2 * i + 1)) (fun i => F.div (1 * i * i) (2 * i + 1))
  rw [Leg_eq hF, show (3 / 2 : K) = 1 / 2 + 1 by norm_num]
  refine ⟨A, ?_, ofFill s (ultA_matrix hF (by norm_num) (by norm_num)) ?_ ?_ (fun j hj => ?_) fun j hj => ?_⟩
  · rw [← e]
    unfold mpfrAChebLeg
    by_cases h : n > 1 <;> simp only [h, if_true, if_false] <;> rfl
  · push_cast; ring
  · rw [half_D hF (by norm_num), hF.div _ _ (by norm_num)]; norm_num
  · have h2 : (2 : K) ≤ j := by exact_mod_cast hj
    rw [half_D hF (by omega), hF.div _ _ (by linarith)]
    simp only [Bool.false_eq_true, if_false]
    ring
  · have h2 : (2 : K) ≤ j := by exact_mod_cast hj
    rw [half_U hF hj, hF.div _ _ (by linarith)]
    simp only [Bool.false_eq_true, if_false]
    ring

theorem mpfrB_chebleg (n : Int) : ∃ B, mpfrBChebLeg F n = some B ∧ RepresentsT B n 2 id (Leg F false) (Ult F false (3 / 2)) := C48_chebyshev_legendre_B (norm := false) hF n
theorem mpfrA_legcheb (n : Int) : ∃ A, mpfrALegCheb n = some A ∧ RepresentsT A n 2 (ultOp (1 / 2)) (Che F false) (Sec F false) := C48_legendre_chebyshev_A (norm := false) hF n
theorem mpfrB_legcheb (n : Int) : ∃ B, mpfrBLegCheb n = some B ∧ RepresentsT B n 2 id (Che F false) (Sec F false) := C48_legendre_chebyshev_B (norm := false) hF n

end
end FT.Poly
