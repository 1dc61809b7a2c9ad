import Verif.Lemmas.Pencil

/-! # Storage of pencils, and the factors of Legendre and Chebyshev polynomials -/

set_option linter.unusedSectionVars false

namespace FT.Poly
open Polynomial FT.Props
variable {K : Type*} [Field K]

theorem callocTB_stores (n b : Int) : StoresT (callocTB n b : TB K) n b fun _ _ => 0 :=
  .mk' ⟨rfl, rfl⟩ (by unfold TB.WF callocTB callocB; simp only; omega) fun i j => by unfold TB.ent callocTB callocB; simp

theorem pencil_fill {n : Int} {A0 : TB K} (c0 c1 : K) (w0 w2 : Int → K) (h0 : StoresT A0 n 2 fun i j => if (i = 0 ∧ j = 0) ∧ 0 < n then c0 else 0) :
    ∃ A, ((if n > 1 then A0.set c1 1 1 else some A0).bind fun A => forUp 2 n (fun i A => (A.set (w0 i) (i - 2) i).bind fun A => A.set (w2 i) i i) A) = some A ∧
      StoresT A n 2 (cut n n (diags (g2 (-2) 0 w0 fun j => if j = 0 then c0 else if j = 1 then c1 else w2 j))) := by
  have h1 : ∃ A1, (if n > 1 then A0.set c1 1 1 else some A0) = some A1 ∧ StoresT A1 n 2 fun i j => if (i = 1 ∧ j = 1) ∧ 1 < n then c1 else if (i = 0 ∧ j = 0) ∧ 0 < n then c0 else 0 := by
    split_ifs with h
    · obtain ⟨A1, e, h1⟩ := C14_set_tri h0 c1 1 1
      refine ⟨A1, e, h1.to fun i j => ?_⟩
      by_cases hc : i = 1 ∧ j = 1
      · rw [if_pos ⟨hc, by unfold band; omega⟩, if_pos ⟨hc, h⟩]
      · rw [if_neg (show ¬ ((i = 1 ∧ j = 1) ∧ band n n 0 2 1 1) from fun h => hc h.1), if_neg (show ¬ ((i = 1 ∧ j = 1) ∧ 1 < n) from fun h => hc h.1)]
    · exact ⟨A0, rfl, h0.to fun i j => by rw [if_neg (show ¬ ((i = 1 ∧ j = 1) ∧ 1 < n) from fun hc => h hc.2)]⟩
  obtain ⟨A1, e1, s1⟩ := h1
  rw [e1, Option.bind_some]
  obtain ⟨A2, e2, s2⟩ := fillT (lo := 2) (hi := n) (body := fun i A => (A.set (w0 i) (i - 2) i).bind fun A => A.set (w2 i) i i)
    (v := fun p j => if p = j then w2 j else if p = j - 2 then w0 j else 0) s1 (fun j A a' j0 j1 hA hz => sets2T hA fun p hp => by
      rw [hz p, if_neg (show ¬ ((p = 1 ∧ j = 1) ∧ 1 < n) by omega), if_neg (show ¬ ((p = 0 ∧ j = 0) ∧ 0 < n) by omega)])
  refine ⟨A2, e2, s2.to fun i j => ?_⟩
  unfold cut diags g2
  beta_reduce
  by_cases hr : (0 ≤ i ∧ i < n) ∧ (0 ≤ j ∧ j < n)
  · rw [if_pos hr]
    by_cases hj : 2 ≤ j ∧ j < n
    · by_cases hb : band n n 0 2 i j
      · rw [if_pos ⟨hj, hb⟩]
        unfold band at hb
        split_ifs <;> first | rfl | omega
      · rw [if_neg (show ¬ ((2 ≤ j ∧ j < n) ∧ band n n 0 2 i j) from fun h => hb h.2), if_neg (by omega), if_neg (by omega)]
        unfold band at hb
        split_ifs <;> first | rfl | omega
    · rw [if_neg (show ¬ ((2 ≤ j ∧ j < n) ∧ band n n 0 2 i j) from fun h => hj h.1)]
      split_ifs <;> first | rfl | omega
  · rw [if_neg hr, if_neg (show ¬ ((2 ≤ j ∧ j < n) ∧ band n n 0 2 i j) from fun h => hr (by have := h.2; unfold band at this; omega)), if_neg (by omega), if_neg (by omega)]

theorem pencil_fill0 {n : Int} (c0 c1 : K) (w0 w2 : Int → K) :
    ∃ A, ((if n > 0 then (callocTB n 2 : TB K).set c0 0 0 else some (callocTB n 2)).bind fun A0 => (if n > 1 then A0.set c1 1 1 else some A0).bind fun A =>
        forUp 2 n (fun i A => (A.set (w0 i) (i - 2) i).bind fun A => A.set (w2 i) i i) A) = some A ∧
      StoresT A n 2 (cut n n (diags (g2 (-2) 0 w0 fun j => if j = 0 then c0 else if j = 1 then c1 else w2 j))) := by
  by_cases h : n > 0
  · rw [if_pos h]
    obtain ⟨A0, e, s⟩ := C14_set_tri (callocTB_stores (K := K) n 2) c0 0 0
    rw [e, Option.bind_some]
    exact pencil_fill c0 c1 w0 w2 (s.to fun i j => by
      by_cases hc : i = 0 ∧ j = 0
      · rw [if_pos ⟨hc, by unfold band; omega⟩, if_pos ⟨hc, h⟩]
      · rw [if_neg (by tauto), if_neg (by tauto)])
  · rw [if_neg h, Option.bind_some]
    exact pencil_fill c0 c1 w0 w2 ((callocTB_stores n 2).to fun i j => by rw [if_neg (by omega)])

theorem pencil_fill1 {n : Int} (c1 : K) (w0 w2 : Int → K) :
    ∃ A, ((if n > 1 then (callocTB n 2 : TB K).set c1 1 1 else some (callocTB n 2)).bind fun A =>
        forUp 2 n (fun i A => (A.set (w0 i) (i - 2) i).bind fun A => A.set (w2 i) i i) A) = some A ∧
      StoresT A n 2 (cut n n (diags (g2 (-2) 0 w0 fun j => if j = 0 then 0 else if j = 1 then c1 else w2 j))) :=
  pencil_fill 0 c1 w0 w2 ((callocTB_stores n 2).to fun i j => by rw [ite_self])

section order
variable [LinearOrder K] [IsStrictOrderedRing K] {F : Libm K} {norm : Bool} {mu : K}

theorem ultD_one (hF : IsLibm F) (hm : -1 / 2 < mu) : ultD F norm mu 1 = if norm then copysignK (F.sqrt (F.div (2 * mu + 1) (2 * mu + 4))) mu else F.div mu (1 + mu) := by
  unfold ultD
  rw [if_neg one_ne_zero, if_neg one_ne_zero, Int.cast_one]
  cases norm
  · rfl
  · have h1 : 0 < 1 + mu := by linarith
    have h2 : 0 < 1 + mu + 1 := by linarith
    simp only [if_true]
    rw [hF.div _ _ (by positivity), hF.div _ _ (by linarith)]
    congr 2
    rw [show 2 * mu + 4 = 2 * (1 + mu + 1) by ring, show 1 + 2 * mu + 1 = 2 * (1 + mu) by ring, add_comm (2 * mu) 1]
    field_simp
    ring

theorem Leg_eq (hF : IsLibm F) : Leg F norm = Ult F norm (1 / 2) := by
  have g : ultG F (1 / 2) = 2 := by
    unfold ultG
    rw [hF.gamma_succ (1 / 2) (by norm_num), show (1 / 2 : K) + 1 / 2 = 1 by norm_num, hF.gamma_one]
    have := ne_of_gt (hF.gamma_pos (1 / 2) (by norm_num))
    field_simp
  have r : legR (K := K) = ultR (1 / 2) := by
    funext n
    unfold legR ultR
    rw [show 2 * ((n : K) + 1 / 2) = 2 * n + 1 by ring]
  unfold Leg Ult legS ultS
  rw [g, r, sub_self]

/-! Chebyshev polynomials -/

theorem cheb_lead {n : Int} (hn : 0 ≤ n) : lead (K := K) chebR n = lead (ultR 1) n * if n = 0 then 1 else 1 / 2 := by
  refine eq_of_steps (s := lead chebR) (t := fun n => lead (ultR 1) n * if n = 0 then 1 else 1 / 2) ?_ (fun n hn ih => ?_) hn
  · rw [lead_zero, lead_zero, if_pos rfl, mul_one]
  · have h : (0 : K) ≤ n := by exact_mod_cast hn
    have h1 : (n : K) + 1 ≠ 0 := by linarith
    have e1 : ultR (1 : K) n = 2 := by unfold ultR; rw [mul_div_assoc, div_self h1, mul_one]
    have e2 : chebR (K := K) n = if n = 0 then 1 else 2 := rfl
    rw [lead_succ _ hn, lead_succ _ hn, ih, if_neg (show ¬ n + 1 = 0 by omega), e1, e2]
    split_ifs <;> ring

theorem cheB {n : Int} (hn : 1 ≤ n) : jacB (K := K) (-1 / 2) (-1 / 2) n = if n = 1 then 1 / 2 else 1 / 4 := by
  unfold jacB
  split_ifs with h
  · norm_num
  · have h2 : (2 : K) ≤ n := by exact_mod_cast (by omega : 2 ≤ n)
    have e1 : 2 * (n : K) + -1 / 2 + -1 / 2 = 2 * n - 1 := by ring
    have n1 : 2 * (n : K) - 1 ≠ 0 := by linarith
    have n2 : (n : K) ≠ 0 := by linarith
    have n3 : (n : K) - 1 ≠ 0 := by linarith
    rw [e1, show 2 * (n : K) - 1 - 1 = 2 * (n - 1) by ring, sub_add_cancel, show (n : K) + -1 / 2 = (2 * n - 1) / 2 by ring, show (2 * (n : K) - 1) / 2 + -1 / 2 = n - 1 by ring]
    generalize 2 * (n : K) - 1 = v at *
    field_simp
    norm_num

/-- Normalised Chebyshev polynomials. -/
theorem cheS_true (hF : IsLibm F) {n : Int} (hn : 0 ≤ n) : cheS F true n = lead chebR n * if n = 0 then 1 / F.gamma (1 / 2) else F.sqrt 2 / F.gamma (1 / 2) := by
  have hg := hF.gamma_pos (1 / 2) (by norm_num)
  have h2 := hF.sqrt 2 (by norm_num)
  have h2p := sqrt_pos hF.sqrt (show (0 : K) < 2 by norm_num)
  refine eq_of_steps (s := cheS F true) (t := fun n => lead chebR n * if n = 0 then 1 / F.gamma (1 / 2) else F.sqrt 2 / F.gamma (1 / 2)) ?_ (fun n hn ih => ?_) hn
  · unfold cheS
    rw [scale_zero, if_pos rfl, if_pos rfl, lead_zero, one_mul, sqrt_sq hF.sqrt (le_of_lt hg)]
  · have hr : ∀ n, 0 ≤ n → chebR (K := K) n ≠ 0 := fun n _ => by unfold chebR; split_ifs <;> norm_num
    have hb : ∀ n, 1 ≤ n → 0 < jacB (K := K) (-1 / 2) (-1 / 2) n := fun n h => jacB_pos (by norm_num) (by norm_num) h
    show cheS F true (n + 1) = _
    unfold cheS
    rw [scale_succ hF.sqrt (by positivity) hr hb hn]
    change cheS F true n * _ = _
    rw [ih, lead_succ _ hn, if_neg (show ¬ n + 1 = 0 by omega)]
    have e' : chebR (K := K) n = if n = 0 then 1 else 2 := rfl
    have e : step F.sqrt true chebR (jacB (-1 / 2) (-1 / 2)) n = if n = 0 then F.sqrt 2 else 2 := by
      rw [step_pos hF.sqrt (by unfold chebR; split_ifs <;> norm_num) (hb _ (by omega)), cheB (by omega)]
      by_cases h : n = 0
      · rw [if_pos (by omega), if_pos h, sqrt_unique hF.sqrt (a := 1 / 2) (b := 1 / F.sqrt 2) (by norm_num) (by positivity) (by rw [div_mul_div_comm, h2.2, one_mul]), one_div_one_div]
      · rw [if_neg (by omega), if_neg h, sqrt_unique hF.sqrt (a := 1 / 4) (b := 1 / 2) (by norm_num) (by norm_num) (by norm_num), one_div_one_div]
    rw [e, e']
    split_ifs with h
    · subst h; rw [lead_zero]; ring
    · ring

/-! ## The matrices of ultraspherical pencils -/

theorem g2_congr {T : K[X] → K[X]} {p q : Int → K[X]} {a b a' b' : Int → K} (h : IsMatrix T p q (diags (g2 (-2) 0 a b))) (ha : ∀ j, 2 ≤ j → a' j = a j) (hb : ∀ j, 0 ≤ j → b' j = b j) :
    IsMatrix T p q (diags (g2 (-2) 0 a' b')) := by
  intro j hj
  have e : ∀ i, 0 ≤ i → diags (g2 (-2) 0 a' b') i j = diags (g2 (-2) 0 a b) i j := fun i hi => by
    unfold diags g2
    by_cases h1 : i - j = 0
    · rw [if_pos h1, if_pos h1, hb j hj]
    · rw [if_neg h1, if_neg h1]
      by_cases h2 : i - j = -2
      · rw [if_pos h2, if_pos h2, ha j (by omega)]
      · rw [if_neg h2, if_neg h2]
  refine ⟨fun i hi => by rw [e i (by omega), (h j hj).1 i hi], ?_⟩
  rw [(h j hj).2]
  exact sum_Ico_congr fun i i0 i1 => by rw [e i i0]

theorem ultB_matrix (hF : IsLibm F) (hm : -1 / 2 < mu) (h0 : mu ≠ 0) : IsMatrix id (Ult F norm mu) (Ult F norm (mu + 1)) (diags (g2 (-2) 0 (ultU F norm mu) (ultD F norm mu))) := by
  refine op2 (symR mu) (fun _ => 1) (monic_neg' _ _) C_comm_id (fun j hj => ?_) (fun j hj hd => ?_) fun j hj hd => ?_
  · show jacobi (mu - 1 / 2) (mu - 1 / 2) j = _
    rw [sym_raise hm hj, show mu + 1 - 1 / 2 = mu + 1 / 2 by ring]
    unfold g2 jacobi
    norm_num
    ring
  · exact ult_U hF hm h0 (by omega)
  · rw [mul_one, add_zero, ult_D hF hm h0 hj]

theorem ultA_matrix {lam : K} (hF : IsLibm F) (hm : -1 / 2 < mu) (h0 : mu ≠ 0) :
    IsMatrix (ultOp lam) (Ult F norm mu) (Ult F norm (mu + 1)) (diags (g2 (-2) 0 (fun j => (j + 2 * mu) * (j + 2 * (mu - lam)) * ultU F norm mu j) fun j => j * (j + 2 * lam) * ultD F norm mu j)) := by
  refine op2 (fun j => (j + 2 * mu) * (j + 2 * (mu - lam)) * symR mu j) (fun j => j * (j + 2 * lam)) (monic_neg' _ _) (ultOp_comm lam) (fun j hj => ?_) (fun j hj hd => ?_) fun j hj hd => ?_
  · show ultOp lam (jacobi (mu - 1 / 2) (mu - 1 / 2) j) = _
    rw [sym_op hm hj, show mu + 1 - 1 / 2 = mu + 1 / 2 by ring]
    unfold g2 jacobi
    norm_num
    ring
  · rw [← sub_eq_add_neg]
    linear_combination (j + 2 * mu) * (j + 2 * (mu - lam)) * ult_U (norm := norm) hF hm h0 (show 2 ≤ j by omega)
  · rw [add_zero, ult_D hF hm h0 hj]
    ring

/-- The auxiliary family of the conversion of Legendre into Chebyshev polynomials: a multiple of the Chebyshev polynomials of the second kind. -/
def secS (F : Libm K) (norm : Bool) (n : Int) : K := (if norm then 1 / (F.sqrt 2 * F.gamma (1 / 2)) else 1 / 2) * lead (ultR 1) n

theorem che_D (hF : IsLibm F) {j : Int} (hj : 0 ≤ j) : cheS F norm j = secS F norm j * if j = 0 then if norm then F.sqrt 2 else 2 else 1 := by
  have h2 := (hF.sqrt 2 (by norm_num)).2
  have h2p := ne_of_gt (sqrt_pos hF.sqrt (show (0 : K) < 2 by norm_num))
  have hg := ne_of_gt (hF.gamma_pos (1 / 2) (by norm_num))
  unfold secS
  cases norm
  · show lead chebR j = _
    rw [cheb_lead hj]
    split_ifs <;> first | ring | skip
    all_goals contradiction
  · rw [cheS_true hF hj, cheb_lead hj]
    by_cases h : j = 0
    · simp only [h, if_true, mul_one, lead_zero]
      field_simp
    · simp only [h, if_true, if_false, mul_one]
      field_simp
      linear_combination lead (ultR 1) j * h2

theorem che_U (hF : IsLibm F) {j : Int} (hj : 2 ≤ j) : cheS F norm j * symR 0 j = secS F norm (j - 2) * -1 := by
  have h1 : (2 : K) ≤ j := by exact_mod_cast hj
  have e : ∀ n : Int, 0 ≤ n → ultR (1 : K) n = 2 := fun n hn => by
    have : (0 : K) ≤ n := by exact_mod_cast hn
    unfold ultR
    rw [mul_div_assoc, div_self (by linarith), mul_one]
  have s1 := lead_succ (ultR (1 : K)) (show 0 ≤ j - 2 by omega)
  have s2 := lead_succ (ultR (1 : K)) (show 0 ≤ j - 1 by omega)
  rw [show j - 2 + 1 = j - 1 by ring, e _ (by omega)] at s1
  rw [sub_add_cancel, e _ (by omega), s1] at s2
  have r : symR (0 : K) j = -1 / 4 := by
    unfold symR
    rw [add_zero]
    have n1 : (j : K) ≠ 0 := by linarith
    have n2 : (j : K) - 1 ≠ 0 := by linarith
    field_simp
  rw [che_D hF (by omega), if_neg (by omega), r]
  unfold secS
  rw [s2]
  ring

theorem cheB_matrix (hF : IsLibm F) : IsMatrix id (Che F norm) (scaled (secS F norm) (jacobi (1 / 2) (1 / 2))) (diags (g2 (-2) 0 (fun _ => -1) fun j => if j = 0 then if norm then F.sqrt 2 else 2 else 1)) := by
  refine op2 (symR 0) (fun _ => 1) (monic_neg' _ _) C_comm_id (fun j hj => ?_) (fun j hj hd => ?_) fun j hj hd => ?_
  · show jacobi (-1 / 2) (-1 / 2) j = _
    have := sym_raise (mu := (0 : K)) (by norm_num) hj
    rw [show (0 : K) - 1 / 2 = -1 / 2 by norm_num, zero_add] at this
    rw [this]
    unfold g2 jacobi
    norm_num
    ring
  · exact che_U hF (by omega)
  · rw [mul_one, add_zero, che_D hF hj]

theorem cheA_matrix (hF : IsLibm F) :
    IsMatrix (ultOp (1 / 2)) (Che F norm) (scaled (secS F norm) (jacobi (1 / 2) (1 / 2))) (diags (g2 (-2) 0 (fun j => -(j * (j - 1))) fun j => j * (j + 1))) := by
  refine op2 (fun j => j * (j - 1) * symR 0 j) (fun j => j * (j + 1)) (monic_neg' _ _) (ultOp_comm _) (fun j hj => ?_) (fun j hj hd => ?_) fun j hj hd => ?_
  · show ultOp (1 / 2) (jacobi (-1 / 2) (-1 / 2) j) = _
    have := sym_op (lam := 1 / 2) (mu := (0 : K)) (by norm_num) hj
    rw [show (0 : K) - 1 / 2 = -1 / 2 by norm_num, zero_add, mul_zero, add_zero, show (j : K) + 2 * (-1 / 2) = j - 1 by ring, show (j : K) + 2 * (1 / 2) = j + 1 by ring] at this
    rw [this]
    unfold g2 jacobi
    norm_num
    ring
  · rw [← sub_eq_add_neg]
    linear_combination (j * (j - 1)) * che_U (norm := norm) hF (show 2 ≤ j by omega)
  · rw [add_zero, che_D hF hj]
    by_cases h : j = 0
    · rw [h]; push_cast; ring
    · rw [if_neg h]; ring

end order
end FT.Poly
