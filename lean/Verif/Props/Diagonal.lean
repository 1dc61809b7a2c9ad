import Verif.Lemmas.DiagJac
import Verif.Props.Ops

/-!
# C47: diagonal connection coefficients

Each routine that fills the diagonal of a connection matrix computes the quotient of the leading coefficients of the two families, whatever the normalisations; so the
coefficients of two opposite conversions multiply to one.
-/

set_option linter.unusedSectionVars false

namespace FT.Props.Ops
open Polynomial FT.Poly
variable {K : Type*} [Field K] [LinearOrder K] [IsStrictOrderedRing K] {F : Libm K} {norm1 norm2 : Bool} {n inc : Int} {D : Buf K}

section
variable (hF : IsLibm F) (hinc : 1 ≤ inc) (hs : ∀ i, 0 ≤ i → i < n → i * inc < D.size)
include hF hinc hs

/-- **C47** Legendre to Chebyshev. -/
theorem C47_legendre_chebyshev : ∃ D', diagLegCheb F norm1 norm2 n inc D = some D' ∧ Filled n inc D D' fun i => legS F norm1 i / cheS F norm2 i := by
  have g := hF.gamma_pos (1 / 2) (by norm_num)
  have r := @ratio_step K _ _ _ _ _ _ _ (legS_succ (norm := norm1) hF) (cheS_succ (norm := norm2) hF)
  have r1 := r le_rfl
  have r2 : ∀ i : Int, 2 ≤ i → legS F norm1 i / cheS F norm2 i = (if norm1 then F.div (F.sqrt ((2 * i + 1) * (2 * i - 1)) * (legS F norm1 (i - 1) / cheS F norm2 (i - 1))) (2 * i)
      else F.div ((2 * i - 1) * (legS F norm1 (i - 1) / cheS F norm2 (i - 1))) (2 * i)) := fun i hi => by
    have h : (2 : K) ≤ i := by exact_mod_cast hi
    have h0 : (i : K) ≠ 0 := by linarith
    rw [r (show 1 ≤ i by omega), hF.div _ _ (by simpa using h0), hF.div _ _ (by simpa using h0)]
    unfold legStep cheStep
    rw [if_neg (show ¬ i - 1 = 0 by omega)]
    push_cast
    rw [show 2 * ((i : K) - 1) + 3 = 2 * i + 1 by ring, show 2 * ((i : K) - 1) + 1 = 2 * i - 1 by ring, sub_add_cancel]
    split_ifs
    · generalize legS F norm1 (i - 1) / cheS F norm2 (i - 1) = v
      field_simp
    · generalize legS F norm1 (i - 1) / cheS F norm2 (i - 1) = v
      field_simp
  have p2 := sqrt_pos hF.sqrt (show (0 : K) < 2 by norm_num)
  have e1 : F.sqrt (1 / 2) = 1 / F.sqrt 2 := sqrt_inv hF.sqrt two_pos
  have e3 : F.sqrt (3 / 2) = F.sqrt 3 / F.sqrt 2 := sqrt_div hF.sqrt (by norm_num) two_pos
  unfold legStep cheStep at r1
  rw [if_pos (show (1 : Int) - 1 = 0 by norm_num), show (1 : Int) - 1 = 0 by norm_num, legS_zero, cheS_zero hF, Int.cast_zero, mul_zero, zero_add, zero_add, mul_one, div_one, div_one] at r1
  unfold diagLegCheb
  cases norm1 <;> cases norm2 <;> simp only [Bool.false_eq_true, if_true, if_false] at r1 r2 ⊢
  · exact diag_fill2 (r := fun i => legS F false i / cheS F false i) hinc hs (by rw [legS_zero, cheS_zero hF]; simp) (by rw [r1]; norm_num) r2
  · exact diag_fill2 (r := fun i => legS F false i / cheS F true i) hinc hs (by rw [legS_zero, cheS_zero hF]; simp)
      (by rw [r1, legS_zero, cheS_zero hF, hF.div _ _ (ne_of_gt p2)]; simp only [Bool.false_eq_true, if_true, if_false]; field_simp) r2
  · exact diag_fill2 (r := fun i => legS F true i / cheS F false i) hinc hs (by rw [legS_zero, cheS_zero hF, e1]; simp) (by rw [r1, e3]; field_simp) r2
  · exact diag_fill2 (r := fun i => legS F true i / cheS F true i) hinc hs (by rw [legS_zero, cheS_zero hF, e1]; simp)
      (by rw [r1, legS_zero, cheS_zero hF, e3]; simp only [if_true]) r2

/-- **C47** Chebyshev to Legendre. -/
theorem C47_chebyshev_legendre : ∃ D', diagChebLeg F norm1 norm2 n inc D = some D' ∧ Filled n inc D D' fun i => cheS F norm1 i / legS F norm2 i := by
  have g := hF.gamma_pos (1 / 2) (by norm_num)
  have r := @ratio_step K _ _ _ _ _ _ _ (cheS_succ (norm := norm1) hF) (legS_succ (norm := norm2) hF)
  have r1 := r le_rfl
  have r2 : ∀ i : Int, 2 ≤ i → cheS F norm1 i / legS F norm2 i = (if norm2 then F.div (2 * i) (F.sqrt ((2 * i + 1) * (2 * i - 1))) * (cheS F norm1 (i - 1) / legS F norm2 (i - 1))
      else F.div (2 * i * (cheS F norm1 (i - 1) / legS F norm2 (i - 1))) (2 * i - 1)) := fun i hi => by
    have h : (2 : K) ≤ i := by exact_mod_cast hi
    have h0 : (i : K) ≠ 0 := by linarith
    have h1 : 0 < 2 * (i : K) - 1 := by linarith
    have h2 : 0 < 2 * (i : K) + 1 := by linarith
    have hq := sqrt_pos hF.sqrt (mul_pos h2 h1)
    rw [r (show 1 ≤ i by omega), hF.div _ _ (ne_of_gt hq), hF.div _ _ (ne_of_gt h1)]
    unfold legStep cheStep
    rw [if_neg (show ¬ i - 1 = 0 by omega)]
    push_cast
    rw [show 2 * ((i : K) - 1) + 3 = 2 * i + 1 by ring, show 2 * ((i : K) - 1) + 1 = 2 * i - 1 by ring, sub_add_cancel]
    have h1 := ne_of_gt h1
    have hq := ne_of_gt hq
    generalize cheS F norm1 (i - 1) / legS F norm2 (i - 1) = v
    generalize F.sqrt ((2 * (i : K) + 1) * (2 * i - 1)) = w at *
    generalize 2 * (i : K) - 1 = y at *
    split_ifs
    · field_simp
    · field_simp
  have p2 := sqrt_pos hF.sqrt (show (0 : K) < 2 by norm_num)
  have p3 := sqrt_pos hF.sqrt (show (0 : K) < 3 by norm_num)
  have e3 : F.sqrt (3 / 2) = F.sqrt 3 / F.sqrt 2 := sqrt_div hF.sqrt (by norm_num) two_pos
  have n3 : F.sqrt (3 / 2) ≠ 0 := ne_of_gt (sqrt_pos hF.sqrt (by norm_num))
  unfold legStep cheStep at r1
  rw [if_pos (show (1 : Int) - 1 = 0 by norm_num), show (1 : Int) - 1 = 0 by norm_num, legS_zero, cheS_zero hF, Int.cast_zero, mul_zero, zero_add, zero_add, mul_one, div_one, div_one] at r1
  unfold diagChebLeg
  cases norm1 <;> cases norm2 <;> simp only [Bool.false_eq_true, if_true, if_false] at r1 r2 ⊢
  · exact diag_fill2 (r := fun i => cheS F false i / legS F false i) hinc hs (by rw [legS_zero, cheS_zero hF]; simp) (by rw [r1]; norm_num) r2
  · exact diag_fill2 (r := fun i => cheS F false i / legS F true i) hinc hs (by rw [legS_zero, cheS_zero hF]; simp) (by rw [r1, hF.div _ _ n3, e3]; field_simp) r2
  · exact diag_fill2 (r := fun i => cheS F true i / legS F false i) hinc hs (by rw [legS_zero, cheS_zero hF, hF.div _ _ (ne_of_gt g)]; simp) (by rw [r1, legS_zero, cheS_zero hF]; simp) r2
  · exact diag_fill2 (r := fun i => cheS F true i / legS F true i) hinc hs (by rw [legS_zero, cheS_zero hF, hF.div _ _ (ne_of_gt g)]; simp only [if_true]; field_simp)
      (by rw [r1, legS_zero, cheS_zero hF, hF.div _ _ n3, e3]; simp only [if_true]; field_simp) r2

/-- **C47** Ultraspherical to ultraspherical. -/
theorem C47_ultraspherical {lam mu : K} (hl : -1 / 2 < lam) (l0 : lam ≠ 0) (hm : -1 / 2 < mu) (m0 : mu ≠ 0) :
    ∃ D', diagUltUlt F norm1 norm2 n lam mu inc D = some D' ∧ Filled n inc D D' fun i => ultS F norm1 lam i / ultS F norm2 mu i := by
  have gh := hF.gamma_pos (1 / 2) (by norm_num)
  have gl := hF.gamma_pos (lam + 1 / 2) (by linarith)
  have gl' := hF.gamma_pos (lam + 1) (by linarith)
  have gm := hF.gamma_pos (mu + 1 / 2) (by linarith)
  have gm' := hF.gamma_pos (mu + 1) (by linarith)
  have r := @ratio_step K _ _ _ _ _ _ _ (ultS_succ (norm := norm1) hF hl l0) (ultS_succ (norm := norm2) hF hm m0)
  have z1 : F.sqrt (F.div (F.gamma (lam + 1)) (F.gamma (1 / 2) * F.gamma (lam + 1 / 2))) = ultS F true lam 0 := by
    unfold ultS
    rw [scale_zero, if_pos rfl, hF.div _ _ (by positivity), ← sqrt_inv hF.sqrt (ultG_pos hF hl)]
    unfold ultG
    rw [one_div_div]
  have z2 : F.sqrt (F.div (F.gamma (1 / 2) * F.gamma (mu + 1 / 2)) (F.gamma (mu + 1))) = 1 / ultS F true mu 0 := by
    unfold ultS
    rw [scale_zero, if_pos rfl, hF.div _ _ (by positivity), one_div_one_div]
    rfl
  have zf : ∀ lam, ultS F false lam 0 = 1 := fun _ => scale_zero
  have w1 : ∀ i : Int, 1 ≤ i → F.sqrt (F.div (F.div i (i - 1 + lam) * (i + lam)) (i - 1 + 2 * lam)) = 1 / F.sqrt (ultW lam i) := fun i hi => by
    obtain ⟨a1, a2, a3, a4, a5⟩ := ult_nz hl l0 hi
    rw [hF.div _ _ a1, hF.div _ _ a2, ← sqrt_inv hF.sqrt (ultW_pos hl l0 hi)]
    unfold ultW
    rw [one_div_div, div_mul_eq_mul_div, div_div]
  have w2 : ∀ i : Int, 1 ≤ i → F.sqrt (F.div (F.div (i - 1 + mu) i * (i - 1 + 2 * mu)) (i + mu)) = F.sqrt (ultW mu i) := fun i hi => by
    obtain ⟨a1, a2, a3, a4, a5⟩ := ult_nz hm m0 hi
    rw [hF.div _ _ (ne_of_gt a5), hF.div _ _ (ne_of_gt a4)]
    unfold ultW
    rw [div_mul_eq_mul_div, div_div]
  have q : ∀ i : Int, 1 ≤ i → ∀ c : K, F.div (c * (i - 1 + lam)) (i - 1 + mu) = c * (ultR lam (i - 1) / ultR mu (i - 1)) := fun i hi c => by
    obtain ⟨a1, -, -, -, a5⟩ := ult_nz hl l0 hi
    obtain ⟨b1, -, -, -, -⟩ := ult_nz hm m0 hi
    rw [hF.div _ _ b1]
    unfold ultR
    push_cast
    rw [sub_add_cancel]
    have := ne_of_gt a5
    generalize (i : K) - 1 + mu = y at *
    generalize (i : K) - 1 + lam = x at *
    field_simp
  have r' : ∀ i : Int, 1 ≤ i → ultS F norm1 lam i / ultS F norm2 mu i = (ultR lam (i - 1) / (if norm1 then F.sqrt (ultW lam i) else 1)) /
      (ultR mu (i - 1) / (if norm2 then F.sqrt (ultW mu i) else 1)) * (ultS F norm1 lam (i - 1) / ultS F norm2 mu (i - 1)) := fun i hi => by
    rw [r hi]
    unfold ultStep
    rw [sub_add_cancel]
    split_ifs <;> simp only [div_one]
  unfold diagUltUlt
  cases norm1 <;> cases norm2 <;> simp only [Bool.false_eq_true, if_true, if_false, z1, z2] at r' ⊢
  · exact diag_fill1 (r := fun i => ultS F false lam i / ultS F false mu i) hinc hs (by rw [zf, zf, div_one]) fun i hi => by
      have := q i hi 1
      rw [one_mul, one_mul] at this
      rw [r' i hi, this, div_one, div_one]
  · refine diag_fill1 (r := fun i => ultS F false lam i / ultS F true mu i) hinc hs (by rw [zf]) fun i hi => ?_
    have := ultR_ne hm m0 (show 0 ≤ i - 1 by omega)
    have := ne_of_gt (sqrt_pos hF.sqrt (ultW_pos hm m0 hi))
    rw [r' i hi, q i hi, w2 i hi, div_one]
    congr 1
    field_simp
  · refine diag_fill1 (r := fun i => ultS F true lam i / ultS F false mu i) hinc hs (by rw [zf, div_one]) fun i hi => ?_
    have := ultR_ne hm m0 (show 0 ≤ i - 1 by omega)
    have := ne_of_gt (sqrt_pos hF.sqrt (ultW_pos hl l0 hi))
    rw [r' i hi, q i hi, w1 i hi, div_one]
    congr 1
    field_simp
  · refine diag_fill1 (r := fun i => ultS F true lam i / ultS F true mu i) hinc hs (by rw [mul_one_div]) fun i hi => ?_
    have := ultR_ne hm m0 (show 0 ≤ i - 1 by omega)
    have := ne_of_gt (sqrt_pos hF.sqrt (ultW_pos hl l0 hi))
    have := ne_of_gt (sqrt_pos hF.sqrt (ultW_pos hm m0 hi))
    rw [r' i hi, q i hi, w1 i hi, w2 i hi]
    congr 1
    field_simp

/-- **C47** Laguerre to Laguerre. -/
theorem C47_laguerre {α β : K} (hα : -1 < α) (hβ : -1 < β) : ∃ D', diagLagLag F norm1 norm2 n α β inc D = some D' ∧ Filled n inc D D' fun i => lagS F norm1 α i / lagS F norm2 β i := by
  have ga := hF.gamma_pos (α + 1) (by linarith)
  have gb := hF.gamma_pos (β + 1) (by linarith)
  have zf : ∀ α, lagS F false α 0 = 1 := fun _ => scale_zero
  have zt : ∀ α, lagS F true α 0 = 1 / F.sqrt (F.gamma (α + 1)) := fun _ => scale_zero
  have r := @ratio_step K _ _ _ _ _ _ _ (fun n hn => lagS_succ (norm := norm1) hF hα (n := n) hn) (fun n hn => lagS_succ (norm := norm2) hF hβ (n := n) hn)
  have pa := sqrt_pos hF.sqrt ga
  have pb := sqrt_pos hF.sqrt gb
  have st : ∀ α : K, -1 < α → ∀ i : Int, 1 ≤ i → lagStep F true α (i - 1) = -(1 / (F.sqrt i * F.sqrt (i + α))) ∧ 0 < F.sqrt (i : K) ∧ 0 < F.sqrt (i + α) ∧ 0 < (i : K) ∧ 0 < (i : K) + α ∧ F.sqrt (i : K) * F.sqrt (i : K) = i :=
    fun α hα i hi => by
      have h : (1 : K) ≤ i := by exact_mod_cast hi
      refine ⟨?_, sqrt_pos hF.sqrt (by linarith), sqrt_pos hF.sqrt (by linarith), by linarith, by linarith, (hF.sqrt _ (by linarith)).2⟩
      unfold lagStep
      rw [if_pos rfl]
      push_cast
      rw [sub_add_cancel, show (i : K) - 1 + α + 1 = i + α by ring, sqrt_mul hF.sqrt (by linarith) (by linarith)]
  have sf : ∀ (α : K) (i : Int), lagStep F false α (i - 1) = -1 / (i : K) := fun α i => by
    unfold lagStep
    simp only [Bool.false_eq_true, if_false]
    push_cast
    rw [sub_add_cancel]
  unfold diagLagLag
  cases norm1 <;> cases norm2 <;> simp only [Bool.false_eq_true, if_true, if_false]
  · have e : ∀ i, 0 ≤ i → lagS F false α i / lagS F false β i = 1 := fun i hi => div_self (show lagS F false α i ≠ 0 from lagS_ne hF hα i)
    obtain ⟨D', e', f⟩ := diag_fill0 (r := fun _ => (1 : K)) hinc hs
    exact ⟨D', e', f.size, fun i i0 i1 => by rw [f.val i i0 i1, e i i0], f.keep⟩
  · refine diag_fill1 (r := fun i => lagS F false α i / lagS F true β i) hinc hs (by rw [zf, zt, one_div_one_div]) fun i hi => ?_
    obtain ⟨t, p1, p2, p3, p4, p5⟩ := st β hβ i hi
    rw [r hi, sf, t, hF.div _ _ (ne_of_gt p3), sqrt_div hF.sqrt (le_of_lt p4) p3]
    congr 1
    field_simp
    rw [pow_two, p5]
  · refine diag_fill1 (r := fun i => lagS F true α i / lagS F false β i) hinc hs (by rw [zf, zt, div_one, hF.div _ _ (ne_of_gt pa)]) fun i hi => ?_
    obtain ⟨t, p1, p2, p3, p4, p5⟩ := st α hα i hi
    rw [r hi, sf, t, hF.div _ _ (ne_of_gt p4), sqrt_div hF.sqrt (le_of_lt p3) p4]
    congr 1
    field_simp
    rw [pow_two, p5]
  · refine diag_fill1 (r := fun i => lagS F true α i / lagS F true β i) hinc hs (by rw [zt, zt, hF.div _ _ (ne_of_gt ga), sqrt_div hF.sqrt (le_of_lt gb) ga]; field_simp) fun i hi => ?_
    obtain ⟨t, p1, p2, p3, p4, p5⟩ := st α hα i hi
    obtain ⟨t', -, p2', -, p4', -⟩ := st β hβ i hi
    rw [r hi, t, t', hF.div _ _ (ne_of_gt p4), sqrt_div hF.sqrt (le_of_lt p4') p4]
    congr 1
    field_simp

/-- **C47** Jacobi to Jacobi. -/
theorem C47_jacobi {α β γ δ : K} (hα : -1 < α) (hβ : -1 < β) (hγ : -1 < γ) (hδ : -1 < δ) :
    ∃ D', diagJacJac F norm1 norm2 n α β γ δ inc D = some D' ∧ Filled n inc D D' fun i => jacS F norm1 α β i / jacS F norm2 γ δ i := by
  have zf : ∀ α β, jacS F false α β 0 = 1 := fun _ _ => scale_zero
  have zt : ∀ α β, jacS F true α β 0 = 1 / F.sqrt (jacG F α β) := fun _ _ => scale_zero
  have r := @ratio_step K _ _ _ _ _ _ _ (fun n hn => jacS_succ (norm := norm1) hF hα hβ (n := n) hn) (fun n hn => jacS_succ (norm := norm2) hF hγ hδ (n := n) hn)
  have G1 := jacG_pos hF hα hβ
  have G2 := jacG_pos hF hγ hδ
  have ga := hF.gamma_pos (α + 1) (by linarith)
  have gb := hF.gamma_pos (β + 1) (by linarith)
  have gcd := hF.gamma_pos (γ + δ + 2) (by linarith)
  have pa := hF.pow2_pos (α + β + 1)
  have q := mul_pos (mul_pos pa ga) gb
  obtain ⟨C1, C2, C3, C4⟩ := jac_pos0 hγ hδ
  have r1 := r (i := 1) le_rfl
  rw [show (1 : Int) - 1 = 0 by norm_num] at r1
  unfold diagJacJac
  cases norm1 <;> cases norm2 <;> simp only [Bool.false_eq_true, if_true, if_false]
  · refine diag_fill2 (r := fun i => jacS F false α β i / jacS F false γ δ i) hinc hs (by rw [zf, zf, div_one]) (by rw [r1, jac_f0, jac_f0, zf, zf, hF.div _ _ (ne_of_gt C3)]; field_simp) fun i hi => ?_
    rw [r (by omega), jd_ff hF hα hβ hγ hδ hi]
  · refine diag_fill2 (r := fun i => jacS F false α β i / jacS F true γ δ i) hinc hs (by rw [zf, zt, one_div_one_div, hF.div _ _ (ne_of_gt gcd)]; rfl) (by rw [r1, jd0_ft hF hα hβ hγ hδ]) fun i hi => ?_
    rw [r (by omega), jd_ft hF hα hβ hγ hδ hi]
  · refine diag_fill2 (r := fun i => jacS F true α β i / jacS F false γ δ i) hinc hs ?_ (by rw [r1, jd0_tf hF hα hβ hγ hδ]) fun i hi => ?_
    · rw [zf, zt, div_one, hF.div _ _ (ne_of_gt q), ← sqrt_inv hF.sqrt G1]
      unfold jacG
      rw [one_div_div]
    · rw [r (by omega), jd_tf hF hα hβ hγ hδ hi]
  · refine diag_fill2 (r := fun i => jacS F true α β i / jacS F true γ δ i) hinc hs ?_ (by rw [r1, jd0_tt hF hα hβ hγ hδ]) fun i hi => ?_
    · rw [zt, zt, hF.div _ _ (ne_of_gt q), hF.div _ _ (ne_of_gt gcd), div_div_eq_mul_div, div_mul_eq_mul_div, one_mul, div_one, ← sqrt_div hF.sqrt (le_of_lt G2) G1]
      unfold jacG
      congr 1
      field_simp
    · rw [r (by omega), jd_tt hF hα hβ hγ hδ hi]


omit hs in
/-- Two quotients that are inverse to each other. -/
theorem opposite {E : Buf K} {f g : Option (Buf K)} {u v : Int → K} (h1 : ∃ D', f = some D' ∧ Filled n inc D D' fun i => u i / v i)
    (h2 : ∃ E', g = some E' ∧ Filled n inc E E' fun i => v i / u i) (hu : ∀ i, 0 ≤ i → u i ≠ 0) (hv : ∀ i, 0 ≤ i → v i ≠ 0) :
    ∃ D' E', f = some D' ∧ g = some E' ∧ ∀ i, 0 ≤ i → i < n → D'.val (i * inc) * E'.val (i * inc) = 1 := by
  obtain ⟨D', e, d⟩ := h1
  obtain ⟨E', e', d'⟩ := h2
  refine ⟨D', E', e, e', fun i i0 i1 => ?_⟩
  have := hu i i0
  have := hv i i0
  rw [d.val i i0 i1, d'.val i i0 i1]
  field_simp

/-- **C47** The diagonals of opposite conversions multiply to one: Legendre and Chebyshev. -/
theorem C47_legendre_chebyshev_opposite : ∃ D1 D2, diagLegCheb F norm1 norm2 n inc D = some D1 ∧ diagChebLeg F norm2 norm1 n inc D = some D2 ∧
    ∀ i, 0 ≤ i → i < n → D1.val (i * inc) * D2.val (i * inc) = 1 :=
  opposite hF hinc (C47_legendre_chebyshev hF hinc hs) (C47_chebyshev_legendre hF hinc hs) (fun i _ => legS_ne hF i) fun i _ => cheS_ne hF i

/-- **C47** Ultraspherical polynomials. -/
theorem C47_ultraspherical_opposite {lam mu : K} (hl : -1 / 2 < lam) (l0 : lam ≠ 0) (hm : -1 / 2 < mu) (m0 : mu ≠ 0) :
    ∃ D1 D2, diagUltUlt F norm1 norm2 n lam mu inc D = some D1 ∧ diagUltUlt F norm2 norm1 n mu lam inc D = some D2 ∧ ∀ i, 0 ≤ i → i < n → D1.val (i * inc) * D2.val (i * inc) = 1 :=
  opposite hF hinc (C47_ultraspherical hF hinc hs hl l0 hm m0) (C47_ultraspherical hF hinc hs hm m0 hl l0) (fun i _ => ultS_ne hF hl l0 i) fun i _ => ultS_ne hF hm m0 i

/-- **C47** Laguerre polynomials. -/
theorem C47_laguerre_opposite {α β : K} (hα : -1 < α) (hβ : -1 < β) :
    ∃ D1 D2, diagLagLag F norm1 norm2 n α β inc D = some D1 ∧ diagLagLag F norm2 norm1 n β α inc D = some D2 ∧ ∀ i, 0 ≤ i → i < n → D1.val (i * inc) * D2.val (i * inc) = 1 :=
  opposite hF hinc (C47_laguerre hF hinc hs hα hβ) (C47_laguerre hF hinc hs hβ hα) (fun i _ => lagS_ne hF hα i) fun i _ => lagS_ne hF hβ i

/-- **C47** Jacobi polynomials. -/
theorem C47_jacobi_opposite {α β γ δ : K} (hα : -1 < α) (hβ : -1 < β) (hγ : -1 < γ) (hδ : -1 < δ) :
    ∃ D1 D2, diagJacJac F norm1 norm2 n α β γ δ inc D = some D1 ∧ diagJacJac F norm2 norm1 n γ δ α β inc D = some D2 ∧ ∀ i, 0 ≤ i → i < n → D1.val (i * inc) * D2.val (i * inc) = 1 :=
  opposite hF hinc (C47_jacobi hF hinc hs hα hβ hγ hδ) (C47_jacobi hF hinc hs hγ hδ hα hβ) (fun i _ => jacS_ne hF hα hβ i) fun i _ => jacS_ne hF hγ hδ i

end

/-- A loop that writes a value and multiplies it. -/
theorem geo_fill {g : K → K} {c : K} (hg : ∀ v, g v = v * c) (hinc : 1 ≤ inc) (hs : ∀ i, 0 ≤ i → i < n → i * inc < D.size) :
    ∃ D', (forUp 0 n (fun i (s : Buf K × K) => (s.1.wr (i * inc) s.2).map fun D => (D, g s.2)) (D, 1)).map (·.1) = some D' ∧ Filled n inc D D' fun i => c ^ i.toNat := by
  obtain ⟨s', e, p⟩ := forUp_spec (lo := 0) (hi := n) (s := (D, (1 : K))) (body := fun i (s : Buf K × K) => (s.1.wr (i * inc) s.2).map fun D => (D, g s.2))
    (fun J s => Filled J inc D s.1 (fun i => c ^ i.toNat) ∧ s.2 = c ^ J.toNat) ⟨Filled.nil le_rfl, by simp⟩
    (fun j j0 j1 s p => by
      obtain ⟨p1, p2⟩ := p
      obtain ⟨D'', e, q⟩ := p1.next hinc j0 (hs j j0 j1)
      refine ⟨_, by rw [p2, e]; rfl, q, ?_⟩
      show g (c ^ j.toNat) = _
      rw [hg, show (j + 1).toNat = j.toNat + 1 by omega, pow_succ])
  refine ⟨s'.1, by rw [e]; rfl, ?_⟩
  rcases le_total 0 n with h | h
  · rw [max_eq_right h] at p; exact p.1
  · rw [max_eq_left h] at p
    exact ⟨p.1.size, fun i i0 i1 => absurd i1 (by omega), fun q hq => p.1.keep q fun i i0 i1 => absurd i1 (by omega)⟩

/-- **C47** Half Chebyshev to Chebyshev and back. -/
theorem C47_half_chebyshev (hF : IsLibm F) (hinc : 1 ≤ inc) (hs : ∀ i, 0 ≤ i → i < n → i * inc < D.size) :
    ∃ D1 D2, diagHalfCheb F n inc D = some D1 ∧ diagChebHalf n inc D = some D2 ∧ Filled n inc D D1 (fun i => (1 / 2) ^ i.toNat) ∧ Filled n inc D D2 (fun i => 2 ^ i.toNat) ∧
      ∀ i, 0 ≤ i → i < n → D1.val (i * inc) * D2.val (i * inc) = 1 := by
  obtain ⟨D1, e1, d1⟩ := geo_fill (g := fun v => F.div v 2) (c := 1 / 2) (fun v => by rw [hF.div _ _ two_ne_zero]; ring) hinc hs
  obtain ⟨D2, e2, d2⟩ := geo_fill (g := fun v : K => v * 2) (c := 2) (fun v => rfl) hinc hs
  refine ⟨D1, D2, e1, e2, d1, d2, fun i i0 i1 => ?_⟩
  rw [d1.val i i0 i1, d2.val i i0 i1, ← mul_pow]
  norm_num

/-- The hypotheses hold: seven coefficients with stride two in an array of thirteen entries, with the real square root and Γ function. -/
example : ∃ D', diagLegCheb realLibm true false 7 2 ⟨13, fun _ => 0⟩ = some D' ∧ Filled 7 2 ⟨13, fun _ => 0⟩ D' fun i => legS realLibm true i / cheS realLibm false i :=
  C47_legendre_chebyshev realLibm_ok (by omega) (fun i _ _ => by show i * 2 < 13; omega)
example : ∃ D', diagChebLeg realLibm true false 7 2 ⟨13, fun _ => 0⟩ = some D' ∧ Filled 7 2 ⟨13, fun _ => 0⟩ D' fun i => cheS realLibm true i / legS realLibm false i :=
  C47_chebyshev_legendre realLibm_ok (by omega) (fun i _ _ => by show i * 2 < 13; omega)
example : ∃ D1 D2, diagUltUlt realLibm true false 7 (-1 / 4) 3 2 ⟨13, fun _ => 0⟩ = some D1 ∧ diagUltUlt realLibm false true 7 3 (-1 / 4) 2 ⟨13, fun _ => 0⟩ = some D2 ∧
    ∀ i, 0 ≤ i → i < 7 → D1.val (i * 2) * D2.val (i * 2) = 1 :=
  C47_ultraspherical_opposite realLibm_ok (by omega) (fun i _ _ => by show i * 2 < 13; omega) (by norm_num) (by norm_num) (by norm_num) (by norm_num)
example : ∃ D1 D2, diagLagLag realLibm true false 7 (-1 / 4) 3 2 ⟨13, fun _ => 0⟩ = some D1 ∧ diagLagLag realLibm false true 7 3 (-1 / 4) 2 ⟨13, fun _ => 0⟩ = some D2 ∧
    ∀ i, 0 ≤ i → i < 7 → D1.val (i * 2) * D2.val (i * 2) = 1 := C47_laguerre_opposite realLibm_ok (by omega) (fun i _ _ => by show i * 2 < 13; omega) (by norm_num) (by norm_num)
example : ∃ D1 D2, diagJacJac realLibm true false 7 (-1 / 4) 3 1 2 2 ⟨13, fun _ => 0⟩ = some D1 ∧ diagJacJac realLibm false true 7 1 2 (-1 / 4) 3 2 ⟨13, fun _ => 0⟩ = some D2 ∧
    ∀ i, 0 ≤ i → i < 7 → D1.val (i * 2) * D2.val (i * 2) = 1 :=
  C47_jacobi_opposite realLibm_ok (by omega) (fun i _ _ => by show i * 2 < 13; omega) (by norm_num) (by norm_num) (by norm_num) (by norm_num)
/-- Values: the first coefficients of Legendre polynomials in Chebyshev polynomials are `1, 1, 3/4, 5/8`. -/
example : legS realLibm false 3 / cheS realLibm false 3 = 5 / 8 ∧ legS realLibm false 2 / cheS realLibm false 2 = 3 / 4 := by
  constructor <;> simp [legS, cheS, scale, lead, legR, chebR, show Finset.Ico (0 : ℤ) 3 = {0, 1, 2} from rfl, show Finset.Ico (0 : ℤ) 2 = {0, 1} from rfl] <;> norm_num
example : ∃ D1 D2, diagHalfCheb realLibm 7 2 ⟨13, fun _ => 0⟩ = some D1 ∧ diagChebHalf 7 2 ⟨13, fun _ => 0⟩ = some D2 ∧ Filled 7 2 ⟨13, fun _ => 0⟩ D1 (fun i => (1 / 2) ^ i.toNat) ∧
    Filled 7 2 ⟨13, fun _ => 0⟩ D2 (fun i => 2 ^ i.toNat) ∧ ∀ i, 0 ≤ i → i < 7 → D1.val (i * 2) * D2.val (i * 2) = 1 :=
  C47_half_chebyshev realLibm_ok (by omega) (fun i _ _ => by show i * 2 < 13; omega)

end FT.Props.Ops
