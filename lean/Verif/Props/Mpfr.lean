import Verif.Lemmas.MpfrScale

/-!
# C72: plans in multiple precision

Every `ft_mpfr_plan_*` succeeds, for every number of coefficients, every normalisation and every value of the parameters for which the two families are defined, and stores the upper triangular matrix of
connection coefficients by columns.  So do the dense plans in the other precisions, which compute it differently; the matrices are the same.
-/

set_option linter.unusedSectionVars false

namespace FT.Props.Mpfr
open Polynomial FT FT.Model FT.Poly FT.Props FT.Props.Hier FT.Props.TbEig FT.Props.Eig FT.Props.Ops FT.Props.Plan
variable {K : Type*} [Field K] [LinearOrder K] [IsStrictOrderedRing K] {F : Libm K} {n : Int} {junk : Int → K} {α β γ δ lam mu : K}

/-- A diagonal of ones. -/
def ones (n : Int) (inc : Int) (D : Buf K) : Option (Buf K) := forUp 0 n (fun i D => D.wr (i * inc) 1) D

omit [LinearOrder K] [IsStrictOrderedRing K] in
theorem ones_diag {s : Int → K} (hs : ∀ i, 0 ≤ i → s i ≠ 0) (inc : Int) (D : Buf K) (h1 : 1 ≤ inc) (h2 : ∀ i, 0 ≤ i → i < n → i * inc < D.size) : ∃ D', ones n inc D = some D' ∧ Filled n inc D D' fun i => s i / s i := by
  obtain ⟨D', e, f⟩ := diag_fill0 (r := fun _ => (1 : K)) h1 h2
  exact ⟨D', e, f.size, fun i i0 i1 => by rw [f.val i i0 i1, div_self (hs i i0)], f.keep⟩

/-- The families differ by a factor. -/
theorem scaled_factor {s t : Int → K} {p : Int → K[X]} (ht : ∀ i, t i ≠ 0) (i : Int) : scaled s p i = C (s i / t i) * scaled t p i := by
  unfold scaled
  rw [← mul_assoc, ← C_mul, div_mul_cancel₀ _ (ht i)]

section
variable (hF : IsLibm F) (hn : 0 ≤ n) (norm1 norm2 : Bool)
include hF hn

/-- **C72** Legendre to Chebyshev. -/
theorem C72_legendre_chebyshev : ∃ V, mpfrLegCheb F junk norm1 norm2 n = some V ∧ Dense n V (Leg F norm1) (Che F norm2) := by
  have ok : PlanOk (⟨mpfrALegCheb n, mpfrBLegCheb n, ones n⟩ : Conv K) n 2 (ultOp (1 / 2)) (scaled (cheS F false) (jacobi 0 0)) (Che F false) (Sec F false) (cheS F false) (cheS F false) (secS F false)
      (fun j => (j : K) * (j + 2 * (1 / 2))) :=
    { A := mpfrA_legcheb hF n
      B := mpfrB_legcheb hF n
      diag := ones_diag fun i _ => cheS_ne hF i
      lin := ultOp_linear _
      gp := scaled_graded (fun i _ => cheS_ne hF i) _ _
      gq := scaled_graded (fun i _ => cheS_ne hF i) _ _
      gu := by rw [Sec_eq]; exact scaled_graded (fun i _ => secS_ne hF i) _ _
      eigen := fun j hj => scaled_eigen (lam := fun j => (j : K) * (j + 2 * (1 / 2))) (ultOp_linear _) (fun j hj => by have := ult_eigen (lam := (1 / 2 : K)) (by norm_num) hj; rwa [sub_self] at this) j hj
      dist := fun _ _ i0 ij => quad_dist (by norm_num) i0 ij
      b0 := by norm_num }
  obtain ⟨V, e, d⟩ := basic_run (junk := junk) ok (fun _ _ => rfl) hn
  have ev : FT.Poly.Even n V := fun i j i0 i1 j0 j1 hij => connects_parity d.conn ok.gq (fun j hj => sym_parity hj) (fun j hj => sym_parity hj) i0 i1 j0 j1 hij
  obtain ⟨x, y, es, hx, hy⟩ := mpfrSclLegCheb_run (n := n) (junk := junk) hF norm1 norm2
  obtain ⟨V', e', d'⟩ := dense_both2 d ev hx.1 hy.1 hx.2 hy.2 (fun i _ _ => scaled_factor (fun i => cheS_ne hF i) i) (fun i _ _ => scaled_factor (fun i => cheS_ne hF i) i)
  refine ⟨V', ?_, d'⟩
  unfold mpfrLegCheb
  rw [e, es]
  exact e'

/-- **C72** Chebyshev to Legendre. -/
theorem C72_chebyshev_legendre : ∃ V, mpfrChebLeg F junk norm1 norm2 n = some V ∧ Dense n V (Che F norm1) (Leg F norm2) := by
  have ok : PlanOk (⟨mpfrAChebLeg F n, mpfrBChebLeg F n, ones n⟩ : Conv K) n 2 (ultOp 0) (scaled (legS F false) (jacobi (-1 / 2) (-1 / 2))) (Leg F false) (Ult F false (3 / 2)) (legS F false) (legS F false)
      (ultS F false (3 / 2)) (fun j => (j : K) * (j + 2 * 0)) :=
    { A := mpfrA_chebleg hF n
      B := mpfrB_chebleg hF n
      diag := ones_diag fun i _ => legS_ne hF i
      lin := ultOp_linear _
      gp := scaled_graded (fun i _ => legS_ne hF i) _ _
      gq := scaled_graded (fun i _ => legS_ne hF i) _ _
      gu := scaled_graded (fun i _ => ultS_ne hF (by norm_num) (by norm_num) i) _ _
      eigen := fun j hj => scaled_eigen (lam := fun j => (j : K) * (j + 2 * 0)) (ultOp_linear _) (fun j hj => by have := ult_eigen (lam := (0 : K)) (by norm_num) hj; rwa [show (0 : K) - 1 / 2 = -1 / 2 by norm_num] at this) j hj
      dist := fun _ _ i0 ij => quad_dist (by norm_num) i0 ij
      b0 := by norm_num }
  obtain ⟨V, e, d⟩ := basic_run (junk := junk) ok (fun _ _ => rfl) hn
  have ev : FT.Poly.Even n V := fun i j i0 i1 j0 j1 hij => connects_parity d.conn ok.gq (fun j hj => sym_parity hj) (fun j hj => sym_parity hj) i0 i1 j0 j1 hij
  obtain ⟨x, y, es, hx, hy⟩ := mpfrSclChebLeg_run (n := n) (junk := junk) hF norm1 norm2
  obtain ⟨V', e', d'⟩ := dense_both2 d ev hx.1 hy.1 hx.2 hy.2 (fun i _ _ => scaled_factor (fun i => legS_ne hF i) i) (fun i _ _ => scaled_factor (fun i => legS_ne hF i) i)
  refine ⟨V', ?_, d'⟩
  unfold mpfrChebLeg
  rw [e, es]
  exact e'

/-- **C72** Between ultraspherical polynomials. -/
theorem C72_ultraspherical (hl : -1 / 2 < lam) (l0 : lam ≠ 0) (hm : -1 / 2 < mu) (m0 : mu ≠ 0) : ∃ V, mpfrUltUlt F junk norm1 norm2 n lam mu = some V ∧ Dense n V (Ult F norm1 lam) (Ult F norm2 mu) := by
  have ok : PlanOk (⟨mpfrAUltUlt F n lam mu, mpfrBUltUlt F n mu, ones n⟩ : Conv K) n 2 (ultOp lam) (scaled (ultS F false mu) (jacobi (lam - 1 / 2) (lam - 1 / 2))) (Ult F false mu) (Ult F false (mu + 1))
      (ultS F false mu) (ultS F false mu) (ultS F false (mu + 1)) (fun j => (j : K) * (j + 2 * lam)) :=
    { A := mpfrA_ult hF hm m0 n
      B := mpfrB_ult hF hm m0 n
      diag := ones_diag fun i _ => ultS_ne hF hm m0 i
      lin := ultOp_linear _
      gp := scaled_graded (fun i _ => ultS_ne hF hm m0 i) _ _
      gq := scaled_graded (fun i _ => ultS_ne hF hm m0 i) _ _
      gu := scaled_graded (fun i _ => ultS_ne hF (by linarith) (by linarith) i) _ _
      eigen := fun j hj => scaled_eigen (lam := fun j => (j : K) * (j + 2 * lam)) (ultOp_linear _) (fun j hj => ult_eigen hl hj) j hj
      dist := fun _ _ i0 ij => quad_dist (by linarith) i0 ij
      b0 := by norm_num }
  obtain ⟨V, e, d⟩ := basic_run (junk := junk) ok (fun _ _ => rfl) hn
  have ev : FT.Poly.Even n V := fun i j i0 i1 j0 j1 hij => connects_parity d.conn ok.gq (fun j hj => sym_parity hj) (fun j hj => sym_parity hj) i0 i1 j0 j1 hij
  obtain ⟨x, ex, hx⟩ := mpfrRowUlt_run (n := n) (junk := junk) hF hm m0 norm2
  obtain ⟨y, ey, hy⟩ := mpfrColUlt_run (n := n) (junk := junk) hF hm m0 hl l0 norm1
  obtain ⟨V', e', d'⟩ := dense_both2 d ev hx.1 hy.1 hx.2 hy.2 (fun i _ _ => scaled_factor (fun i => ultS_ne hF hm m0 i) i) (fun i _ _ => scaled_factor (fun i => ultS_ne hF hm m0 i) i)
  refine ⟨V', ?_, d'⟩
  unfold mpfrUltUlt
  rw [e, ex, ey]
  exact e'

/-- **C72** Between Jacobi polynomials. -/
theorem C72_jacobi (hα : -1 < α) (hβ : -1 < β) (hγ : -1 < γ) (hδ : -1 < δ) : ∃ V, mpfrJacJac F junk norm1 norm2 n α β γ δ = some V ∧ Dense n V (Jac F norm1 α β) (Jac F norm2 γ δ) := by
  have ok : PlanOk (⟨mpfrAJacJac F n α β γ δ, mpfrBJacJac F n γ δ, ones n⟩ : Conv K) n 2 (jacOp α β) (scaled (jacS F false γ δ) (jacobi α β)) (Jac F false γ δ) (Jac F false (γ + 1) (δ + 1))
      (jacS F false γ δ) (jacS F false γ δ) (jacS F false (γ + 1) (δ + 1)) (fun j => (j : K) * (j + (α + β + 1))) :=
    { A := mpfrA_jac hγ hδ hF n
      B := mpfrB_jac hγ hδ hF n
      diag := ones_diag fun i _ => jacS_ne hF hγ hδ i
      lin := jacOp_linear _ _
      gp := scaled_graded (fun i _ => jacS_ne hF hγ hδ i) _ _
      gq := scaled_graded (fun i _ => jacS_ne hF hγ hδ i) _ _
      gu := scaled_graded (fun i _ => jacS_ne hF (by linarith) (by linarith) i) _ _
      eigen := fun j hj => scaled_eigen (lam := fun j => (j : K) * (j + (α + β + 1))) (jacOp_linear _ _) (fun j hj => by rw [jacobi_eigen hα hβ hj, show (j : K) + α + β + 1 = j + (α + β + 1) by ring]) j hj
      dist := fun _ _ i0 ij => quad_dist (by linarith) i0 ij
      b0 := by norm_num }
  obtain ⟨V, e, d⟩ := basic_run (junk := junk) ok (fun _ _ => rfl) hn
  obtain ⟨x, ex, hx⟩ := mpfrRowJac_run (n := n) (junk := junk) hF hγ hδ norm2
  obtain ⟨y, ey, hy⟩ := mpfrColJac_run (n := n) (junk := junk) hF hα hβ hγ hδ norm1
  obtain ⟨V', e', d'⟩ := dense_both d hx.1 hy.1 hx.2 hy.2 (fun i _ _ => scaled_factor (fun i => jacS_ne hF hγ hδ i) i) (fun i _ _ => scaled_factor (fun i => jacS_ne hF hγ hδ i) i)
  refine ⟨V', ?_, d'⟩
  unfold mpfrJacJac
  rw [e, ex, ey]
  exact e'

/-- **C72** Between Laguerre polynomials. -/
theorem C72_laguerre (hα : -1 < α) (hβ : -1 < β) : ∃ V, mpfrLagLag F junk norm1 norm2 n α β = some V ∧ Dense n V (Lag F norm1 α) (Lag F norm2 β) := by
  have ok : PlanOk (⟨mpfrALagLag n α β, mpfrBLagLag n, ones n⟩ : Conv K) n 1 (lagOp α) (scaled (lagS F false β) (laguerre α)) (Lag F false β) (Lag F false (β + 1)) (lagS F false β) (lagS F false β)
      (lagS F false (β + 1)) (fun j => (j : K)) :=
    { A := mpfrA_lag hF hβ n
      B := mpfrB_lag hF hβ n
      diag := ones_diag fun i _ => lagS_ne hF hβ i
      lin := lagOp_linear _
      gp := scaled_graded (fun i _ => lagS_ne hF hβ i) _ _
      gq := scaled_graded (fun i _ => lagS_ne hF hβ i) _ _
      gu := scaled_graded (fun i _ => lagS_ne hF (by linarith) i) _ _
      eigen := fun j hj => scaled_eigen (lam := fun j => (j : K)) (lagOp_linear _) (fun j hj => lag_eigen hj) j hj
      dist := fun _ _ i0 ij => by exact_mod_cast ij.ne
      b0 := by norm_num }
  obtain ⟨V, e, d⟩ := basic_run (junk := junk) ok (fun _ _ => rfl) hn
  obtain ⟨x, ex, hx⟩ := mpfrRowLag_run (n := n) (junk := junk) hF hβ norm2
  obtain ⟨y, ey, hy⟩ := mpfrColLag_run (n := n) (junk := junk) hF hα β norm1
  obtain ⟨V', e', d'⟩ := dense_both d hx.1 hy.1 hx.2 hy.2 (fun i _ _ => scaled_factor (fun i => lagS_ne hF hβ i) i) (fun i _ _ => scaled_factor (fun i => lagS_ne hF hβ i) i)
  refine ⟨V', ?_, d'⟩
  unfold mpfrLagLag
  rw [e, ex, ey]
  exact e'

/-! ## Plans that scale others -/

/-- **C72** Jacobi to ultraspherical. -/
theorem C72_jacobi_ultraspherical (hα : -1 < α) (hβ : -1 < β) (hm : -1 / 2 < lam) (h0 : lam ≠ 0) :
    ∃ V, mpfrJacUlt F junk norm1 norm2 n α β lam = some V ∧ Dense n V (Jac F norm1 α β) (UltPos F norm2 lam) := by
  obtain ⟨V, e, d⟩ := C72_jacobi (junk := junk) hF hn norm1 norm2 hα hβ (show -1 < lam - 1 / 2 by linarith) (show -1 < lam - 1 / 2 by linarith)
  unfold mpfrJacUlt
  rw [e]
  cases norm2
  · obtain ⟨x, ex, s, v⟩ := ultRow_run (n := n) (junk := junk) hF hm h0
    have fe : (fun (i : Int) (d : K) => F.div (lam - 1 / 2 + i) (lam * 2 - 1 + i) * d) = fun (i : Int) d => F.div (lam + i - 1 / 2) (2 * lam + i - 1) * d := by
      funext i d
      rw [show lam - 1 / 2 + (i : K) = lam + i - 1 / 2 by ring, show lam * 2 - 1 + (i : K) = 2 * lam + i - 1 by ring]
    obtain ⟨V', e', d'⟩ := dense_rows d s v fun i _ _ => jac_ult hF hm h0 i
    exact ⟨V', by rw [Option.bind_some, if_pos rfl, fe]; unfold ultRow at ex; erw [ex]; exact e', d'⟩
  · exact ⟨V, by rw [Option.bind_some, if_neg (by decide)], d⟩

/-- **C72** Ultraspherical to Jacobi. -/
theorem C72_ultraspherical_jacobi (hm : -1 / 2 < lam) (h0 : lam ≠ 0) (hα : -1 < α) (hβ : -1 < β) :
    ∃ V, mpfrUltJac F junk norm1 norm2 n lam α β = some V ∧ Dense n V (UltPos F norm1 lam) (Jac F norm2 α β) := by
  obtain ⟨V, e, d⟩ := C72_jacobi (junk := junk) hF hn norm1 norm2 (show -1 < lam - 1 / 2 by linarith) (show -1 < lam - 1 / 2 by linarith) hα hβ
  unfold mpfrUltJac
  rw [e]
  cases norm1
  · obtain ⟨x, ex, s, v⟩ := ultCol_run (n := n) (junk := junk) hF hm h0
    have fe : (fun (i : Int) (d : K) => F.div (lam * 2 - 1 + i) (lam - 1 / 2 + i) * d) = fun (i : Int) d => F.div (2 * lam + i - 1) (lam + i - 1 / 2) * d := by
      funext i d
      rw [show lam - 1 / 2 + (i : K) = lam + i - 1 / 2 by ring, show lam * 2 - 1 + (i : K) = 2 * lam + i - 1 by ring]
    obtain ⟨V', e', d'⟩ := dense_cols d s v fun i _ _ => ult_jac hF hm h0 i
    exact ⟨V', by rw [Option.bind_some, if_pos rfl, fe]; unfold ultCol at ex; erw [ex]; exact e', d'⟩
  · exact ⟨V, by rw [Option.bind_some, if_neg (by decide)], d⟩

omit hn in
theorem mpfr_scl_row : ∃ x, chebScl junk n (F.div 1 (F.gamma (1 / 2))) (F.div (F.div 1 (F.gamma (1 / 2))) (F.sqrt (1 / 2))) = some x ∧ x.size = n.toNat ∧ ∀ i, 0 ≤ i → i < n → x.val i = cheQ F i := by
  have hg := hF.gamma_pos (1 / 2) (by norm_num)
  have h2 := sqrt_pos hF.sqrt (show (0 : K) < 2 by norm_num)
  obtain ⟨x, e, s, v⟩ := chebScl_run (n := n) (junk := junk) (F.div 1 (F.gamma (1 / 2))) (F.div (F.div 1 (F.gamma (1 / 2))) (F.sqrt (1 / 2)))
  refine ⟨x, e, s, fun i i0 i1 => ?_⟩
  rw [v i i0 i1, half_inv hF, hF.div _ _ (one_div_pos.2 h2).ne', hF.div _ _ hg.ne', div_div_eq_mul_div, div_one, one_div_mul_eq_div]
  rfl

omit hn in
theorem mpfr_scl_col : ∃ x, chebScl junk n (F.gamma (1 / 2)) (F.gamma (1 / 2) * F.sqrt (1 / 2)) = some x ∧ x.size = n.toNat ∧ ∀ i, 0 ≤ i → i < n → x.val i = 1 / cheQ F i := by
  obtain ⟨x, e, s, v⟩ := chebScl_run (n := n) (junk := junk) (F.gamma (1 / 2)) (F.gamma (1 / 2) * F.sqrt (1 / 2))
  refine ⟨x, e, s, fun i i0 i1 => ?_⟩
  rw [v i i0 i1, half_inv hF, mul_one_div]
  unfold cheQ
  split_ifs
  · rw [one_div_one_div]
  · rw [one_div_div]

/-- **C72** Jacobi to Chebyshev. -/
theorem C72_jacobi_chebyshev (hα : -1 < α) (hβ : -1 < β) : ∃ V, mpfrJacCheb F junk norm1 norm2 n α β = some V ∧ Dense n V (Jac F norm1 α β) (Che F norm2) := by
  obtain ⟨V, e, d⟩ := C72_jacobi (junk := junk) hF hn norm1 true hα hβ (show (-1 : K) < -1 / 2 by norm_num) (show (-1 : K) < -1 / 2 by norm_num)
  unfold mpfrJacCheb
  rw [e]
  cases norm2
  · obtain ⟨x, ex, s, v⟩ := mpfr_scl_row (n := n) (junk := junk) hF
    obtain ⟨V', e', d'⟩ := dense_rows d s v fun i i0 _ => jac_che_false hF i0
    exact ⟨V', by rw [Option.bind_some, if_pos rfl, ex]; exact e', d'⟩
  · exact ⟨V, by rw [Option.bind_some, if_neg (by decide)], by rw [← jac_che hF]; exact d⟩

/-- **C72** Chebyshev to Jacobi. -/
theorem C72_chebyshev_jacobi (hα : -1 < α) (hβ : -1 < β) : ∃ V, mpfrChebJac F junk norm1 norm2 n α β = some V ∧ Dense n V (Che F norm1) (Jac F norm2 α β) := by
  obtain ⟨V, e, d⟩ := C72_jacobi (junk := junk) hF hn true norm2 (show (-1 : K) < -1 / 2 by norm_num) (show (-1 : K) < -1 / 2 by norm_num) hα hβ
  unfold mpfrChebJac
  rw [e]
  cases norm1
  · obtain ⟨x, ex, s, v⟩ := mpfr_scl_col (n := n) (junk := junk) hF
    obtain ⟨V', e', d'⟩ := dense_cols d s v fun i i0 _ => che_jac_false hF i0
    exact ⟨V', by rw [Option.bind_some, if_pos rfl, ex]; exact e', d'⟩
  · exact ⟨V, by rw [Option.bind_some, if_neg (by decide)], by rw [← jac_che hF]; exact d⟩

/-- **C72** Ultraspherical to Chebyshev. -/
theorem C72_ultraspherical_chebyshev (hm : -1 / 2 < lam) (h0 : lam ≠ 0) : ∃ V, mpfrUltCheb F junk norm1 norm2 n lam = some V ∧ Dense n V (UltPos F norm1 lam) (Che F norm2) := by
  obtain ⟨V, e, d⟩ := C72_ultraspherical_jacobi (junk := junk) hF hn norm1 true hm h0 (show (-1 : K) < -1 / 2 by norm_num) (show (-1 : K) < -1 / 2 by norm_num)
  unfold mpfrUltCheb
  rw [e]
  cases norm2
  · obtain ⟨x, ex, s, v⟩ := mpfr_scl_row (n := n) (junk := junk) hF
    have ev : FT.Poly.Even n V := fun i j i0 i1 j0 j1 hij => connects_parity d.conn
      (planJacJac hF true true (show (-1 : K) < -1 / 2 by norm_num) (show (-1 : K) < -1 / 2 by norm_num) (γ := 0) (δ := 0) (by norm_num) (by norm_num) junk hn).gp
      (fun j hj => ultpos_parity hj) (fun j hj => sym_parity hj) i0 i1 j0 j1 hij
    obtain ⟨V', e', d'⟩ := dense_rows2 d ev s v fun i i0 _ => jac_che_false hF i0
    exact ⟨V', by rw [Option.bind_some, if_pos rfl, ex]; exact e', d'⟩
  · exact ⟨V, by rw [Option.bind_some, if_neg (by decide)], by rw [← jac_che hF]; exact d⟩

/-- **C72** Chebyshev to ultraspherical. -/
theorem C72_chebyshev_ultraspherical (hm : -1 / 2 < lam) (h0 : lam ≠ 0) : ∃ V, mpfrChebUlt F junk norm1 norm2 n lam = some V ∧ Dense n V (Che F norm1) (UltPos F norm2 lam) := by
  obtain ⟨V, e, d⟩ := C72_jacobi_ultraspherical (junk := junk) hF hn true norm2 (show (-1 : K) < -1 / 2 by norm_num) (show (-1 : K) < -1 / 2 by norm_num) hm h0
  unfold mpfrChebUlt
  rw [e]
  cases norm1
  · obtain ⟨x, ex, s, v⟩ := mpfr_scl_col (n := n) (junk := junk) hF
    obtain ⟨t, gt⟩ := ultpos_graded hF norm2 hm h0
    have ev : FT.Poly.Even n V := fun i j i0 i1 j0 j1 hij => connects_parity d.conn gt (fun j hj => sym_parity hj) (fun j hj => ultpos_parity hj) i0 i1 j0 j1 hij
    obtain ⟨V', e', d'⟩ := dense_cols2 d ev s v fun i i0 _ => che_jac_false hF i0
    exact ⟨V', by rw [Option.bind_some, if_pos rfl, ex]; exact e', d'⟩
  · exact ⟨V, by rw [Option.bind_some, if_neg (by decide)], by rw [← jac_che hF]; exact d⟩

end

/-! ## Plans in different precisions agree -/

/-- Two matrices of connection coefficients between the same families, the second of them graded, are equal. -/
theorem dense_unique {V W : Buf K} {p q : Int → K[X]} {s : Int → K} (h : Dense n V p q) (h' : Dense n W p q) (g : Graded q s) {i j : Int} (i0 : 0 ≤ i) (i1 : i < n) (j0 : 0 ≤ j) (j1 : j < n) :
    V.val (i + j * n) = W.val (i + j * n) := by
  have z : ∑ i ∈ Finset.Ico 0 n, C (V.val (i + j * n) - W.val (i + j * n)) * q i = 0 := by
    simp only [C_sub, sub_mul]
    rw [Finset.sum_sub_distrib, ← h.conn j j0 j1, ← h'.conn j j0 j1, sub_self]
  exact sub_eq_zero.1 (g.indep z i i0 i1)

/-- **C72** The plan in multiple precision and the dense plan in the other precisions, between Jacobi polynomials, hold the same numbers when arithmetic is exact. -/
theorem C72_jacobi_same (hF : IsLibm F) (hn : 0 ≤ n) (norm1 norm2 : Bool) (hα : -1 < α) (hβ : -1 < β) (hγ : -1 < γ) (hδ : -1 < δ) (junk' : Int → K) :
    ∃ V W, mpfrJacJac F junk norm1 norm2 n α β γ δ = some V ∧ densePlan 0 junk' n (convJacJac F junk' norm1 norm2 n α β γ δ) = some W ∧
      ∀ i j, 0 ≤ i → i < n → 0 ≤ j → j < n → V.val (i + j * n) = W.val (i + j * n) := by
  obtain ⟨V, e1, d1⟩ := C72_jacobi (junk := junk) hF hn norm1 norm2 hα hβ hγ hδ
  obtain ⟨W, e2, d2⟩ := C61_dense_jacobi (junk := junk') hF hn norm1 norm2 hα hβ hγ hδ
  exact ⟨V, W, e1, e2, fun i j i0 i1 j0 j1 => dense_unique d1 d2 (planJacJac hF norm1 norm2 hα hβ hγ hδ junk hn).gq i0 i1 j0 j1⟩

/-! ## Cases -/

example : ∃ V, mpfrLegCheb realLibm (fun _ => 5) true false 9 = some V ∧ Dense 9 V (Leg realLibm true) (Che realLibm false) := C72_legendre_chebyshev realLibm_ok (by norm_num) _ _
example : ∃ V, mpfrChebLeg realLibm (fun _ => 5) true true 9 = some V ∧ Dense 9 V (Che realLibm true) (Leg realLibm true) := C72_chebyshev_legendre realLibm_ok (by norm_num) _ _
example : ∃ V, mpfrUltUlt realLibm (fun _ => 5) true false 9 (-1 / 4) 2 = some V ∧ Dense 9 V (Ult realLibm true (-1 / 4)) (Ult realLibm false 2) :=
  C72_ultraspherical realLibm_ok (by norm_num) _ _ (by norm_num) (by norm_num) (by norm_num) (by norm_num)
example : ∃ V, mpfrJacJac realLibm (fun _ => 5) true false 9 0 1 (-1 / 2) 3 = some V ∧ Dense 9 V (Jac realLibm true 0 1) (Jac realLibm false (-1 / 2) 3) :=
  C72_jacobi realLibm_ok (by norm_num) _ _ (by norm_num) (by norm_num) (by norm_num) (by norm_num)
example : ∃ V, mpfrLagLag realLibm (fun _ => 5) true false 9 0 (1 / 2) = some V ∧ Dense 9 V (Lag realLibm true 0) (Lag realLibm false (1 / 2)) :=
  C72_laguerre realLibm_ok (by norm_num) _ _ (by norm_num) (by norm_num)
example : ∃ V, mpfrJacUlt realLibm (fun _ => 5) true false 9 0 1 (3 / 2) = some V ∧ Dense 9 V (Jac realLibm true 0 1) (UltPos realLibm false (3 / 2)) :=
  C72_jacobi_ultraspherical realLibm_ok (by norm_num) _ _ (by norm_num) (by norm_num) (by norm_num) (by norm_num)
example : ∃ V, mpfrUltJac realLibm (fun _ => 5) false false 9 (-1 / 4) 0 1 = some V ∧ Dense 9 V (UltPos realLibm false (-1 / 4)) (Jac realLibm false 0 1) :=
  C72_ultraspherical_jacobi realLibm_ok (by norm_num) _ _ (by norm_num) (by norm_num) (by norm_num) (by norm_num)
example : ∃ V, mpfrJacCheb realLibm (fun _ => 5) false false 9 0 1 = some V ∧ Dense 9 V (Jac realLibm false 0 1) (Che realLibm false) := C72_jacobi_chebyshev realLibm_ok (by norm_num) _ _ (by norm_num) (by norm_num)
example : ∃ V, mpfrChebJac realLibm (fun _ => 5) false false 9 0 1 = some V ∧ Dense 9 V (Che realLibm false) (Jac realLibm false 0 1) := C72_chebyshev_jacobi realLibm_ok (by norm_num) _ _ (by norm_num) (by norm_num)
example : ∃ V, mpfrUltCheb realLibm (fun _ => 5) false false 9 1 = some V ∧ Dense 9 V (UltPos realLibm false 1) (Che realLibm false) := C72_ultraspherical_chebyshev realLibm_ok (by norm_num) _ _ (by norm_num) (by norm_num)
example : ∃ V, mpfrChebUlt realLibm (fun _ => 5) false false 9 1 = some V ∧ Dense 9 V (Che realLibm false) (UltPos realLibm false 1) := C72_chebyshev_ultraspherical realLibm_ok (by norm_num) _ _ (by norm_num) (by norm_num)
example : ∃ V W, mpfrJacJac realLibm (fun _ => 5) true false 9 0 1 (-1 / 2) 3 = some V ∧ densePlan 0 (fun _ => 7) 9 (convJacJac realLibm (fun _ => 7) true false 9 0 1 (-1 / 2) 3) = some W ∧
    ∀ i j, 0 ≤ i → i < 9 → 0 ≤ j → j < 9 → V.val (i + j * 9) = W.val (i + j * 9) := C72_jacobi_same realLibm_ok (by norm_num) _ _ (by norm_num) (by norm_num) (by norm_num) (by norm_num) _

end FT.Props.Mpfr
