import Verif.Lemmas.Connect
import Verif.Lemmas.Ode
import Verif.Lemmas.PlansDrop
import Verif.Props.Diagonal
import Verif.Props.Pencil

/-!
# Plans hold connection coefficients
-/

set_option linter.unusedSectionVars false

namespace FT.Poly
open Polynomial FT FT.Model FT.Fmm FT.Props FT.Props.Hier FT.Props.TbEig FT.Props.Eig FT.Props.Ops
variable {K : Type*} [Field K] [LinearOrder K] [IsStrictOrderedRing K]

/-- What the parts of a plan have to be. -/
structure PlanOk (P : Conv K) (n b : Int) (L : K[X] → K[X]) (p q u : Int → K[X]) (sp sq su lam : Int → K) : Prop where
  A : ∃ A, P.A = some A ∧ RepresentsT A n b L q u
  B : ∃ B, P.B = some B ∧ RepresentsT B n b id q u
  diag : ∀ (inc : Int) (D : Buf K), 1 ≤ inc → (∀ i, 0 ≤ i → i < n → i * inc < D.size) → ∃ D', P.diag inc D = some D' ∧ Filled n inc D D' fun i => sp i / sq i
  lin : IsLinearMap K L
  gp : Graded p sp
  gq : Graded q sq
  gu : Graded u su
  eigen : ∀ j, 0 ≤ j → L (p j) = C (lam j) * p j
  dist : ∀ i j, 0 ≤ i → i < j → lam i ≠ lam j
  b0 : 0 ≤ b

theorem cut_in {n i j : Int} {M : Int → Int → K} (i0 : 0 ≤ i) (i1 : i < n) (j0 : 0 ≤ j) (j1 : j < n) : cut n n M i j = M i j := if_pos ⟨⟨i0, i1⟩, j0, j1⟩

section
variable {P : Conv K} {n b : Int} {L : K[X] → K[X]} {p q u : Int → K[X]} {sp sq su lam : Int → K} (h : PlanOk P n b L p q u sp sq su lam)
include h

/-- The pencil, its eigenvalues, and what its eigenvectors are. -/
theorem PlanOk.pencil : ∃ A B a b', P.A = some A ∧ P.B = some B ∧ StoresT A n b a ∧ StoresT B n b b' ∧ (∀ j, 0 ≤ j → j < n → b' j j ≠ 0) ∧ (∀ j, 0 ≤ j → j < n → a j j / b' j j = lam j) ∧
    ∀ v : Int → Int → K, (∀ i j, 0 ≤ j → j < i → i < n → v i j = 0) → (∀ j, 0 ≤ j → j < n → v j j = sp j / sq j) →
      (∀ i j, 0 ≤ i → i < n → 0 ≤ j → j < n → ∑ k ∈ Finset.Ico 0 n, a i k * v k j = a j j / b' j j * ∑ k ∈ Finset.Ico 0 n, b' i k * v k j) →
      ∀ j, 0 ≤ j → j < n → p j = ∑ i ∈ Finset.Ico 0 n, C (v i j) * q i := by
  obtain ⟨A, eA, MA, sA, zA, hA⟩ := h.A
  obtain ⟨B, eB, MB, sB, zB, hB⟩ := h.B
  have zA' : ∀ i j, j < i → MA i j = 0 := fun i j hij => zA i j (by omega)
  have zB' : ∀ i j, j < i → MB i j = 0 := fun i j hij => zB i j (by omega)
  have nB : ∀ j, 0 ≤ j → MB j j ≠ 0 := fun j j0 => pencil_ne hB zB' h.gq h.gu j0
  have lj : ∀ j, 0 ≤ j → j < n → cut n n MA j j / cut n n MB j j = lam j := fun j j0 j1 => by
    rw [cut_in j0 j1 j0 j1, cut_in j0 j1 j0 j1, pencil_diag hA hB zA' zB' h.lin h.gp h.gq h.gu h.eigen j0, mul_div_cancel_right₀ _ (nB j j0)]
  refine ⟨A, B, _, _, eA, eB, sA, sB, fun j j0 j1 => by rw [cut_in j0 j1 j0 j1]; exact nB j j0, lj, fun v hlow hd he j j0 j1 => ?_⟩
  refine connection hA hB zA' zB' h.lin h.gp h.gq h.gu h.eigen h.dist hlow hd j0 j1 fun i i0 i1 => ?_
  have := he i j i0 i1 j0 j1
  rw [lj j j0 j1] at this
  rw [sum_Ico_congr (g := fun k => cut n n MA i k * v k j) fun k k0 k1 => by rw [cut_in i0 i1 k0 k1], sum_Ico_congr (f := fun k => MB i k * v k j) (g := fun k => cut n n MB i k * v k j) fun k k0 k1 => by rw [cut_in i0 i1 k0 k1]]
  exact this

theorem PlanOk.dense (hn : 0 ≤ n) (junk : Int → K) : ∃ V, densePlan 0 junk n P = some V ∧ V.size = (n * n).toNat ∧ (∀ i j, 0 ≤ j → j < i → i < n → V.val (i + j * n) = 0) ∧
    ∀ j, 0 ≤ j → j < n → p j = ∑ i ∈ Finset.Ico 0 n, C (V.val (i + j * n)) * q i := by
  obtain ⟨A, B, a, b', eA, eB, sA, sB, nb, lj, con⟩ := h.pencil
  have nn : 0 ≤ n * n := mul_nonneg hn hn
  obtain ⟨D, eD, D1, D2, D3⟩ := h.diag (n + 1) (callocB (n * n)) (by omega) fun i i0 i1 => by
    have := (ij_lt2 i0 i1 i0 i1).2
    have e : i * (n + 1) = i + i * n := by ring
    show i * (n + 1) < (((n * n).toNat : Nat) : Int)
    omega
  have hD : n * n ≤ D.size := by rw [D1]; show n * n ≤ (((n * n).toNat : Nat) : Int); omega
  have low : ∀ i j, 0 ≤ j → j < i → i < n → Eig.col D n i j = 0 := fun i j j0 ji i1 => by
    unfold Eig.col
    rw [D3 _ fun k k0 k1 e => ?_]
    · rfl
    · obtain ⟨e1, e2⟩ := ij_inj (by omega) i1 k0 k1 (show i + j * n = k + k * n by rw [e]; ring)
      omega
  obtain ⟨V, eV, o, he⟩ := C21_exact sA sB nb hD low (fun i j i0 ij j1 => by rw [lj i i0 (by omega), lj j (by omega) j1]; exact (h.dist i j i0 ij).symm)
  obtain ⟨W, eW, sW, vW⟩ := copyFrom_run (junk := junk) (d := 0) (n := n * n) (x := V) le_rfl (by rw [o.1]; omega)
  have w : ∀ i j, 0 ≤ i → i < n → 0 ≤ j → j < n → W.val (i + j * n) = Eig.col V n i j := fun i j i0 i1 j0 j1 => by
    obtain ⟨b1, b2⟩ := ij_lt2 i0 i1 j0 j1
    rw [vW _ b1 b2, zero_add]; rfl
  refine ⟨W, ?_, sW, fun i j j0 ji i1 => ?_, con _ (fun i j j0 ji i1 => ?_) (fun j j0 j1 => ?_) fun i j i0 i1 j0 j1 => ?_⟩
  · unfold densePlan
    rw [eA, eB]
    show (P.diag (n + 1) (callocB (n * n))).bind _ = _
    rw [eD]
    show (tbEigenvectors 0 A B D).bind _ = _
    rw [eV]
    exact eW
  · rw [w i j (by omega) i1 j0 (by omega), o.keep (by omega) (by omega) i1, low i j j0 ji i1]
  · rw [w i j (by omega) i1 j0 (by omega), o.keep (by omega) (by omega) i1, low i j j0 ji i1]
  · rw [w j j j0 j1 j0 j1, o.keep le_rfl j0 j1]
    unfold Eig.col
    rw [show j + j * n = j * (n + 1) by ring, D2 j j0 j1]
  · rw [sum_Ico_congr (g := fun k => a i k * Eig.col V n k j) fun k k0 k1 => by rw [w k j k0 k1 j0 j1], sum_Ico_congr (f := fun k => b' i k * W.val (k + j * n)) (g := fun k => b' i k * Eig.col V n k j) fun k k0 k1 => by rw [w k j k0 k1 j0 j1]]
    exact he i j i0 i1 j0 j1

theorem PlanOk.fast (hn : 0 ≤ n) {E : FmmEnv K} (hE : E.eps = 0) (ht : E.tol ≤ 1) (hS : Samples E) (hth : 1 ≤ E.threads) (hBS : 2 ≤ E.BS) (hb : 2 * b ≤ E.BS) : ∃ G top, fastPlan E n P = some (G, top) ∧
    G.n = n ∧ ESized E.BS G ∧ Regular G ∧ Placed E.threads 0 top (eArrs G) ∧ (∀ i j, 0 ≤ j → j < i → i < n → mat G i j = 0) ∧ (∀ j, 0 ≤ j → j < n → p j = ∑ i ∈ Finset.Ico 0 n, C (mat G i j) * q i) ∧
    ((∀ i j, 0 ≤ i → i < j → j < n → ¬ |lam i - lam j| < E.tol * max |lam i| |lam j|) → NoSparse G) := by
  obtain ⟨A, B, a, b', eA, eB, sA, sB, nb, lj, con⟩ := h.pencil
  obtain ⟨D, eD, D1, D2, -⟩ := h.diag 1 ⟨n.toNat, E.junk⟩ le_rfl fun i i0 i1 => by
    show i * 1 < ((n.toNat : Nat) : Int); omega
  have hD : n ≤ D.size := by rw [D1]; show n ≤ ((n.toNat : Nat) : Int); omega
  have Dz : ∀ j, 0 ≤ j → j < n → D.val j = sp j / sq j := fun j j0 j1 => by have := D2 j j0 j1; rwa [mul_one] at this
  obtain ⟨F, l, t, e, h1, h2, h3, h4⟩ := eigFmm_run (D := D) hE ht hS hth h.b0 le_rfl hBS hb (A.n.toNat + 1) n 0 0 A B a b' (by rw [sA.dims.1]; omega) hn sA sB nb
    (fun i j i0 ij j1 => by rw [lj i i0 (by omega), lj j (by omega) j1]; exact (h.dist i j i0 ij).symm) le_rfl (by omega)
    (fun j j0 j1 => by rw [zero_add, Dz j j0 j1]; exact div_ne_zero (h.gp j j0).1 (h.gq j j0).1) le_rfl
  have t0 := h2.le
  obtain ⟨G, t', eG, nG, zG, rG, mG, pG, oG⟩ := dropEig_run (lam := l) hS hth hBS F 0 t h1.sized (kern_congr h1.sized (fun i _ _ => by rw [zero_add]) h3) le_rfl (by rw [h1.size, zero_add]; exact h1.lamSize) h2.le
  rw [h1.size] at nG mG
  have up : ∀ i j, 0 ≤ j → j < i → i < n → mat G i j = 0 := fun i j j0 ji i1 => by rw [mG i j (by omega) i1 j0 (by omega)]; exact h1.upper i j j0 ji i1
  refine ⟨G, t', ?_, nG, zG, rG h1.regular, ⟨by have := pG.le; omega, pG.alloc, fun x hx => by have := pG.above x hx; omega⟩, up, con _ up (fun j j0 j1 => ?_) (fun i j i0 i1 j0 j1 => ?_), fun hg => oG (h4 fun i j i0 ij j1 => ?_)⟩
  · unfold fastPlan
    rw [eA, eB]
    show (P.diag 1 ⟨n.toNat, E.junk⟩).bind _ = _
    rw [eD]
    show (tbEigFmm E A B D 0).bind _ = _
    rw [show tbEigFmm E A B D 0 = some (F, l, t) from e]
    exact eG
  · rw [mG j j j0 j1 j0 j1, h1.diag j j0 j1, zero_add, Dz j j0 j1]
  · rw [sum_Ico_congr (g := fun k => a i k * mat F k j) fun k k0 k1 => by rw [mG k j k0 k1 j0 j1], sum_Ico_congr (f := fun k => b' i k * mat G k j) (g := fun k => b' i k * mat F k j) fun k k0 k1 => by rw [mG k j k0 k1 j0 j1]]
    exact h1.eqn i j i0 i1 j0 j1
  · rw [lj i i0 (by omega), lj j (by omega) j1]; exact hg i j i0 ij j1

end

variable {F : Libm K} (hF : IsLibm F)

omit hF in
theorem quad_dist {c : K} (hc : -1 < c) {i j : Int} (i0 : 0 ≤ i) (ij : i < j) : (i : K) * (i + c) ≠ j * (j + c) := fun e => by
  have h1 : (0 : K) ≤ i := by exact_mod_cast i0
  have h2 : (i : K) + 1 ≤ j := by exact_mod_cast ij
  have : ((i : K) - j) * (i + j + c) = 0 := by linear_combination e
  rcases mul_eq_zero.1 this with h | h <;> linarith

include hF

theorem secS_ne {norm : Bool} (n : Int) : secS F norm n ≠ 0 := by
  have h2 : F.sqrt 2 ≠ 0 := fun e => by have := (hF.sqrt 2 (by norm_num)).2; rw [e] at this; norm_num at this
  refine mul_ne_zero ?_ ?_
  · split_ifs
    · exact one_div_ne_zero (mul_ne_zero h2 (hF.gamma_pos _ (by norm_num)).ne')
    · norm_num
  · exact Finset.prod_ne_zero_iff.2 fun i hi => ultR_ne (by norm_num) one_ne_zero (Finset.mem_Ico.1 hi).1

variable (norm1 norm2 : Bool)

theorem planLegCheb (n : Int) :
    PlanOk (convLegCheb F norm1 norm2 n) n 2 (ultOp (1 / 2)) (Leg F norm1) (Che F norm2) (Sec F norm2) (legS F norm1) (cheS F norm2) (secS F norm2) (fun j => (j : K) * (j + 2 * (1 / 2))) where
  A := C48_legendre_chebyshev_A hF n
  B := C48_legendre_chebyshev_B hF n
  diag inc D h1 h2 := C47_legendre_chebyshev hF h1 h2
  lin := ultOp_linear _
  gp := scaled_graded (fun i _ => legS_ne hF i) _ _
  gq := scaled_graded (fun i _ => cheS_ne hF i) _ _
  gu := by rw [Sec_eq]; exact scaled_graded (fun i _ => secS_ne hF i) _ _
  eigen j hj := scaled_eigen (lam := fun j => (j : K) * (j + 2 * (1 / 2))) (ultOp_linear _) (fun j hj => by have := ult_eigen (lam := (1 / 2 : K)) (by norm_num) hj; rwa [sub_self] at this) j hj
  dist _ _ i0 ij := quad_dist (by norm_num) i0 ij
  b0 := by norm_num

theorem planChebLeg (n : Int) :
    PlanOk (convChebLeg F norm1 norm2 n) n 2 (ultOp 0) (Che F norm1) (Leg F norm2) (Ult F norm2 (3 / 2)) (cheS F norm1) (legS F norm2) (ultS F norm2 (3 / 2)) (fun j => (j : K) * (j + 2 * 0)) where
  A := C48_chebyshev_legendre_A hF n
  B := C48_chebyshev_legendre_B hF n
  diag inc D h1 h2 := C47_chebyshev_legendre hF h1 h2
  lin := ultOp_linear _
  gp := scaled_graded (fun i _ => cheS_ne hF i) _ _
  gq := scaled_graded (fun i _ => legS_ne hF i) _ _
  gu := scaled_graded (fun i _ => ultS_ne hF (by norm_num) (by norm_num) i) _ _
  eigen j hj := scaled_eigen (lam := fun j => (j : K) * (j + 2 * 0)) (ultOp_linear _) (fun j hj => by have := ult_eigen (lam := (0 : K)) (by norm_num) hj; rwa [show (0 : K) - 1 / 2 = -1 / 2 by norm_num] at this) j hj
  dist _ _ i0 ij := quad_dist (by norm_num) i0 ij
  b0 := by norm_num

theorem planUltUlt {lam mu : K} (hl : -1 / 2 < lam) (l0 : lam ≠ 0) (hm : -1 / 2 < mu) (m0 : mu ≠ 0) (n : Int) :
    PlanOk (convUltUlt F norm1 norm2 n lam mu) n 2 (ultOp lam) (Ult F norm1 lam) (Ult F norm2 mu) (Ult F norm2 (mu + 1)) (ultS F norm1 lam) (ultS F norm2 mu) (ultS F norm2 (mu + 1)) (fun j => (j : K) * (j + 2 * lam)) where
  A := C48_ultraspherical_A hF hm m0 n
  B := C48_ultraspherical_B hF hm m0 n
  diag inc D h1 h2 := C47_ultraspherical hF h1 h2 hl l0 hm m0
  lin := ultOp_linear _
  gp := scaled_graded (fun i _ => ultS_ne hF hl l0 i) _ _
  gq := scaled_graded (fun i _ => ultS_ne hF hm m0 i) _ _
  gu := scaled_graded (fun i _ => ultS_ne hF (by linarith) (by linarith) i) _ _
  eigen j hj := scaled_eigen (lam := fun j => (j : K) * (j + 2 * lam)) (ultOp_linear _) (fun j hj => ult_eigen hl hj) j hj
  dist _ _ i0 ij := quad_dist (by linarith) i0 ij
  b0 := by norm_num

theorem planJacJac {α β γ δ : K} (hα : -1 < α) (hβ : -1 < β) (hγ : -1 < γ) (hδ : -1 < δ) (junk : Int → K) {n : Int} (hn : 0 ≤ n) :
    PlanOk (convJacJac F junk norm1 norm2 n α β γ δ) n 2 (jacOp α β) (Jac F norm1 α β) (Jac F norm2 γ δ) (Jac F norm2 (γ + 1) (δ + 1)) (jacS F norm1 α β) (jacS F norm2 γ δ) (jacS F norm2 (γ + 1) (δ + 1))
      (fun j => (j : K) * (j + (α + β + 1))) where
  A := C48_jacobi_A hF hγ hδ junk hn
  B := C48_jacobi_B hF hγ hδ hn
  diag inc D h1 h2 := C47_jacobi hF h1 h2 hα hβ hγ hδ
  lin := jacOp_linear _ _
  gp := scaled_graded (fun i _ => jacS_ne hF hα hβ i) _ _
  gq := scaled_graded (fun i _ => jacS_ne hF hγ hδ i) _ _
  gu := scaled_graded (fun i _ => jacS_ne hF (by linarith) (by linarith) i) _ _
  eigen j hj := scaled_eigen (lam := fun j => (j : K) * (j + (α + β + 1))) (jacOp_linear _ _) (fun j hj => by rw [jacobi_eigen hα hβ hj, show (j : K) + α + β + 1 = j + (α + β + 1) by ring]) j hj
  dist _ _ i0 ij := quad_dist (by linarith) i0 ij
  b0 := by norm_num

theorem planLagLag {α β : K} (hα : -1 < α) (hβ : -1 < β) (junk : Int → K) {n : Int} (hn : 0 ≤ n) :
    PlanOk (convLagLag F junk norm1 norm2 n α β) n 1 (lagOp α) (Lag F norm1 α) (Lag F norm2 β) (Lag F norm2 (β + 1)) (lagS F norm1 α) (lagS F norm2 β) (lagS F norm2 (β + 1)) (fun j => (j : K)) where
  A := C48_laguerre_A hF hβ junk n
  B := C48_laguerre_B hF hβ hn
  diag inc D h1 h2 := C47_laguerre hF h1 h2 hα hβ
  lin := lagOp_linear _
  gp := scaled_graded (fun i _ => lagS_ne hF hα i) _ _
  gq := scaled_graded (fun i _ => lagS_ne hF hβ i) _ _
  gu := scaled_graded (fun i _ => lagS_ne hF (by linarith) i) _ _
  eigen j hj := scaled_eigen (lam := fun j => (j : K)) (lagOp_linear _) (fun j hj => lag_eigen hj) j hj
  dist _ _ i0 ij := by exact_mod_cast ij.ne
  b0 := by norm_num

end FT.Poly
