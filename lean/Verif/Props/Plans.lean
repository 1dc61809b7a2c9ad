import Verif.Lemmas.PlansRun
import Verif.Props.EigFmm
import Verif.Props.PlansSpec

/-!
# C61: connection plans keep the polynomial

The dense and the divide-and-conquer plans hold the connection coefficients between the families of classical polynomials they are named after, in any of the normalisations.
-/

set_option linter.unusedSectionVars false

namespace FT.Props.Plan
open Polynomial FT FT.Model FT.Prog FT.Poly FT.Props.Hier FT.Props.TbEig FT.Props.Eig FT.Props.Ops
variable {K : Type*} [Field K] [LinearOrder K] [IsStrictOrderedRing K] {F : Libm K} {E : FmmEnv K} {n b : Int} {junk : Int → K}

section
variable {P : Conv K} {L : K[X] → K[X]} {p q u : Int → K[X]} {sp sq su lam : Int → K} (h : PlanOk P n b L p q u sp sq su lam) (hn : 0 ≤ n)
include h hn

theorem ofDense : ∃ V, densePlan 0 junk n P = some V ∧ Dense n V p q := by
  obtain ⟨V, e, h1, h2, h3⟩ := h.dense hn junk
  exact ⟨V, e, h1, h2, h3⟩

theorem ofFast (hE : Exact E) (hb : 2 * b ≤ 4) : ∃ G top, fastPlan E n P = some (G, top) ∧ Fast E.BS E.threads n G top p q := by
  have hB := hE.block
  obtain ⟨G, t, e, h1, h2, h3, h4, h5, h6, -⟩ := h.fast hn hE.eps hE.tol hE.samples hE.threads (by omega) (by omega)
  exact ⟨G, t, e, h1, h2, h3, h4, h5, h6⟩

end

section
variable (hF : IsLibm F) (hE : Exact E) (hn : 0 ≤ n) (norm1 norm2 : Bool)
include hF hn

/-- **C61** Legendre to Chebyshev, dense. -/
theorem C61_dense_legendre_chebyshev : ∃ V, densePlan 0 junk n (convLegCheb F norm1 norm2 n) = some V ∧ Dense n V (Leg F norm1) (Che F norm2) := ofDense (planLegCheb hF norm1 norm2 n) hn

/-- **C61** Chebyshev to Legendre, dense. -/
theorem C61_dense_chebyshev_legendre : ∃ V, densePlan 0 junk n (convChebLeg F norm1 norm2 n) = some V ∧ Dense n V (Che F norm1) (Leg F norm2) := ofDense (planChebLeg hF norm1 norm2 n) hn

/-- **C61** Ultraspherical to ultraspherical, dense. -/
theorem C61_dense_ultraspherical {lam mu : K} (hl : -1 / 2 < lam) (l0 : lam ≠ 0) (hm : -1 / 2 < mu) (m0 : mu ≠ 0) :
    ∃ V, densePlan 0 junk n (convUltUlt F norm1 norm2 n lam mu) = some V ∧ Dense n V (Ult F norm1 lam) (Ult F norm2 mu) := ofDense (planUltUlt hF norm1 norm2 hl l0 hm m0 n) hn

/-- **C61** Jacobi to Jacobi, dense. -/
theorem C61_dense_jacobi {α β γ δ : K} (hα : -1 < α) (hβ : -1 < β) (hγ : -1 < γ) (hδ : -1 < δ) :
    ∃ V, densePlan 0 junk n (convJacJac F junk norm1 norm2 n α β γ δ) = some V ∧ Dense n V (Jac F norm1 α β) (Jac F norm2 γ δ) := ofDense (planJacJac hF norm1 norm2 hα hβ hγ hδ junk hn) hn

/-- **C61** Laguerre to Laguerre, dense. -/
theorem C61_dense_laguerre {α β : K} (hα : -1 < α) (hβ : -1 < β) :
    ∃ V, densePlan 0 junk n (convLagLag F junk norm1 norm2 n α β) = some V ∧ Dense n V (Lag F norm1 α) (Lag F norm2 β) := ofDense (planLagLag hF norm1 norm2 hα hβ junk hn) hn

include hE

/-- **C61** Legendre to Chebyshev, divide and conquer. -/
theorem C61_fast_legendre_chebyshev : ∃ G top, fastPlan E n (convLegCheb F norm1 norm2 n) = some (G, top) ∧ Fast E.BS E.threads n G top (Leg F norm1) (Che F norm2) :=
  ofFast (planLegCheb hF norm1 norm2 n) hn hE le_rfl

/-- **C61** Chebyshev to Legendre, divide and conquer. -/
theorem C61_fast_chebyshev_legendre : ∃ G top, fastPlan E n (convChebLeg F norm1 norm2 n) = some (G, top) ∧ Fast E.BS E.threads n G top (Che F norm1) (Leg F norm2) :=
  ofFast (planChebLeg hF norm1 norm2 n) hn hE le_rfl

/-- **C61** Ultraspherical to ultraspherical, divide and conquer. -/
theorem C61_fast_ultraspherical {lam mu : K} (hl : -1 / 2 < lam) (l0 : lam ≠ 0) (hm : -1 / 2 < mu) (m0 : mu ≠ 0) :
    ∃ G top, fastPlan E n (convUltUlt F norm1 norm2 n lam mu) = some (G, top) ∧ Fast E.BS E.threads n G top (Ult F norm1 lam) (Ult F norm2 mu) :=
  ofFast (planUltUlt hF norm1 norm2 hl l0 hm m0 n) hn hE le_rfl

/-- **C61** Jacobi to Jacobi, divide and conquer. -/
theorem C61_fast_jacobi {α β γ δ : K} (hα : -1 < α) (hβ : -1 < β) (hγ : -1 < γ) (hδ : -1 < δ) :
    ∃ G top, fastPlan E n (convJacJac F junk norm1 norm2 n α β γ δ) = some (G, top) ∧ Fast E.BS E.threads n G top (Jac F norm1 α β) (Jac F norm2 γ δ) :=
  ofFast (planJacJac hF norm1 norm2 hα hβ hγ hδ junk hn) hn hE le_rfl

/-- **C61** Laguerre to Laguerre, divide and conquer. -/
theorem C61_fast_laguerre {α β : K} (hα : -1 < α) (hβ : -1 < β) :
    ∃ G top, fastPlan E n (convLagLag F junk norm1 norm2 n α β) = some (G, top) ∧ Fast E.BS E.threads n G top (Lag F norm1 α) (Lag F norm2 β) :=
  ofFast (planLagLag hF norm1 norm2 hα hβ junk hn) hn hE (by norm_num)

end

/-! ## What the user of a plan sees -/

section
variable {p q : Int → K[X]}

/-- Multiplying coefficients by the matrix of a plan keeps the polynomial. -/
theorem connects_apply {M : Int → Int → K} (h : Connects n M p q) (c : Int → K) : combination n c p = combination n (fun i => ∑ j ∈ Finset.Ico 0 n, M i j * c j) q := by
  unfold combination
  rw [sum_Ico_congr (g := fun j => ∑ i ∈ Finset.Ico 0 n, C (M i j * c j) * q i) fun j j0 j1 => by rw [h j j0 j1, Finset.mul_sum]; exact sum_Ico_congr fun i _ _ => by rw [C_mul]; ring]
  rw [Finset.sum_comm]
  exact sum_Ico_congr fun i _ _ => by rw [map_sum, Finset.sum_mul]

/-- **C61** The product of a dense plan and a vector of coefficients in the first family is the vector of the coefficients of the same polynomial in the second family. -/
theorem C61_dense_apply {V : Buf K} (h : Dense n V p q) (c : Int → K) : combination n c p = combination n (fun i => ∑ j ∈ Finset.Ico i n, V.val (i + j * n) * c j) q := by
  rw [connects_apply h.conn c]
  exact sum_Ico_congr fun i i0 i1 => by
    beta_reduce
    rw [sum_Ico_shrink (f := fun j => V.val (i + j * n) * c j) (lo := 0) (hi := n) (lo' := i) (hi' := n) (fun k k0 k1 hk => by rw [h.upper i k k0 (by omega) i1, zero_mul]) i0 le_rfl]

/-- **C61** `ft_bfmv('N', plan, x)` overwrites the coefficients in the first family by those of the same polynomial in the second family. -/
theorem C61_fast_apply {BS th top : Int} {G : TbEig K} (h : Fast BS th n G top p q) (hn : 0 ≤ n) (hth : 1 ≤ th) {M : Buf K} (hM : M.size = (top + n).toNat) :
    ∃ M', (bfmvP BS 'N' 0 G ⟨top, n, 0⟩).run M = some ((), M') ∧ combination n (fun j => M.val (top + j)) p = combination n (fun i => M'.val (top + i)) q := by
  obtain ⟨c1, c2, c3⟩ := FT.Fmm.col_ok (p := th) h.placed.le h.size hn hth h.sized h.placed.alloc hM
  obtain ⟨M', e, -, v, -⟩ := C22_apply (tr := 'N') (.inl rfl) h.sized c1 c2 c3
  refine ⟨M', e, ?_⟩
  rw [connects_apply h.conn]
  refine sum_Ico_congr fun i i0 i1 => ?_
  have := v i i0 (by rw [h.size]; exact i1)
  beta_reduce
  rw [show M'.val (top + i) = ∑ j ∈ Finset.Ico 0 n, mat G i j * M.val (top + j) by simpa [Ptr.at, h.size] using this]

/-- **C61** `ft_bfsv('N', plan, x)` goes the other way. -/
theorem C61_fast_solve {BS th top : Int} {G : TbEig K} (h : Fast BS th n G top p q) (hn : 0 ≤ n) (hth : 1 ≤ th) {M : Buf K} (hM : M.size = (top + n).toNat) :
    ∃ M', (bfsvP BS 'N' 0 G ⟨top, n, 0⟩).run M = some ((), M') ∧ combination n (fun j => M.val (top + j)) q = combination n (fun i => M'.val (top + i)) p := by
  obtain ⟨c1, c2, c3⟩ := FT.Fmm.col_ok (p := th) h.placed.le h.size hn hth h.sized h.placed.alloc hM
  obtain ⟨M', e, -, v, -⟩ := C22_solve (tr := 'N') (.inl rfl) h.sized h.regular c1 c2 c3
  refine ⟨M', e, ?_⟩
  rw [connects_apply h.conn]
  refine sum_Ico_congr fun i i0 i1 => ?_
  have := v i i0 (by rw [h.size]; exact i1)
  beta_reduce
  rw [show ∑ j ∈ Finset.Ico 0 n, mat G i j * M'.val (top + j) = M.val (top + i) by simpa [Ptr.at, h.size] using this]

/-- Matrices of opposite conversions are inverse to each other. -/
theorem connects_inverse {s : Int → K} (hp : Graded p s) {M N : Int → Int → K} (h1 : Connects n M p q) (h2 : Connects n N q p) {i j : Int} (i0 : 0 ≤ i) (i1 : i < n) (j0 : 0 ≤ j) (j1 : j < n) :
    ∑ k ∈ Finset.Ico 0 n, N i k * M k j = if i = j then 1 else 0 := by
  have e := (h1 j j0 j1).trans (connects_apply h2 fun k => M k j)
  have d : p j = combination n (fun i => if i = j then 1 else 0) p := by
    unfold combination
    rw [Finset.sum_eq_single j (fun k _ hk => by beta_reduce; rw [if_neg hk, map_zero, zero_mul]) fun hj => absurd (Finset.mem_Ico.2 ⟨j0, j1⟩) hj]
    beta_reduce
    rw [if_pos rfl, map_one, one_mul]
  rw [d] at e
  have z : ∑ i ∈ Finset.Ico 0 n, C ((∑ k ∈ Finset.Ico 0 n, N i k * M k j) - if i = j then 1 else 0) * p i = 0 := by
    simp only [map_sub, sub_mul, Finset.sum_sub_distrib]
    rw [sub_eq_zero]
    exact e.symm
  exact sub_eq_zero.1 (hp.indep z i i0 i1)

/-- `N M = 1`. -/
def Inverse (n : Int) (N M : Int → Int → K) : Prop := ∀ i j, 0 ≤ i → i < n → 0 ≤ j → j < n → ∑ k ∈ Finset.Ico 0 n, N i k * M k j = if i = j then 1 else 0

/-- **C61** Divide-and-conquer plans of opposite directions are inverse to each other. -/
theorem C61_fast_opposite {BS th top top' : Int} {G H : TbEig K} {s : Int → K} (hp : Graded p s) (h1 : Fast BS th n G top p q) (h2 : Fast BS th n H top' q p) : Inverse n (mat H) (mat G) :=
  fun _ _ i0 i1 j0 j1 => connects_inverse hp h1.conn h2.conn i0 i1 j0 j1

end

section
variable (hF : IsLibm F) (hE : Exact E) (hn : 0 ≤ n) (norm1 norm2 : Bool)
include hF hn

/-- **C61** The dense plans from Legendre to Chebyshev and back are inverse to each other. -/
theorem C61_dense_legendre_chebyshev_opposite : ∃ V W, densePlan 0 junk n (convLegCheb F norm1 norm2 n) = some V ∧ densePlan 0 junk n (convChebLeg F norm2 norm1 n) = some W ∧
    Inverse n (fun i j => W.val (i + j * n)) fun i j => V.val (i + j * n) := by
  obtain ⟨V, e1, h1⟩ := C61_dense_legendre_chebyshev (junk := junk) hF hn norm1 norm2
  obtain ⟨W, e2, h2⟩ := C61_dense_chebyshev_legendre (junk := junk) hF hn norm2 norm1
  exact ⟨V, W, e1, e2, fun i j i0 i1 j0 j1 => connects_inverse (planLegCheb hF norm1 norm2 n).gp h1.conn h2.conn i0 i1 j0 j1⟩

/-- **C61** So are those between ultraspherical polynomials. -/
theorem C61_dense_ultraspherical_opposite {lam mu : K} (hl : -1 / 2 < lam) (l0 : lam ≠ 0) (hm : -1 / 2 < mu) (m0 : mu ≠ 0) :
    ∃ V W, densePlan 0 junk n (convUltUlt F norm1 norm2 n lam mu) = some V ∧ densePlan 0 junk n (convUltUlt F norm2 norm1 n mu lam) = some W ∧
      Inverse n (fun i j => W.val (i + j * n)) fun i j => V.val (i + j * n) := by
  obtain ⟨V, e1, h1⟩ := C61_dense_ultraspherical (junk := junk) hF hn norm1 norm2 hl l0 hm m0
  obtain ⟨W, e2, h2⟩ := C61_dense_ultraspherical (junk := junk) hF hn norm2 norm1 hm m0 hl l0
  exact ⟨V, W, e1, e2, fun i j i0 i1 j0 j1 => connects_inverse (planUltUlt hF norm1 norm2 hl l0 hm m0 n).gp h1.conn h2.conn i0 i1 j0 j1⟩

/-- **C61** Between Jacobi polynomials. -/
theorem C61_dense_jacobi_opposite {α β γ δ : K} (hα : -1 < α) (hβ : -1 < β) (hγ : -1 < γ) (hδ : -1 < δ) :
    ∃ V W, densePlan 0 junk n (convJacJac F junk norm1 norm2 n α β γ δ) = some V ∧ densePlan 0 junk n (convJacJac F junk norm2 norm1 n γ δ α β) = some W ∧
      Inverse n (fun i j => W.val (i + j * n)) fun i j => V.val (i + j * n) := by
  obtain ⟨V, e1, h1⟩ := C61_dense_jacobi (junk := junk) hF hn norm1 norm2 hα hβ hγ hδ
  obtain ⟨W, e2, h2⟩ := C61_dense_jacobi (junk := junk) hF hn norm2 norm1 hγ hδ hα hβ
  exact ⟨V, W, e1, e2, fun i j i0 i1 j0 j1 => connects_inverse (planJacJac hF norm1 norm2 hα hβ hγ hδ junk hn).gp h1.conn h2.conn i0 i1 j0 j1⟩

/-- **C61** Between Laguerre polynomials. -/
theorem C61_dense_laguerre_opposite {α β : K} (hα : -1 < α) (hβ : -1 < β) :
    ∃ V W, densePlan 0 junk n (convLagLag F junk norm1 norm2 n α β) = some V ∧ densePlan 0 junk n (convLagLag F junk norm2 norm1 n β α) = some W ∧
      Inverse n (fun i j => W.val (i + j * n)) fun i j => V.val (i + j * n) := by
  obtain ⟨V, e1, h1⟩ := C61_dense_laguerre (junk := junk) hF hn norm1 norm2 hα hβ
  obtain ⟨W, e2, h2⟩ := C61_dense_laguerre (junk := junk) hF hn norm2 norm1 hβ hα
  exact ⟨V, W, e1, e2, fun i j i0 i1 j0 j1 => connects_inverse (planLagLag hF norm1 norm2 hα hβ junk hn).gp h1.conn h2.conn i0 i1 j0 j1⟩

end

/-! ## Eigenvectors -/

section
variable (hF : IsLibm F) (norm1 norm2 : Bool)
include hF

/-- **C48** The pencil of the conversion from Legendre to Chebyshev: its upper triangular eigenvectors, scaled to have quotients of leading coefficients on the diagonal, hold the connection
coefficients. -/
theorem C48_legendre_chebyshev_eigenvectors : ∃ A B a b, createALegCheb norm2 n = some A ∧ createBLegCheb F norm2 n = some B ∧ StoresT A n 2 a ∧ StoresT B n 2 b ∧ (∀ j, 0 ≤ j → j < n → b j j ≠ 0) ∧
    (∀ j, 0 ≤ j → j < n → a j j / b j j = j * (j + 1)) ∧
    ∀ v : Int → Int → K, (∀ i j, 0 ≤ j → j < i → i < n → v i j = 0) → (∀ j, 0 ≤ j → j < n → v j j = legS F norm1 j / cheS F norm2 j) →
      (∀ i j, 0 ≤ i → i < n → 0 ≤ j → j < n → ∑ k ∈ Finset.Ico 0 n, a i k * v k j = a j j / b j j * ∑ k ∈ Finset.Ico 0 n, b i k * v k j) → Connects n v (Leg F norm1) (Che F norm2) := by
  obtain ⟨A, B, a, b, h1, h2, h3, h4, h5, h6, h7⟩ := (planLegCheb hF norm1 norm2 n).pencil
  exact ⟨A, B, a, b, h1, h2, h3, h4, h5, fun j j0 j1 => by rw [h6 j j0 j1]; ring, h7⟩

/-- **C48** The same for the conversion from Chebyshev to Legendre. -/
theorem C48_chebyshev_legendre_eigenvectors : ∃ A B a b, createAChebLeg F norm2 n = some A ∧ createBChebLeg F norm2 n = some B ∧ StoresT A n 2 a ∧ StoresT B n 2 b ∧ (∀ j, 0 ≤ j → j < n → b j j ≠ 0) ∧
    (∀ j, 0 ≤ j → j < n → a j j / b j j = j * j) ∧
    ∀ v : Int → Int → K, (∀ i j, 0 ≤ j → j < i → i < n → v i j = 0) → (∀ j, 0 ≤ j → j < n → v j j = cheS F norm1 j / legS F norm2 j) →
      (∀ i j, 0 ≤ i → i < n → 0 ≤ j → j < n → ∑ k ∈ Finset.Ico 0 n, a i k * v k j = a j j / b j j * ∑ k ∈ Finset.Ico 0 n, b i k * v k j) → Connects n v (Che F norm1) (Leg F norm2) := by
  obtain ⟨A, B, a, b, h1, h2, h3, h4, h5, h6, h7⟩ := (planChebLeg hF norm1 norm2 n).pencil
  exact ⟨A, B, a, b, h1, h2, h3, h4, h5, fun j j0 j1 => by rw [h6 j j0 j1]; ring, h7⟩

end

/-! ## Cases -/

/-- An environment of two threads with blocks of order 4, over the reals. -/
noncomputable def realEnv : FmmEnv ℝ := ⟨4, 0, 1 / 100, fun _ => 7, 2, denseCauchy (1 / 100)⟩

theorem realEnv_ok : Exact realEnv := ⟨rfl, by show (1 / 100 : ℝ) ≤ 1; norm_num, dense_samples fun _ _ _ _ _ => rfl, by decide, by decide⟩

example : ∃ V, densePlan 0 (fun _ => 5) 9 (convLegCheb realLibm true false 9) = some V ∧ Dense 9 V (Leg realLibm true) (Che realLibm false) := C61_dense_legendre_chebyshev realLibm_ok (by norm_num) _ _
example : ∃ V, densePlan 0 (fun _ => 5) 9 (convChebLeg realLibm true false 9) = some V ∧ Dense 9 V (Che realLibm true) (Leg realLibm false) := C61_dense_chebyshev_legendre realLibm_ok (by norm_num) _ _
example : ∃ G top, fastPlan realEnv 9 (convLegCheb realLibm true false 9) = some (G, top) ∧ Fast 4 2 9 G top (Leg realLibm true) (Che realLibm false) :=
  C61_fast_legendre_chebyshev realLibm_ok realEnv_ok (by norm_num) _ _
example : ∃ G top, fastPlan realEnv 9 (convChebLeg realLibm true true 9) = some (G, top) ∧ Fast 4 2 9 G top (Che realLibm true) (Leg realLibm true) :=
  C61_fast_chebyshev_legendre realLibm_ok realEnv_ok (by norm_num) _ _
example : ∃ G top, fastPlan realEnv 9 (convUltUlt realLibm true false 9 (3 / 2) 1) = some (G, top) ∧ Fast 4 2 9 G top (Ult realLibm true (3 / 2)) (Ult realLibm false 1) :=
  C61_fast_ultraspherical realLibm_ok realEnv_ok (by norm_num) _ _ (by norm_num) (by norm_num) (by norm_num) (by norm_num)
example : ∃ G top, fastPlan realEnv 9 (convJacJac realLibm (fun _ => 5) true false 9 1 2 (-1 / 2) 0) = some (G, top) ∧ Fast 4 2 9 G top (Jac realLibm true 1 2) (Jac realLibm false (-1 / 2) 0) :=
  C61_fast_jacobi realLibm_ok realEnv_ok (by norm_num) _ _ (by norm_num) (by norm_num) (by norm_num) (by norm_num)
example : ∃ G top, fastPlan realEnv 9 (convLagLag realLibm (fun _ => 5) true false 9 1 (-1 / 2)) = some (G, top) ∧ Fast 4 2 9 G top (Lag realLibm true 1) (Lag realLibm false (-1 / 2)) :=
  C61_fast_laguerre realLibm_ok realEnv_ok (by norm_num) _ _ (by norm_num) (by norm_num)
example : ∃ G t H t', fastPlan realEnv 9 (convLegCheb realLibm true false 9) = some (G, t) ∧ fastPlan realEnv 9 (convChebLeg realLibm false true 9) = some (H, t') ∧ Inverse 9 (mat H) (mat G) := by
  obtain ⟨G, t, e1, h1⟩ := C61_fast_legendre_chebyshev realLibm_ok realEnv_ok (show (0 : Int) ≤ 9 by norm_num) true false
  obtain ⟨H, t', e2, h2⟩ := C61_fast_chebyshev_legendre realLibm_ok realEnv_ok (show (0 : Int) ≤ 9 by norm_num) false true
  exact ⟨G, t, H, t', e1, e2, C61_fast_opposite (planLegCheb realLibm_ok true false 9).gp h1 h2⟩
/-- The polynomial is kept by the product with a plan and by the solution of a system with it. -/
example : ∃ G t M', fastPlan realEnv 9 (convLegCheb realLibm true false 9) = some (G, t) ∧ (bfmvP 4 'N' 0 G ⟨t, 9, 0⟩).run ⟨(t + 9).toNat, fun _ => 3⟩ = some ((), M') ∧
    combination 9 (fun _ => 3) (Leg realLibm true) = combination 9 (fun i => M'.val (t + i)) (Che realLibm false) := by
  obtain ⟨G, t, e1, h1⟩ := C61_fast_legendre_chebyshev realLibm_ok realEnv_ok (show (0 : Int) ≤ 9 by norm_num) true false
  obtain ⟨M', e, h⟩ := C61_fast_apply (M := ⟨(t + 9).toNat, fun _ => 3⟩) h1 (by norm_num) (by decide) rfl
  exact ⟨G, t, M', e1, e, h⟩
example : ∃ G t M', fastPlan realEnv 9 (convLegCheb realLibm true false 9) = some (G, t) ∧ (bfsvP 4 'N' 0 G ⟨t, 9, 0⟩).run ⟨(t + 9).toNat, fun _ => 3⟩ = some ((), M') ∧
    combination 9 (fun _ => 3) (Che realLibm false) = combination 9 (fun i => M'.val (t + i)) (Leg realLibm true) := by
  obtain ⟨G, t, e1, h1⟩ := C61_fast_legendre_chebyshev realLibm_ok realEnv_ok (show (0 : Int) ≤ 9 by norm_num) true false
  obtain ⟨M', e, h⟩ := C61_fast_solve (M := ⟨(t + 9).toNat, fun _ => 3⟩) h1 (by norm_num) (by decide) rfl
  exact ⟨G, t, M', e1, e, h⟩
example : ∃ V W, densePlan 0 (fun _ => 5) 9 (convUltUlt realLibm true false 9 (3 / 2) 1) = some V ∧ densePlan 0 (fun _ => 5) 9 (convUltUlt realLibm false true 9 1 (3 / 2)) = some W ∧
    Inverse 9 (fun i j => W.val (i + j * 9)) fun i j => V.val (i + j * 9) :=
  C61_dense_ultraspherical_opposite realLibm_ok (by norm_num) _ _ (by norm_num) (by norm_num) (by norm_num) (by norm_num)
example : ∃ V W, densePlan 0 (fun _ => 5) 9 (convJacJac realLibm (fun _ => 5) true false 9 1 2 (-1 / 2) 0) = some V ∧
    densePlan 0 (fun _ => 5) 9 (convJacJac realLibm (fun _ => 5) false true 9 (-1 / 2) 0 1 2) = some W ∧ Inverse 9 (fun i j => W.val (i + j * 9)) fun i j => V.val (i + j * 9) :=
  C61_dense_jacobi_opposite realLibm_ok (by norm_num) _ _ (by norm_num) (by norm_num) (by norm_num) (by norm_num)

end FT.Props.Plan
