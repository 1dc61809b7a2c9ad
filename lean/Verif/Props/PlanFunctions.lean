import Verif.Lemmas.PlanFun
import Verif.Model.HarmonicPlans
import Mathlib.Analysis.SpecialFunctions.Trigonometric.Chebyshev.Basic

/-!
# Property C75: the transforms keep the function

Planner and transform together: the coefficients that `ft_execute_sph2fourier` and its relatives return, with a plan of the matching planner, are those of the same function, in Chebyshev polynomials
(trigonometric functions of the colatitude).  The plans also meet the hypotheses of C11, C12 and C54.
-/

namespace FT.Props.Fun
open FT FT.Model FT.Poly FT.Props.Plan FT.Props.Ops Polynomial
variable {K : Type*} [Field K] [LinearOrder K] [IsStrictOrderedRing K] {F : Libm K} {junk : Int → K}

/-- The forward transform `Fwd` ends on every `N × M` array and turns the column `c` of coefficients with respect to `φ x c` into one with respect to `ψ x c` with the same sum, if the column has entries
in the first `rows c` rows only.  The backward transform `Bwd` ends as well, and turns coefficients with respect to `ψ` into such with respect to `φ` if what it returns has no other entries. -/
def KeepsColumns {X Y : Type*} (ok : Y → Prop) (N M : Int) (Fwd Bwd : Y → Buf K → Buf K → Prop) (rows : Int → Int) (okx : X → Prop) (φ ψ : X → Int → Int → K) : Prop :=
  ∀ y, ok y → ∀ A : Buf K, N * M ≤ A.size →
    ((∃ A', Fwd y A A') ∧ ∀ A', Fwd y A A' → ∀ c, 0 ≤ c → c < M → Short N (c * N) 1 (rows c) A → ∀ x, okx x →
      ∑ i ∈ Finset.Ico 0 N, A'.val (i + c * N) * ψ x c i = ∑ i ∈ Finset.Ico 0 N, A.val (i + c * N) * φ x c i) ∧
    ((∃ A', Bwd y A A') ∧ ∀ A', Bwd y A A' → ∀ c, 0 ≤ c → c < M → Short N (c * N) 1 (rows c) A' → ∀ x, okx x →
      ∑ i ∈ Finset.Ico 0 N, A'.val (i + c * N) * φ x c i = ∑ i ∈ Finset.Ico 0 N, A.val (i + c * N) * ψ x c i)

omit [LinearOrder K] [IsStrictOrderedRing K] in
theorem keeps_of {X Y : Type*} {ok : Y → Prop} {N M : Int} {Fwd Bwd : Y → Buf K → Buf K → Prop} {rows : Int → Int} {okx : X → Prop} {φ ψ : X → Int → Int → K} (hI : MutuallyInverse ok N M Fwd Bwd)
    (hsz : ∀ y A A', ok y → N * M ≤ A.size → Bwd y A A' → A'.size = A.size)
    (h : ∀ y, ok y → ∀ A A' : Buf K, N * M ≤ A.size → Fwd y A A' → ∀ c, 0 ≤ c → c < M → Short N (c * N) 1 (rows c) A → ∀ x, okx x →
      ∑ i ∈ Finset.Ico 0 N, A'.val (i + c * N) * ψ x c i = ∑ i ∈ Finset.Ico 0 N, A.val (i + c * N) * φ x c i) : KeepsColumns ok N M Fwd Bwd rows okx φ ψ := by
  intro y hy A hA
  obtain ⟨f, b, -, r⟩ := hI y y hy hy A hA
  refine ⟨⟨f, fun A' e => h y hy A A' hA e⟩, b, fun A' e c c0 c1 hz x hx => ?_⟩
  have hs : N * M ≤ A'.size := by rw [hsz y A A' hy hA e]; exact hA
  obtain ⟨A'', e''⟩ := (hI y y hy hy A' hs).1
  have := h y hy A' A'' hs e'' c c0 c1 hz x hx
  rw [r A' A'' e e''] at this
  exact this.symm

/-- The same for sums over all columns. -/
def KeepsSum {X Y : Type*} (ok : Y → Prop) (N M : Int) (Fwd Bwd : Y → Buf K → Buf K → Prop) (rows : Int → Int) (okx : X → Prop) (φ ψ : X → Int → Int → K) : Prop :=
  ∀ y, ok y → ∀ A : Buf K, N * M ≤ A.size →
    ((∃ A', Fwd y A A') ∧ ∀ A', Fwd y A A' → (∀ c, 0 ≤ c → c < M → Short N (c * N) 1 (rows c) A) → ∀ x, okx x →
      ∑ c ∈ Finset.Ico 0 M, ∑ i ∈ Finset.Ico 0 N, A'.val (i + c * N) * ψ x c i = ∑ c ∈ Finset.Ico 0 M, ∑ i ∈ Finset.Ico 0 N, A.val (i + c * N) * φ x c i) ∧
    ((∃ A', Bwd y A A') ∧ ∀ A', Bwd y A A' → (∀ c, 0 ≤ c → c < M → Short N (c * N) 1 (rows c) A') → ∀ x, okx x →
      ∑ c ∈ Finset.Ico 0 M, ∑ i ∈ Finset.Ico 0 N, A'.val (i + c * N) * φ x c i = ∑ c ∈ Finset.Ico 0 M, ∑ i ∈ Finset.Ico 0 N, A.val (i + c * N) * ψ x c i)

omit [LinearOrder K] [IsStrictOrderedRing K] in
theorem keepsSum_of {X Y : Type*} {ok : Y → Prop} {N M : Int} {Fwd Bwd : Y → Buf K → Buf K → Prop} {rows : Int → Int} {okx : X → Prop} {φ ψ : X → Int → Int → K} (hI : MutuallyInverse ok N M Fwd Bwd)
    (hsz : ∀ y A A', ok y → N * M ≤ A.size → Bwd y A A' → A'.size = A.size)
    (h : ∀ y, ok y → ∀ A A' : Buf K, N * M ≤ A.size → Fwd y A A' → (∀ c, 0 ≤ c → c < M → Short N (c * N) 1 (rows c) A) → ∀ x, okx x →
      ∑ c ∈ Finset.Ico 0 M, ∑ i ∈ Finset.Ico 0 N, A'.val (i + c * N) * ψ x c i = ∑ c ∈ Finset.Ico 0 M, ∑ i ∈ Finset.Ico 0 N, A.val (i + c * N) * φ x c i) : KeepsSum ok N M Fwd Bwd rows okx φ ψ := by
  intro y hy A hA
  obtain ⟨f, b, -, r⟩ := hI y y hy hy A hA
  refine ⟨⟨f, fun A' e => h y hy A A' hA e⟩, b, fun A' e hz x hx => ?_⟩
  have hs : N * M ≤ A'.size := by rw [hsz y A A' hy hA e]; exact hA
  obtain ⟨A'', e''⟩ := (hI y y hy hy A' hs).1
  have := h y hy A' A'' hs e'' hz x hx
  rw [r A' A'' e e''] at this
  exact this.symm

omit [LinearOrder K] [IsStrictOrderedRing K] in
theorem back_size {N M : Int} {R : Buf K → Buf K → Prop} {D : Buf K → Option (Buf K)} {Φ Ψ : AOp K} (hS : StepOK N M R Φ) (hD : DenseOK N M D Ψ) {A A' : Buf K} (hA : N * M ≤ A.size)
    (e : ∃ A1, D A = some A1 ∧ R A1 A') : A'.size = A.size := by
  obtain ⟨A1, e1, e2⟩ := e
  obtain ⟨B, eB, a⟩ := hD.2 A hA
  rw [e1] at eB; cases eB
  rw [(hS.acts A1 A' (by rw [a.size]; exact hA) e2).size, a.size]

/-- Cosines and sines of the colatitude as polynomials in its cosine and sine: `T_i`, and the sine times `U_i`. -/
noncomputable def trigFun (p : K × K) (m i : Int) : K := if m % 2 = 0 then (Chebyshev.T K i).eval p.1 else p.2 * (Chebyshev.U K i).eval p.1

/-- The plan for the sphere. -/
theorem sph_plan (hF : IsLibm F) {N : Int} (hN : 1 ≤ N) : ∃ P, planSph2fourier F junk N = some P ∧ PlanOK geomSph (2 * N - 1) N P ∧ Dense N P.P0 (Leg F true) (Che F false) ∧
    Dense N P.P1 (Ult F true (3 / 2)) (Ult F false 1) ∧ Converts geomSph P.RP (fun m => N - m) (fun p : K × K => p.2 ^ 2 = 1 - p.1 ^ 2) (sphFun F) := by
  obtain ⟨RP, eR, hn, hC⟩ := C74_sphere hF N (by omega) junk
  obtain ⟨RP', eR', T⟩ := planTri_spec (K := K) N (by omega) _ _ junk
  obtain ⟨P0, e0, d0⟩ := C61_dense_legendre_chebyshev (junk := junk) hF (show 0 ≤ N by omega) true false
  obtain ⟨P1, e1, d1⟩ := C61_dense_ultraspherical (junk := junk) hF (show 0 ≤ N by omega) true false (lam := 3 / 2) (mu := 1) (by norm_num) (by norm_num) (by norm_num) (by norm_num)
  obtain ⟨Q0, f0, q0⟩ := C61_dense_chebyshev_legendre (junk := junk) hF (show 0 ≤ N by omega) false true
  obtain ⟨Q1, f1, q1⟩ := C61_dense_ultraspherical (junk := junk) hF (show 0 ≤ N by omega) false true (lam := 1) (mu := 3 / 2) (by norm_num) (by norm_num) (by norm_num) (by norm_num)
  obtain ⟨RP2, e2, hn2, h2⟩ := C06_rotsphere_unit hF.sqrt N (by omega) junk
  rw [eR] at e2; cases e2
  have sz : (RP.s.size : Int) = N * (N + 1) / 2 ∧ (RP.c.size : Int) = N * (N + 1) / 2 := by
    have := eR; unfold planRotsphere at this; rw [eR'] at this; cases this; exact ⟨T.ssz, T.csz⟩
  obtain ⟨t, u⟩ := tri_unit (G := geomSph) (by omega) hn (by unfold tableSize geomSph; simp) (fun l m a b c d => by
    obtain ⟨s, c, es, ec, -, -, -, -, u⟩ := h2 l m a b c d; exact ⟨s, c, es, ec, u⟩) sz.1 sz.2
  refine ⟨(⟨RP, (N * (2 * N - 1)).toNat, P0, P1, ⟨0, junk⟩, Q0, Q1, ⟨0, junk⟩⟩ : HPlan K), ?_, ⟨hn, hN, t, u, Int.self_le_toNat _, inversePair_of (by omega) (planChebLeg hF false true N).gp d0 q0,
      inversePair_of (by omega) (planUltUlt hF false true (lam := 1) (mu := 3 / 2) (by norm_num) (by norm_num) (by norm_num) (by norm_num) N).gp d1 q1⟩, d0, d1, hC⟩
  unfold planSph2fourier
  rw [eR, e0, e1, f0, f1]
  rfl

/-- **C75**, sphere. -/
theorem C75_sphere (hF : IsLibm F) {N : Int} (hN : 1 ≤ N) : ∃ P, planSph2fourier F junk N = some P ∧ PlanOK geomSph (2 * N - 1) N P ∧ ∀ M, M % 2 = 1 → 1 ≤ M → M ≤ 2 * N - 1 →
    KeepsColumns (Choice.OK P.szB) N M (fun y => Sph2fourier y false P N M) (fun y => Fourier2sph y false P N M) (fun c => N - ordPair c) (fun p : K × K => p.2 ^ 2 = 1 - p.1 ^ 2)
      (fun p c i => sphFun F p (ordPair c) i) (fun p c i => trigFun p (ordPair c) i) := by
  obtain ⟨P, e, hP, d0, d1, hC⟩ := sph_plan (junk := junk) hF hN
  refine ⟨P, e, hP, fun M hM hM1 hM2 => keeps_of (C11_sph hP hM hM1 hM2 false) (fun y A A' hy hA e => back_size (runSph_ok hP hM hM1 hM2 y hy false)
    (trmm4_ok (t := false) (by omega) (by omega) hP.inv0.2.1 hP.inv1.2.1) hA e) fun y hy A A' hA e c c0 c1 hz p hp => ?_⟩
  refine Eq.trans (sum_Ico_congr fun i i0 i1 => ?_) (parity_sum (C54_sph hP hM hM1 hM2) (Or.inl rfl) rfl hP.tables hP.n (by omega) hC d0 d1 (w0 := fun _ => 1) (w1 := fun p => p.2) (arg := fun p => p.1)
      (fun p i i0 => ?_) (fun p i i0 => ?_) hy hA e c0 c1 (by unfold ordPair; omega) hz hp)
  · unfold trigFun
    rw [che_T F i0, ult_U F i0, one_mul]
  · unfold sphFun
    rw [← leg_jac hF]; simp
  · unfold sphFun
    rw [← ult_jac_three hF]; simp

/-- The orders of the functions in the columns of a vector field: 1, 0, 0, 1, 1, 2, 2, …; the first column is not rotated. -/
def ordVec (c : Int) : Int := if c ≤ 0 then 1 else (c - 1) / 2

/-- **C75**, vector fields on the sphere: columns `2m+1` and `2m+2` hold the coefficients of functions of order `m`, column 0 those of functions of order one. -/
theorem C75_sphere_vector (hF : IsLibm F) {N : Int} (hN : 2 ≤ N) : ∃ P, planSph2fourier F junk N = some P ∧ PlanOK geomSph (2 * N - 1) N P ∧ ∀ M, M % 2 = 1 → 3 ≤ M → M ≤ 2 * N - 1 →
    KeepsColumns (Choice.OK P.szB) N M (fun y => Sphv2fourier y false P N M) (fun y => Fourier2sphv y false P N M) (fun c => if c = 0 then N else N - ordVec c) (fun p : K × K => p.2 ^ 2 = 1 - p.1 ^ 2)
      (fun p c i => sphFun F p (ordVec c) i) (fun p c i => trigFun p (ordVec c) i) := by
  obtain ⟨P, e, hP, d0, d1, hC⟩ := sph_plan (junk := junk) hF (show 1 ≤ N by omega)
  have n0 : 0 ≤ N := by omega
  refine ⟨P, e, hP, fun M hM hM1 hM2 => keeps_of (C11_sphv hP hM hM1 hM2 false) (fun y A A' hy hA e => back_size (runSphv_ok hP hM hM1 hM2 y hy false)
    (trmm4_ok (t := false) (by omega) (by omega) hP.inv1.2.1 hP.inv0.2.1) hA e) fun y hy A A' hA e c c0 c1 hz p hp => ?_⟩
  obtain ⟨R, eR, v⟩ := (C54_sphv hP hM hM1 hM2 y hy A hA).2 A' e
  rw [sum_Ico_congr fun i i0 i1 => by rw [v i c i0 i1 c0 c1]]
  have hn := hP.n
  rcases eq_or_ne c 0 with rfl | hc
  · have s : ∀ i, 0 ≤ i → i < N → R.val (i + 0 * N) = A.val (i + 0 * N) := fun i i0 i1 => by
      rw [← hn] at i1 hA ⊢
      exact columnwise_same (Or.inl rfl) hP.tables (by omega) (fun m => by unfold parity; omega) hA eR le_rfl c1 rfl i0 i1
    have k := dense_eval d1 (fun l => A.val (l + 0 * N)) p.1
    have o : ordVec 0 = 1 := rfl
    rw [o]
    have f : ∀ i, 0 ≤ i → i < N → byParity ordPair N P.P1 P.P0 (fun i c => R.val (i + c * N)) i 0 * trigFun p 1 i = p.2 * ((∑ l ∈ Finset.range N.toNat, mat N P.P1 i l * A.val (l + 0 * N)) * (Ult F false 1 i).eval p.1) := by
      intro i i0 i1
      rw [ult_U F i0]
      unfold byParity trigFun
      rw [if_neg (by norm_num)]
      have : ∑ l ∈ Finset.range N.toNat, (if ordPair 0 % 2 = 0 then mat N P.P1 i l else mat N P.P0 i l) * R.val (l + 0 * N) = ∑ l ∈ Finset.range N.toNat, mat N P.P1 i l * A.val (l + 0 * N) :=
        Finset.sum_congr rfl fun l hl => by
          have := Finset.mem_range.1 hl
          rw [if_pos (show ordPair 0 % 2 = 0 from rfl), s l (by omega) (by omega)]
      rw [this]
      ring
    rw [sum_Ico_congr f, ← Finset.mul_sum, k, Finset.mul_sum]
    refine sum_Ico_congr fun l l0 l1 => ?_
    unfold sphFun
    rw [← ult_jac_three hF]
    simp
    ring
  · have o : ordVec c = ordPairV c := by unfold ordVec ordPairV; split_ifs <;> omega
    have o' : ordPair c % 2 = 0 ↔ ¬ ordPairV c % 2 = 0 := by unfold ordPair ordPairV; split_ifs <;> omega
    rw [if_neg hc] at hz
    rw [o] at hz ⊢
    refine Eq.trans (sum_Ico_congr fun i i0 i1 => ?_) (parity_col (ord := ordPairV) (Or.inl rfl) rfl hP.tables hn n0 hC d0 d1 (w0 := fun _ => 1) (w1 := fun p => p.2) (arg := fun p => p.1)
        (fun p i i0 => ?_) (fun p i i0 => ?_) hA eR c0 c1 (by unfold ordPairV; split_ifs <;> omega) hz hp)
    · congr 1
      · unfold byParity
        refine Finset.sum_congr rfl fun l _ => ?_
        congr 1
        by_cases h : ordPairV c % 2 = 0
        · rw [if_pos h, if_neg (by rw [o']; exact not_not.2 h)]
        · rw [if_neg h, if_pos (o'.2 h)]
      · unfold trigFun
        rw [che_T F i0, ult_U F i0, one_mul]
    · unfold sphFun
      rw [← leg_jac hF]; simp
    · unfold sphFun
      rw [← ult_jac_three hF]; simp

/-- The constants of `ft_execute_tri2cheb` for the parameters of the plan, see `TriPar`. -/
def triPar (F : Libm K) (pi α β γ : K) : TriPar K := ⟨α, β, γ, -1 / 2, F.sqrt (1 / 2), F.sqrt 2, 2 / pi, pi / 2⟩

theorem cheQ_edge (hF : IsLibm F) {pi : K} (hpi : pi = F.gamma (1 / 2) * F.gamma (1 / 2)) (i j : Int) : cheQ F i * cheQ F j = edge2 (F.sqrt (1 / 2)) i j * (2 / pi) := by
  have hg := (hF.gamma_pos (1 / 2) (by norm_num)).ne'
  have s := (hF.sqrt 2 (by norm_num)).2
  have s1 := (hF.sqrt (1 / 2) (by norm_num)).2
  have m : F.sqrt (1 / 2) * F.sqrt 2 = 1 := by
    rw [← sqrt_mul hF.sqrt (by norm_num) (by norm_num), show (1 / 2 : K) * 2 = 1 * 1 by norm_num, sqrt_sq hF.sqrt zero_le_one]
  unfold cheQ edge2
  rw [hpi]
  by_cases hi : i = 0 <;> by_cases hj : j = 0 <;> simp only [hi, hj, if_true, if_false, and_self, or_self, and_true, and_false, false_and, or_true, true_or, or_false, false_or]
  all_goals field_simp
  · linear_combination -2 * s1
  · linear_combination F.sqrt (1 / 2) * s - F.sqrt 2 * m
  · linear_combination F.sqrt (1 / 2) * s - F.sqrt 2 * m
  · linear_combination s

/-- **C75**, triangle: `x` is the first of the collapsed coordinates and `y` the second, both on `[-1, 1]`. -/
theorem C75_triangle (hF : IsLibm F) {pi : K} (hpi : pi = F.gamma (1 / 2) * F.gamma (1 / 2)) {N : Int} (hN : 1 ≤ N) {α β γ : K} (hα : -1 < α) (hβ : -1 < β) (hγ : -1 < γ) :
    ∃ P, planTri2cheb F junk N α β γ = some P ∧ PlanOK geomTri N N P ∧ ∀ M, 1 ≤ M → M ≤ N →
    KeepsSum (Choice.OK P.szB) N M (fun y => Tri2cheb y false (triPar F pi α β γ) P N M) (fun y => Cheb2tri y false (triPar F pi α β γ) P N M) (fun c => N - c) (fun _ : K × K => True)
      (fun p c i => triFun F α β γ p.1 c i * (Jac F true γ β c).eval p.2) (fun p c i => (Chebyshev.T K i).eval p.1 * (Chebyshev.T K c).eval p.2) := by
  have hh : (-1 : K) < -1 / 2 := by norm_num
  have hb : -1 < β + γ + 1 := by linarith
  obtain ⟨RP, eR, hn, hC⟩ := C74_triangle hF N (by omega) α β γ hα hβ hγ junk
  obtain ⟨RP', eR', T⟩ := planTri_spec (K := K) N (by omega) _ _ junk
  obtain ⟨P0, e0, d0⟩ := C61_dense_jacobi (junk := junk) hF (show 0 ≤ N by omega) true true hb hα hh hh
  obtain ⟨P1, e1, d1⟩ := C61_dense_jacobi (junk := junk) hF (show 0 ≤ N by omega) true true hγ hβ hh hh
  obtain ⟨Q0, f0, q0⟩ := C61_dense_jacobi (junk := junk) hF (show 0 ≤ N by omega) true true hh hh hb hα
  obtain ⟨Q1, f1, q1⟩ := C61_dense_jacobi (junk := junk) hF (show 0 ≤ N by omega) true true hh hh hγ hβ
  obtain ⟨RP2, e2, hn2, h2⟩ := C06_rottriangle_unit hF.sqrt N (by omega) α β γ hα hβ hγ junk
  rw [eR] at e2; cases e2
  have sz : (RP.s.size : Int) = N * (N + 1) / 2 ∧ (RP.c.size : Int) = N * (N + 1) / 2 := by
    have := eR; unfold planRottriangle at this; rw [eR'] at this; cases this; exact ⟨T.ssz, T.csz⟩
  obtain ⟨t, u⟩ := tri_unit (G := geomTri) (by omega) hn (by unfold tableSize geomTri; simp) (fun l m a b c d => by
    obtain ⟨-, s, c, es, ec, -, -, -, -, u⟩ := h2 l m a b c d; exact ⟨s, c, es, ec, u⟩) sz.1 sz.2
  have gq := (planJacJac hF true true hh hh hγ hβ junk (show 0 ≤ N by omega)).gp
  have hP : PlanOK geomTri N N (⟨RP, (N * N).toNat, P0, P1, ⟨0, junk⟩, Q0, Q1, ⟨0, junk⟩⟩ : HPlan K) :=
    ⟨hn, hN, t, u, Int.self_le_toNat _, inversePair_of (by omega) gq d0 q0, inversePair_of (by omega) gq d1 q1⟩
  have pi0 : pi ≠ 0 := by rw [hpi]; exact (mul_pos (hF.gamma_pos _ (by norm_num)) (hF.gamma_pos _ (by norm_num))).ne'
  have hp : TriConst (triPar F pi α β γ) := by
    refine ⟨?_, ?_⟩
    · show F.sqrt (1 / 2) * F.sqrt 2 = 1
      rw [← sqrt_mul hF.sqrt (by norm_num) (by norm_num), show (1 / 2 : K) * 2 = 1 * 1 by norm_num, sqrt_sq hF.sqrt zero_le_one]
    · show 2 / pi * (pi / 2) = 1
      field_simp
  refine ⟨_, ?_, hP, fun M hM1 hM2 => keepsSum_of (C11_tri hP hM1 hM2 _ hp false) ?_ fun y hy A A' hA e hz p _ => ?_⟩
  · unfold planTri2cheb
    rw [eR, e0, e1, f0, f1]
    rfl
  · intro y A A' hy hA e
    exact back_size (runTri_ok hP (by omega) hM2 y hy false) (triE_ok hP hM1 hM2 _ false) hA e
  · obtain ⟨R, eR, v⟩ := (C54_tri hP hM1 hM2 (triPar F pi α β γ) y hy A hA).2 A' e
    have hR : ∀ c, 0 ≤ c → c < M → ∑ i ∈ Finset.Ico 0 N, R.val (i + c * N) * triFun F α β γ p.1 0 i = ∑ i ∈ Finset.Ico 0 N, A.val (i + c * N) * triFun F α β γ p.1 c i := fun c c0 c1 => by
      have hn' : RP.n = N := hn
      subst hn'
      exact columnwise_sum (Or.inr (Or.inl rfl)) t (by omega) hC (fun _ => le_rfl) hA eR c0 c1 c0 (Int.one_dvd _) (hz c c0 c1) trivial
    set W0 := convMat ((triPar F pi α β γ).b + (triPar F pi α β γ).c ≠ 3 * (triPar F pi α β γ).mhalf ∨ (triPar F pi α β γ).a ≠ (triPar F pi α β γ).mhalf) N P0 with hW0
    set W1 := convMat ((triPar F pi α β γ).c ≠ (triPar F pi α β γ).mhalf ∨ (triPar F pi α β γ).b ≠ (triPar F pi α β γ).mhalf) N P1 with hW1
    have L : ∀ b, ∑ i ∈ Finset.Ico 0 N, (∑ a ∈ Finset.range N.toNat, W0 i a * R.val (a + b * N)) * (Jac F true (-1 / 2) (-1 / 2) i).eval p.1 = ∑ a ∈ Finset.Ico 0 N, R.val (a + b * N) * (Jac F true (β + γ + 1) α a).eval p.1 :=
      fun b => conv_eval d0 (fun h => by
        simp only [triPar, not_or, not_not] at h
        rw [show β + γ + 1 = -1 / 2 by linear_combination h.1, h.2]) le_rfl (fun a => R.val (a + b * N)) p.1
    have Rr : ∀ r : Int → K, ∑ j ∈ Finset.Ico 0 M, (∑ b ∈ Finset.range M.toNat, W1 j b * r b) * (Jac F true (-1 / 2) (-1 / 2) j).eval p.2 = ∑ b ∈ Finset.Ico 0 M, r b * (Jac F true γ β b).eval p.2 :=
      fun r => conv_eval d1 (fun h => by
        simp only [triPar, not_or, not_not] at h
        rw [h.1, h.2]) hM2 r p.2
    have step : ∀ j i, 0 ≤ j → j < M → 0 ≤ i → i < N → A'.val (i + j * N) * ((Chebyshev.T K i).eval p.1 * (Chebyshev.T K j).eval p.2) =
        (∑ b ∈ Finset.range M.toNat, W1 j b * (∑ a ∈ Finset.range N.toNat, W0 i a * R.val (a + b * N))) * (Jac F true (-1 / 2) (-1 / 2) i).eval p.1 * (Jac F true (-1 / 2) (-1 / 2) j).eval p.2 := by
      intro j i j0 j1 i0 i1
      rw [v i j i0 i1 j0 j1, jac_che_false hF i0, jac_che_false hF j0, che_T F i0, che_T F j0, eval_mul, eval_mul, eval_C, eval_C]
      have := cheQ_edge hF hpi i j
      show _ * (edge2 (F.sqrt (1 / 2)) i j * (2 / pi)) * _ = _
      rw [← this]
      ring
    calc _ = ∑ j ∈ Finset.Ico 0 M, ∑ i ∈ Finset.Ico 0 N, (∑ b ∈ Finset.range M.toNat, W1 j b * (∑ a ∈ Finset.range N.toNat, W0 i a * R.val (a + b * N))) * (Jac F true (-1 / 2) (-1 / 2) i).eval p.1 *
            (Jac F true (-1 / 2) (-1 / 2) j).eval p.2 := sum_Ico_congr fun j j0 j1 => sum_Ico_congr fun i i0 i1 => step j i j0 j1 i0 i1
      _ = ∑ j ∈ Finset.Ico 0 M, (∑ b ∈ Finset.range M.toNat, W1 j b * ∑ i ∈ Finset.Ico 0 N, (∑ a ∈ Finset.range N.toNat, W0 i a * R.val (a + b * N)) * (Jac F true (-1 / 2) (-1 / 2) i).eval p.1) *
            (Jac F true (-1 / 2) (-1 / 2) j).eval p.2 := sum_Ico_congr fun j _ _ => by
          rw [← Finset.sum_mul]
          congr 1
          simp only [Finset.mul_sum, Finset.sum_mul]
          rw [Finset.sum_comm]
          refine Finset.sum_congr rfl fun b _ => Finset.sum_congr rfl fun i _ => Finset.sum_congr rfl fun a _ => by ring
      _ = ∑ b ∈ Finset.Ico 0 M, (∑ i ∈ Finset.Ico 0 N, (∑ a ∈ Finset.range N.toNat, W0 i a * R.val (a + b * N)) * (Jac F true (-1 / 2) (-1 / 2) i).eval p.1) * (Jac F true γ β b).eval p.2 :=
          Rr fun b => ∑ i ∈ Finset.Ico 0 N, (∑ a ∈ Finset.range N.toNat, W0 i a * R.val (a + b * N)) * (Jac F true (-1 / 2) (-1 / 2) i).eval p.1
      _ = _ := sum_Ico_congr fun b b0 b1 => by
          have e3 : ∑ a ∈ Finset.Ico 0 N, R.val (a + b * N) * (Jac F true (β + γ + 1) α a).eval p.1 = ∑ i ∈ Finset.Ico 0 N, A.val (i + b * N) * triFun F α β γ p.1 b i := by
            rw [← hR b b0 b1]
            refine sum_Ico_congr fun a _ _ => ?_
            unfold triFun
            simp
          rw [L b, e3, Finset.sum_mul]
          exact sum_Ico_congr fun i _ _ => by ring

/-- **C75**, disk: at the radius `r`, radial factors of order `m` become Chebyshev polynomials of the parity of `m`.  With the power of two the radial factors are
orthonormal for the weight `r^{2α} (1-r²)^β r` on `[0, 1]`. -/
theorem C75_disk (hF : IsLibm F) (h2 : ∀ x, F.pow2 (-x) * F.pow2 x = 1) {pi : K} (hpi : pi = F.gamma (1 / 2) * F.gamma (1 / 2)) {N : Int} (hN : 1 ≤ N) {α β : K} (hα : -1 < α) (hβ : -1 < β) :
    ∃ P, planDisk2cxf F junk pi N α β = some P ∧ PlanOK geomDisk (4 * N - 3) N P ∧ ∀ M, M % 2 = 1 → 1 ≤ M → M ≤ 4 * N - 3 →
    KeepsColumns (Choice.OK P.szB) N M (fun y => Disk2cxf y false P N M) (fun y => Cxf2disk y false P N M) (fun c => N - (ordPair c + 1) / 2) (fun _ : K => True)
      (fun r c i => F.pow2 (1 / 2 * (α + β + 2)) * diskFun F α β (2 * r ^ 2 - 1, F.sqrt 2 * r) (ordPair c) i) (fun r c i => (Chebyshev.T K (2 * i + ordPair c % 2)).eval r) := by
  have hh : (-1 : K) < -1 / 2 := by norm_num
  have h1 : (-1 : K) < 1 / 2 := by norm_num
  have hα1 : -1 < α + 1 := by linarith
  have hg := hF.gamma_pos (1 / 2) (by norm_num)
  have hp : 0 < pi := by rw [hpi]; exact mul_pos hg hg
  have sp : F.sqrt pi = F.gamma (1 / 2) := by rw [hpi, sqrt_sq hF.sqrt hg.le]
  have s2 := sqrt_pos hF.sqrt (two_pos (α := K))
  obtain ⟨RP, eR, hn, hC⟩ := C74_disk hF N (by omega) α β hα hβ junk
  obtain ⟨RP', eR', T⟩ := planDisk_spec (K := K) N (by omega) _ _ junk
  obtain ⟨P0, e0, d0⟩ := C47_dense_jacobi_chebyshev (junk := junk) hF (show 0 ≤ N by omega) true false hpi hβ hα
  obtain ⟨P1, e1, d1⟩ := C61_dense_jacobi (junk := junk) hF (show 0 ≤ N by omega) true true hβ hα1 hh h1
  obtain ⟨Q0, f0, q0⟩ := C47_dense_chebyshev_jacobi (junk := junk) hF (show 0 ≤ N by omega) false true hpi hβ hα
  obtain ⟨Q1, f1, q1⟩ := C61_dense_jacobi (junk := junk) hF (show 0 ≤ N by omega) true true hh h1 hβ hα1
  set w := F.pow2 (1 / 2 * (α + β + 2)) with hw
  have hw' : F.pow2 (-(1 / 2) * (α + β + 2)) * w = 1 := by rw [hw, neg_mul]; exact h2 _
  have w0 : w ≠ 0 := right_ne_zero_of_mul_eq_one hw'
  have v0 : F.sqrt (F.div pi 2) ≠ 0 := by rw [hF.div _ _ two_ne_zero]; exact (sqrt_pos hF.sqrt (by linarith)).ne'
  have vv : F.sqrt (F.div 2 pi) * F.sqrt (F.div pi 2) = 1 := by
    rw [hF.div _ _ two_ne_zero, hF.div _ _ hp.ne', sqrt_div hF.sqrt hp.le two_pos, sqrt_div hF.sqrt two_pos.le hp, sp]
    field_simp
  obtain ⟨P0', g0, d0'⟩ := dense_scale d0 (c := w) (a := w) (b := 1) (by ring)
  obtain ⟨P1', g1, d1'⟩ := dense_scale d1 (c := w * F.sqrt (F.div 2 pi)) (a := w) (b := F.sqrt (F.div pi 2)) (by linear_combination -w * vv)
  obtain ⟨Q0', k0, q0'⟩ := dense_scale q0 (c := F.pow2 (-(1 / 2) * (α + β + 2))) (a := 1) (b := w) hw'.symm
  obtain ⟨Q1', k1, q1'⟩ := dense_scale q1 (c := F.pow2 (-(1 / 2) * (α + β + 2)) * F.sqrt (F.div pi 2)) (a := F.sqrt (F.div pi 2)) (b := w) (by linear_combination -F.sqrt (F.div pi 2) * hw')
  obtain ⟨RP2, e2, hn2, hu⟩ := C06_rotdisk_unit hF.sqrt N (by omega) α β hα hβ junk
  rw [eR] at e2; cases e2
  have sz : (RP.s.size : Int) = N * N ∧ (RP.c.size : Int) = N * N := by
    have := eR; unfold planRotdisk at this; rw [eR'] at this; cases this; exact ⟨T.ssz, T.csz⟩
  obtain ⟨t, u⟩ := disk_unit hN hn (fun l m a b c d => by
    obtain ⟨-, s, c, es, ec, -, -, -, -, u⟩ := hu l m a b c d; exact ⟨s, c, es, ec, u⟩) sz.1 sz.2
  have hP : PlanOK geomDisk (4 * N - 3) N (⟨RP, (N * (4 * N - 3)).toNat, P0', P1', ⟨0, junk⟩, Q0', Q1', ⟨0, junk⟩⟩ : HPlan K) :=
    ⟨hn, hN, t, u, Int.self_le_toNat _, inversePair_of (by omega) (graded_scale (planChebLeg hF false true N).gp one_ne_zero) d0' q0',
      inversePair_of (by omega) (graded_scale (planJacJac hF true true hh h1 hβ hα1 junk (show 0 ≤ N by omega)).gp v0) d1' q1'⟩
  refine ⟨_, ?_, hP, fun M hM hM1 hM2 => keeps_of (C11_disk hP hM hM1 hM2 false) ?_ fun y hy A A' hA e c c0 c1 hz r _ => ?_⟩
  · unfold planDisk2cxf
    simp only [eR, e0, e1, f0, f1, ← hw, Option.bind_some, g0, g1, k0, k1]
  · intro y A A' hy hA e
    exact back_size (runDisk_ok hP hM hM1 hM2 y hy false) (trmm4_ok (t := false) (by omega) (by omega) hP.inv0.2.1 hP.inv1.2.1) hA e
  · have sr : F.sqrt 2 * F.sqrt (F.div pi 2) = F.gamma (1 / 2) := by
      rw [hF.div _ _ two_ne_zero, sqrt_div hF.sqrt hp.le two_pos, sp]
      field_simp
    have hC' := hC.map (fun r : K => (2 * r ^ 2 - 1, F.sqrt 2 * r)) (ok' := fun _ => True) (fun r _ => by
      have := (hF.sqrt 2 (by norm_num)).2
      dsimp only
      linear_combination r ^ 2 * this) w
    refine Eq.trans (sum_Ico_congr fun i i0 i1 => ?_) (parity_sum (C54_disk hP hM hM1 hM2) (Or.inr (Or.inr (Or.inl rfl))) rfl t hn (by omega) hC' d0' d1' (w0 := fun _ => 1) (w1 := fun r => F.sqrt 2 * r)
      (arg := fun r => 2 * r ^ 2 - 1) (fun r i i0 => ?_) (fun r i i0 => ?_) hy hA e c0 c1 (by unfold ordPair; omega) hz trivial)
    · congr 1
      split_ifs with h
      · rw [che_T F i0, C_1, one_mul, one_mul, che_double, h, add_zero]
      · rw [show ordPair c % 2 = 1 by omega, ← jac_half hF i0, eval_mul, eval_C]
        linear_combination -r * (Jac F true (-1 / 2) (1 / 2) i).eval (2 * r ^ 2 - 1) * sr
    · unfold diskFun
      simp
    · unfold diskFun
      simp [add_comm]
      ring

/-- The matrices for the second variable of the rectangularised disk: `β + 1/2` may vanish here. -/
theorem ult_che_dense (hF : IsLibm F) {pi : K} (hpi : pi = F.gamma (1 / 2) * F.gamma (1 / 2)) {N : Int} (hN : 0 ≤ N) {β : K} (hβ : -1 < β) :
    ∃ V W, denseUltCheb F 0 junk pi true false N (β + 1 / 2) = some V ∧ denseChebUlt F 0 junk pi false true N (β + 1 / 2) = some W ∧ Dense N V (Jac F true β β) (Che F false) ∧ Dense N W (Che F false) (Jac F true β β) ∧
      ∀ i j, 0 ≤ i → i < N → 0 ≤ j → j < N → (i + j) % 2 = 1 → V.val (i + j * N) = 0 := by
  have hh : (-1 : K) < -1 / 2 := by norm_num
  have eβ : β + 1 / 2 - 1 / 2 = β := by ring
  obtain ⟨V, e, d⟩ := C61_dense_jacobi (junk := junk) hF hN true true hβ hβ hh hh
  obtain ⟨W, f, q⟩ := C61_dense_jacobi (junk := junk) hF hN true true hh hh hβ hβ
  obtain ⟨x, ex, sx, vx⟩ := scl_row (junk := junk) hF hN hpi
  obtain ⟨z, ez, sz, vz⟩ := scl_col (junk := junk) hF hN hpi
  have ev : FT.Poly.Even N V := fun i j i0 i1 j0 j1 hij => connects_parity d.conn (planJacJac hF true true hh hh hβ hβ junk hN).gp (fun j hj => sym_parity hj) (fun j hj => sym_parity hj) i0 i1 j0 j1 hij
  have ew : FT.Poly.Even N W := fun i j i0 i1 j0 j1 hij => connects_parity q.conn (planJacJac hF true true hβ hβ hβ hβ junk hN).gp (fun j hj => sym_parity hj) (fun j hj => sym_parity hj) i0 i1 j0 j1 hij
  obtain ⟨V', e', d'⟩ := dense_rows2 d ev sx vx fun i i0 _ => jac_che_false hF i0
  obtain ⟨W', f', q'⟩ := dense_cols2 q ew sz vz fun i i0 _ => che_jac_false hF i0
  refine ⟨V', W', ?_, ?_, d', q', fun i j i0 i1 j0 j1 hij => connects_parity d'.conn (planChebLeg hF false true N).gp (fun j hj => sym_parity hj) (fun j hj => sym_parity hj) i0 i1 j0 j1 hij⟩
  · unfold denseUltCheb denseUltJac
    rw [eβ, e, Option.bind_some, if_neg (by decide), Option.bind_some, if_pos rfl, ex]; exact e'
  · unfold denseChebUlt denseJacUlt
    rw [eβ, f, Option.bind_some, if_neg (by decide), Option.bind_some, if_pos rfl, ez]; exact f'

/-- The plan for the rectangularised disk. -/
theorem rect_plan (hF : IsLibm F) {pi : K} (hpi : pi = F.gamma (1 / 2) * F.gamma (1 / 2)) {N : Int} (hN : 1 ≤ N) {β : K} (hβ : -1 < β) :
    ∃ P, planRectdisk2cheb F junk pi N β = some P ∧ PlanOK geomRect N N P ∧ InversePair N P.P2 P.Q2 ∧ Converts geomRect P.RP (fun m => N - m) (fun p : K × K => p.2 ^ 2 = 1 - p.1 ^ 2) (rectFun F β) ∧
      Dense N P.P0 (UltPos F true (β + 1)) (Che F false) ∧ Dense N P.P1 (Ult F true (β + 2)) (Ult F false 1) ∧ Dense N P.P2 (Jac F true β β) (Che F false) ∧
      ∀ i j, 0 ≤ i → i < N → 0 ≤ j → j < N → (i + j) % 2 = 1 → P.P2.val (i + j * N) = 0 := by
  have n0 : 0 ≤ N := by omega
  obtain ⟨RP, eR, hn, hC⟩ := C74_rectdisk hF N (by omega) β hβ junk
  obtain ⟨RP', eR', T⟩ := planTri_spec (K := K) N (by omega) _ _ junk
  obtain ⟨P0, e0, d0⟩ := C47_dense_ultraspherical_chebyshev (junk := junk) hF n0 true false (lam := β + 1) hpi (by linarith) (by linarith)
  obtain ⟨P1, e1, d1⟩ := C61_dense_ultraspherical (junk := junk) hF n0 true false (lam := β + 2) (mu := 1) (by linarith) (by linarith) (by norm_num) (by norm_num)
  obtain ⟨Q0, f0, q0⟩ := C47_dense_chebyshev_ultraspherical (junk := junk) hF n0 false true (lam := β + 1) hpi (by linarith) (by linarith)
  obtain ⟨Q1, f1, q1⟩ := C61_dense_ultraspherical (junk := junk) hF n0 false true (lam := 1) (mu := β + 2) (by norm_num) (by norm_num) (by linarith) (by linarith)
  obtain ⟨P2, Q2, e2, f2, d2, q2, ev⟩ := ult_che_dense (junk := junk) hF hpi n0 hβ
  obtain ⟨RP2, eu, hn2, hu⟩ := C06_rotrectdisk_unit hF.sqrt N (by omega) β hβ junk
  rw [eR] at eu; cases eu
  have sz : (RP.s.size : Int) = N * (N + 1) / 2 ∧ (RP.c.size : Int) = N * (N + 1) / 2 := by
    have := eR; unfold planRotrectdisk at this; rw [eR'] at this; cases this; exact ⟨T.ssz, T.csz⟩
  obtain ⟨t, u⟩ := tri_unit (G := geomRect) (by omega) hn (by unfold tableSize geomRect; simp) (fun l m a b c d => by
    obtain ⟨-, s, c, es, ec, -, -, -, -, u⟩ := hu l m a b c d; exact ⟨s, c, es, ec, u⟩) sz.1 sz.2
  have gc := (planChebLeg hF false true N).gp
  have hP : PlanOK geomRect N N (⟨RP, (N * N).toNat, P0, P1, P2, Q0, Q1, Q2⟩ : HPlan K) :=
    ⟨hn, hN, t, u, Int.self_le_toNat _, inversePair_of (by omega) gc d0 q0,
      inversePair_of (by omega) (planUltUlt hF false true (lam := 1) (mu := β + 2) (by norm_num) (by norm_num) (by linarith) (by linarith) N).gp d1 q1⟩
  have hi : InversePair N P2 Q2 := inversePair_of (by omega) gc d2 q2
  refine ⟨_, ?_, hP, hi, hC, d0, d1, d2, ev⟩
  unfold planRectdisk2cheb
  simp only [eR, e0, e1, e2, f0, f1, f2, Option.bind_some]

/-- **C75**, rectangularised disk: `p` is `x` and the root of `1 - x²`, the second variable is `y` divided by that root. -/
theorem C75_rectdisk (hF : IsLibm F) (hD : Duplication F) {pi : K} (hpi : pi = F.gamma (1 / 2) * F.gamma (1 / 2)) {N : Int} (hN : 1 ≤ N) {β : K} (hβ : -1 < β) :
    ∃ P, planRectdisk2cheb F junk pi N β = some P ∧ PlanOK geomRect N N P ∧ ∀ M, 0 ≤ M → M ≤ N →
    KeepsSum (fun T : Nat => 0 < T) N M (fun T => Rectdisk2cheb T false P N M) (fun T => Cheb2rectdisk T false P N M) (fun c => N - c) (fun p : (K × K) × K => p.1.2 ^ 2 = 1 - p.1.1 ^ 2)
      (fun p c i => rectFun F β p.1 c i * (Jac F true β β c).eval p.2) (fun p c i => trigFun p.1 c i * (Chebyshev.T K c).eval p.2) := by
  have n0 : 0 ≤ N := by omega
  obtain ⟨P, e, hP, hi, hC, d0, d1, d2, ev⟩ := rect_plan (junk := junk) hF hpi hN hβ
  have hn := hP.n
  have t := hP.tables
  refine ⟨P, e, hP, fun M hM1 hM2 => keepsSum_of (C11_rectdisk hP hi hM1 hM2 false) ?_ fun y hy A A' hA e hz p hp => ?_⟩
  · intro y A A' hy hA e
    exact back_size (runRect_ok hP y hy false) (rectE_ok hP hi hM1 hM2 false) hA e
  · obtain ⟨R, eR, v⟩ := (C54_rectdisk hP hi hM1 hM2 y hy A hA).2 A' e
    set B := byParity (fun c => c) N P.P0 P.P1 (fun i c => R.val (i + c * N)) with hB
    have hR : ∀ b, 0 ≤ b → b < M → ∑ i ∈ Finset.Ico 0 N, B i b * trigFun p.1 b i = ∑ i ∈ Finset.Ico 0 N, A.val (i + b * N) * rectFun F β p.1 b i := fun b b0 b1 => by
      refine Eq.trans (sum_Ico_congr fun i i0 i1 => ?_) (parity_col (ord := fun c => c) (Or.inr (Or.inr (Or.inr rfl))) rfl t hn n0 hC d0 d1 (w0 := fun _ => 1) (w1 := fun p => p.2) (arg := fun p => p.1)
        (fun p i i0 => ?_) (fun p i i0 => ?_) hA eR b0 b1 b0 (hz b b0 b1) hp)
      · unfold trigFun
        rw [che_T F i0, ult_U F i0, one_mul]
      · unfold rectFun UltPos
        simp only [if_true]
        rw [show β + 1 - 1 / 2 = ((0 : Int) : K) + β + 1 / 2 by push_cast; ring]
        simp
      · unfold rectFun
        rw [← C47_ultraspherical_positive hF hD (by linarith)]
        unfold UltPos
        simp only [if_true]
        rw [show β + 2 - 1 / 2 = ((1 : Int) : K) + β + 1 / 2 by push_cast; ring]
        simp
    have key := conv_eval (c := True) d2 (fun h => absurd trivial h) hM2 (fun b => ∑ i ∈ Finset.Ico 0 N, B i b * trigFun p.1 b i) p.2
    calc _ = ∑ j ∈ Finset.Ico 0 M, (∑ b ∈ Finset.range M.toNat, convMat True N P.P2 j b * ∑ i ∈ Finset.Ico 0 N, B i b * trigFun p.1 b i) * (Che F false j).eval p.2 := sum_Ico_congr fun j j0 j1 => by
          rw [che_T F j0]
          have : ∀ i, 0 ≤ i → i < N → A'.val (i + j * N) * (trigFun p.1 j i * (Chebyshev.T K j).eval p.2) = (∑ b ∈ Finset.range M.toNat, convMat True N P.P2 j b * (B i b * trigFun p.1 b i)) * (Chebyshev.T K j).eval p.2 := by
            intro i i0 i1
            rw [v i j i0 i1 j0 j1, ← mul_assoc, Finset.sum_mul]
            congr 1
            refine Finset.sum_congr rfl fun b hb => ?_
            have hb := Finset.mem_range.1 hb
            have c : convMat True N P.P2 j b = mat N P.P2 j b := if_pos trivial
            rw [c]
            by_cases h : (j + b) % 2 = 1
            · have z : mat N P.P2 j b = 0 := by
                unfold mat
                rw [ev j b j0 (by omega) (by omega) (by omega) h]; simp
              rw [z]; ring
            · have : trigFun p.1 b i = trigFun p.1 j i := by
                unfold trigFun
                rw [show (b : Int) % 2 = j % 2 by omega]
              rw [this]
              show mat N P.P2 j b * B i b * _ = _
              ring
          rw [sum_Ico_congr this, ← Finset.sum_mul, Finset.sum_comm]
          simp only [Finset.mul_sum]
      _ = _ := key.trans (sum_Ico_congr fun b b0 b1 => by
          rw [hR b b0 b1, Finset.sum_mul]
          exact sum_Ico_congr fun i _ _ => by ring)

/-- **C75**, sphere, over the reals and by the colatitude `θ`: cosines for the even orders, sines for the odd ones. -/
theorem C75_sphere_angle (junk : Int → ℝ) {N : Int} (hN : 1 ≤ N) : ∃ P, planSph2fourier realLibm junk N = some P ∧ ∀ M, M % 2 = 1 → 1 ≤ M → M ≤ 2 * N - 1 →
    KeepsColumns (Choice.OK P.szB) N M (fun y => Sph2fourier y false P N M) (fun y => Fourier2sph y false P N M) (fun c => N - ordPair c) (fun _ : ℝ => True)
      (fun θ c i => Real.sin θ ^ (ordPair c).toNat * (Jac realLibm true (ordPair c : ℝ) (ordPair c : ℝ) i).eval (Real.cos θ))
      (fun θ c i => if ordPair c % 2 = 0 then Real.cos (i * θ) else Real.sin ((i + 1) * θ)) := by
  obtain ⟨P, e, -, h⟩ := C75_sphere (junk := junk) realLibm_ok hN
  refine ⟨P, e, fun M hM hM1 hM2 y hy A hA => ?_⟩
  obtain ⟨⟨f, f'⟩, b, b'⟩ := h M hM hM1 hM2 y hy A hA
  have tr : ∀ (θ : ℝ) m i, trigFun (Real.cos θ, Real.sin θ) m i = if m % 2 = 0 then Real.cos (i * θ) else Real.sin ((i + 1) * θ) := fun θ m i => by
    unfold trigFun
    rw [Chebyshev.T_real_cos, mul_comm (Real.sin θ), Chebyshev.U_real_cos]
  refine ⟨⟨f, fun A' e c c0 c1 hz θ _ => ?_⟩, b, fun A' e c c0 c1 hz θ _ => ?_⟩
  · have := f' A' e c c0 c1 hz (Real.cos θ, Real.sin θ) (by have := Real.sin_sq_add_cos_sq θ; dsimp only; linarith)
    simp only [tr] at this
    exact this
  · have := b' A' e c c0 c1 hz (Real.cos θ, Real.sin θ) (by have := Real.sin_sq_add_cos_sq θ; dsimp only; linarith)
    simp only [tr] at this
    exact this

/-! ## Instances -/

theorem real_pow2 (x : ℝ) : realLibm.pow2 (-x) * realLibm.pow2 x = 1 := by
  show (2 : ℝ) ^ (-x) * (2 : ℝ) ^ x = 1
  rw [← Real.rpow_add two_pos, neg_add_cancel, Real.rpow_zero]

theorem real_pi : Real.pi = realLibm.gamma (1 / 2) * realLibm.gamma (1 / 2) := by
  show Real.pi = Real.Gamma (1 / 2) * Real.Gamma (1 / 2)
  rw [Real.Gamma_one_half_eq, Real.mul_self_sqrt Real.pi_pos.le]

/-- One thread, three rows, five columns; the last column, of order two, holds one coefficient. -/
example : ∃ P A', planSph2fourier realLibm (fun _ => 0) 3 = some P ∧ Sph2fourier (.dflt 1) false P 3 5 ⟨15, fun i => if i = 12 then 7 else 0⟩ A' ∧
    ∀ θ : ℝ, A'.val 12 + A'.val 13 * Real.cos θ + A'.val 14 * Real.cos (2 * θ) = 7 * (Real.sin θ ^ 2 * (Jac realLibm true 2 2 0).eval (Real.cos θ)) := by
  obtain ⟨P, e, h⟩ := C75_sphere_angle (fun _ => 0) (N := 3) (by norm_num)
  obtain ⟨⟨⟨A', eA⟩, v⟩, -⟩ := h 5 (by norm_num) (by norm_num) (by norm_num) (.dflt 1) (show 0 < 1 by norm_num) ⟨15, fun i => if i = 12 then 7 else 0⟩ (by norm_num)
  refine ⟨P, A', e, eA, fun θ => ?_⟩
  have := v A' eA 4 (by norm_num) (by norm_num) (fun i _ i1 i2 => if_neg (by have : ordPair 4 = 2 := rfl; dsimp only at i1; rw [this] at i1; omega)) θ trivial
  rw [show Finset.Ico (0 : Int) 3 = {0, 1, 2} by decide] at this
  have o : ordPair 4 = 2 := rfl
  simp only [o, show Int.toNat 2 = 2 from rfl] at this
  norm_num at this
  rw [← this]
  ring_nf

/-- The first column of a vector field. -/
example : ∃ P A', planSph2fourier realLibm (fun _ => 0) 2 = some P ∧ Sphv2fourier (.dflt 1) false P 2 3 ⟨6, fun i => if i = 0 then 7 else 0⟩ A' ∧
    ∀ p : ℝ × ℝ, p.2 ^ 2 = 1 - p.1 ^ 2 → A'.val 0 * p.2 + A'.val 1 * (p.2 * (2 * p.1)) = 7 * sphFun realLibm p 1 0 := by
  obtain ⟨P, e, -, h⟩ := C75_sphere_vector (junk := fun _ => 0) realLibm_ok (N := 2) (by norm_num)
  obtain ⟨⟨⟨A', eA⟩, v⟩, -⟩ := h 3 (by norm_num) (by norm_num) (by norm_num) (.dflt 1) (show 0 < 1 by norm_num) ⟨6, fun i => if i = 0 then 7 else 0⟩ (by norm_num)
  refine ⟨P, A', e, eA, fun p hp => ?_⟩
  have := v A' eA 0 le_rfl (by norm_num) (fun i _ i1 i2 => by dsimp only at i1; rw [if_pos rfl] at i1; omega) p hp
  rw [show Finset.Ico (0 : Int) 2 = {0, 1} by decide] at this
  have o : ordVec 0 = 1 := rfl
  simp [o, trigFun] at this
  linarith

example : ∃ P, planTri2cheb realLibm (fun _ => 0) 4 (-1 / 2) 0 (1 / 3) = some P ∧ PlanOK geomTri 4 4 P := by
  obtain ⟨P, e, h, -⟩ := C75_triangle (junk := fun _ => 0) realLibm_ok real_pi (N := 4) (by norm_num) (α := -1 / 2) (β := 0) (γ := 1 / 3) (by norm_num) (by norm_num) (by norm_num)
  exact ⟨P, e, h⟩

/-- One coefficient in the last column. -/
example : ∃ P A', planTri2cheb realLibm (fun _ => 0) 2 0 0 0 = some P ∧ Tri2cheb (.dflt 1) false (triPar realLibm Real.pi 0 0 0) P 2 2 ⟨4, fun i => if i = 2 then 7 else 0⟩ A' ∧
    ∀ x y : ℝ, A'.val 0 + A'.val 1 * x + A'.val 2 * y + A'.val 3 * (x * y) = 7 * (triFun realLibm 0 0 0 x 1 0 * (Jac realLibm true 0 0 1).eval y) := by
  obtain ⟨P, e, -, h⟩ := C75_triangle (junk := fun _ => 0) realLibm_ok real_pi (N := 2) (by norm_num) (α := 0) (β := 0) (γ := 0) (by norm_num) (by norm_num) (by norm_num)
  obtain ⟨⟨⟨A', eA⟩, v⟩, -⟩ := h 2 (by norm_num) (by norm_num) (.dflt 1) (show 0 < 1 by norm_num) ⟨4, fun i => if i = 2 then 7 else 0⟩ (by norm_num)
  refine ⟨P, A', e, eA, fun x y => ?_⟩
  have := v A' eA (fun c c0 c1 i _ i1 i2 => if_neg (by dsimp only at i1; omega)) (x, y) trivial
  rw [show Finset.Ico (0 : Int) 2 = {0, 1} by decide] at this
  simp at this
  rw [← this]
  ring

example : ∃ P A', planDisk2cxf realLibm (fun _ => 0) Real.pi 3 (1 / 2) 0 = some P ∧ Disk2cxf (.dflt 2) false P 3 9 ⟨27, fun i => if i = 24 then 7 else 0⟩ A' := by
  obtain ⟨P, e, -, h⟩ := C75_disk (junk := fun _ => 0) realLibm_ok real_pow2 real_pi (N := 3) (by norm_num) (α := 1 / 2) (β := 0) (by norm_num) (by norm_num)
  obtain ⟨⟨⟨A', eA⟩, -⟩, -⟩ := h 9 (by norm_num) (by norm_num) (by norm_num) (.dflt 2) (show 0 < 2 by norm_num) ⟨27, fun i => if i = 24 then 7 else 0⟩ (by norm_num)
  exact ⟨P, A', e, eA⟩

example : ∃ P A', planRectdisk2cheb realLibm (fun _ => 0) Real.pi 3 (-1 / 2) = some P ∧ Rectdisk2cheb 2 false P 3 3 ⟨9, fun i => if i = 6 then 7 else 0⟩ A' := by
  obtain ⟨P, e, -, h⟩ := C75_rectdisk (junk := fun _ => 0) realLibm_ok real_duplication real_pi (N := 3) (by norm_num) (β := -1 / 2) (by norm_num)
  obtain ⟨⟨⟨A', eA⟩, -⟩, -⟩ := h 3 (by norm_num) (by norm_num) 2 (by norm_num) ⟨9, fun i => if i = 6 then 7 else 0⟩ (by norm_num)
  exact ⟨P, A', e, eA⟩

end FT.Props.Fun
