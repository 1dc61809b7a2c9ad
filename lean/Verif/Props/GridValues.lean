import Verif.Props.PlanFunctions
import Verif.Props.Synthesis

/-!
# Property C76: transform and synthesis evaluate the expansion on the grid

From coefficients in the orthonormal basis of the domain to values at the points of the grid, and back: a plan of the planner, the transform, and the transforms of FFTW of C57.  The functions and the
points are written out; nothing is said here of the Chebyshev and Fourier coefficients in between.
-/

namespace FT.Props.Fun
open FT FT.Model FT.Poly FT.Fftw FT.Props.Plan FT.Props.Ops Polynomial

/-- The column `c` has entries in the first `rows c` rows only. -/
def Shape (N M : Int) (rows : Int → Int) (A : Buf ℝ) : Prop := ∀ c, 0 ≤ c → c < M → Short N (c * N) 1 (rows c) A

/-- The sum of the expansion with the coefficients `A` at the point `(i, k)` of the grid; `f c l i k` is the value of the basis function in row `l` of column `c` there. -/
noncomputable def expansion (N M : Int) (A : Buf ℝ) (f : Int → Int → Int → Int → ℝ) (i k : Int) : ℝ :=
  ∑ c ∈ Finset.Ico 0 M, ∑ l ∈ Finset.Ico 0 N, A.val (l + c * N) * f c l i k

/-- `Fwd` followed by `synth` returns the values of the expansion at the points of the grid.  `ana` followed by `Bwd` returns, from values on the grid, coefficients; if they have the shape of an
expansion, the expansion has the given values. -/
def Evaluates {Y : Type*} (ok : Y → Prop) (N M w : Int) (Fwd Bwd : Y → Buf ℝ → Buf ℝ → Prop) (synth ana : Buf ℝ → Buf ℝ → Option (Buf ℝ × Buf ℝ)) (rows : Int → Int)
    (f : Int → Int → Int → Int → ℝ) : Prop :=
  ∀ y, ok y → ∀ W : Buf ℝ, (W.size : Int) = w →
    (∀ A : Buf ℝ, (A.size : Int) = N * M → Shape N M rows A → (∃ A', Fwd y A A') ∧ ∀ A', Fwd y A A' →
      ∃ X W', synth A' W = some (X, W') ∧ X.size = A.size ∧ ∀ i k, 0 ≤ i → i < N → 0 ≤ k → k < M → X.val (i + k * N) = expansion N M A f i k) ∧
    ∀ X : Buf ℝ, (X.size : Int) = N * M → ∃ X1 W1, ana X W = some (X1, W1) ∧ (∃ A, Bwd y X1 A) ∧ ∀ A, Bwd y X1 A → Shape N M rows A →
      ∀ i k, 0 ≤ i → i < N → 0 ≤ k → k < M → X.val (i + k * N) = expansion N M A f i k

theorem evaluates_of {Y : Type*} {ok : Y → Prop} {N M w : Int} {Fwd Bwd : Y → Buf ℝ → Buf ℝ → Prop} {synth ana : Buf ℝ → Buf ℝ → Option (Buf ℝ × Buf ℝ)} {rows : Int → Int}
    {f : Int → Int → Int → Int → ℝ} {Ψ : Int → Int → ℝ} (hN : 0 < N) (hM : 0 ≤ M) (hI : MutuallyInverse ok N M Fwd Bwd)
    (hf : ∀ y A A', ok y → N * M ≤ A.size → Fwd y A A' → A'.size = A.size) (hb : ∀ y A A', ok y → N * M ≤ A.size → Bwd y A A' → A'.size = A.size)
    (hΨ : Applies (N * M) w synth Ψ)
    (hU : ∀ X W W' : Buf ℝ, (X.size : Int) = N * M → (W.size : Int) = w → (W'.size : Int) = w → ∃ X1 Y1 Y2, ana X W = some (X1, Y1) ∧ synth X1 W' = some (X, Y2) ∧ X1.size = X.size)
    (key : ∀ y A A', ok y → N * M ≤ A.size → Shape N M rows A → Fwd y A A' → ∀ i k, 0 ≤ i → i < N → 0 ≤ k → k < M →
      ∑ c ∈ Finset.Ico 0 M, ∑ j ∈ Finset.Ico 0 N, Ψ (i + k * N) (j + c * N) * A'.val (j + c * N) = expansion N M A f i k) :
    Evaluates ok N M w Fwd Bwd synth ana rows f := by
  intro y hy W hW
  refine ⟨fun A hA hz => ⟨(hI y y hy hy A hA.ge).1, fun A' e => ?_⟩, fun X hX => ?_⟩
  · have s := hf y A A' hy hA.ge e
    obtain ⟨X, W', eX, sX, v⟩ := hΨ A' W (by rw [s]; exact hA) hW
    refine ⟨X, W', eX, by rw [sX, s], fun i k i0 i1 k0 k1 => ?_⟩
    obtain ⟨a, b, -, -⟩ := flat_pos hN k0 k1 i0 i1
    rw [v _ a b, sum_flat hN hM]
    exact key y A A' hy hA.ge hz e i k i0 i1 k0 k1
  · obtain ⟨X1, Y1, Y2, e1, e2, s1⟩ := hU X W W hX hW hW
    have h1 : N * M ≤ X1.size := by rw [s1]; exact hX.ge
    obtain ⟨-, b, -, r⟩ := hI y y hy hy X1 h1
    refine ⟨X1, Y1, e1, b, fun A e hz i k i0 i1 k0 k1 => ?_⟩
    have sA := hb y X1 A hy h1 e
    obtain ⟨A', e'⟩ := (hI y y hy hy A (by rw [sA]; exact h1)).1
    have eq := r A A' e e'
    rw [eq] at e'
    obtain ⟨X', W', eX, -, v⟩ := hΨ X1 W (by rw [s1]; exact hX) hW
    rw [e2] at eX
    cases eX
    obtain ⟨p, q, -, -⟩ := flat_pos hN k0 k1 i0 i1
    rw [v _ p q, sum_flat hN hM]
    exact key y A X1 hy (by rw [sA]; exact h1) hz e' i k i0 i1 k0 k1

theorem fwd_size {N M : Int} {R : Buf ℝ → Buf ℝ → Prop} {D : Buf ℝ → Option (Buf ℝ)} {Φ Ψ : AOp ℝ} (hS : StepOK N M R Φ) (hD : DenseOK N M D Ψ) {A A' : Buf ℝ} (hA : N * M ≤ A.size)
    (e : ∃ A1, R A A1 ∧ D A1 = some A') : A'.size = A.size := by
  obtain ⟨A1, e1, e2⟩ := e
  have a1 := hS.acts A A1 hA e1
  obtain ⟨B, eB, a⟩ := hD.2 A1 (by rw [a1.size]; exact hA)
  rw [e2] at eB; cases eB
  rw [a.size, a1.size]

/-! ## The last row of odd orders -/

section
variable {X : Type*} {G : Geom} {RP : RotPlan ℝ} {rows : Int → Int} {okx : X → Prop} {φ : X → Int → Int → ℝ} {base ord : Int → Int} {N M : Int}

theorem columnwise_short (hg : IsGeom G) (hT : TablesOK G RP) (hn : RP.n = N) (hN : 0 ≤ N) (hC : Converts G RP rows okx φ) (hb : ∀ m, 0 ≤ base m) {A R : Buf ℝ} (hA : N * M ≤ A.size)
    (e : columnwise true G RP base ord 0 M A = some R) {c : Int} (c0 : 0 ≤ c) (c1 : c < M) (hm : base (ord c) ≤ ord c) (hd : G.jst ∣ ord c - base (ord c))
    (hz : Short N (c * N) 1 (rows (ord c)) A) : Short N (c * N) 1 (rows (base (ord c))) R := by
  subst hn
  have a := columnwise_acts hg hT hb ⟨hN, le_rfl, by omega⟩ e
  obtain ⟨B, eB, hs, -⟩ := (hC (base (ord c)) (ord c) 0 1 (hb _) hm hd one_pos le_rfl ⟨RP.n.toNat, fun k => A.val (k + c * RP.n)⟩ (by simp only; omega)).1
    (fun i i0 i1 i2 => by have := hz i i0 i1 i2; simp only [zero_add, mul_one] at this ⊢; rw [add_comm i]; exact this)
  intro i i0 i1 i2
  have h := hs i i0 i1 i2
  rw [zero_add, mul_one] at h
  rw [mul_one, add_comm, a.val i c i0 i2 c0 c1]
  unfold rotOp colOp ordF colF kern
  rw [if_pos rfl, eB]
  exact h

/-- An upper triangular matrix keeps a vanishing last row. -/
theorem last_zero (V : Buf ℝ) (r : Int → ℝ) (h : r (N - 1) = 0) : ∑ l ∈ Finset.range N.toNat, mat N V (N - 1) l * r l = 0 :=
  Finset.sum_eq_zero fun l hl => by
    have := Finset.mem_range.1 hl
    by_cases hl : (l : Int) = N - 1
    · rw [hl, h, mul_zero]
    · unfold mat
      rw [if_neg (by omega), zero_mul]

end

/-- The trigonometric functions of the synthesis, with the last sine counted half, agree with those of the transform on columns whose last row vanishes. -/
theorem sine_last {N j : Int} {a θ : ℝ} (h : j = N - 1 → a = 0) : sine N j θ * a = Real.sin ((j + 1) * θ) * a := by
  unfold sine
  split_ifs with hj
  · rw [h hj, mul_zero, mul_zero]
  · rw [one_mul]

theorem trig_real (θ : ℝ) (m i : Int) : trigFun (Real.cos θ, Real.sin θ) m i = if m % 2 = 0 then Real.cos (i * θ) else Real.sin ((i + 1) * θ) := by
  unfold trigFun
  rw [Chebyshev.T_real_cos, mul_comm (Real.sin θ), Chebyshev.U_real_cos]

theorem on_circle (θ : ℝ) : (Real.cos θ, Real.sin θ).2 ^ 2 = 1 - (Real.cos θ, Real.sin θ).1 ^ 2 := by
  have := Real.sin_sq_add_cos_sq θ
  dsimp only
  linarith

/-! ## Sphere -/

/-- The real orthonormal spherical harmonic in row `l` of column `c`, of degree `l + m` and order `m`: `sin^m θ` times the normalised Gegenbauer polynomial in `cos θ`, times the function of longitude. -/
noncomputable def sphHarmonic (c l : Int) (θ φ : ℝ) : ℝ :=
  Real.sin θ ^ (order c).toNat * (Jac realLibm true (order c : ℝ) (order c : ℝ) l).eval (Real.cos θ) * fourier c φ

theorem C76_sphere (junk u u' : Int → ℝ) {N : Int} (hN : 1 ≤ N) : ∃ P, planSph2fourier realLibm junk N = some P ∧ ∀ M, M % 2 = 1 → 1 ≤ M → M ≤ 2 * N - 1 →
    Evaluates (Choice.OK P.szB) N M (2 * (N * (M / 2 + 1))) (fun y => Sph2fourier y false P N M) (fun y => Fourier2sph y false P N M)
      (sphSynthesis 'N' consts (sphS N M) u N M) (sphAnalysis 'N' consts (sphA N M) u' N M) (fun c => N - order c) (fun c l i k => sphHarmonic c l (grid N i) (circ M k)) := by
  obtain ⟨P, e, hP, h⟩ := C75_sphere (junk := junk) realLibm_ok hN
  obtain ⟨P', e', -, -, d1, hC⟩ := sph_plan (junk := junk) realLibm_ok hN
  rw [e] at e'; cases e'
  refine ⟨P, e, fun M hM hM1 hM2 => evaluates_of (by omega) (by omega) (C11_sph hP hM hM1 hM2 false)
    (fun y A A' hy hA e => fwd_size (runSph_ok hP hM hM1 hM2 y hy true) (trmm4_ok (t := false) (by omega) (by omega) hP.inv0.1 hP.inv1.1) hA e)
    (fun y A A' hy hA e => back_size (runSph_ok hP hM hM1 hM2 y hy false) (trmm4_ok (t := false) (by omega) (by omega) hP.inv0.2.1 hP.inv1.2.1) hA e)
    (C57_sphere (by omega) (by omega) hM) (C41_sphere (by omega) (by omega) hM consts_ok (sph_pair (by omega) (by omega) hM)).2.1 fun y A A' hy hA hz e i k i0 i1 k0 k1 => ?_⟩
  unfold expansion
  refine sum_Ico_congr fun c c0 c1 => ?_
  have hs := ((h M hM hM1 hM2 y hy A hA).1.2 A' e) c c0 c1 (hz c c0 c1) (Real.cos (grid N i), Real.sin (grid N i)) (on_circle _)
  have hl : ordPair c % 2 = 1 → A'.val (N - 1 + c * N) = 0 := fun ho => by
    obtain ⟨R, eR, v⟩ := (C54_sph hP hM hM1 hM2 y hy A hA).2 A' e
    rw [v _ c (by omega) (by omega) c0 c1]
    unfold byParity
    simp only [if_neg (show ¬ ordPair c % 2 = 0 by omega)]
    refine last_zero _ (fun l => R.val (l + c * N)) ?_
    have := columnwise_short (Or.inl rfl) hP.tables hP.n (by omega) hC (fun m => by unfold parity; omega) hA eR c0 c1 (by unfold parity ordPair; omega)
      (by unfold parity; show (2 : Int) ∣ _; omega) (hz c c0 c1) (N - 1) (by omega) (by unfold parity; rw [ho]) (by omega)
    rw [mul_one, add_comm] at this
    exact this
  have ho : order c = ordPair c := rfl
  have := congrArg (fourier c (circ M k) * ·) hs
  simp only [trig_real, Finset.mul_sum] at this
  refine Eq.trans (sum_Ico_congr fun j j0 j1 => ?_) (this.trans (sum_Ico_congr fun l l0 l1 => ?_))
  · obtain ⟨-, -, b1, b2⟩ := flat_pos (M := M) (by omega) k0 k1 i0 i1
    obtain ⟨-, -, b3, b4⟩ := flat_pos (M := M) (by omega) c0 c1 j0 j1
    unfold sphSeries
    rw [b1, b2, b3, b4, ho, mul_assoc]
    congr 1
    split_ifs with hp
    · exact mul_comm _ _
    · rw [sine_last fun hj => by rw [hj]; exact hl (by omega)]
      exact mul_comm _ _
  · unfold sphHarmonic sphFun
    dsimp only
    rw [ho]
    ring

/-! ## Vector fields on the sphere -/

/-- The function in row `l` of column `c` for components of vector fields: functions of colatitude of order `m` go with functions of longitude of order `m + 1`, the first column has order one. -/
noncomputable def sphvHarmonic (c l : Int) (θ φ : ℝ) : ℝ :=
  Real.sin θ ^ (ordVec c).toNat * (Jac realLibm true (ordVec c : ℝ) (ordVec c : ℝ) l).eval (Real.cos θ) * fourier c φ

theorem C76_sphere_vector (junk u u' : Int → ℝ) {N : Int} (hN : 2 ≤ N) : ∃ P, planSph2fourier realLibm junk N = some P ∧ ∀ M, M % 2 = 1 → 3 ≤ M → M ≤ 2 * N - 1 →
    Evaluates (Choice.OK P.szB) N M (2 * (N * (M / 2 + 1))) (fun y => Sphv2fourier y false P N M) (fun y => Fourier2sphv y false P N M)
      (sphvSynthesis 'N' consts (sphvS N M) u N M) (sphvAnalysis 'N' consts (sphvA N M) u' N M) (fun c => N - ordVec c) (fun c l i k => sphvHarmonic c l (grid N i) (circ M k)) := by
  obtain ⟨P, e, hP, h⟩ := C75_sphere_vector (junk := junk) realLibm_ok hN
  obtain ⟨P', e', -, -, d1, hC⟩ := sph_plan (junk := junk) realLibm_ok (show 1 ≤ N by omega)
  rw [e] at e'; cases e'
  refine ⟨P, e, fun M hM hM1 hM2 => evaluates_of (by omega) (by omega) (C11_sphv hP hM hM1 hM2 false)
    (fun y A A' hy hA e => fwd_size (runSphv_ok hP hM hM1 hM2 y hy true) (trmm4_ok (t := false) (by omega) (by omega) hP.inv1.1 hP.inv0.1) hA e)
    (fun y A A' hy hA e => back_size (runSphv_ok hP hM hM1 hM2 y hy false) (trmm4_ok (t := false) (by omega) (by omega) hP.inv1.2.1 hP.inv0.2.1) hA e)
    (C57_sphere_vector (by omega) (by omega) hM) (C41_sphere_vector (by omega) (by omega) hM consts_ok (sphv_pair (by omega) (by omega) hM)).2.1 fun y A A' hy hA hz e i k i0 i1 k0 k1 => ?_⟩
  unfold expansion
  refine sum_Ico_congr fun c c0 c1 => ?_
  have hz' : Short N (c * N) 1 (if c = 0 then N else N - ordVec c) A := fun r r0 r1 r2 => hz c c0 c1 r r0 (by split_ifs at r1 <;> omega) r2
  have hs := ((h M hM hM1 hM2 y hy A hA).1.2 A' e) c c0 c1 hz' (Real.cos (grid N i), Real.sin (grid N i)) (on_circle _)
  have ho : order c % 2 = 0 ↔ ¬ ordVec c % 2 = 0 := by unfold order ordVec; split_ifs <;> omega
  have hl : ordVec c % 2 = 1 → A'.val (N - 1 + c * N) = 0 := fun hv => by
    obtain ⟨R, eR, v⟩ := (C54_sphv hP hM hM1 hM2 y hy A hA).2 A' e
    rw [v _ c (by omega) (by omega) c0 c1]
    unfold byParity
    simp only [if_pos (show ordPair c % 2 = 0 from ho.2 (by omega))]
    refine last_zero _ (fun l => R.val (l + c * N)) ?_
    rcases eq_or_ne c 0 with rfl | hc
    · have hn := hP.n
      have s : R.val (N - 1 + 0 * N) = A.val (N - 1 + 0 * N) := by
        have hN' : 2 ≤ P.RP.n := by omega
        rw [← hn] at hA ⊢
        exact columnwise_same (Or.inl rfl) hP.tables (by omega) (fun m => by unfold parity; omega) hA eR le_rfl c1 rfl (by omega) (by omega)
      have := hz 0 le_rfl c1 (N - 1) (by omega) (by show N - 1 ≤ N - 1; omega) (by omega)
      rw [mul_one, add_comm] at this
      rw [s]
      exact this
    · have o : ordVec c = ordPairV c := by unfold ordVec ordPairV; split_ifs <;> omega
      have hz1 := hz c c0 c1
      simp only [o] at hz1 hv
      have := columnwise_short (Or.inl rfl) hP.tables hP.n (by omega) hC (fun m => by unfold parity; omega) hA eR c0 c1 (by unfold parity ordPairV; split_ifs <;> omega)
        (by unfold parity; show (2 : Int) ∣ _; omega) hz1 (N - 1) (by omega) (by unfold parity; rw [hv]) (by omega)
      rw [mul_one, add_comm] at this
      exact this
  have := congrArg (fourier c (circ M k) * ·) hs
  simp only [trig_real, Finset.mul_sum] at this
  refine Eq.trans (sum_Ico_congr fun j j0 j1 => ?_) (this.trans (sum_Ico_congr fun l l0 l1 => ?_))
  · obtain ⟨-, -, b1, b2⟩ := flat_pos (M := M) (by omega) k0 k1 i0 i1
    obtain ⟨-, -, b3, b4⟩ := flat_pos (M := M) (by omega) c0 c1 j0 j1
    unfold sphvSeries
    rw [b1, b2, b3, b4, mul_assoc]
    congr 1
    by_cases hp : order c % 2 = 0
    · rw [if_pos hp, if_neg (ho.1 hp), sine_last fun hj => by rw [hj]; exact hl (by have := ho.1 hp; omega)]
      exact mul_comm _ _
    · rw [if_neg hp, if_pos (by by_contra h'; exact hp (ho.2 h'))]
      exact mul_comm _ _
  · unfold sphvHarmonic sphFun
    dsimp only
    ring

/-! ## Disk -/

/-- The generalised Zernike polynomial in row `l` of column `c`, orthonormal for `r^{2α} (1-r²)^β` on the disk. -/
noncomputable def zernike (α β : ℝ) (c l : Int) (r φ : ℝ) : ℝ :=
  2 ^ (1 / 2 * (α + β + 2)) * ((√2 * r) ^ (order c).toNat * (Jac realLibm true β (order c + α) l).eval (2 * r ^ 2 - 1)) * fourier c φ

theorem C76_disk (junk u u' : Int → ℝ) {N : Int} (hN : 1 ≤ N) {α β : ℝ} (hα : -1 < α) (hβ : -1 < β) : ∃ P, planDisk2cxf realLibm junk Real.pi N α β = some P ∧ ∀ M, M % 2 = 1 → 1 ≤ M → M ≤ 4 * N - 3 →
    Evaluates (Choice.OK P.szB) N M (2 * (N * (M / 2 + 1))) (fun y => Disk2cxf y false P N M) (fun y => Cxf2disk y false P N M)
      (diskSynthesis 'N' consts (diskS N M) u N M) (diskAnalysis 'N' consts (diskA N M) u' N M) (fun c => N - (order c + 1) / 2)
      (fun c l i k => zernike α β c l (Real.cos (grid N i / 2)) (circ M k)) := by
  obtain ⟨P, e, hP, h⟩ := C75_disk (junk := junk) realLibm_ok real_pow2 real_pi hN hα hβ
  refine ⟨P, e, fun M hM hM1 hM2 => evaluates_of (by omega) (by omega) (C11_disk hP hM hM1 hM2 false)
    (fun y A A' hy hA e => fwd_size (runDisk_ok hP hM hM1 hM2 y hy true) (trmm4_ok (t := false) (by omega) (by omega) hP.inv0.1 hP.inv1.1) hA e)
    (fun y A A' hy hA e => back_size (runDisk_ok hP hM hM1 hM2 y hy false) (trmm4_ok (t := false) (by omega) (by omega) hP.inv0.2.1 hP.inv1.2.1) hA e)
    (C57_disk (by omega) (by omega) hM) (C41_disk (by omega) (by omega) hM consts_ok (disk_pair (by omega) (by omega) hM)).2.1 fun y A A' hy hA hz e i k i0 i1 k0 k1 => ?_⟩
  unfold expansion
  refine sum_Ico_congr fun c c0 c1 => ?_
  have hs := ((h M hM hM1 hM2 y hy A hA).1.2 A' e) c c0 c1 (hz c c0 c1) (Real.cos (grid N i / 2)) trivial
  have ho : order c = ordPair c := rfl
  have := congrArg (fourier c (circ M k) * ·) hs
  simp only [Chebyshev.T_real_cos, Finset.mul_sum] at this
  refine Eq.trans (sum_Ico_congr fun j j0 j1 => ?_) (this.trans (sum_Ico_congr fun l l0 l1 => ?_))
  · obtain ⟨-, -, b1, b2⟩ := flat_pos (M := M) (by omega) k0 k1 i0 i1
    obtain ⟨-, -, b3, b4⟩ := flat_pos (M := M) (by omega) c0 c1 j0 j1
    unfold diskSeries
    rw [b1, b2, b3, b4, ho, mul_assoc, show (if ordPair c % 2 = 0 then 0 else 1 : Int) = ordPair c % 2 by split_ifs <;> omega]
    congr 1
    exact mul_comm _ _
  · unfold zernike diskFun
    dsimp only
    rw [ho]
    show _ * (_ * (2 ^ (1 / 2 * (α + β + 2)) * _)) = _
    show _ * (_ * (_ * ((√2 * _) ^ _ * _))) = _
    ring

/-! ## Disk in Cartesian coordinates -/

/-- The polynomial in row `l` of column `c`, orthonormal for `(1-x²-y²)^β` on the disk, where `x = cos θ` and `y = sin θ cos ψ`. -/
noncomputable def rectPoly (β : ℝ) (c l : Int) (θ ψ : ℝ) : ℝ :=
  Real.sin θ ^ c.toNat * (Jac realLibm true (c + β + 1 / 2) (c + β + 1 / 2) l).eval (Real.cos θ) * (Jac realLibm true β β c).eval (Real.cos ψ)

theorem undone_noWork {N M : Int} {f g : Buf ℝ → Option (Buf ℝ)} (h : Undone1 N M f g) (X W W' : Buf ℝ) (hX : (X.size : Int) = N * M) :
    ∃ X1 Y1 Y2, noWork f X W = some (X1, Y1) ∧ noWork g X1 W' = some (X, Y2) ∧ X1.size = X.size := by
  obtain ⟨X1, e1, e2, s⟩ := h X hX
  exact ⟨X1, W, W', by unfold noWork; rw [e1]; rfl, by unfold noWork; rw [e2]; rfl, s⟩

theorem C76_rectdisk (junk : Int → ℝ) {N : Int} (hN : 1 ≤ N) {β : ℝ} (hβ : -1 < β) : ∃ P, planRectdisk2cheb realLibm junk Real.pi N β = some P ∧ ∀ M, 1 ≤ M → M ≤ N →
    Evaluates (fun T : Nat => 0 < T) N M 0 (fun T => Rectdisk2cheb T false P N M) (fun T => Cheb2rectdisk T false P N M)
      (noWork (rectSynthesis 'N' (rectS N M) N M)) (noWork (rectAnalysis 'N' (rectA N M) N M)) (fun c => N - c) (fun c l i k => rectPoly β c l (grid N i) (grid M k)) := by
  obtain ⟨P, e, hP, h⟩ := C75_rectdisk (junk := junk) realLibm_ok real_duplication real_pi hN hβ
  obtain ⟨P', e', -, hi, hC, -, d1, -, ev⟩ := rect_plan (junk := junk) realLibm_ok real_pi hN hβ
  rw [e] at e'; cases e'
  refine ⟨P, e, fun M hM1 hM2 => evaluates_of (by omega) (by omega) (C11_rectdisk hP hi (by omega) hM2 false)
    (fun y A A' hy hA e => fwd_size (runRect_ok hP y hy true) (rectD_ok hP hi (by omega) hM2 false) hA e)
    (fun y A A' hy hA e => back_size (runRect_ok hP y hy false) (rectE_ok hP hi (by omega) hM2 false) hA e)
    (C57_rectdisk (by omega) (by omega))
    (fun X W W' hX _ _ => undone_noWork (C41_rectdisk (by omega) (by omega) ⟨(redft_pair (by omega)).1, (redft_pair (by omega)).2, (rodft_pair (by omega)).1, (rodft_pair (by omega)).2, (redft_pair (by omega)).1, (redft_pair (by omega)).2⟩).2.1 X W W' hX)
    fun y A A' hy hA hz e i k i0 i1 k0 k1 => ?_⟩
  have hs := ((h M (by omega) hM2 y hy A hA).1.2 A' e) hz ((Real.cos (grid N i), Real.sin (grid N i)), Real.cos (grid M k)) (on_circle _)
  have hl : ∀ c, 0 ≤ c → c < M → c % 2 = 1 → A'.val (N - 1 + c * N) = 0 := fun c c0 c1 hc => by
    obtain ⟨R, eR, v⟩ := (C54_rectdisk hP hi (by omega) hM2 y hy A hA).2 A' e
    rw [v _ c (by omega) (by omega) c0 c1]
    refine Finset.sum_eq_zero fun b hb => ?_
    have hb := Finset.mem_range.1 hb
    by_cases hp : (b : Int) % 2 = 0
    · unfold mat
      rw [ev c b c0 (by omega) (by omega) (by omega) (by omega)]; simp
    · have : byParity (fun c => c) N P.P0 P.P1 (fun i c => R.val (i + c * N)) (N - 1) b = 0 := by
        unfold byParity
        simp only [if_neg hp]
        refine last_zero _ (fun l => R.val (l + b * N)) ?_
        have := columnwise_short (c := b) (ord := fun c => c) (Or.inr (Or.inr (Or.inr rfl))) hP.tables hP.n (by omega) hC (fun m => by unfold parity; omega) hA eR (by omega) (by omega) (by unfold parity; omega)
          (by unfold parity; show (2 : Int) ∣ _; omega) (hz b (by omega) (by omega)) (N - 1) (by omega) (by unfold parity; omega) (by omega)
        rw [mul_one, add_comm] at this
        exact this
      rw [this, mul_zero]
  simp only [trig_real, Chebyshev.T_real_cos] at hs
  unfold expansion
  refine Eq.trans (sum_Ico_congr fun c c0 c1 => sum_Ico_congr fun j j0 j1 => ?_) (hs.trans (sum_Ico_congr fun c c0 c1 => sum_Ico_congr fun l l0 l1 => ?_))
  · obtain ⟨-, -, b1, b2⟩ := flat_pos (M := M) (by omega) k0 k1 i0 i1
    obtain ⟨-, -, b3, b4⟩ := flat_pos (M := M) (by omega) c0 c1 j0 j1
    unfold rectSeries
    rw [b1, b2, b3, b4, mul_assoc]
    unfold cosine
    split_ifs with hp
    · ring
    · rw [sine_last fun hj => by rw [hj]; exact hl c c0 c1 (by omega)]
      ring
  · unfold rectPoly rectFun
    dsimp only

/-! ## Triangle -/

/-- The polynomial in row `l` of column `c` on the triangle, in the collapsed coordinates `x = cos θ`, `y = cos ψ`. -/
noncomputable def triPoly (α β γ : ℝ) (c l : Int) (θ ψ : ℝ) : ℝ :=
  (1 - Real.cos θ) ^ c.toNat * (Jac realLibm true (2 * c + β + γ + 1) α l).eval (Real.cos θ) * (Jac realLibm true γ β c).eval (Real.cos ψ)

/-- For square arrays, see `C57_triangle_defect`. -/
theorem C76_triangle (junk : Int → ℝ) {N : Int} (hN : 1 ≤ N) {α β γ : ℝ} (hα : -1 < α) (hβ : -1 < β) (hγ : -1 < γ) : ∃ P, planTri2cheb realLibm junk N α β γ = some P ∧
    Evaluates (Choice.OK P.szB) N N 0 (fun y => Tri2cheb y false (triPar realLibm Real.pi α β γ) P N N) (fun y => Cheb2tri y false (triPar realLibm Real.pi α β γ) P N N)
      (noWork (triSynthesis 'N' (triS N N) N N)) (noWork (triAnalysis 'N' (triA N N) N N)) (fun c => N - c) (fun c l i k => triPoly α β γ c l (grid N i) (grid N k)) := by
  obtain ⟨P, e, hP, h⟩ := C75_triangle (junk := junk) realLibm_ok real_pi hN hα hβ hγ
  have hp : TriConst (triPar realLibm Real.pi α β γ) := by
    refine ⟨?_, ?_⟩
    · show √(1 / 2) * √2 = 1
      rw [← Real.sqrt_mul (by norm_num)]; norm_num
    · show 2 / Real.pi * (Real.pi / 2) = 1
      have := Real.pi_ne_zero
      field_simp
  refine ⟨P, e, evaluates_of (by omega) (by omega) (C11_tri hP (by omega) le_rfl _ hp false)
    (fun y A A' hy hA e => fwd_size (runTri_ok hP (by omega) le_rfl y hy true) (triD_ok hP (by omega) le_rfl _ false) hA e)
    (fun y A A' hy hA e => back_size (runTri_ok hP (by omega) le_rfl y hy false) (triE_ok hP (by omega) le_rfl _ false) hA e)
    (C57_triangle_partial (by omega))
    (fun X W W' hX _ _ => undone_noWork (C41_triangle (f := triS N N) (g := triA N N) (by omega) (by omega) (cos_pair (by omega)) (cos_pair (by omega))).2.1 X W W' hX)
    fun y A A' hy hA hz e i k i0 i1 k0 k1 => ?_⟩
  have hs := ((h N (by omega) le_rfl y hy A hA).1.2 A' e) hz (Real.cos (grid N i), Real.cos (grid N k)) trivial
  simp only [Chebyshev.T_real_cos] at hs
  unfold expansion
  refine Eq.trans (sum_Ico_congr fun c c0 c1 => sum_Ico_congr fun j j0 j1 => ?_) (hs.trans (sum_Ico_congr fun c c0 c1 => sum_Ico_congr fun l l0 l1 => ?_))
  · obtain ⟨-, -, b1, b2⟩ := flat_pos (M := N) (by omega) k0 k1 i0 i1
    obtain ⟨-, -, b3, b4⟩ := flat_pos (M := N) (by omega) c0 c1 j0 j1
    unfold triSeries
    rw [b1, b2, b3, b4]
    unfold cosine
    ring
  · unfold triPoly triFun
    dsimp only

/-! ## Instances -/

/-- Three threads, two rows, three columns: the coefficient in row 0 of the last column is `7`, so the values are those of `7 sin θ cos φ` up to the normalisation. -/
example (junk u : Int → ℝ) : ∃ P A' X W', planSph2fourier realLibm junk 2 = some P ∧ Sph2fourier (.dflt 3) false P 2 3 ⟨6, fun i => if i = 4 then 7 else 0⟩ A' ∧
    sphSynthesis 'N' consts (sphS 2 3) u 2 3 A' ⟨8, junk⟩ = some (X, W') ∧
    ∀ i k, 0 ≤ i → i < 2 → 0 ≤ k → k < 3 → X.val (i + k * 2) = 7 * (Real.sin (grid 2 i) * (Jac realLibm true 1 1 0).eval (Real.cos (grid 2 i)) * (Real.cos (circ 3 k) / √Real.pi)) := by
  obtain ⟨P, e, h⟩ := C76_sphere junk u u (N := 2) (by norm_num)
  obtain ⟨⟨A', eA⟩, v⟩ := (h 3 (by norm_num) (by norm_num) (by norm_num) (.dflt 3) (show 0 < 3 by norm_num) ⟨8, junk⟩ (by norm_num)).1 ⟨6, fun i => if i = 4 then 7 else 0⟩ (by norm_num)
    (fun c c0 c1 i i0 i1 i2 => if_neg (by unfold order at i1; dsimp only at i1; omega))
  obtain ⟨X, W', eX, -, vX⟩ := v A' eA
  refine ⟨P, A', X, W', e, eA, eX, fun i k i0 i1 k0 k1 => ?_⟩
  rw [vX i k i0 i1 k0 k1]
  unfold expansion
  rw [show Finset.Ico (0 : Int) 3 = {0, 1, 2} by decide, show Finset.Ico (0 : Int) 2 = {0, 1} by decide]
  simp only [sphHarmonic, fourier]
  norm_num [show order 2 = 1 from rfl]

example (junk u u' : Int → ℝ) := C76_sphere_vector junk u u' (N := 4) (by norm_num)
example (junk u u' : Int → ℝ) := C76_disk junk u u' (N := 4) (by norm_num) (α := 0) (β := -1 / 2) (by norm_num) (by norm_num)
example (junk : Int → ℝ) := C76_rectdisk junk (N := 4) (by norm_num) (β := -1 / 2) (by norm_num)
example (junk : Int → ℝ) := C76_triangle junk (N := 4) (by norm_num) (α := 0) (β := -1 / 2) (γ := 3) (by norm_num) (by norm_num) (by norm_num)

/-- The shape of an expansion on the disk of four rows: row 2 of column 3 (order 2) may be used, row 3 may not. -/
example : Shape 4 5 (fun c => 4 - (order c + 1) / 2) ⟨20, fun i => if i = 14 then 1 else 0⟩ :=
  fun c c0 c1 i i0 i1 i2 => if_neg (by unfold order at i1; dsimp only at i1; omega)

end FT.Props.Fun
