import Verif.Lemmas.Transforms

/-!
# Properties C11, C12, C39: the transforms between harmonic and Fourier / Chebyshev coefficients

The matrices of the plan enter only through "`Pinv` is the inverse of `P`" (they are built by the hierarchical connection problems, whose
exact inverses they are) and the rotation tables only through `s² + c² = 1` (C06).  `Choice` ranges over the implementations of the rotation
step: default or vectorised, any number of threads, any schedule; the two calls of a pair may use different ones.
-/

namespace FT.Props
open FT
variable {K : Type*} [CommRing K]

/-- The upper triangular matrices stored in `P`, `Q` (leading dimension `N`, order `N`) are inverse to each other. -/
def InversePair (N : Int) (P Q : Buf K) : Prop :=
  N * N ≤ P.size ∧ N * N ≤ Q.size ∧
  ∀ i j, 0 ≤ i → i < N → 0 ≤ j → j < N →
    ∑ k ∈ Finset.range N.toNat, (if i ≤ k then P.val (i + k * N) else 0) * (if (k : Int) ≤ j then Q.val (k + j * N) else 0) = if i = j then 1 else 0

/-- A plan as the planners build it: rotation tables of full length with `s² + c² = 1`, scratch space for `cols` columns. -/
structure PlanOK (G : Geom) (cols : Int) (N : Int) (P : HPlan K) : Prop where
  n : P.RP.n = N
  pos : 1 ≤ N
  tables : TablesOK G P.RP
  unit : UnitTables G P.RP
  scratch : N * cols ≤ P.szB
  inv0 : InversePair N P.P0 P.Q0
  inv1 : InversePair N P.P1 P.Q1

/-- `F` and `G` never go wrong on arrays with room for `N × M` entries, whatever the implementation `x`, and undo each other on the whole buffer. -/
def MutuallyInverse {X : Type*} (ok : X → Prop) (N M : Int) (F G : X → Buf K → Buf K → Prop) : Prop :=
  ∀ x y, ok x → ok y → ∀ A : Buf K, N * M ≤ A.size →
    (∃ A', F x A A') ∧ (∃ A', G x A A') ∧ (∀ A' A'', F x A A' → G y A' A'' → A'' = A) ∧ ∀ A' A'', G x A A' → F y A' A'' → A'' = A

/-- `⟨F a, b⟩ = ⟨a, F' b⟩` for the inner product `Σ a[i+jN] b[i+jN]`, `i < N`, `j < M`. -/
def AdjointPair {X : Type*} (ok : X → Prop) (N M : Int) (F F' : X → Buf K → Buf K → Prop) : Prop :=
  ∀ x y, ok x → ok y → ∀ A B : Buf K, N * M ≤ A.size → N * M ≤ B.size →
    (∃ A', F x A A') ∧ (∃ B', F' y B B') ∧ ∀ A' B', F x A A' → F' y B B' →
      ∑ c ∈ Finset.range M.toNat, ∑ k ∈ Finset.range N.toNat, A'.val (k + c * N) * B.val (k + c * N) =
      ∑ c ∈ Finset.range M.toNat, ∑ k ∈ Finset.range N.toNat, A.val (k + c * N) * B'.val (k + c * N)

/-! ## Glue -/

theorem InversePair.mulOne {N : Int} {P Q : Buf K} (h : InversePair N P Q) (t : Bool) : MulOne N (opU t P N) (opU t Q N) := by
  have h0 : MulOne N (upper P N) (upper Q N) := h.2.2
  cases t
  · exact h0
  · exact h0.comm.transpose

theorem InversePair.mulOneM {N M : Int} {P Q : Buf K} (h : InversePair N P Q) (hM : M ≤ N) (t : Bool) : MulOne M (opU t P N) (opU t Q N) := by
  have key : ∀ V W : Int → Int → K, (∀ i j, j < i → W i j = 0) → MulOne N V W → MulOne M V W := by
    intro V W hW h i j i0 i1 j0 j1
    rw [← h i j i0 (by omega) j0 (by omega)]
    unfold sumTo
    refine Finset.sum_subset (Finset.range_mono (by omega)) fun k _ hk => ?_
    rw [Finset.mem_range] at hk
    show V i k * W k j = 0
    rw [hW k j (by omega), mul_zero]
  have hu : ∀ (Q : Buf K) (i j : Int), j < i → upper Q N i j = 0 := fun Q i j h => if_neg (by omega)
  have h0 : MulOne N (upper P N) (upper Q N) := h.2.2
  cases t
  · exact key _ _ (hu Q) h0
  · exact (key _ _ (hu P) h0.comm).transpose

section
variable {X : Type*} {ok : X → Prop} {N M : Int} {R : X → Bool → Buf K → Buf K → Prop} {ρ : Bool → AOp K} {D E : Bool → Buf K → Option (Buf K)}
  {δ ε : Bool → AOp K}

theorem inverse_of (hR : ∀ x, ok x → ∀ d, StepOK N M (R x d) (ρ d)) (hρ : ∀ d, OpCongr N M (ρ d)) (hD : ∀ t, DenseOK N M (D t) (δ t))
    (hE : ∀ t, DenseOK N M (E t) (ε t)) (iρ : ∀ d, OpId N M fun x => ρ (!d) (ρ d x)) (i1 : ∀ t, OpId N M fun x => ε t (δ t x))
    (i2 : ∀ t, OpId N M fun x => δ t (ε t x)) (t : Bool) :
    MutuallyInverse ok N M
      (fun x A A' => if t then ∃ A1, D true A = some A1 ∧ R x false A1 A' else ∃ A1, R x true A A1 ∧ D false A1 = some A')
      (fun x A A' => if t then ∃ A1, R x true A A1 ∧ E true A1 = some A' else ∃ A1, E false A = some A1 ∧ R x false A1 A') := by
  intro x y hx hy A hA
  cases t
  · simp only [Bool.false_eq_true, if_false]
    have F := fun x hx => (hR x hx true).seq (hD false).1 (hD false).step
    have G := fun x hx => (hE false).step.seq (hρ false) (hR x hx false)
    refine ⟨(F x hx).total A hA, (G x hx).total A hA, fun A' A'' f g => ?_, fun A' A'' g f => ?_⟩
    · exact (F x hx).cancel ((hE false).1.comp (hρ false)) (G y hy) (OpId.sandwich (hρ false) (iρ true) (i1 false)) hA f g
    · exact (G x hx).cancel ((hρ true).comp (hD false).1) (F y hy) (OpId.sandwich (hD false).1 (i2 false) (iρ false)) hA g f
  · simp only [if_true]
    have F := fun x hx => (hD true).step.seq (hρ false) (hR x hx false)
    have G := fun x hx => (hR x hx true).seq (hE true).1 (hE true).step
    refine ⟨(F x hx).total A hA, (G x hx).total A hA, fun A' A'' f g => ?_, fun A' A'' g f => ?_⟩
    · exact (F x hx).cancel ((hρ true).comp (hE true).1) (G y hy) (OpId.sandwich (hE true).1 (i1 true) (iρ false)) hA f g
    · exact (G x hx).cancel ((hD true).1.comp (hρ false)) (F y hy) (OpId.sandwich (hρ false) (iρ true) (i2 true)) hA g f

theorem adjoint_of_steps {S T : X → Buf K → Buf K → Prop} {Φ Ψ : AOp K} (hS : ∀ x, ok x → StepOK N M (S x) Φ) (hT : ∀ x, ok x → StepOK N M (T x) Ψ)
    (h : OpAdj N M Φ Ψ) : AdjointPair ok N M S T := by
  intro x y hx hy A B hA hB
  refine ⟨(hS x hx).total A hA, (hT y hy).total B hB, fun A' B' f g => ?_⟩
  have a := (hS x hx).acts A A' hA f
  have b := (hT y hy).acts B B' hB g
  have := h (fun k c => A.val (k + c * N)) (fun k c => B.val (k + c * N))
  rw [← dot2_congr (fun k c k0 k1 c0 c1 => a.val k c k0 k1 c0 c1), ← dot2_congr' (fun k c k0 k1 c0 c1 => b.val k c k0 k1 c0 c1)] at this
  exact this

theorem adjoint_of (hR : ∀ x, ok x → ∀ d, StepOK N M (R x d) (ρ d)) (hρ : ∀ d, OpCongr N M (ρ d)) (hD : ∀ t, DenseOK N M (D t) (δ t))
    (hE : ∀ t, DenseOK N M (E t) (ε t)) (aρ : OpAdj N M (ρ true) (ρ false)) (a1 : OpAdj N M (δ false) (δ true)) (a2 : OpAdj N M (ε false) (ε true)) :
    AdjointPair ok N M
      (fun x A A' => if false then ∃ A1, D true A = some A1 ∧ R x false A1 A' else ∃ A1, R x true A A1 ∧ D false A1 = some A')
      (fun x A A' => if true then ∃ A1, D true A = some A1 ∧ R x false A1 A' else ∃ A1, R x true A A1 ∧ D false A1 = some A') ∧
    AdjointPair ok N M
      (fun x A A' => if false then ∃ A1, R x true A A1 ∧ E true A1 = some A' else ∃ A1, E false A = some A1 ∧ R x false A1 A')
      (fun x A A' => if true then ∃ A1, R x true A A1 ∧ E true A1 = some A' else ∃ A1, E false A = some A1 ∧ R x false A1 A') := by
  simp only [Bool.false_eq_true, if_false, if_true]
  constructor
  · exact adjoint_of_steps (fun x hx => (hR x hx true).seq (hD false).1 (hD false).step) (fun x hx => (hD true).step.seq (hρ false) (hR x hx false))
      (aρ.comp a1)
  · exact adjoint_of_steps (fun x hx => (hE false).step.seq (hρ false) (hR x hx false)) (fun x hx => (hR x hx true).seq (hE true).1 (hE true).step)
      (a2.comp aρ.symm)

end

theorem stepOK_of_columnwise {N M : Int} {G : Geom} {RP : RotPlan K} {base ord : Int → Int} {d : Bool} {R : Buf K → Buf K → Prop} (hn : RP.n = N) (hN : 0 ≤ N)
    (hg : IsGeom G) (hR : TablesOK G RP) (hb : ∀ m, 0 ≤ base m)
    (h : ∀ A : Buf K, HoldsCols RP.n 0 M A → (∃ A', R A A') ∧ ∀ A', R A A' → columnwise d G RP base ord 0 M A = some A') :
    StepOK N M R (rotOp d G RP base ord) := by
  subst hn
  constructor
  · intro A hA; exact (h A ⟨hN, le_refl _, by omega⟩).1
  · intro A A' hA r
    have hh : HoldsCols RP.n 0 M A := ⟨hN, le_refl _, by omega⟩
    exact columnwise_acts hg hR hb hh ((h A hh).2 A' r)

theorem par_columnwise {T : Nat} {P : Nat → Prog K Unit} {A : Buf K} {S : Option (Buf K)} (h : ∃ A', ParEnds T P A A' ∧ S = some A') :
    (∃ A', ParEnds T P A A') ∧ ∀ A', ParEnds T P A A' → S = some A' := by
  obtain ⟨A', p, e⟩ := h
  exact ⟨⟨A', p⟩, fun B q => by rw [e, p.unique q]⟩

theorem simd_columnwise {Q : Buf K → Buf K → Prop} {S : Option (Buf K)} (h : (∃ A' B', Q A' B' ∧ S = some A') ∧ ∀ A' B', Q A' B' → S = some A') :
    (∃ A', ∃ B', Q A' B') ∧ ∀ A', (∃ B', Q A' B') → S = some A' := by
  obtain ⟨⟨A', B', p, -⟩, h2⟩ := h
  exact ⟨⟨A', B', p⟩, fun A'' ⟨B'', q⟩ => h2 A'' B'' q⟩

theorem parity_nonneg (m : Int) : 0 ≤ parity m := by unfold parity; omega
theorem parity_dvd (m : Int) : (2 : Int) ∣ m - parity m := ⟨m / 2, by unfold parity; omega⟩

theorem holds_scratch {N M cols : Int} {B : Buf K} {sz : Nat} (hN : 0 ≤ N) (hB : B.size = sz) (h : N * cols ≤ sz) (hM : M ≤ cols) : HoldsCols N 0 M B := by
  refine ⟨hN, le_refl _, ?_⟩
  have : N * M ≤ N * cols := Int.mul_le_mul_of_nonneg_left hM hN
  rw [hB]; omega

section
variable {N M : Int} {P : HPlan K}

theorem runSph_ok (hP : PlanOK geomSph (2 * N - 1) N P) (hM : M % 2 = 1) (hM1 : 1 ≤ M) (hM2 : M ≤ 2 * N - 1) (x : Choice K) (hx : x.OK P.szB) (d : Bool) :
    StepOK N M (RunSph x d P.RP M) (rotOp d geomSph P.RP parity ordPair) := by
  have hn := hP.n
  have hN := hP.pos
  refine stepOK_of_columnwise hn (by omega) (Or.inl rfl) hP.tables parity_nonneg fun A hA => ?_
  cases x with
  | dflt T => exact par_columnwise (C09_sph_default d P.RP 0 M hx A hA hP.tables hM)
  | simd isa T L e junk B =>
    exact simd_columnwise (C09_sph_simd d isa P.RP 0 M hx.1 L hx.2.1 _ e rfl junk A B hA
      (holds_scratch (by omega) hx.2.2 (by rw [hn]; exact hP.scratch) hM2) hP.tables hM hM1 (fun _ => by omega))

theorem runSphv_ok (hP : PlanOK geomSph (2 * N - 1) N P) (hM : M % 2 = 1) (hM1 : 3 ≤ M) (hM2 : M ≤ 2 * N - 1) (x : Choice K) (hx : x.OK P.szB) (d : Bool) :
    StepOK N M (RunSphv x d P.RP M) (rotOp d geomSph P.RP parity ordPairV) := by
  have hn := hP.n
  have hN := hP.pos
  refine stepOK_of_columnwise hn (by omega) (Or.inl rfl) hP.tables parity_nonneg fun A hA => ?_
  cases x with
  | dflt T => exact par_columnwise (C09_sphv_default d P.RP 0 M hx A hA hP.tables hM)
  | simd isa T L e junk B =>
    exact simd_columnwise (C09_sphv_simd d isa P.RP 0 M hx.1 L hx.2.1 _ e rfl junk A B hA
      (holds_scratch (by omega) hx.2.2 (by rw [hn]; exact hP.scratch) hM2) hP.tables hM hM1 (fun _ => by omega))

theorem runDisk_ok (hP : PlanOK geomDisk (4 * N - 3) N P) (hM : M % 2 = 1) (hM1 : 1 ≤ M) (hM2 : M ≤ 4 * N - 3) (x : Choice K) (hx : x.OK P.szB) (d : Bool) :
    StepOK N M (RunDisk x d P.RP M) (rotOp d geomDisk P.RP parity ordPair) := by
  have hn := hP.n
  have hN := hP.pos
  refine stepOK_of_columnwise hn (by omega) (Or.inr (Or.inr (Or.inl rfl))) hP.tables parity_nonneg fun A hA => ?_
  cases x with
  | dflt T => exact par_columnwise (C09_disk_default d P.RP 0 M hx A hA hP.tables hM)
  | simd isa T L e junk B =>
    exact simd_columnwise (C09_disk_simd d isa P.RP 0 M hx.1 L hx.2.1 _ e rfl junk A B hA
      (holds_scratch (by omega) hx.2.2 (by rw [hn]; exact hP.scratch) hM2) hP.tables hM hM1 (fun _ => by omega))

theorem runTri_ok (hP : PlanOK geomTri N N P) (hM1 : 0 ≤ M) (hM2 : M ≤ N) (x : Choice K) (hx : x.OK P.szB) (d : Bool) :
    StepOK N M (RunTri x d P.RP M) (rotOp d geomTri P.RP (fun _ => 0) fun c => c) := by
  have hn := hP.n
  have hN := hP.pos
  refine stepOK_of_columnwise hn (by omega) (Or.inr (Or.inl rfl)) hP.tables (fun _ => le_refl _) fun A hA => ?_
  cases x with
  | dflt T => exact par_columnwise (C09_tri_default d P.RP 0 M hx A hA hP.tables)
  | simd isa T L e junk B =>
    exact simd_columnwise (C09_tri_simd d P.RP 0 M hx.1 L hx.2.1 _ e rfl junk A B hA
      (holds_scratch (by omega) hx.2.2 (by rw [hn]; exact hP.scratch) hM2) hP.tables hM1 (fun _ => by omega))

theorem runRect_ok (hP : PlanOK geomRect N N P) (T : Nat) (hT : 0 < T) (d : Bool) :
    StepOK N M (RunRect T d P.RP M) (rotOp d geomRect P.RP parity fun c => c) := by
  have hn := hP.n
  have hN := hP.pos
  refine stepOK_of_columnwise hn (by omega) (Or.inr (Or.inr (Or.inr rfl))) hP.tables parity_nonneg fun A hA => ?_
  exact par_columnwise (C09_rectdisk_default d P.RP 0 M hT A hA hP.tables)

theorem trmm4_ok {P0 P1 : Buf K} {t : Bool} (hN : 0 ≤ N) (hM : 0 ≤ M) (h0 : N * N ≤ P0.size) (h1 : N * N ≤ P1.size) :
    DenseOK N M (trmm4 t P0 P1 N M) (colOp (matF (sel4 (opU t P0 N) (opU t P1 N)) N)) :=
  ⟨colOp_congr (matF_congr _), fun _ hA => trmm4_acts hN hM h0 h1 hA⟩

theorem sel4_mulOne {U V U' V' : Int → Int → K} (h : MulOne N U U') (h' : MulOne N V V') (c : Int) : MulOne N (sel4 U V c) (sel4 U' V' c) := by
  unfold sel4; split_ifs <;> assumption

theorem sel2_mulOne {U V U' V' : Int → Int → K} (h : MulOne N U U') (h' : MulOne N V V') (c : Int) : MulOne N (sel2 U V c) (sel2 U' V' c) := by
  unfold sel2; split_ifs <;> assumption

theorem sel4_transpose (P0 P1 : Buf K) (c i j : Int) : sel4 (opU true P0 N) (opU true P1 N) c i j = sel4 (opU false P0 N) (opU false P1 N) c j i := by
  unfold sel4; split_ifs <;> rfl

theorem sel2_transpose (P0 P1 : Buf K) (c i j : Int) : sel2 (opU true P0 N) (opU true P1 N) c i j = sel2 (opU false P0 N) (opU false P1 N) c j i := by
  unfold sel2; split_ifs <;> rfl

/-! ## C11, C12 on the sphere -/

/-- C11, sphere: `ft_execute_sph2fourier` and `ft_execute_fourier2sph` undo each other, with `TRANS` `'N'` (`t = false`) and `'T'` (`t = true`),
for every odd `M ≤ 2N-1`. -/
theorem C11_sph (hP : PlanOK geomSph (2 * N - 1) N P) (hM : M % 2 = 1) (hM1 : 1 ≤ M) (hM2 : M ≤ 2 * N - 1) (t : Bool) :
    MutuallyInverse (Choice.OK P.szB) N M (fun x => Sph2fourier x t P N M) (fun x => Fourier2sph x t P N M) := by
  have hN := hP.pos
  have hn := hP.n
  have q0 := hP.inv0
  have q1 := hP.inv1
  exact inverse_of (D := fun t => trmm4 t P.P0 P.P1 N M) (E := fun t => trmm4 t P.Q0 P.Q1 N M) (runSph_ok hP hM hM1 hM2)
    (fun d => hn ▸ rotOp_congr (Or.inl rfl) hP.tables parity_nonneg) (fun t => trmm4_ok (by omega) (by omega) q0.1 q1.1)
    (fun t => trmm4_ok (by omega) (by omega) q0.2.1 q1.2.1) (fun d => hn ▸ rotOp_id (Or.inl rfl) hP.tables hP.unit (by omega) parity_nonneg parity_dvd d)
    (fun t => matOp_id fun c _ _ => sel4_mulOne (q0.mulOne t).comm (q1.mulOne t).comm c)
    (fun t => matOp_id fun c _ _ => sel4_mulOne (q0.mulOne t) (q1.mulOne t) c) t

/-- C12, sphere: `TRANS == 'T'` computes the transpose of `TRANS == 'N'`, for both directions. -/
theorem C12_sph (hP : PlanOK geomSph (2 * N - 1) N P) (hM : M % 2 = 1) (hM1 : 1 ≤ M) (hM2 : M ≤ 2 * N - 1) :
    AdjointPair (Choice.OK P.szB) N M (fun x => Sph2fourier x false P N M) (fun x => Sph2fourier x true P N M) ∧
    AdjointPair (Choice.OK P.szB) N M (fun x => Fourier2sph x false P N M) (fun x => Fourier2sph x true P N M) := by
  have hN := hP.pos
  have hn := hP.n
  have q0 := hP.inv0
  have q1 := hP.inv1
  exact adjoint_of (D := fun t => trmm4 t P.P0 P.P1 N M) (E := fun t => trmm4 t P.Q0 P.Q1 N M) (runSph_ok hP hM hM1 hM2)
    (fun d => hn ▸ rotOp_congr (Or.inl rfl) hP.tables parity_nonneg) (fun t => trmm4_ok (by omega) (by omega) q0.1 q1.1)
    (fun t => trmm4_ok (by omega) (by omega) q0.2.1 q1.2.1) (hn ▸ rotOp_adj (Or.inl rfl) hP.tables hP.unit (by omega) parity_nonneg parity_dvd)
    (matOp_adj fun c i j => sel4_transpose ..) (matOp_adj fun c i j => sel4_transpose ..)

/-- C11, vector fields on the sphere. -/
theorem C11_sphv (hP : PlanOK geomSph (2 * N - 1) N P) (hM : M % 2 = 1) (hM1 : 3 ≤ M) (hM2 : M ≤ 2 * N - 1) (t : Bool) :
    MutuallyInverse (Choice.OK P.szB) N M (fun x => Sphv2fourier x t P N M) (fun x => Fourier2sphv x t P N M) := by
  have hN := hP.pos
  have hn := hP.n
  have q0 := hP.inv0
  have q1 := hP.inv1
  exact inverse_of (D := fun t => trmm4 t P.P1 P.P0 N M) (E := fun t => trmm4 t P.Q1 P.Q0 N M) (runSphv_ok hP hM hM1 hM2)
    (fun d => hn ▸ rotOp_congr (Or.inl rfl) hP.tables parity_nonneg) (fun t => trmm4_ok (by omega) (by omega) q1.1 q0.1)
    (fun t => trmm4_ok (by omega) (by omega) q1.2.1 q0.2.1) (fun d => hn ▸ rotOp_id (Or.inl rfl) hP.tables hP.unit (by omega) parity_nonneg parity_dvd d)
    (fun t => matOp_id fun c _ _ => sel4_mulOne (q1.mulOne t).comm (q0.mulOne t).comm c)
    (fun t => matOp_id fun c _ _ => sel4_mulOne (q1.mulOne t) (q0.mulOne t) c) t

/-- C12, vector fields on the sphere. -/
theorem C12_sphv (hP : PlanOK geomSph (2 * N - 1) N P) (hM : M % 2 = 1) (hM1 : 3 ≤ M) (hM2 : M ≤ 2 * N - 1) :
    AdjointPair (Choice.OK P.szB) N M (fun x => Sphv2fourier x false P N M) (fun x => Sphv2fourier x true P N M) ∧
    AdjointPair (Choice.OK P.szB) N M (fun x => Fourier2sphv x false P N M) (fun x => Fourier2sphv x true P N M) := by
  have hN := hP.pos
  have hn := hP.n
  have q0 := hP.inv0
  have q1 := hP.inv1
  exact adjoint_of (D := fun t => trmm4 t P.P1 P.P0 N M) (E := fun t => trmm4 t P.Q1 P.Q0 N M) (runSphv_ok hP hM hM1 hM2)
    (fun d => hn ▸ rotOp_congr (Or.inl rfl) hP.tables parity_nonneg) (fun t => trmm4_ok (by omega) (by omega) q1.1 q0.1)
    (fun t => trmm4_ok (by omega) (by omega) q1.2.1 q0.2.1) (hn ▸ rotOp_adj (Or.inl rfl) hP.tables hP.unit (by omega) parity_nonneg parity_dvd)
    (matOp_adj fun c i j => sel4_transpose ..) (matOp_adj fun c i j => sel4_transpose ..)

/-! ## Disk -/

/-- C11, disk: every odd `M ≤ 4N-3`. -/
theorem C11_disk (hP : PlanOK geomDisk (4 * N - 3) N P) (hM : M % 2 = 1) (hM1 : 1 ≤ M) (hM2 : M ≤ 4 * N - 3) (t : Bool) :
    MutuallyInverse (Choice.OK P.szB) N M (fun x => Disk2cxf x t P N M) (fun x => Cxf2disk x t P N M) := by
  have hN := hP.pos
  have hn := hP.n
  have q0 := hP.inv0
  have q1 := hP.inv1
  have hg : IsGeom geomDisk := Or.inr (Or.inr (Or.inl rfl))
  exact inverse_of (D := fun t => trmm4 t P.P0 P.P1 N M) (E := fun t => trmm4 t P.Q0 P.Q1 N M) (runDisk_ok hP hM hM1 hM2)
    (fun d => hn ▸ rotOp_congr hg hP.tables parity_nonneg) (fun t => trmm4_ok (by omega) (by omega) q0.1 q1.1)
    (fun t => trmm4_ok (by omega) (by omega) q0.2.1 q1.2.1) (fun d => hn ▸ rotOp_id hg hP.tables hP.unit (by omega) parity_nonneg parity_dvd d)
    (fun t => matOp_id fun c _ _ => sel4_mulOne (q0.mulOne t).comm (q1.mulOne t).comm c)
    (fun t => matOp_id fun c _ _ => sel4_mulOne (q0.mulOne t) (q1.mulOne t) c) t

/-- C12, disk. -/
theorem C12_disk (hP : PlanOK geomDisk (4 * N - 3) N P) (hM : M % 2 = 1) (hM1 : 1 ≤ M) (hM2 : M ≤ 4 * N - 3) :
    AdjointPair (Choice.OK P.szB) N M (fun x => Disk2cxf x false P N M) (fun x => Disk2cxf x true P N M) ∧
    AdjointPair (Choice.OK P.szB) N M (fun x => Cxf2disk x false P N M) (fun x => Cxf2disk x true P N M) := by
  have hN := hP.pos
  have hn := hP.n
  have q0 := hP.inv0
  have q1 := hP.inv1
  have hg : IsGeom geomDisk := Or.inr (Or.inr (Or.inl rfl))
  exact adjoint_of (D := fun t => trmm4 t P.P0 P.P1 N M) (E := fun t => trmm4 t P.Q0 P.Q1 N M) (runDisk_ok hP hM hM1 hM2)
    (fun d => hn ▸ rotOp_congr hg hP.tables parity_nonneg) (fun t => trmm4_ok (by omega) (by omega) q0.1 q1.1)
    (fun t => trmm4_ok (by omega) (by omega) q0.2.1 q1.2.1) (hn ▸ rotOp_adj hg hP.tables hP.unit (by omega) parity_nonneg parity_dvd)
    (matOp_adj fun c i j => sel4_transpose ..) (matOp_adj fun c i j => sel4_transpose ..)

/-! ## Triangle -/

/-- The constants used by the Chebyshev normalisation are reciprocal: `√½·√2 = 1`, `2/π·π/2 = 1`. -/
def TriConst (p : TriPar K) : Prop := p.s12 * p.s2 = 1 ∧ p.ip * p.pi2 = 1

open Classical in
/-- A conversion that is skipped when the parameters make it the identity. -/
noncomputable def maybeOp (c : Prop) (Φ : AOp K) : AOp K := if c then Φ else fun x => x

open Classical in
theorem maybe_ok {c : Prop} {f : Buf K → Option (Buf K)} {Φ : AOp K} (h : DenseOK N M f Φ) : DenseOK N M (fun A => if c then f A else some A) (maybeOp c Φ) := by
  by_cases hc : c
  · simp only [hc, if_true, maybeOp]; exact h
  · simp only [hc, if_false, maybeOp]
    exact ⟨fun _ _ h => h, fun A _ => ⟨A, rfl, Acts.refl fun _ _ _ _ _ _ _ => rfl⟩⟩

theorem maybe_id {c : Prop} {Φ Ψ : AOp K} (h : OpId N M fun x => Ψ (Φ x)) : OpId N M fun x => maybeOp c Ψ (maybeOp c Φ x) := by
  by_cases hc : c
  · simpa only [hc, if_true, maybeOp] using h
  · simp only [hc, if_false, maybeOp]; exact fun _ _ _ _ _ _ _ => rfl

theorem maybe_adj {c : Prop} {Φ Ψ : AOp K} (h : OpAdj N M Φ Ψ) : OpAdj N M (maybeOp c Φ) (maybeOp c Ψ) := by
  by_cases hc : c
  · simpa only [hc, if_true, maybeOp] using h
  · simp only [hc, if_false, maybeOp]; exact fun _ _ => rfl

theorem left_ok {P : Buf K} {t : Bool} (hN : 0 ≤ N) (h : N * N ≤ P.size) : DenseOK N M (trmmLeft t P N N M 0 N) (colOp (matF (fun _ => opU t P N) N)) :=
  ⟨colOp_congr (matF_congr _), fun _ hA => trmm1_acts hN h hA⟩

theorem right_ok {P : Buf K} {t : Bool} (hM : M ≤ N) (h : N * N ≤ P.size) : DenseOK N M (trmmRight t P N N M 0 N) (rightOp (opU t P N) M) :=
  ⟨rightOp_congr _, fun _ hA => trmmRight_acts hM h hA⟩

theorem norm_ok {h w : K} (hN : 1 ≤ N) (hM : 1 ≤ M) : DenseOK N M (chebNorm2 h w N M) (diagOp (wt2 h w)) :=
  ⟨diagOp_congr _, fun _ hA => chebNorm2_acts hN hM hA⟩

noncomputable def triD (p : TriPar K) (P : HPlan K) (N M : Int) (t : Bool) : AOp K :=
  if t then fun x => maybeOp p.left (colOp (matF (fun _ => opU true P.P0 N) N)) (maybeOp p.right (rightOp (opU false P.P1 N) M) (diagOp (wt2 p.s12 p.ip) x))
  else fun x => diagOp (wt2 p.s12 p.ip) (maybeOp p.right (rightOp (opU true P.P1 N) M) (maybeOp p.left (colOp (matF (fun _ => opU false P.P0 N) N)) x))

noncomputable def triE (p : TriPar K) (P : HPlan K) (N M : Int) (t : Bool) : AOp K :=
  if t then fun x => diagOp (wt2 p.s2 p.pi2) (maybeOp p.right (rightOp (opU false P.Q1 N) M) (maybeOp p.left (colOp (matF (fun _ => opU true P.Q0 N) N)) x))
  else fun x => maybeOp p.left (colOp (matF (fun _ => opU false P.Q0 N) N)) (maybeOp p.right (rightOp (opU true P.Q1 N) M) (diagOp (wt2 p.s2 p.pi2) x))

theorem triD_ok (hP : PlanOK geomTri N N P) (hM1 : 1 ≤ M) (hM2 : M ≤ N) (p : TriPar K) (t : Bool) :
    DenseOK N M (tri2chebDense t p P N M) (triD p P N M t) := by
  have hN := hP.pos
  cases t
  · exact (maybe_ok (left_ok (by omega) hP.inv0.1)).bind ((maybe_ok (right_ok hM2 hP.inv1.1)).bind (norm_ok hN hM1))
  · exact (norm_ok hN hM1).bind ((maybe_ok (right_ok hM2 hP.inv1.1)).bind (maybe_ok (left_ok (by omega) hP.inv0.1)))

theorem triE_ok (hP : PlanOK geomTri N N P) (hM1 : 1 ≤ M) (hM2 : M ≤ N) (p : TriPar K) (t : Bool) :
    DenseOK N M (cheb2triDense t p P N M) (triE p P N M t) := by
  have hN := hP.pos
  cases t
  · exact (norm_ok hN hM1).bind ((maybe_ok (right_ok hM2 hP.inv1.2.1)).bind (maybe_ok (left_ok (by omega) hP.inv0.2.1)))
  · exact (maybe_ok (left_ok (by omega) hP.inv0.2.1)).bind ((maybe_ok (right_ok hM2 hP.inv1.2.1)).bind (norm_ok hN hM1))

/-- Undo three steps. -/
theorem sandwich3 {Φ1 Φ2 Φ3 Ψ1 Ψ2 Ψ3 : AOp K} (c1 : OpCongr N M Ψ1) (c2 : OpCongr N M Ψ2) (h1 : OpId N M fun x => Ψ1 (Φ1 x)) (h2 : OpId N M fun x => Ψ2 (Φ2 x))
    (h3 : OpId N M fun x => Ψ3 (Φ3 x)) : OpId N M fun x => Ψ1 (Ψ2 (Ψ3 (Φ3 (Φ2 (Φ1 x))))) :=
  OpId.sandwich (Φ := Φ1) (Ψ := Ψ1) c1 h1 (OpId.sandwich (Φ := Φ2) (Ψ := Ψ2) c2 h2 h3)

theorem tri_ids (hP : PlanOK geomTri N N P) (hM1 : 1 ≤ M) (hM2 : M ≤ N) (p : TriPar K) (hp : TriConst p) (t : Bool) :
    (OpId N M fun x => triE p P N M t (triD p P N M t x)) ∧ OpId N M fun x => triD p P N M t (triE p P N M t x) := by
  have hN := hP.pos
  have hw := wt2_inv hp.1 hp.2
  have hw' := wt2_inv ((mul_comm _ _).trans hp.1) ((mul_comm _ _).trans hp.2)
  have q0 := hP.inv0
  have q1 := hP.inv1
  have l1 := fun t => maybe_id (c := p.left) (matOp_id (M := M) fun c _ _ => (q0.mulOne t).comm)
  have l2 := fun t => maybe_id (c := p.left) (matOp_id (M := M) fun c _ _ => (q0.mulOne t))
  have r1 := fun t => maybe_id (c := p.right) (rightOp_id (N := N) (q1.mulOneM hM2 t))
  have r2 := fun t => maybe_id (c := p.right) (rightOp_id (N := N) (q1.mulOneM hM2 t).comm)
  have cl := fun (Q : Buf K) (h : N * N ≤ Q.size) t => (maybe_ok (c := p.left) (left_ok (M := M) (t := t) (by omega) h)).1
  have cr := fun (Q : Buf K) (h : N * N ≤ Q.size) t => (maybe_ok (c := p.right) (right_ok (N := N) (t := t) hM2 h)).1
  cases t
  · exact ⟨sandwich3 (cl _ q0.2.1 _) (cr _ q1.2.1 _) (l1 _) (r1 _) (diagOp_id hw), sandwich3 (diagOp_congr _) (cr _ q1.1 _) (diagOp_id hw') (r2 _) (l2 _)⟩
  · exact ⟨sandwich3 (diagOp_congr _) (cr _ q1.2.1 _) (diagOp_id hw) (r1 _) (l1 _), sandwich3 (cl _ q0.1 _) (cr _ q1.1 _) (l2 _) (r2 _) (diagOp_id hw')⟩

/-- C11, triangle: `1 ≤ M ≤ N`, all parameters `α, β, γ` (including those for which conversions are skipped). -/
theorem C11_tri (hP : PlanOK geomTri N N P) (hM1 : 1 ≤ M) (hM2 : M ≤ N) (p : TriPar K) (hp : TriConst p) (t : Bool) :
    MutuallyInverse (Choice.OK P.szB) N M (fun x => Tri2cheb x t p P N M) (fun x => Cheb2tri x t p P N M) := by
  have hN := hP.pos
  have hn := hP.n
  have hg : IsGeom geomTri := Or.inr (Or.inl rfl)
  exact inverse_of (D := fun t => tri2chebDense t p P N M) (E := fun t => cheb2triDense t p P N M) (runTri_ok hP (by omega) hM2)
    (fun d => hn ▸ rotOp_congr hg hP.tables fun _ => le_refl _) (triD_ok hP hM1 hM2 p) (triE_ok hP hM1 hM2 p)
    (fun d => hn ▸ rotOp_id hg hP.tables hP.unit (by omega) (fun _ => le_refl _) (fun m => Int.one_dvd _) d)
    (fun t => (tri_ids hP hM1 hM2 p hp t).1) (fun t => (tri_ids hP hM1 hM2 p hp t).2) t

/-- C12, triangle. -/
theorem C12_tri (hP : PlanOK geomTri N N P) (hM1 : 1 ≤ M) (hM2 : M ≤ N) (p : TriPar K) :
    AdjointPair (Choice.OK P.szB) N M (fun x => Tri2cheb x false p P N M) (fun x => Tri2cheb x true p P N M) ∧
    AdjointPair (Choice.OK P.szB) N M (fun x => Cheb2tri x false p P N M) (fun x => Cheb2tri x true p P N M) := by
  have hN := hP.pos
  have hn := hP.n
  have hg : IsGeom geomTri := Or.inr (Or.inl rfl)
  refine adjoint_of (D := fun t => tri2chebDense t p P N M) (E := fun t => cheb2triDense t p P N M) (runTri_ok hP (by omega) hM2)
    (fun d => hn ▸ rotOp_congr hg hP.tables fun _ => le_refl _) (triD_ok hP hM1 hM2 p) (triE_ok hP hM1 hM2 p)
    (hn ▸ rotOp_adj hg hP.tables hP.unit (by omega) (fun _ => le_refl _) (fun m => Int.one_dvd _)) ?_ ?_
  · exact ((maybe_adj (matOp_adj fun _ _ _ => rfl)).comp (maybe_adj (rightOp_adj fun _ _ => rfl))).comp (diagOp_adj _)
  · exact ((diagOp_adj _).comp (maybe_adj (rightOp_adj fun _ _ => rfl))).comp (maybe_adj (matOp_adj fun _ _ _ => rfl))

/-! ## Rectangularised disk -/

theorem left2_ok {P0 P1 : Buf K} {t : Bool} (hN : 0 ≤ N) (hM : 0 ≤ M) (h0 : N * N ≤ P0.size) (h1 : N * N ≤ P1.size) :
    DenseOK N M (fun A => (trmmLeft t P0 N N ((M + 1) / 2) 0 (2 * N) A).bind fun A => trmmLeft t P1 N N (M / 2) N (2 * N) A)
      (colOp (matF (sel2 (opU t P0 N) (opU t P1 N)) N)) := by
  refine ⟨colOp_congr (matF_congr _), fun A hA => ?_⟩
  obtain ⟨B0, B, e0, e1, a⟩ := trmm2_acts (t := t) hN hM h0 h1 hA
  exact ⟨B, by simp only [e0, e1, Option.bind_some], a⟩

def rectD (t : Bool) (P0 P1 P2 : Buf K) (N M : Int) : AOp K :=
  if t then fun x => colOp (matF (sel2 (opU true P0 N) (opU true P1 N)) N) (rightOp (opU false P2 N) M x)
  else fun x => rightOp (opU true P2 N) M (colOp (matF (sel2 (opU false P0 N) (opU false P1 N)) N) x)

def rectE (t : Bool) (P0 P1 P2 : Buf K) (N M : Int) : AOp K :=
  if t then fun x => rightOp (opU false P2 N) M (colOp (matF (sel2 (opU true P0 N) (opU true P1 N)) N) x)
  else fun x => colOp (matF (sel2 (opU false P0 N) (opU false P1 N)) N) (rightOp (opU true P2 N) M x)

theorem rectD_ok (hP : PlanOK geomRect N N P) (hi : InversePair N P.P2 P.Q2) (hM0 : 0 ≤ M) (hM2 : M ≤ N) (t : Bool) :
    DenseOK N M (rect2chebDense t P N M) (rectD t P.P0 P.P1 P.P2 N M) := by
  have hN := hP.pos
  cases t
  · have := (left2_ok (t := false) (by omega) hM0 hP.inv0.1 hP.inv1.1).bind (right_ok (t := true) hM2 hi.1)
    simp only [Option.bind_assoc] at this
    exact this
  · exact (right_ok (t := false) hM2 hi.1).bind (left2_ok (t := true) (by omega) hM0 hP.inv0.1 hP.inv1.1)

theorem rectE_ok (hP : PlanOK geomRect N N P) (hi : InversePair N P.P2 P.Q2) (hM0 : 0 ≤ M) (hM2 : M ≤ N) (t : Bool) :
    DenseOK N M (cheb2rectDense t P N M) (rectE t P.Q0 P.Q1 P.Q2 N M) := by
  have hN := hP.pos
  cases t
  · exact (right_ok (t := true) hM2 hi.2.1).bind (left2_ok (t := false) (by omega) hM0 hP.inv0.2.1 hP.inv1.2.1)
  · have := (left2_ok (t := true) (by omega) hM0 hP.inv0.2.1 hP.inv1.2.1).bind (right_ok (t := false) hM2 hi.2.1)
    simp only [Option.bind_assoc] at this
    exact this

theorem rect_ids (hP : PlanOK geomRect N N P) (hi : InversePair N P.P2 P.Q2) (hM2 : M ≤ N) (t : Bool) :
    (OpId N M fun x => rectE t P.Q0 P.Q1 P.Q2 N M (rectD t P.P0 P.P1 P.P2 N M x)) ∧ OpId N M fun x => rectD t P.P0 P.P1 P.P2 N M (rectE t P.Q0 P.Q1 P.Q2 N M x) := by
  have q0 := hP.inv0
  have q1 := hP.inv1
  have l1 := fun t => matOp_id (M := M) fun c _ _ => sel2_mulOne (q0.mulOne t).comm (q1.mulOne t).comm c
  have l2 := fun t => matOp_id (M := M) fun c _ _ => sel2_mulOne (q0.mulOne t) (q1.mulOne t) c
  have r1 := fun t => rightOp_id (N := N) (hi.mulOneM hM2 t)
  have r2 := fun t => rightOp_id (N := N) (hi.mulOneM hM2 t).comm
  have cl := fun W => colOp_congr (M := M) (matF_congr (K := K) (N := N) W)
  have cr := fun W => rightOp_congr (K := K) (N := N) (M := M) W
  cases t
  · simp only [rectD, rectE, Bool.false_eq_true, if_false]
    exact ⟨OpId.sandwich (cl _) (l1 false) (r1 true), OpId.sandwich (cr _) (r2 true) (l2 false)⟩
  · simp only [rectD, rectE, if_true]
    exact ⟨OpId.sandwich (cr _) (r1 false) (l1 true), OpId.sandwich (cl _) (l2 true) (r2 false)⟩

/-- C11, rectangularised disk: `0 ≤ M ≤ N`. -/
theorem C11_rectdisk (hP : PlanOK geomRect N N P) (hi : InversePair N P.P2 P.Q2) (hM1 : 0 ≤ M) (hM2 : M ≤ N) (t : Bool) :
    MutuallyInverse (fun T : Nat => 0 < T) N M (fun T => Rectdisk2cheb T t P N M) (fun T => Cheb2rectdisk T t P N M) := by
  have hN := hP.pos
  have hn := hP.n
  have hg : IsGeom geomRect := Or.inr (Or.inr (Or.inr rfl))
  exact inverse_of (D := fun t => rect2chebDense t P N M) (E := fun t => cheb2rectDense t P N M) (runRect_ok hP)
    (fun d => hn ▸ rotOp_congr hg hP.tables parity_nonneg) (rectD_ok hP hi hM1 hM2) (rectE_ok hP hi hM1 hM2)
    (fun d => hn ▸ rotOp_id hg hP.tables hP.unit (by omega) parity_nonneg parity_dvd d)
    (fun t => (rect_ids hP hi hM2 t).1) (fun t => (rect_ids hP hi hM2 t).2) t

/-- C12, rectangularised disk. -/
theorem C12_rectdisk (hP : PlanOK geomRect N N P) (hi : InversePair N P.P2 P.Q2) (hM1 : 0 ≤ M) (hM2 : M ≤ N) :
    AdjointPair (fun T : Nat => 0 < T) N M (fun T => Rectdisk2cheb T false P N M) (fun T => Rectdisk2cheb T true P N M) ∧
    AdjointPair (fun T : Nat => 0 < T) N M (fun T => Cheb2rectdisk T false P N M) (fun T => Cheb2rectdisk T true P N M) := by
  have hN := hP.pos
  have hn := hP.n
  have hg : IsGeom geomRect := Or.inr (Or.inr (Or.inr rfl))
  refine adjoint_of (D := fun t => rect2chebDense t P N M) (E := fun t => cheb2rectDense t P N M) (runRect_ok hP)
    (fun d => hn ▸ rotOp_congr hg hP.tables parity_nonneg) (rectD_ok hP hi hM1 hM2) (rectE_ok hP hi hM1 hM2)
    (hn ▸ rotOp_adj hg hP.tables hP.unit (by omega) parity_nonneg parity_dvd) ?_ ?_ <;> simp only [rectD, rectE, Bool.false_eq_true, if_false, if_true]
  · exact (matOp_adj fun c i j => sel2_transpose ..).comp (rightOp_adj fun _ _ => rfl)
  · exact (rightOp_adj fun _ _ => rfl).comp (matOp_adj fun c i j => sel2_transpose ..)

end

/-! ## Concrete plans satisfying the hypotheses -/

/-- `P = [[1, 2], [0, 1]]` and its inverse, quarter turns as rotations, `N = 2`. -/
def planEx : HPlan ℤ :=
  ⟨quarterTurn 2 10, 10, Buf.ofList [1, 7, 2, 1], Buf.ofList [-1, 0, 0, 1], Buf.ofList [1, 0, 1, 1], Buf.ofList [1, 0, -2, 1],
    Buf.ofList [-1, 5, 0, 1], Buf.ofList [1, 0, -1, 1]⟩

theorem inversePair_two {P Q : Buf K} (hp : P.size = 4) (hq : Q.size = 4) (h0 : P.val 0 * Q.val 0 = 1) (h1 : P.val 3 * Q.val 3 = 1)
    (h2 : P.val 0 * Q.val 2 + P.val 2 * Q.val 3 = 0) : InversePair 2 P Q := by
  refine ⟨by omega, by omega, fun i j i0 i1 j0 j1 => ?_⟩
  have : i = 0 ∨ i = 1 := by omega
  have : j = 0 ∨ j = 1 := by omega
  rw [show (2 : Int).toNat = 2 from rfl, Finset.sum_range_succ, Finset.sum_range_one]
  rcases ‹i = 0 ∨ i = 1› with rfl | rfl <;> rcases ‹j = 0 ∨ j = 1› with rfl | rfl <;> simp [h0, h1, h2]

theorem planEx_ok {G : Geom} {cols : Int} (hn : tableSize G 2 ≤ 10) (hc : cols ≤ 5) : PlanOK G cols 2 planEx := by
  refine ⟨rfl, by omega, ⟨hn, hn⟩, ?_, ?_, inversePair_two rfl rfl rfl rfl rfl, inversePair_two rfl rfl rfl rfl rfl⟩
  · intro m k
    intros
    rfl
  · show 2 * cols ≤ ((10 : Nat) : Int); omega

example : PlanOK geomSph (2 * 2 - 1) 2 planEx := planEx_ok (by decide) (by decide)
example : PlanOK geomDisk (4 * 2 - 3) 2 planEx := planEx_ok (by decide) (by decide)
example : PlanOK geomTri 2 2 planEx := planEx_ok (by decide) (by decide)
example : PlanOK geomRect 2 2 planEx ∧ InversePair 2 planEx.P2 planEx.Q2 := ⟨planEx_ok (by decide) (by decide), inversePair_two rfl rfl rfl rfl rfl⟩
example : TriConst (⟨3, 4, 5, 0, -1, -1, 1, 1⟩ : TriPar ℤ) := ⟨rfl, rfl⟩
/-- The transform of a concrete array through 3 threads exists and is undone. -/
example : ∃ A', Sph2fourier (.dflt 3) false planEx 2 3 (Buf.ofList [1, 2, 3, 4, 5, 6]) A' ∧
    ∀ A'', Fourier2sph (.dflt 1) false planEx 2 3 A' A'' → A'' = Buf.ofList [1, 2, 3, 4, 5, 6] := by
  obtain ⟨⟨A', h⟩, -, h2, -⟩ := C11_sph (P := planEx) (N := 2) (M := 3) (planEx_ok (by decide) (by decide)) (by decide) (by decide) (by decide) false (.dflt 3) (.dflt 1)
    (by show 0 < 3; omega) (by show 0 < 1; omega) (Buf.ofList [1, 2, 3, 4, 5, 6]) (by decide)
  exact ⟨A', h, fun A'' g => h2 A' A'' h g⟩

end FT.Props
