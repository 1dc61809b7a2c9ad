import Verif.Lemmas.HeapSpec
/-
C42: creating and destroying a plan or matrix frees each block allocated exactly once and never
touches freed memory (the claims are defined in Verif/Lemmas/HeapSpec.lean).
-/
set_option linter.unusedVariables false
namespace FT.Props.C42
open FT.Heap

/-! ### Matrices -/

/-- Sparse, banded and triangular banded matrices of every shape. -/
theorem C42_banded (m n l u b nnz : Int) (hn : 0 ≤ n) (hb : 0 ≤ b) (hlu : 0 ≤ l + u + 1)
    (hz : 0 ≤ nnz) :
    Balanced1 (callocBanded m n l u) destroyBanded ∧ Balanced1 (callocTB n b) destroyBanded ∧
      Balanced1 (mallocSparse m n nnz) destroySparse :=
  ⟨balanced1_of (fun _ _ _ S K => callocBanded_spec S (mul_nonneg hn hlu) K)
      fun _ _ h => destroyBanded_spec h,
    balanced1_of (makes_callocTB hn hb) fun _ _ h => destroyTB_spec h,
    balanced1_of (P := IsSparse) (fun _ _ _ S K => mallocSparse_spec S hz K)
      fun _ _ h => destroySparse_spec h⟩

/-- Hierarchical matrices whose tree has any shape, with dense, low-rank and hierarchical blocks
anywhere. -/
theorem C42_hierarchical (T : Nat) (b0 b1 b2 b3 : Blk) (h : Heap) (hw : h.WF) :
    Balanced (fun _ => sampleBlk T (.hier b0 b1 b2 b3)) destroyHier h := by
  obtain ⟨R, S⟩ := sat_of_wf hw
  refine balanced_of (P := IsBlk (.hier b0 b1 b2 b3)) S
    (fun p m hm => ⟨(Blk.hier b0 b1 b2 b3).depth, fun f hf =>
      destroyHier_spec _ p m f hm rfl hf⟩) fun Q K => ?_
  exact ⟨0, fun _ _ => sampleBlk_spec T _ R h Q S K⟩

/-! ### Divide-and-conquer factorisations -/

/-- `X(tb_eig_FMM)` for every size, bandwidth and all decisions taken by the numbers. -/
theorem C42_tb_eig_FMM (T : Nat) (sh : Int → Int → TbShape) (n b1 b2 : Int) (A B D : Val) (h : Heap)
    (hw : h.WF) (hn : 0 ≤ n) (h1 : 0 ≤ b1) (h2 : 0 ≤ b2) (hA : TBAt h n b1 A) (hB : TBAt h n b2 B)
    (hD : LiveP h D) :
    Balanced (fun fuel => tbEigFMM T sh fuel 0 A B D) destroyTbFMM h := by
  obtain ⟨R, S⟩ := sat_of_wf hw
  refine balanced_of (P := IsFmm n) S (fun p m hm => destroyTbFMM_spec hm) fun Q K => ?_
  exact wpf_const (n := n.toNat) fun k hk => tbEigFMM_spec T sh k n b1 b2 0 A B D R h Q hk hn h1 h2 S
    (hA.tbin S) (hB.tbin S) (hD.live S) K

/-- `X(tb_eig_ADI)` loses two blocks at every splitting: the arrays `X` and `Y` are never freed
(banded_source.c L1010-1081). -/
theorem C42_tb_eig_ADI_defect (T r J : Nat) (n b1 b2 : Int) (A B : Val) (h : Heap)
    (hw : h.WF) (hn : 128 ≤ n) (h1 : 0 ≤ b1) (h2 : 0 ≤ b2) (hA : TBAt h n b1 A)
    (hB : TBAt h n b2 B) :
    0 < splits n ∧
      Leaks (2 * splits n) (fun fuel => tbEigADI T r J fuel A B) destroyTbADI h := by
  constructor
  · rw [splits, if_neg (by omega)]; omega
  obtain ⟨R, S⟩ := sat_of_wf hw
  rw [← adiLeak_eq]
  refine leaks_of (P := IsAdi n) S (fun p m hm => destroyTbADI_spec hm) fun Q K => ?_
  exact wpf_const (n := n.toNat) fun k hk => tbEigADI_spec T r J k n b1 b2 A B R h Q hk
    (by omega) h1 h2 S (hA.tbin S) (hB.tbin S) K

/-! ### Connection plans -/

/-- `X(plan_legendre_to_chebyshev)`, `X(plan_chebyshev_to_legendre)`,
`X(plan_ultraspherical_to_ultraspherical)`, `X(plan_jacobi_to_jacobi)`,
`X(plan_laguerre_to_laguerre)` and the plans that scale them, for every size.  `fuel` is any depth
of recursion large enough for the constructors. -/
theorem C42_connection_plans (T : Nat) (sh2 sh : Int → Int → TbShape) (n : Int) (fuel : Nat)
    (s1 s2 : Bool) (h : Heap) (hw : h.WF) (hn : 0 ≤ n) (hf : n.toNat < fuel) :
    Balanced (fun fd => connPlan T sh2 sh fuel fd n (directTB n 2) (directTB n 2)) destroyTbFMM h ∧
    Balanced (fun fd => connPlan T sh2 sh fuel fd n (createAJacobi n) (createBJacobi n))
      destroyTbFMM h ∧
    Balanced (fun fd => connPlan T sh2 sh fuel fd n (directTB n 1) (createBLaguerre n))
      destroyTbFMM h ∧
    Balanced (fun fd => scaledPlan s1 n
      (connPlan T sh2 sh fuel fd n (createAJacobi n) (createBJacobi n))) destroyTbFMM h ∧
    Balanced (fun fd => scaledPlan s2 n (scaledPlan s1 n
      (connPlan T sh2 sh fuel fd n (createAJacobi n) (createBJacobi n)))) destroyTbFMM h := by
  obtain ⟨R, S⟩ := sat_of_wf hw
  have hd : ∀ p m, IsFmm n p m → DestroysF destroyTbFMM p m := fun p m hm => destroyTbFMM_spec hm
  have hJ := fun (R : Res) (h : Heap) (Q : Val → Heap → Prop) (S : Sat h R)
      (K : ∀ p h', Own (IsFmm n p) R h' → Q p h') =>
    connPlan_spec (T := T) (sh2 := sh2) (sh := sh) hf hn (by norm_num) (by norm_num)
      (makes_createAJacobi hn) (makes_createBJacobi hn) S K
  refine ⟨?_, ?_, ?_, ?_, ?_⟩
  · exact balanced_of (P := IsFmm n) S hd fun Q K => connPlan_spec hf hn (by norm_num)
      (by norm_num) (makes_directTB hn (by norm_num)) (makes_directTB hn (by norm_num)) S K
  · exact balanced_of (P := IsFmm n) S hd fun Q K => hJ _ _ _ S K
  · exact balanced_of (P := IsFmm n) S hd fun Q K => connPlan_spec hf hn (by norm_num)
      (by norm_num) (makes_directTB hn (by norm_num)) (makes_createBLaguerre hn) S K
  · exact balanced_of (P := IsFmm n) S hd fun Q K => scaledPlan_spec hn hJ S K
  · exact balanced_of (P := IsFmm n) S hd fun Q K => scaledPlan_spec hn
      (fun R h Q S K => scaledPlan_spec hn hJ S K) S K

/-- The dense connection plans of transforms.c, released with `free`. -/
theorem C42_dense_plans (n : Int) (s1 s2 : Bool) (hn : 0 ≤ n) :
    Balanced1 (denseDirect n) free ∧ Balanced1 (denseJacobi n) free ∧
      Balanced1 (denseLaguerre n) free ∧ Balanced1 (denseScaled s1 n) free ∧
      Balanced1 (denseScaled2 s1 s2 n) free :=
  ⟨balanced1_of (makes_denseDirect hn) fun _ _ h => freeVec_spec h,
    balanced1_of (makes_denseJacobi hn) fun _ _ h => freeVec_spec h,
    balanced1_of (makes_denseLaguerre hn) fun _ _ h => freeVec_spec h,
    balanced1_of (makes_denseScaled hn) fun _ _ h => freeVec_spec h,
    balanced1_of (makes_denseScaled2 hn) fun _ _ h => freeVec_spec h⟩

/-- `X(plan_associated_jacobi_to_jacobi)` and `X(plan_associated_laguerre_to_laguerre)`. -/
theorem C42_associated_plans (T : Nat) (sh2 sh : Int → Int → TbShape) (n : Int) (fuel : Nat)
    (h : Heap) (hw : h.WF) (hn : 0 ≤ n) (hf : (2 * n).toNat < fuel) :
    Balanced (fun fd => planAssocJacobi T sh2 sh fuel fd n) destroyBtb h ∧
      Balanced (fun fd => planAssocLaguerre T sh2 sh fuel fd n) destroyBtb h := by
  obtain ⟨R, S⟩ := sat_of_wf hw
  have hd : ∀ p m, IsBtb n p m → DestroysF destroyBtb p m := fun p m hm => destroyBtb_spec hm
  refine ⟨balanced_of (P := IsBtb n) S hd fun Q K => ?_,
    balanced_of (P := IsBtb n) S hd fun Q K => ?_⟩
  · exact assocPlan_spec hf hn (by norm_num) (by norm_num) (by norm_num) (makes_assocJacobiA hn)
      (makes_assocJacobiB hn) (makes_assocJacobiC hn) S K
  · exact assocPlan_spec hf hn (by norm_num) (by norm_num) (by norm_num) (makes_assocLaguerreA hn)
      (makes_assocLaguerreB hn) (makes_assocLaguerreC hn) S K

/-- `X(plan_associated_hermite_to_hermite)` loses the two blocks of the matrix `D2` of
`X(create_B_associated_hermite_to_hermite)` (banded_source.c L2837-2844), for every size. -/
theorem C42_associated_hermite_defect (T : Nat) (sh2 sh : Int → Int → TbShape) (n : Int)
    (fuel : Nat) (h : Heap) (hw : h.WF) (hn : 0 ≤ n) (hf : (2 * n).toNat < fuel) :
    Leaks 2 (fun fd => planAssocHermite T sh2 sh fuel fd n) destroyBtb h := by
  obtain ⟨R, S⟩ := sat_of_wf hw
  refine leaks_of (P := IsBtb n) S (fun p m hm => destroyBtb_spec hm) fun Q K => ?_
  exact assocPlan_leak hf hn (by norm_num) (by norm_num) (by norm_num) (makes_assocHermiteA hn)
    (fun R h Q S K => createBAssocHermite_spec hn S K) (makes_directTB hn le_rfl) S K

/-! ### Modified weights -/

/-- `X(plan_modified_*)` for polynomial and rational weights of every degree, and any number of
doublings of the dimension. -/
theorem C42_modified_plans (k : Nat) (n : Int) (nu nv : Nat) (hn : 0 ≤ n) (hu : 1 ≤ nu)
    (hv : 1 ≤ nv) :
    Balanced1 (planModifiedPoly operatorNormalizedClenshaw n nu 0) destroyModified ∧
      Balanced1 (planModifiedRat operatorNormalizedClenshaw k n nu nv) destroyModified :=
  ⟨balanced1_of (makes_planModifiedPoly isOp_clenshaw hn hu (by norm_num))
      fun _ _ h => destroyModified_spec h,
    balanced1_of (makes_planModifiedRat isOp_clenshaw hn hu hv)
      fun _ _ h => destroyModified_spec h⟩

/-! ### Rotations and harmonic plans -/

/-- The rotation plans. -/
theorem C42_rotation_plans (n s : Int) (N : Nat) (hn : 0 ≤ n) (hN : 1 ≤ N) :
    Balanced1 (planRotation (n * (n + 1) / 2) n) destroyRotation ∧
      Balanced1 (planRotation (n * n) n) destroyRotation ∧
      Balanced1 (planRotAnnulus N) destroyRotation ∧
      Balanced1 (planSpinRotation n s) destroySpinRotation :=
  ⟨balanced1_of (makes_planRotation (tri_nonneg hn)) fun _ _ h => destroyRotation_spec h,
    balanced1_of (makes_planRotation (mul_nonneg hn hn)) fun _ _ h => destroyRotation_spec h,
    balanced1_of (makes_planRotAnnulus hN) fun _ _ h => destroyRotation_spec h,
    balanced1_of (makes_planSpinRotation hn) fun _ _ h => destroySpinRotation_spec h⟩

/-- The harmonic plans of the sphere, triangle, disk, annulus, rectangularised disk, tetrahedron
and of spin-weighted functions. -/
theorem C42_harmonic_plans (n s : Int) (N : Nat) (hn : 0 ≤ n) (hN : 1 ≤ N) :
    Balanced1 (planSph2fourier n) destroyHarmonic ∧ Balanced1 (planTri2cheb n) destroyHarmonic ∧
      Balanced1 (planDisk2cxf n) destroyHarmonic ∧ Balanced1 (planAnn2cxf N) destroyHarmonic ∧
      Balanced1 (planRectdisk2cheb n) destroyHarmonic ∧
      Balanced1 (planTet2cheb n) destroyHarmonic ∧
      Balanced1 (planSpinsph2fourier n s) destroySpinHarmonic :=
  ⟨balanced1_of (makes_planSph2fourier hn) fun _ _ h => destroyHarmonic_spec h,
    balanced1_of (makes_planTri2cheb hn) fun _ _ h => destroyHarmonic_spec h,
    balanced1_of (makes_planDisk2cxf hn) fun _ _ h => destroyHarmonic_spec h,
    balanced1_of (makes_planAnn2cxf hN) fun _ _ h => destroyHarmonic_spec h,
    balanced1_of (makes_planRectdisk2cheb hn) fun _ _ h => destroyHarmonic_spec h,
    balanced1_of (makes_planTet2cheb hn) fun _ _ h => destroyHarmonic_spec h,
    balanced1_of (makes_planSpinsph2fourier hn) fun _ _ h => destroySpinHarmonic_spec h⟩

/-- The gradient and Helmholtz-Hodge plans of every size. -/
theorem C42_vector_plans (n : Nat) :
    Balanced1 (planGradient n) destroyGradient ∧ Balanced1 (planHodge n) destroyHodge :=
  ⟨balanced1_of makes_planGradient fun _ _ h => destroyGradient_spec h,
    balanced1_of makes_planHodge fun _ _ h => destroyHodge_spec h⟩

/-- The FFTW plans: blocks of `fftw_malloc` are released with `fftw_free`, plans with
`fftw_destroy_plan`, structures and weights with `free`. -/
theorem C42_fftw_plans (N k kz : Int) (hN : 0 ≤ N) (hk : 0 ≤ k) (hz : 0 ≤ kz) :
    Balanced1 (planFftw5 k kz) destroyFftw5 ∧ Balanced1 (planFftw1 k) destroyFftw1 ∧
      Balanced1 (planFftw3 k) destroyFftw3 ∧
      Balanced1 (planFftwAnnulus N k kz) destroyFftwAnnulus :=
  ⟨balanced1_of (makes_planFftw5 hk hz) fun _ _ h => destroyFftw5_spec h,
    balanced1_of (makes_planFftw1 hk) fun _ _ h => destroyFftw1_spec h,
    balanced1_of (makes_planFftw3 hk) fun _ _ h => destroyFftw3_spec h,
    balanced1_of (makes_planFftwAnnulus hN hk hz) fun _ _ h => destroyFftwAnnulus_spec h⟩

/-! ### Isometries -/

/-- The plan of one degree. -/
theorem C42_partial_isometry (l : Int) (h2 : 2 ≤ l) :
    Balanced1 (planPartialIsometry l) destroyPartialIsometry :=
  balanced1_of (makes_planPartialIsometry h2) fun _ _ h => destroyPartialIsometry_spec h

/-- `ft_destroy_sph_isometry_plan` never frees the array `F->F` (isometries.c L327-331): exactly one
block is lost for every `n ≥ 2`. -/
theorem C42_isometry_defect (n : Int) (h2 : 2 ≤ n) (h : Heap) (hw : h.WF) :
    Leaks 1 (fun _ => planIsometry n) (fun _ => destroyIsometry) h := by
  obtain ⟨R, S⟩ := sat_of_wf hw
  refine ⟨0, fun _ _ => ?_⟩
  refine planIsometry_spec (Q := fun p h1 => ∃ k', ∀ fuel' : Nat, k' ≤ fuel' → ∃ h2,
    destroyIsometry p h1 = some ((), h2) ∧
      ∃ S : Finset Nat, S.card = 1 ∧ (∀ i ∈ S, h.cell i = none ∧ h2.cell i ≠ none) ∧
        ∀ i, i ∉ S → h2.cell i = h.cell i) h2 S ?_
  intro p a ca h1 ⟨m, hm, S1⟩
  refine ⟨0, fun _ _ => ?_⟩
  obtain ⟨_, g, e, r⟩ := destroyIsometry_spec (Q := fun _ g => Sat g ({(a, ca)} + R)) hm S1
    fun _ S2 => S2
  exact ⟨g, e, leaked S r⟩

/-! ### Concrete cases -/

/-- A heap without live blocks. -/
def empty : Heap := ⟨0, fun _ => none⟩

/-- Number of live blocks. -/
def live (h : Heap) : Nat := ((List.range h.next).filter fun i => (h.cell i).isSome).length

/-- A heap with a triangular banded matrix of size 200 and bandwidth 2, and a vector. -/
def heap200 : Heap where
  next := 3
  cell
    | 0 => some ⟨.libc, 600, fun _ => .int 0⟩
    | 1 => some ⟨.libc, 0, fun
        | .fld .data => .ptr 0 0
        | .fld .n => .int 200
        | .fld .b => .int 2
        | _ => .junk⟩
    | 2 => some ⟨.libc, 200, fun _ => .int 0⟩
    | _ => none

-- The hypotheses hold for concrete heaps and pencils.
example : empty.WF := fun _ _ => rfl
example : heap200.WF ∧ TBAt heap200 200 2 (.ptr 1 0) ∧ LiveP heap200 (.ptr 2 0) :=
  ⟨fun i hi => match i, hi with
    | _ + 3, _ => rfl,
    ⟨1, _, 0, 0, _, rfl, rfl, rfl, rfl, rfl, rfl⟩, ⟨2, 0, ⟨.libc, 200, fun _ => .int 0⟩, rfl, rfl⟩⟩
example : splits 127 = 0 ∧ splits 200 = 1 ∧ splits 300 = 3 := by
  have h : ∀ n : Int, n < 128 → splits n = 0 := fun n hn => by rw [splits, if_pos hn]
  have h1 : ∀ n : Int, 128 ≤ n → n < 255 → splits n = 1 := fun n hn hm => by
    rw [splits, if_neg (by omega), h (n / 2) (by omega), h (n - n / 2) (by omega)]
  refine ⟨h _ (by norm_num), h1 _ (by norm_num) (by norm_num), ?_⟩
  rw [splits, if_neg (by norm_num), h1 _ (by norm_num) (by norm_num),
    h1 _ (by norm_num) (by norm_num)]

/-- A tree with dense, low-rank and nested hierarchical blocks. -/
def tree : Blk := .hier (.dense 2 2) (.low 2 2 1)
  (.hier (.dense 1 1) (.low 1 1 1) (.dense 1 1) (.dense 1 1)) (.dense 2 2)

-- Creation allocates, and what it allocates is released.
example : (planRotation 3 2 empty).map (fun r => live r.2) = some 3 := by decide +kernel
example : ((do destroyRotation (← planRotation 3 2) : HM Unit) empty).map (fun r => live r.2) =
    some 0 := by decide +kernel
example : (sampleBlk 1 tree empty).map (fun r => live r.2) = some 32 := by decide +kernel
example : ((do destroyHier 2 (← sampleBlk 1 tree) : HM Unit) empty).map (fun r => live r.2) =
    some 0 := by decide +kernel
example : ((do destroyIsometry (← planIsometry 2) : HM Unit) empty).map (fun r => live r.2) =
    some 1 := by decide +kernel

-- Freeing twice, freeing with the wrong function and using a freed block are undefined.
example : ((do let p ← malloc 1; free p; free p : HM Unit) empty).isNone := by decide +kernel
example : ((do let p ← fftwMalloc 1; free p : HM Unit) empty).isNone := by decide +kernel
example : ((do let p ← malloc 1; free p; use p : HM Unit) empty).isNone := by decide +kernel
-- Destroying a plan twice is undefined.
example : ((do let p ← planRotation 3 2; destroyRotation p; destroyRotation p : HM Unit)
    empty).isNone := by decide +kernel

end FT.Props.C42
