import Verif.Lemmas.TbEigScale
import Verif.Lemmas.TbEigAlloc
import Verif.Props.Hier

/-!
# Divide-and-conquer eigenvector factorisations

C22: products and solves with factorisations of any depth.  C25: the scratch space they use.
-/

namespace FT.Props.TbEig
open FT FT.Model FT.Prog FT.Props.Hier
set_option linter.unusedSectionVars false
variable {K : Type*}

/-! ## C22: products, solves, scalings -/

section Apply
variable [CommRing K] [DecidableEq K]

/-- `bfmv` multiplies by the matrix of the factorisation or its transpose, and touches nothing but the vector and the scratch space of the
calling thread. -/
theorem C22_apply {BS : Int} {tr : Char} (htr : tr = 'N' ∨ tr = 'T') {t : Int} {F : TbEig K} (hS : ESized BS F) {x : Ptr} {M : Buf K} (hx : x.Ok F.n M.size) (hO : EScrOk t M.size F)
    (hd : ∀ j, 0 ≤ j → j < F.n → ¬ EScr t F (x.at j)) :
    ∃ M', (bfmvP BS tr t F x).run M = some ((), M') ∧ M'.size = M.size ∧
      (∀ i, 0 ≤ i → i < F.n → M'.val (x.at i) = ∑ j ∈ Finset.Ico 0 F.n, (if tr = 'N' then mat F i j else mat F j i) * M.val (x.at j)) ∧
      ∀ a, ¬ x.In F.n a → ¬ EScr t F a → M'.val a = M.val a := bfmvP_run htr hS hx hO hd

/-- The transposed product is the adjoint of the product: `⟨y, V x⟩ = ⟨Vᵀ y, x⟩`. -/
theorem C22_adjoint {BS : Int} {t u : Int} {F : TbEig K} (hS : ESized BS F) {x y : Ptr} {M L : Buf K} (hx : x.Ok F.n M.size) (hy : y.Ok F.n L.size) (hO : EScrOk t M.size F) (hO' : EScrOk u L.size F)
    (hd : ∀ j, 0 ≤ j → j < F.n → ¬ EScr t F (x.at j)) (hd' : ∀ j, 0 ≤ j → j < F.n → ¬ EScr u F (y.at j)) :
    ∃ M' L', (bfmvP BS 'N' t F x).run M = some ((), M') ∧ (bfmvP BS 'T' u F y).run L = some ((), L') ∧
      ∑ i ∈ Finset.Ico 0 F.n, L.val (y.at i) * M'.val (x.at i) = ∑ i ∈ Finset.Ico 0 F.n, L'.val (y.at i) * M.val (x.at i) := by
  obtain ⟨M', e, -, v, -⟩ := bfmvP_run (tr := 'N') (Or.inl rfl) hS hx hO hd
  obtain ⟨L', e', -, v', -⟩ := bfmvP_run (tr := 'T') (Or.inr rfl) hS hy hO' hd'
  refine ⟨M', L', e, e', ?_⟩
  have h1 : ∑ i ∈ Finset.Ico 0 F.n, L.val (y.at i) * M'.val (x.at i) = ∑ i ∈ Finset.Ico 0 F.n, ∑ j ∈ Finset.Ico 0 F.n, L.val (y.at i) * (mat F i j * M.val (x.at j)) :=
    sum_Ico_congr fun i i0 i1 => by rw [v i i0 i1, Finset.mul_sum]; rfl
  have h2 : ∑ i ∈ Finset.Ico 0 F.n, L'.val (y.at i) * M.val (x.at i) = ∑ i ∈ Finset.Ico 0 F.n, ∑ j ∈ Finset.Ico 0 F.n, mat F j i * L.val (y.at j) * M.val (x.at i) :=
    sum_Ico_congr fun i i0 i1 => by rw [v' i i0 i1, Finset.sum_mul]; rfl
  rw [h1, h2, Finset.sum_comm]
  exact Finset.sum_congr rfl fun i _ => Finset.sum_congr rfl fun j _ => by ring

/-- `bfmm` multiplies every column, whatever team of at most `p` threads shares the columns and however the threads interleave, if the scratch
arrays were allocated for `p` threads. -/
theorem C22_columns_apply {BS : Int} {tr : Char} (htr : tr = 'N' ∨ tr = 'T') {F : TbEig K} (hS : ESized BS F) {p : Int} {T : Nat} (hT : T ≤ p) {M : Buf K} (hA : Allocd p M.size (eArrs F)) {B : Ptr}
    {LDB N : Int} (hLD : F.n ≤ LDB) (hB : ∀ j, 0 ≤ j → j < N → (B.add (j * LDB)).Ok F.n M.size) (hap : ∀ q ∈ eArrs F, Apart B q.1) {owner : Int → Nat} (hown : ∀ j, 0 ≤ j → j < N → owner j < T) :
    ParPost T (bfmmP BS tr F B LDB N owner) M fun M' => M'.size = M.size ∧
      (∀ j, 0 ≤ j → j < N → ∀ i, 0 ≤ i → i < F.n → M'.val ((B.add (j * LDB)).at i) = ∑ k ∈ Finset.Ico 0 F.n, (if tr = 'N' then mat F i k else mat F k i) * M.val ((B.add (j * LDB)).at k)) ∧
      ∀ a, (∀ j, 0 ≤ j → j < N → ¬ (B.add (j * LDB)).In F.n a) → (∀ q ∈ eArrs F, ¬ (q.1.base ≤ a ∧ a < q.1.base + q.1.size)) → M'.val a = M.val a := by
  have hd : ∀ t : Nat, t < T → ∀ j i, 0 ≤ j → j < N → 0 ≤ i → i < F.n → ¬ EScr t F ((B.add (j * LDB)).at i) := fun t ht j i j0 j1 i0 i1 =>
    not_scr hA (by omega) (by omega) (hB j j0 j1) (fun q hq => hap q hq) i0 i1
  refine ParPost.mono (cols_par (S := fun t => EScr t F) (n := F.n) (Rel := fun u v => ∀ i, 0 ≤ i → i < F.n → v i = ∑ k ∈ Finset.Ico 0 F.n, opm tr F i k * u k)
    ?_ hLD hown hd ?_ ?_ ?_) ?_
  · intro u v u' v' h hu hv i i0 i1
    rw [← hv i i0 i1, h i i0 i1]
    exact sum_Ico_congr fun k k0 k1 => by rw [hu k k0 k1]
  · intro t u ht hu htu a h h'
    exact slice_priv hA (by omega : 0 ≤ (t : Int)) (by omega) (by omega : 0 ≤ (u : Int)) (by omega) (by omega) (eScr_slice h) (eScr_slice h')
  · intro t ht j j0 j1 A hs
    obtain ⟨A', e, s, v, o⟩ := bfmvP_run htr (t := t) hS (x := B.add (j * LDB)) (M := A) (by rw [hs]; exact hB j j0 j1) (by rw [hs]; exact eScrOk_alloc (by omega) (by omega) hS hA)
      (fun i i0 i1 => hd t ht j i j0 j1 i0 i1)
    exact ⟨A', e, s, v, o⟩
  · intro t ht j j0 j1 R h1 h2
    exact bfmvP_acc hS (fun i i0 i1 => ⟨h1 i i0 i1, h1 i i0 i1⟩) (fun a h => ⟨h2 a h, h2 a h⟩)
  · intro M' ⟨s, v, o⟩
    refine ⟨s, v, fun a h1 h2 => o a h1 fun t ht h => ?_⟩
    obtain ⟨q, hq, h⟩ := eScr_slice h
    exact h2 q hq (slice_in hA (by omega) (by omega) hq h)

end Apply

section Solve
variable [Field K] [DecidableEq K]

/-- `bfsv` solves the linear system with the matrix of the factorisation or its transpose. -/
theorem C22_solve {BS : Int} {tr : Char} (htr : tr = 'N' ∨ tr = 'T') {t : Int} {F : TbEig K} (hS : ESized BS F) (hr : Regular F) {x : Ptr} {M : Buf K} (hx : x.Ok F.n M.size) (hO : EScrOk t M.size F)
    (hd : ∀ j, 0 ≤ j → j < F.n → ¬ EScr t F (x.at j)) :
    ∃ M', (bfsvP BS tr t F x).run M = some ((), M') ∧ M'.size = M.size ∧
      (∀ i, 0 ≤ i → i < F.n → ∑ j ∈ Finset.Ico 0 F.n, (if tr = 'N' then mat F i j else mat F j i) * M'.val (x.at j) = M.val (x.at i)) ∧
      ∀ a, ¬ x.In F.n a → ¬ EScr t F a → M'.val a = M.val a := by
  obtain ⟨M', z, e, ⟨s, v, o⟩, h⟩ := bfsvP_run htr hS hr hx hO hd
  refine ⟨M', e, s, fun i i0 i1 => ?_, o⟩
  rw [← h i i0 i1]
  exact sum_Ico_congr fun j j0 j1 => by rw [v j j0 j1]; rfl

/-- Solving undoes multiplying. -/
theorem C22_solve_apply {BS : Int} {tr : Char} (htr : tr = 'N' ∨ tr = 'T') {t : Int} {F : TbEig K} (hS : ESized BS F) (hr : Regular F) {x : Ptr} {M : Buf K} (hx : x.Ok F.n M.size)
    (hO : EScrOk t M.size F) (hd : ∀ j, 0 ≤ j → j < F.n → ¬ EScr t F (x.at j)) :
    ∃ M', ((bfmvP BS tr t F x).bind fun _ => bfsvP BS tr t F x).run M = some ((), M') ∧ M'.size = M.size ∧ (∀ i, 0 ≤ i → i < F.n → M'.val (x.at i) = M.val (x.at i)) ∧
      ∀ a, ¬ EScr t F a → M'.val a = M.val a := by
  obtain ⟨M1, e1, s1, v1, o1⟩ := bfmvP_run htr hS hx hO hd
  obtain ⟨M2, e2, s2, v2, o2⟩ := C22_solve htr hS hr (M := M1) (by rw [s1]; exact hx) (by rw [s1]; exact hO) hd
  have key : ∀ i, 0 ≤ i → i < F.n → M2.val (x.at i) = M.val (x.at i) :=
    mat_inj htr hS hr (z := fun i => M2.val (x.at i)) (w := fun i => M.val (x.at i)) fun i i0 i1 => (v2 i i0 i1).trans (v1 i i0 i1)
  refine ⟨M2, by rw [run_bind, e1]; exact e2, s2.trans s1, key, fun a ha => ?_⟩
  by_cases h : x.In F.n a
  · obtain ⟨i, i0, i1, e⟩ := Ptr.in_iff.1 h
    rw [e]; exact key i i0 i1
  · rw [o2 a h ha, o1 a h ha]

/-- Multiplying undoes solving. -/
theorem C22_apply_solve {BS : Int} {tr : Char} (htr : tr = 'N' ∨ tr = 'T') {t : Int} {F : TbEig K} (hS : ESized BS F) (hr : Regular F) {x : Ptr} {M : Buf K} (hx : x.Ok F.n M.size)
    (hO : EScrOk t M.size F) (hd : ∀ j, 0 ≤ j → j < F.n → ¬ EScr t F (x.at j)) :
    ∃ M', ((bfsvP BS tr t F x).bind fun _ => bfmvP BS tr t F x).run M = some ((), M') ∧ M'.size = M.size ∧ (∀ i, 0 ≤ i → i < F.n → M'.val (x.at i) = M.val (x.at i)) ∧
      ∀ a, ¬ EScr t F a → M'.val a = M.val a := by
  obtain ⟨M1, e1, s1, v1, o1⟩ := C22_solve htr hS hr hx hO hd
  obtain ⟨M2, e2, s2, v2, o2⟩ := bfmvP_run htr hS (M := M1) (by rw [s1]; exact hx) (by rw [s1]; exact hO) hd
  have key : ∀ i, 0 ≤ i → i < F.n → M2.val (x.at i) = M.val (x.at i) := fun i i0 i1 => (v2 i i0 i1).trans (v1 i i0 i1)
  refine ⟨M2, by rw [run_bind, e1]; exact e2, s2.trans s1, key, fun a ha => ?_⟩
  by_cases h : x.In F.n a
  · obtain ⟨i, i0, i1, e⟩ := Ptr.in_iff.1 h
    rw [e]; exact key i i0 i1
  · rw [o2 a h ha, o1 a h ha]

/-- `bfsm` solves for every column, whatever team of at most `p` threads shares the columns and however the threads interleave. -/
theorem C22_columns_solve {BS : Int} {tr : Char} (htr : tr = 'N' ∨ tr = 'T') {F : TbEig K} (hS : ESized BS F) (hr : Regular F) {p : Int} {T : Nat} (hT : T ≤ p) {M : Buf K}
    (hA : Allocd p M.size (eArrs F)) {B : Ptr} {LDB N : Int} (hLD : F.n ≤ LDB) (hB : ∀ j, 0 ≤ j → j < N → (B.add (j * LDB)).Ok F.n M.size) (hap : ∀ q ∈ eArrs F, Apart B q.1) {owner : Int → Nat}
    (hown : ∀ j, 0 ≤ j → j < N → owner j < T) :
    ParPost T (bfsmP BS tr F B LDB N owner) M fun M' => M'.size = M.size ∧
      (∀ j, 0 ≤ j → j < N → ∀ i, 0 ≤ i → i < F.n → ∑ k ∈ Finset.Ico 0 F.n, (if tr = 'N' then mat F i k else mat F k i) * M'.val ((B.add (j * LDB)).at k) = M.val ((B.add (j * LDB)).at i)) ∧
      ∀ a, (∀ j, 0 ≤ j → j < N → ¬ (B.add (j * LDB)).In F.n a) → (∀ q ∈ eArrs F, ¬ (q.1.base ≤ a ∧ a < q.1.base + q.1.size)) → M'.val a = M.val a := by
  have hd : ∀ t : Nat, t < T → ∀ j i, 0 ≤ j → j < N → 0 ≤ i → i < F.n → ¬ EScr t F ((B.add (j * LDB)).at i) := fun t ht j i j0 j1 i0 i1 =>
    not_scr hA (by omega) (by omega) (hB j j0 j1) (fun q hq => hap q hq) i0 i1
  refine ParPost.mono (cols_par (S := fun t => EScr t F) (n := F.n) (Rel := fun u v => ∀ i, 0 ≤ i → i < F.n → ∑ k ∈ Finset.Ico 0 F.n, (if tr = 'N' then mat F i k else mat F k i) * v k = u i)
    ?_ hLD hown hd ?_ ?_ ?_) ?_
  · intro u v u' v' h hu hv i i0 i1
    rw [← hu i i0 i1, ← h i i0 i1]
    exact sum_Ico_congr fun k k0 k1 => by rw [hv k k0 k1]
  · intro t u ht hu htu a h h'
    exact slice_priv hA (by omega : 0 ≤ (t : Int)) (by omega) (by omega : 0 ≤ (u : Int)) (by omega) (by omega) (eScr_slice h) (eScr_slice h')
  · intro t ht j j0 j1 A hs
    exact C22_solve htr (t := t) hS hr (x := B.add (j * LDB)) (M := A) (by rw [hs]; exact hB j j0 j1) (by rw [hs]; exact eScrOk_alloc (by omega) (by omega) hS hA)
      (fun i i0 i1 => hd t ht j i j0 j1 i0 i1)
  · intro t ht j j0 j1 R h1 h2
    exact bfsvP_acc hS (fun i i0 i1 => ⟨h1 i i0 i1, h1 i i0 i1⟩) (fun a h => ⟨h2 a h, h2 a h⟩)
  · intro M' ⟨s, v, o⟩
    refine ⟨s, v, fun a h1 h2 => o a h1 fun t ht h => ?_⟩
    obtain ⟨q, hq, h⟩ := eScr_slice h
    exact h2 q hq (slice_in hA (by omega) (by omega) hq h)

/-- Scaling the rows multiplies row `i` of the matrix by `alpha * x_i` and leaves sizes and scratch space as they are. -/
theorem C22_scale_rows {BS : Int} (alpha : K) {x : Buf K} {F : TbEig K} (hS : ESized BS F) (hx : F.n ≤ x.size) :
    ∃ F', scaleRowsTb BS alpha x F 0 = some F' ∧ F'.n = F.n ∧ ESized BS F' ∧ (∀ t, EScr t F' = EScr t F) ∧ (∀ t s, EScrOk t s F' = EScrOk t s F) ∧
      ∀ i j, 0 ≤ i → i < F.n → 0 ≤ j → j < F.n → mat F' i j = alpha * x.val i * mat F i j := by
  obtain ⟨F', e, h⟩ := scaleRowsTb_run alpha x hS (d := 0) (le_refl _) (by omega)
  refine ⟨F', e, h.n, h.sized, h.scr, h.scrOk, fun i j i0 i1 j0 j1 => ?_⟩
  rw [h.mat i j i0 i1 j0 j1, Int.zero_add]

/-- Scaling the columns multiplies column `j` of the matrix by `alpha * x_j`, if no scale is zero and there is no sparse part.  Missing for the
full claim: factorisations with a sparse part, of which it is false. -/
theorem C22_scale_columns_partial {BS : Int} (alpha : K) {x : Buf K} {F : TbEig K} (hS : ESized BS F) (hn : NoSparse F) (hx : F.n ≤ x.size) (h0 : ∀ i, 0 ≤ i → i < F.n → x.val i ≠ 0) :
    ∃ F', scaleColsTb BS alpha x F 0 = some F' ∧ F'.n = F.n ∧ ESized BS F' ∧ (∀ t, EScr t F' = EScr t F) ∧ (∀ t s, EScrOk t s F' = EScrOk t s F) ∧
      ∀ i j, 0 ≤ i → i < F.n → 0 ≤ j → j < F.n → mat F' i j = alpha * x.val j * mat F i j := by
  obtain ⟨F', e, h⟩ := scaleColsTb_run alpha x hS hn (d := 0) (le_refl _) (by omega) (fun i i0 i1 => by rw [Int.zero_add]; exact h0 i i0 i1)
  refine ⟨F', e, h.n, h.sized, h.scr, h.scrOk, fun i j i0 i1 j0 j1 => ?_⟩
  rw [h.mat i j i0 i1 j0 j1, Int.zero_add]

end Solve

/-! ## Column scaling forgets the sparse part -/

/-- A coupling of halves by the single sparse entry `(0, 0)`. -/
def sparseC (n : Int) : Fmm ℚ :=
  ⟨0, .dense ⟨n / 2, n - n / 2, ⟨(n / 2 * (n - n / 2)).toNat, fun _ => 0⟩⟩, ⟨0, fun _ => 0⟩, ⟨0, fun _ => 0⟩, ⟨(n / 2).toNat, fun i => i⟩, ⟨(n - n / 2).toNat, fun i => i⟩,
    1, ⟨1, fun _ => 0⟩, ⟨1, fun _ => 0⟩, ⟨1, fun _ => 1⟩, ⟨n, 0, 0⟩, ⟨n, 0, 0⟩⟩

/-- A factorisation of size `n` whose halves are triangles of ones so coupled. -/
def sparseF (n : Int) : TbEig ℚ :=
  .node n (.fmm (sparseC n)) (.leaf (n / 2) ⟨(n / 2 * (n / 2)).toNat, fun _ => 1⟩) (.leaf (n - n / 2) ⟨((n - n / 2) * (n - n / 2)).toNat, fun _ => 1⟩)

theorem sparseF_sized {n : Int} (hn : 2 ≤ n) : ESized n (sparseF n) := by
  have h1 := mul_nonneg (by omega : 0 ≤ n / 2) (by omega : 0 ≤ n / 2)
  have h2 := mul_nonneg (by omega : 0 ≤ n - n / 2) (by omega : 0 ≤ n - n / 2)
  have h3 := mul_nonneg (by omega : 0 ≤ n / 2) (by omega : 0 ≤ n - n / 2)
  have k1 : n / 2 * (n / 2) ≤ ((n / 2 * (n / 2)).toNat : Int) := by omega
  have k2 : (n - n / 2) * (n - n / 2) ≤ (((n - n / 2) * (n - n / 2)).toNat : Int) := by omega
  have k3 : n / 2 * (n - n / 2) ≤ ((n / 2 * (n - n / 2)).toNat : Int) := by omega
  have k4 : n / 2 ≤ ((n / 2).toNat : Int) := by omega
  have k5 : n - n / 2 ≤ ((n - n / 2).toNat : Int) := by omega
  have s1 : (0 : Int) ≤ n / 2 := by omega
  have s2 : (0 : Int) ≤ n - n / 2 := by omega
  have z : ∀ m : Int, m * 0 ≤ ((0 : Nat) : Int) := fun m => by simp
  refine ⟨by omega, le_refl _, ⟨le_refl _, ⟨⟨s1, s2, k3⟩, fun h => (by cases h), rfl, rfl⟩, z _, z _, ⟨k4, fun a a0 a1 => ⟨a0, a1⟩⟩,
    ⟨k5, fun a a0 a1 => ⟨a0, a1⟩⟩, le_refl _, le_refl _, le_refl _, fun l l0 l1 => ⟨⟨le_refl _, (by omega : (0 : Int) < n / 2)⟩, le_refl _, (by omega : (0 : Int) < n - n / 2)⟩⟩,
    ⟨rfl, s1, by omega, k1⟩, rfl, s2, by omega, k2⟩

/-- For every block size there are a factorisation and nonzero scales for which scaling the columns does not scale the matrix: the sparse part
of the coupling keeps its values. -/
theorem C22_scale_columns_defect {BS : Int} (hB : 2 ≤ BS) : ∃ (F : TbEig ℚ) (x : Buf ℚ) (F' : TbEig ℚ), ESized BS F ∧ Regular F ∧ F.n = BS ∧ F.n ≤ x.size ∧ (∀ i, 0 ≤ i → i < F.n → x.val i ≠ 0) ∧
    scaleColsTb BS 1 x F 0 = some F' ∧ mat F 0 (BS / 2) = 1 ∧ x.val (BS / 2) = 2 ∧ mat F' 0 (BS / 2) = 1 := by
  have hc : ∀ V : Buf ℚ, V.val 0 = 1 → ∀ c : Couple ℚ, (∀ k, 0 ≤ k → k < BS / 2 → coupling BS c k 0 = if k = 0 then 1 else 0) → ∀ F2, mat (.node BS c (.leaf (BS / 2) V) F2) 0 (BS / 2) = 1 := by
    intro V hV c hc F2
    rw [mat, if_pos (by omega), if_neg (by omega), Finset.sum_eq_single 0]
    · rw [mat, if_pos (le_refl _), sub_self, hc 0 (le_refl _) (by omega), if_pos rfl, Int.zero_mul, Int.zero_add, hV, one_mul]
    · intro k hk hk0
      rw [Finset.mem_Ico] at hk
      rw [sub_self, hc k hk.1 hk.2, if_neg hk0, mul_zero]
    · intro h; exact (h (Finset.mem_Ico.2 ⟨le_refl _, by omega⟩)).elim
  have hcp : ∀ (c : Fmm ℚ), c.b = 0 → c.nnz = 1 → c.sp.val 0 = 0 → c.sq.val 0 = 0 → c.sv.val 0 = 1 → ∀ k, coupling BS (.fmm c) k 0 = if k = 0 then 1 else 0 := by
    intro c h1 h2 h3 h4 h5 k
    rw [coupling, h1, h2, Finset.Ico_self, Finset.sum_empty, neg_zero, zero_add, show Finset.Ico (0 : Int) 1 = {0} by decide, Finset.sum_singleton, h3, h4, h5]
    congr 1
    simp [eq_comm]
  let x : Buf ℚ := ⟨BS.toNat, fun i => if i < BS / 2 then 1 else 2⟩
  have q1 := mul_nonneg (by omega : 0 ≤ BS / 2) (by omega : 0 ≤ BS / 2)
  have q2 := mul_nonneg (by omega : 0 ≤ BS - BS / 2) (by omega : 0 ≤ BS - BS / 2)
  obtain ⟨V1, e1, s1, v1⟩ := scaleTri_run (n := BS / 2) (V := ⟨(BS / 2 * (BS / 2)).toNat, fun _ => (1 : ℚ)⟩) (f := fun _ j => do let v ← x.rd (0 + j); some (1 * v)) (g := fun _ j => 1 * x.val (0 + j))
    (by dsimp only; omega) (fun i j i0 i1 j1 => by rw [Buf.rd_of (b := x) (by omega) (by show _ < (BS.toNat : Int); omega)]; rfl)
  obtain ⟨V2, e2, s2, v2⟩ := scaleTri_run (n := BS - BS / 2) (V := ⟨((BS - BS / 2) * (BS - BS / 2)).toNat, fun _ => (1 : ℚ)⟩) (f := fun _ j => do let v ← x.rd (0 + BS / 2 + j); some (1 * v))
    (g := fun _ j => 1 * x.val (0 + BS / 2 + j)) (by dsimp only; omega) (fun i j i0 i1 j1 => by rw [Buf.rd_of (b := x) (by omega) (by show _ < (BS.toNat : Int); omega)]; rfl)
  refine ⟨sparseF BS, x, .node BS (.fmm (sparseC BS)) (.leaf (BS / 2) V1) (.leaf (BS - BS / 2) V2), sparseF_sized hB, ⟨fun _ _ _ => one_ne_zero, fun _ _ _ => one_ne_zero⟩, rfl, ?_, ?_, ?_, ?_, ?_, ?_⟩
  · show BS ≤ ((BS.toNat : Nat) : Int); omega
  · intro i _ _
    show (if i < BS / 2 then (1 : ℚ) else 2) ≠ 0
    split_ifs <;> norm_num
  · unfold sparseF
    rw [scaleColsTb, if_neg (by omega)]
    have e0 : scaleCouple BS x 0 (.fmm (sparseC BS)) = some (.fmm (sparseC BS)) := rfl
    rw [e0]
    simp only [Option.bind_eq_bind, Option.bind_some]
    rw [scaleColsTb, if_pos (by omega), scaleColsTb, if_pos (by omega), e1, e2]
    rfl
  · exact hc _ rfl _ (fun k _ _ => hcp _ rfl rfl rfl rfl rfl k) _
  · exact if_neg (by omega)
  · refine hc _ ?_ _ (fun k _ _ => hcp _ rfl rfl rfl rfl rfl k) _
    have := v1 0 0 (le_refl _) (le_refl _) (by omega)
    rw [Int.zero_mul, Int.zero_add] at this
    rw [this]
    show 1 * (if (0 : Int) < BS / 2 then (1 : ℚ) else 2) * 1 = 1
    rw [if_pos (by omega)]; norm_num

/-! ## C25: scratch space of factorisations -/

/-- In every history in which the number of threads is not raised after planning, products and solves with several columns stay inside the
scratch arrays and each thread in its own slice: they end with the right result for every distribution of the columns and every interleaving. -/
theorem C25_factorisation [Field K] [DecidableEq K] {es : List Ev} {l : Lib} (h0 : l.plans = []) (hr : NeverRaised l es) {T p : Int} (hex : (T, p) ∈ l.executions es) {BS : Int} {tr : Char}
    (htr : tr = 'N' ∨ tr = 'T') {F : TbEig K} (hS : ESized BS F) {M : Buf K} (hA : Allocd p M.size (eArrs F)) {B : Ptr} {LDB N : Int} (hLD : F.n ≤ LDB)
    (hB : ∀ j, 0 ≤ j → j < N → (B.add (j * LDB)).Ok F.n M.size) (hap : ∀ q ∈ eArrs F, Apart B q.1) {owner : Int → Nat} (hown : ∀ j, 0 ≤ j → j < N → (owner j : Int) < T) :
    (ParPost T.toNat (bfmmP BS tr F B LDB N owner) M fun M' => M'.size = M.size ∧
      (∀ j, 0 ≤ j → j < N → ∀ i, 0 ≤ i → i < F.n → M'.val ((B.add (j * LDB)).at i) = ∑ k ∈ Finset.Ico 0 F.n, (if tr = 'N' then mat F i k else mat F k i) * M.val ((B.add (j * LDB)).at k)) ∧
      ∀ a, (∀ j, 0 ≤ j → j < N → ¬ (B.add (j * LDB)).In F.n a) → (∀ q ∈ eArrs F, ¬ (q.1.base ≤ a ∧ a < q.1.base + q.1.size)) → M'.val a = M.val a) ∧
    (Regular F → ParPost T.toNat (bfsmP BS tr F B LDB N owner) M fun M' => M'.size = M.size ∧
      (∀ j, 0 ≤ j → j < N → ∀ i, 0 ≤ i → i < F.n → ∑ k ∈ Finset.Ico 0 F.n, (if tr = 'N' then mat F i k else mat F k i) * M'.val ((B.add (j * LDB)).at k) = M.val ((B.add (j * LDB)).at i)) ∧
      ∀ a, (∀ j, 0 ≤ j → j < N → ¬ (B.add (j * LDB)).In F.n a) → (∀ q ∈ eArrs F, ¬ (q.1.base ≤ a ∧ a < q.1.base + q.1.size)) → M'.val a = M.val a) := by
  have hT := C25_history es l (by rw [h0]; intro p hp; simp at hp) hr T p hex
  by_cases h : 0 ≤ T
  · have e : ((T.toNat : Nat) : Int) ≤ p := by omega
    have ho : ∀ j, 0 ≤ j → j < N → owner j < T.toNat := fun j j0 j1 => by have := hown j j0 j1; omega
    exact ⟨C22_columns_apply htr hS e hA hLD hB hap ho, fun hr => C22_columns_solve htr hS hr e hA hLD hB hap ho⟩
  · have hN : N ≤ 0 := by
      by_contra hN
      have := hown 0 (le_refl _) (by omega)
      omega
    have ht : T.toNat = 0 := by omega
    rw [ht]
    have triv : ∀ (P : Nat → Prog K Unit) (Post : Buf K → Prop), Post M → ParPost 0 P M Post := by
      intro P Post h
      refine ⟨⟨[], (P, M), by simp, rfl, fun t ht => by omega⟩, fun sched hs => ?_⟩
      cases sched with
      | nil => exact ⟨(P, M), rfl, fun _ => h⟩
      | cons t _ => exact absurd (hs t (by simp)) (by omega)
    exact ⟨triv _ _ ⟨rfl, fun j j0 j1 => by omega, fun _ _ _ => rfl⟩, fun _ => triv _ _ ⟨rfl, fun j j0 j1 => by omega, fun _ _ _ => rfl⟩⟩

/-- A thread beyond those the scratch was allocated for leaves the scratch arrays of every divided factorisation with a coupling of positive
bandwidth: both products and both solves are undefined, whatever the vector. -/
theorem C25_factorisation_raised [Field K] [DecidableEq K] {p t : Int} (ht : p ≤ t) {BS : Int} {tr : Char} (htr : tr = 'N' ∨ tr = 'T') {n : Int} (hn : 2 ≤ n) {c : Fmm K} (hb : 0 < c.b)
    {F1 F2 : TbEig K} {s : Nat} (hA : Allocd p s (eArrs (.node n (.fmm c) F1 F2))) (x : Ptr) (M : Buf K) :
    (bfmvP BS tr t (.node n (.fmm c) F1 F2) x).run M = none ∧ (bfsvP BS tr t (.node n (.fmm c) F1 F2) x).run M = none := by
  obtain ⟨a1, a2, -, -⟩ := hA.1 (c.t1, n / 2) (by simp [eArrs, cArrs])
  obtain ⟨b1, b2, -, -⟩ := hA.1 (c.t2, n - n / 2) (by simp [eArrs, cArrs])
  dsimp only at a1 a2 b1 b2
  have h1 : n / 2 * p ≤ n / 2 * t := Int.mul_le_mul_of_nonneg_left ht (by omega)
  have h2 : (n - n / 2) * p ≤ (n - n / 2) * t := Int.mul_le_mul_of_nonneg_left ht (by omega)
  have key : ∀ sub M, (coupleP tr sub t n (.fmm c) x).run M = none := by
    intro sub M
    rw [coupleP]
    rcases htr with rfl | rfl
    · rw [if_pos rfl]
      exact fmmP_oob hb (by omega) (by unfold Ptr.add; dsimp only; omega) M
    · rw [if_neg (by decide)]
      exact fmmP_oob hb (by omega) (by unfold Ptr.add; dsimp only; omega) M
  rw [bfmvP, bfsvP]
  by_cases hB : n < BS
  · rw [if_pos hB, if_pos hB]; exact ⟨rfl, rfl⟩
  · rw [if_neg hB, if_neg hB]
    rcases htr with rfl | rfl
    · rw [if_pos rfl, if_pos rfl]
      refine ⟨?_, run_none (fun _ M => run_none (fun _ M => key true M) M) M⟩
      rw [run_bind, key]; rfl
    · rw [if_neg (by decide), if_pos rfl, if_neg (by decide), if_pos rfl]
      refine ⟨run_none (fun _ M => run_none (fun _ M => key false M) M) M, ?_⟩
      rw [run_bind, key]; rfl

/-! ## A concrete factorisation -/

section Example

/-- Size 3 with block size 2: a 1 by 1 triangle `[2]`, and a factorisation of size 2 whose halves `[3]` and `[5]` are coupled by a low-rank
matrix `[7]`; the coupling of the two has bandwidth one, `X = [1]`, `Y = [2, 1]`, a dense kernel `[1 -1]`, the columns exchanged, and one
sparse entry 4 in column 1.  Scratch for two threads. -/
def exLow : Low ℚ := ⟨'2', 1, 1, 1, 2, Buf.ofList [7], Buf.ofList [], Buf.ofList [1], ⟨6, 2, 0⟩, ⟨8, 2, 0⟩, fun q => ⟨10, q, 0⟩, fun q => ⟨10 + q, q, 0⟩⟩
def exFmm : Fmm ℚ := ⟨1, .dense ⟨1, 2, Buf.ofList [1, -1]⟩, Buf.ofList [1], Buf.ofList [2, 1], Buf.ofList [0], Buf.ofList [1, 0], 1, Buf.ofList [0], Buf.ofList [1], Buf.ofList [4], ⟨10, 2, 0⟩, ⟨12, 4, 0⟩⟩
def exF2 : TbEig ℚ := .node 2 (.adi exLow) (.leaf 1 (Buf.ofList [3])) (.leaf 1 (Buf.ofList [5]))
def exF : TbEig ℚ := .node 3 (.fmm exFmm) (.leaf 1 (Buf.ofList [2])) exF2

theorem exF_sized : ESized 2 exF := by
  refine ⟨by decide, by decide, ⟨by decide, ⟨⟨by decide, by decide, by decide⟩, fun h => (by cases h), by decide, by decide⟩, by decide, by decide, ⟨by decide, ?_⟩, ⟨by decide, ?_⟩, by decide, by decide,
    by decide, ?_⟩, ⟨rfl, by decide, by decide, by decide⟩, rfl, by decide, by decide, ⟨⟨Or.inl rfl, by decide, by decide, by decide, by decide, by decide, fun h => absurd h (by decide)⟩, by decide, by decide⟩,
    ⟨rfl, by decide, by decide, by decide⟩, rfl, by decide, by decide, by decide⟩
  · intro a a0 a1
    obtain rfl : a = 0 := by omega
    decide
  · intro a a0 a1
    rcases (by omega : a = 0 ∨ a = 1) with rfl | rfl <;> decide
  · intro a a0 a1
    have a1 : a < 1 := a1
    obtain rfl : a = 0 := by omega
    decide

theorem exF_regular : Regular exF := by
  refine ⟨fun i i0 i1 => ?_, fun i i0 i1 => ?_, fun i i0 i1 => ?_⟩ <;>
  · obtain rfl : i = 0 := by omega
    simp [Buf.ofList]

theorem exF_arrs : eArrs exF = [(⟨10, 2, 0⟩, 1), (⟨12, 4, 0⟩, 2), (⟨6, 2, 0⟩, 1), (⟨8, 2, 0⟩, 1)] := rfl

theorem exF_alloc : Allocd 2 16 (eArrs exF) := by
  rw [exF_arrs]
  refine ⟨?_, ?_⟩
  · intro q hq
    simp only [List.mem_cons, List.not_mem_nil, or_false] at hq
    rcases hq with rfl | rfl | rfl | rfl <;> decide
  · simp [Apart]

theorem exF_scr {t : Int} (t0 : 0 ≤ t) (t1 : t < 2) {x : Ptr} (hx : x.Ok 3 16) (h : x.base + x.size ≤ 6) : ∀ j, 0 ≤ j → j < exF.n → ¬ EScr t exF (x.at j) := by
  intro j j0 j1
  refine not_scr exF_alloc t0 t1 hx (fun q hq => ?_) j0 j1
  rw [exF_arrs] at hq
  simp only [List.mem_cons, List.not_mem_nil, or_false] at hq
  unfold Apart
  rcases hq with rfl | rfl | rfl | rfl <;> dsimp only <;> omega

/-- The matrix is `[2 4 6; 0 3 21; 0 0 5]`. -/
theorem exF_mat : mat exF2 0 1 = 21 ∧ mat exF 0 1 = 4 ∧ mat exF 0 2 = 6 := by
  have i1 : Finset.Ico (0 : Int) 1 = {0} := by decide
  have i2 : Finset.Ico (0 : Int) 2 = {0, 1} := by decide
  refine ⟨?_, ?_, ?_⟩ <;>
  · simp [exF, exF2, mat, coupling, exFmm, exLow, ent, Buf.ofList, i1, i2]
    try norm_num

example {M : Buf ℚ} (hM : M.size = 16) : ∃ M', (bfmvP 2 'T' 1 exF ⟨0, 6, 1⟩).run M = some ((), M') := by
  obtain ⟨M', e, -⟩ := C22_apply (tr := 'T') (Or.inr rfl) (t := 1) exF_sized (x := ⟨0, 6, 1⟩) (M := M) (by rw [hM]; unfold Ptr.Ok; decide)
    (by rw [hM]; exact eScrOk_alloc (by decide) (by decide) exF_sized exF_alloc) (exF_scr (by decide) (by decide) (by unfold Ptr.Ok; decide) (by decide))
  exact ⟨M', e⟩

example {M : Buf ℚ} (hM : M.size = 16) : ∃ M', ((bfmvP 2 'N' 1 exF ⟨0, 6, 1⟩).bind fun _ => bfsvP 2 'N' 1 exF ⟨0, 6, 1⟩).run M = some ((), M') ∧ M'.val 2 = M.val 2 := by
  obtain ⟨M', e, -, v, -⟩ := C22_solve_apply (tr := 'N') (Or.inl rfl) (t := 1) exF_sized exF_regular (x := ⟨0, 6, 1⟩) (M := M) (by rw [hM]; unfold Ptr.Ok; decide)
    (by rw [hM]; exact eScrOk_alloc (by decide) (by decide) exF_sized exF_alloc) (exF_scr (by decide) (by decide) (by unfold Ptr.Ok; decide) (by decide))
  exact ⟨M', e, v 1 (by decide) (by decide)⟩

example {M : Buf ℚ} (hM : M.size = 16) : ∃ M' L', (bfmvP 2 'N' 0 exF ⟨0, 3, 0⟩).run M = some ((), M') ∧ (bfmvP 2 'T' 1 exF ⟨3, 3, 0⟩).run M = some ((), L') ∧
    ∑ i ∈ Finset.Ico 0 3, M.val (3 + 0 + i) * M'.val (0 + 0 + i) = ∑ i ∈ Finset.Ico 0 3, L'.val (3 + 0 + i) * M.val (0 + 0 + i) :=
  C22_adjoint exF_sized (x := ⟨0, 3, 0⟩) (y := ⟨3, 3, 0⟩) (M := M) (L := M) (by rw [hM]; unfold Ptr.Ok; decide) (by rw [hM]; unfold Ptr.Ok; decide)
    (by rw [hM]; exact eScrOk_alloc (by decide) (by decide) exF_sized exF_alloc) (by rw [hM]; exact eScrOk_alloc (by decide) (by decide) exF_sized exF_alloc)
    (exF_scr (by decide) (by decide) (by unfold Ptr.Ok; decide) (by decide)) (exF_scr (by decide) (by decide) (by unfold Ptr.Ok; decide) (by decide))

/-- Two columns shared by two threads, after a history of calls. -/
example {M : Buf ℚ} (hM : M.size = 16) (sched : List Nat) (hs : ∀ t ∈ sched, t < 2) : ∃ c, runSched sched (bfsmP 2 'N' exF ⟨0, 6, 0⟩ 3 2 (fun j => j.toNat), M) = some c := by
  have h := (C25_factorisation (T := 2) (p := 2) (l := ⟨2, []⟩) (es := [.plan, .setThreads 1, .execute 0, .setThreads 2, .execute 0]) rfl (by simp [NeverRaised, Lib.step]) (by decide) (BS := 2) (tr := 'N')
    (Or.inl rfl) exF_sized (M := M) (by rw [hM]; exact exF_alloc) (B := ⟨0, 6, 0⟩) (LDB := 3) (N := 2) (by decide)
    (by intro j j0 j1; rw [hM]; rcases (by omega : j = 0 ∨ j = 1) with rfl | rfl <;> (unfold Ptr.Ok; decide))
    (by intro q hq; rw [exF_arrs] at hq; simp only [List.mem_cons, List.not_mem_nil, or_false] at hq; unfold Apart; rcases hq with rfl | rfl | rfl | rfl <;> decide)
    (owner := fun j => j.toNat) (by intro j j0 j1; omega)).2 exF_regular
  obtain ⟨c, e, -⟩ := h.2 sched hs
  exact ⟨c, e⟩

example (M : Buf ℚ) : (bfmvP 2 'N' 2 exF ⟨0, 6, 0⟩).run M = none :=
  (C25_factorisation_raised (p := 2) (by decide) (Or.inl rfl) (by decide) (by decide) exF_alloc _ M).1

example : ∃ F', scaleRowsTb 2 2 (Buf.ofList [5, 7, 9]) exF 0 = some F' ∧ mat F' 0 2 = 60 := by
  obtain ⟨F', e, -, -, -, -, v⟩ := C22_scale_rows (2 : ℚ) (x := Buf.ofList [5, 7, 9]) exF_sized (by decide)
  exact ⟨F', e, by rw [v 0 2 (by decide) (by decide) (by decide) (by decide), exF_mat.2.2]; simp [Buf.ofList]; norm_num⟩

example : ∃ F', scaleColsTb 2 2 (Buf.ofList [5, 7]) exF2 0 = some F' ∧ mat F' 0 1 = 294 := by
  obtain ⟨F', e, -, -, -, -, v⟩ := C22_scale_columns_partial (2 : ℚ) (x := Buf.ofList [5, 7]) exF_sized.2.2.2.2.2 (by exact ⟨trivial, trivial⟩) (by decide) (by
    intro i i0 i1
    have i1 : i < 2 := i1
    rcases (by omega : i = 0 ∨ i = 1) with rfl | rfl <;> simp [Buf.ofList])
  exact ⟨F', e, by rw [v 0 1 (by decide) (by decide) (by decide) (by decide), exF_mat.1]; simp [Buf.ofList]; norm_num⟩

end Example

end FT.Props.TbEig
