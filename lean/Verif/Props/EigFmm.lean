import Verif.Lemmas.EigFmmRun
import Mathlib.Algebra.Order.Ring.Rat

/-!
# C60: divide-and-conquer eigenvectors of triangular pencils

The construction of `Verif.Model.EigFmm` returns a factorisation of the eigenvectors of the pencil, for every size, every bandwidth, every threshold at most one and every sampler of the
Cauchy kernel that meets the specification.
-/

set_option linter.unusedSectionVars false

namespace FT.Props.Eig
open FT FT.Model FT.Prog FT.Props FT.Props.Hier FT.Props.TbEig FT.Fmm
variable {K : Type*} [Field K] [LinearOrder K] [IsStrictOrderedRing K] {E : FmmEnv K} {A B : TB K} {D : Buf K} {n bA bB top : Int} {a b : Int → Int → K}

section
variable (hE : E.eps = 0) (ht : E.tol ≤ 1) (hS : Samples E) (hth : 1 ≤ E.threads) (hBS : 2 ≤ E.BS) (hn : 0 ≤ n) (hA : StoresT A n bA a) (hB : StoresT B n bB b) (b0 : 0 ≤ bB) (hb : bB ≤ bA)
  (hbBS : 2 * bA ≤ E.BS) (hbd : ∀ j, 0 ≤ j → j < n → b j j ≠ 0) (hdist : ∀ i j, 0 ≤ i → i < j → j < n → a j j / b j j ≠ a i i / b i i) (hD : n ≤ D.size) (hDz : ∀ j, 0 ≤ j → j < n → D.val j ≠ 0)
  (h0 : 0 ≤ top)
include hE ht hS hth hBS hn hA hB b0 hb hbBS hbd hdist hD hDz h0

/-- **C60** The factorisation holds the eigenvectors with diagonal `D`, the eigenvalues are the quotients of the diagonals, every scratch array is newly allocated and apart from the others,
and there is a sparse part only if two eigenvalues are closer than the threshold.  Missing for the full claim: pencils whose second matrix has the larger
bandwidth, for which it is false (`C60_bandwidth_defect`). -/
theorem C60_eigenvectors_partial : ∃ F lam top', tbEigFmm E A B D top = some (F, lam, top') ∧ IsEig E.BS n 0 a b D F lam ∧ Placed E.threads top top' (eArrs F) ∧
    ((∀ i j, 0 ≤ i → i < j → j < n → ¬ |a i i / b i i - a j j / b j j| < E.tol * max |a i i / b i i| |a j j / b j j|) → NoSparse F) := by
  obtain ⟨F, lam, t, e, h1, h2, -, h3⟩ := eigFmm_run (D := D) hE ht hS hth b0 hb hBS hbBS (A.n.toNat + 1) n 0 top A B a b (by rw [hA.dims.1]; omega) hn hA hB hbd hdist le_rfl (by omega)
    (fun j j0 j1 => by rw [zero_add]; exact hDz j j0 j1) h0
  exact ⟨F, lam, t, e, h1, h2, h3⟩

/-- **C60** What a user sees: the product with the factorisation, on a vector behind the scratch arrays, is a vector `y` with `A y = B V Λ x`, where `V Λ x` is the product with the vector of
the `λ_j x_j`.  The same is missing. -/
theorem C60_product_partial : ∃ F lam top', tbEigFmm E A B D top = some (F, lam, top') ∧ ∀ M L : Buf K, M.size = (top' + n).toNat → L.size = (top' + n).toNat →
    (∀ j, 0 ≤ j → j < n → L.val (top' + j) = a j j / b j j * M.val (top' + j)) →
    ∃ M' L', (bfmvP E.BS 'N' 0 F ⟨top', n, 0⟩).run M = some ((), M') ∧ (bfmvP E.BS 'N' 0 F ⟨top', n, 0⟩).run L = some ((), L') ∧
      ∀ i, 0 ≤ i → i < n → ∑ k ∈ Finset.Ico 0 n, a i k * M'.val (top' + k) = ∑ k ∈ Finset.Ico 0 n, b i k * L'.val (top' + k) := by
  obtain ⟨F, lam, t, e, h1, h2, -⟩ := C60_eigenvectors_partial hE ht hS hth hBS hn hA hB b0 hb hbBS hbd hdist hD hDz h0
  refine ⟨F, lam, t, e, fun M L hM hL hl => ?_⟩
  have t0 := h2.le
  have run : ∀ M : Buf K, M.size = (t + n).toNat → ∃ M', (bfmvP E.BS 'N' 0 F ⟨t, n, 0⟩).run M = some ((), M') ∧ ∀ i, 0 ≤ i → i < n → M'.val (t + i) = ∑ j ∈ Finset.Ico 0 n, mat F i j * M.val (t + j) := fun M hM => by
    obtain ⟨c1, c2, c3⟩ := col_ok (p := E.threads) (by omega) h1.size hn hth h1.sized h2.alloc hM
    obtain ⟨M', e, -, v, -⟩ := C22_apply (tr := 'N') (.inl rfl) h1.sized c1 c2 c3
    refine ⟨M', e, fun i i0 i1 => ?_⟩
    have := v i i0 (by rw [h1.size]; exact i1)
    simpa [Ptr.at, h1.size] using this
  obtain ⟨M', e1, v1⟩ := run M hM
  obtain ⟨L', e2, v2⟩ := run L hL
  refine ⟨M', L', e1, e2, fun i i0 i1 => ?_⟩
  have key : ∀ (c : Int → Int → K) (N N' : Buf K), (∀ i, 0 ≤ i → i < n → N'.val (t + i) = ∑ j ∈ Finset.Ico 0 n, mat F i j * N.val (t + j)) →
      ∑ k ∈ Finset.Ico 0 n, c i k * N'.val (t + k) = ∑ j ∈ Finset.Ico 0 n, (∑ k ∈ Finset.Ico 0 n, c i k * mat F k j) * N.val (t + j) := fun c N N' v => by
    rw [sum_Ico_congr fun k k0 k1 => by rw [v k k0 k1, Finset.mul_sum], Finset.sum_comm]
    exact sum_Ico_congr fun j _ _ => by rw [Finset.sum_mul]; exact sum_Ico_congr fun k _ _ => by rw [mul_assoc]
  rw [key a M M' v1, key b L L' v2]
  refine sum_Ico_congr fun j j0 j1 => ?_
  rw [h1.eqn i j i0 i1 j0 j1, hl j j0 j1]
  ring

end

/-! ## A sampler -/

/-- The sampler that returns a dense matrix. -/
def denseCauchy (tol : K) (top s m : Int) (x y : Buf K) : HMat K × Int :=
  (.dense ⟨s, m, ⟨(s * m).toNat, fun q => if |x.val (q % s) - y.val (q / s)| < tol * max |x.val (q % s)| |y.val (q / s)| then 0 else 1 / (x.val (q % s) - y.val (q / s))⟩⟩, top)

/-- It meets the specification. -/
theorem dense_samples (h : ∀ top s m x y, E.cauchy top s m x y = denseCauchy E.tol top s m x y) : Samples E := by
  intro top s m x y h0 s0 m0 _ _ _ _ _
  rw [h]
  refine ⟨⟨s0.le, m0.le, ?_⟩, nofun, rfl, rfl, fun i j i0 i1 j0 j1 => ?_, le_rfl, ⟨nofun, .nil⟩, nofun⟩
  · show s * m ≤ (((s * m).toNat : Nat) : Int); omega
  · show (if 0 ≤ i ∧ i < s ∧ 0 ≤ j ∧ j < m then _ else _) = _
    rw [if_pos ⟨i0, i1, j0, j1⟩]
    dsimp only
    rw [show (i + j * s) % s = i by rw [Int.add_mul_emod_self_right]; exact Int.emod_eq_of_lt i0 i1, show (i + j * s) / s = j by rw [Int.add_mul_ediv_right _ _ s0.ne', Int.ediv_eq_zero_of_lt i0 i1, zero_add]]

/-- An environment of two threads: blocks smaller than 4 are dense, the threshold is 1/100. -/
def denseEnv : FmmEnv ℚ := ⟨4, 0, 1 / 100, fun _ => 7, 2, denseCauchy (1 / 100)⟩

/-! ## Cases -/

/-- A pencil of order 6 and bandwidths 2 and 1 with the eigenvalues 1, 2, 3, 301/100, 4, 5: two of them, in different halves, are closer than the threshold. -/
def fA : TB ℚ := ⟨0, 6, 2, Buf.ofList [9, 9, 1, 9, 3, 2, 2, -1, 3, 1, 0, 301 / 100, -2, 1, 4, 1, 1, 5]⟩
def fB : TB ℚ := ⟨0, 6, 1, Buf.ofList [9, 1, 1, 1, -1, 1, 2, 1, 3, 1, 1, 1]⟩
def fD : Buf ℚ := Buf.ofList [1, 2, 3, 1, -1, 2]

theorem fA_stores : StoresT fA 6 2 fA.ent := .mk' ⟨rfl, rfl⟩ (by unfold TB.WF; decide) fun _ _ => rfl
theorem fB_stores : StoresT fB 6 1 fB.ent := .mk' ⟨rfl, rfl⟩ (by unfold TB.WF; decide) fun _ _ => rfl

theorem six {P : Int → Prop} (h : ∀ i ∈ [0, 1, 2, 3, 4, 5], P i) (j : Int) (j0 : 0 ≤ j) (j1 : j < 6) : P j := h j (by simp only [List.mem_cons, List.not_mem_nil, or_false]; omega)

theorem f_ne (j : Int) (j0 : 0 ≤ j) (j1 : j < 6) : fB.ent j j ≠ 0 := six (P := fun j => fB.ent j j ≠ 0) (by decide +kernel) j j0 j1
theorem f_dist (i j : Int) (i0 : 0 ≤ i) (ij : i < j) (j1 : j < 6) : fA.ent j j / fB.ent j j ≠ fA.ent i i / fB.ent i i :=
  six (P := fun i => i < j → fA.ent j j / fB.ent j j ≠ fA.ent i i / fB.ent i i)
    (six (P := fun j => ∀ i ∈ [0, 1, 2, 3, 4, 5], i < j → fA.ent j j / fB.ent j j ≠ fA.ent i i / fB.ent i i) (by decide +kernel) j (by omega) j1) i i0 (by omega) ij
theorem f_nz (j : Int) (j0 : 0 ≤ j) (j1 : j < 6) : fD.val j ≠ 0 := six (P := fun j => fD.val j ≠ 0) (by decide +kernel) j j0 j1

/-- The hypotheses hold. -/
example : ∃ F lam top', tbEigFmm denseEnv fA fB fD 0 = some (F, lam, top') ∧ IsEig 4 6 0 fA.ent fB.ent fD F lam ∧ Placed 2 0 top' (eArrs F) ∧
    ((∀ i j, 0 ≤ i → i < j → j < 6 → ¬ |fA.ent i i / fB.ent i i - fA.ent j j / fB.ent j j| < 1 / 100 * max |fA.ent i i / fB.ent i i| |fA.ent j j / fB.ent j j|) → NoSparse F) :=
  C60_eigenvectors_partial (E := denseEnv) rfl (by norm_num [denseEnv]) (dense_samples fun _ _ _ _ _ => rfl) (by decide) (by decide) (by omega) fA_stores fB_stores (by omega) (by omega) (by decide) f_ne f_dist
    (by decide) f_nz le_rfl

example : ∃ F lam top', tbEigFmm denseEnv fA fB fD 0 = some (F, lam, top') ∧ ∀ M L : Buf ℚ, M.size = (top' + 6).toNat → L.size = (top' + 6).toNat →
    (∀ j, 0 ≤ j → j < 6 → L.val (top' + j) = fA.ent j j / fB.ent j j * M.val (top' + j)) →
    ∃ M' L', (bfmvP 4 'N' 0 F ⟨top', 6, 0⟩).run M = some ((), M') ∧ (bfmvP 4 'N' 0 F ⟨top', 6, 0⟩).run L = some ((), L') ∧
      ∀ i, 0 ≤ i → i < 6 → ∑ k ∈ Finset.Ico 0 6, fA.ent i k * M'.val (top' + k) = ∑ k ∈ Finset.Ico 0 6, fB.ent i k * L'.val (top' + k) :=
  C60_product_partial (E := denseEnv) rfl (by norm_num [denseEnv]) (dense_samples fun _ _ _ _ _ => rfl) (by decide) (by decide) (by omega) fA_stores fB_stores (by omega) (by omega) (by decide) f_ne f_dist
    (by decide) f_nz le_rfl

/-- The number of sparse entries of a factorisation at the top. -/
def nnz : TbEig K → Int
  | .node _ (.fmm c) _ _ => c.nnz
  | _ => 0

/-- It is divided once, and one entry comes from the sparse part. -/
example : (tbEigFmm denseEnv fA fB fD 0).map (fun r => (mat r.1 0 3, mat r.1 2 3, nnz r.1, r.2.1.toList, r.2.2)) = some (-59898 / 101, -602, 1, [1, 2, 3, 301 / 100, 4, 5], 12) := by decide +kernel

/-! ## The first matrix must have the larger bandwidth -/

/-- A bidiagonal matrix, and the identity stored with bandwidth 2. -/
def wA : TB ℚ := ⟨0, 4, 1, Buf.ofList [9, 1, 1, 2, 1, 3, 1, 4]⟩
def wB : TB ℚ := ⟨0, 4, 2, Buf.ofList [9, 9, 1, 9, 0, 1, 0, 0, 1, 0, 0, 1]⟩

theorem wA_stores : StoresT wA 4 1 wA.ent := .mk' ⟨rfl, rfl⟩ (by unfold TB.WF; decide) fun _ _ => rfl
theorem wB_stores : StoresT wB 4 2 wB.ent := .mk' ⟨rfl, rfl⟩ (by unfold TB.WF; decide) fun _ _ => rfl

theorem four {P : Int → Prop} (h : ∀ i ∈ [0, 1, 2, 3], P i) (j : Int) (j0 : 0 ≤ j) (j1 : j < 4) : P j := h j (by simp only [List.mem_cons, List.not_mem_nil, or_false]; omega)

/-- Without `bB ≤ bA` (and `0 < bA`) the claim is false: the entries of `A` that couple the halves are taken for those of a row further up. -/
theorem C60_bandwidth_defect : ∃ F lam top', tbEigFmm denseEnv wA wB (Buf.ofList [1, 1, 1, 1]) 0 = some (F, lam, top') ∧ Samples denseEnv ∧ StoresT wA 4 1 wA.ent ∧ StoresT wB 4 2 wB.ent ∧
    (∀ j, 0 ≤ j → j < 4 → wB.ent j j ≠ 0) ∧ (∀ i j, 0 ≤ i → i < j → j < 4 → wA.ent j j / wB.ent j j ≠ wA.ent i i / wB.ent i i) ∧
    ∑ k ∈ Finset.Ico 0 4, wA.ent 1 k * mat F k 2 ≠ wA.ent 2 2 / wB.ent 2 2 * ∑ k ∈ Finset.Ico 0 4, wB.ent 1 k * mat F k 2 := by
  have h : ∃ r, tbEigFmm denseEnv wA wB (Buf.ofList [1, 1, 1, 1]) 0 = some r := by
    rw [← Option.isSome_iff_exists]; decide +kernel
  obtain ⟨⟨F, lam, top'⟩, e⟩ := h
  refine ⟨F, lam, top', e, dense_samples fun _ _ _ _ _ => rfl, wA_stores, wB_stores, four (by decide +kernel), fun i j i0 ij j1 => ?_, ?_⟩
  · exact four (P := fun i => i < j → wA.ent j j / wB.ent j j ≠ wA.ent i i / wB.ent i i)
      (four (P := fun j => ∀ i ∈ [0, 1, 2, 3], i < j → wA.ent j j / wB.ent j j ≠ wA.ent i i / wB.ent i i) (by decide +kernel) j (by omega) j1) i i0 (by omega) ij
  · have m : (tbEigFmm denseEnv wA wB (Buf.ofList [1, 1, 1, 1]) 0).map (fun r => (mat r.1 0 2, mat r.1 1 2, mat r.1 2 2, mat r.1 3 2)) = some (1 / 2, 0, 1, 0) := by decide +kernel
    rw [e, Option.map_some, Option.some_inj, Prod.mk.injEq, Prod.mk.injEq, Prod.mk.injEq] at m
    obtain ⟨m0, m1, m2, m3⟩ := m
    have ex : ∀ f : Int → ℚ, ∑ k ∈ Finset.Ico 0 4, f k = f 0 + f 1 + f 2 + f 3 := fun f => by
      rw [show (4 : Int) = 0 + 1 + 1 + 1 + 1 by norm_num, sum_Ico_succ (by norm_num), sum_Ico_succ (by norm_num), sum_Ico_succ (by norm_num), sum_Ico_succ le_rfl, Finset.Ico_self, Finset.sum_empty, zero_add]
      rfl
    rw [ex, ex, m0, m1, m2, m3]
    decide +kernel

end FT.Props.Eig
