import Verif.Lemmas.HierPar
import Verif.Lemmas.HierNorm

/-!
# Hierarchical matrices: products, scratch space, norms, scalings
-/

namespace FT.Props.Hier
open FT FT.Model FT.Prog
set_option linter.unusedSectionVars false
variable {K : Type*} [CommRing K] [DecidableEq K]

/-! ## C23: matrix-vector products -/

/-- The entries of a hierarchical matrix are those of its blocks, the blocks of a row or column of blocks lying next to each other. -/
theorem C23_entries {P Q m n : Int} {b : Int → Int → HMat K} (hS : Sized (.hier P Q m n b)) {a c i j : Int} (a0 : 0 ≤ a) (a1 : a < P) (c0 : 0 ≤ c) (c1 : c < Q)
    (i0 : 0 ≤ i) (i1 : i < (b a (Q - 1)).rows) (j0 : 0 ≤ j) (j1 : j < (b 0 c).cols) : ent (.hier P Q m n b) (top Q b a + i) (left b c + j) = ent (b a c) i j :=
  ent_block hS a0 a1 c0 c1 i0 i1 j0 j1

/-- `y ← alpha*H*x + beta*y`, or with the transpose of `H`, for a dense, low-rank or hierarchical matrix with any nesting of blocks;
apart from `y` only the scratch space of the thread changes. -/
theorem C23_product {tr : Char} (htr : tr = 'N' ∨ tr = 'T') (alpha beta : K) (t : Int) {H : HMat K} (hS : Sized H) (hH : H ≠ .nil) {x y : Ptr} {M : Buf K}
    (hO : ScrOk t M.size H) (hx : x.Ok (opCols tr H) M.size) (hy : y.Ok (opRows tr H) M.size)
    (hxy : ∀ j, 0 ≤ j → j < opCols tr H → ¬ y.In (opRows tr H) (x.at j)) (sx : ∀ j, 0 ≤ j → j < opCols tr H → ¬ Scr t H (x.at j))
    (sy : ∀ j, 0 ≤ j → j < opRows tr H → ¬ Scr t H (y.at j)) :
    ∃ M', (hmvP tr alpha t H x beta y).run M = some ((), M') ∧ M'.size = M.size ∧
      (∀ i, 0 ≤ i → i < opRows tr H → M'.val (y.at i) = beta * M.val (y.at i) + alpha * ∑ j ∈ Finset.Ico 0 (opCols tr H), op tr H i j * M.val (x.at j)) ∧
      ∀ a, ¬ y.In (opRows tr H) a → ¬ Scr t H a → M'.val a = M.val a :=
  hmvP_spec htr alpha t hS x y beta M (fun h => (hH h).elim) hO hx hy hxy sx sy

/-- Products with `H` and with its transpose are adjoint to each other. -/
theorem C23_adjoint (t u : Int) {H : HMat K} (hS : Sized H) (hH : H ≠ .nil) {x y x' y' : Ptr} {M M' : Buf K}
    (hO : ScrOk t M.size H) (hx : x.Ok H.cols M.size) (hy : y.Ok H.rows M.size)
    (hxy : ∀ j, 0 ≤ j → j < H.cols → ¬ y.In H.rows (x.at j)) (sx : ∀ j, 0 ≤ j → j < H.cols → ¬ Scr t H (x.at j))
    (sy : ∀ j, 0 ≤ j → j < H.rows → ¬ Scr t H (y.at j))
    (hO' : ScrOk u M'.size H) (hx' : x'.Ok H.rows M'.size) (hy' : y'.Ok H.cols M'.size)
    (hxy' : ∀ j, 0 ≤ j → j < H.rows → ¬ y'.In H.cols (x'.at j)) (sx' : ∀ j, 0 ≤ j → j < H.rows → ¬ Scr u H (x'.at j))
    (sy' : ∀ j, 0 ≤ j → j < H.cols → ¬ Scr u H (y'.at j)) :
    ∃ A B, (hmvP 'N' 1 t H x 0 y).run M = some ((), A) ∧ (hmvP 'T' 1 u H x' 0 y').run M' = some ((), B) ∧
      ∑ i ∈ Finset.Ico 0 H.rows, M'.val (x'.at i) * A.val (y.at i) = ∑ j ∈ Finset.Ico 0 H.cols, B.val (y'.at j) * M.val (x.at j) := by
  obtain ⟨A, eA, -, vA, -⟩ := C23_product (tr := 'N') (Or.inl rfl) 1 0 t hS hH hO hx hy hxy sx sy
  obtain ⟨B, eB, -, vB, -⟩ := C23_product (tr := 'T') (Or.inr rfl) 1 0 u hS hH hO' hx' hy' hxy' sx' sy'
  refine ⟨A, B, eA, eB, ?_⟩
  have e1 : ∑ i ∈ Finset.Ico 0 H.rows, M'.val (x'.at i) * A.val (y.at i) = ∑ i ∈ Finset.Ico 0 H.rows, ∑ j ∈ Finset.Ico 0 H.cols, M'.val (x'.at i) * ent H i j * M.val (x.at j) := by
    refine sum_Ico_congr fun i i0 i1 => ?_
    rw [vA i i0 i1, zero_mul, zero_add, one_mul, Finset.mul_sum]
    exact Finset.sum_congr rfl fun j _ => by rw [mul_assoc]; rfl
  have e2 : ∑ j ∈ Finset.Ico 0 H.cols, B.val (y'.at j) * M.val (x.at j) = ∑ j ∈ Finset.Ico 0 H.cols, ∑ i ∈ Finset.Ico 0 H.rows, M'.val (x'.at i) * ent H i j * M.val (x.at j) := by
    refine sum_Ico_congr fun j j0 j1 => ?_
    rw [vB j j0 j1, zero_mul, zero_add, one_mul, Finset.sum_mul]
    exact Finset.sum_congr rfl fun i _ => by rw [mul_comm (M'.val _)]; rfl
  rw [e1, e2, Finset.sum_comm]

/-- Scaling the rows multiplies entry `(i, j)` by `alpha*x[i]`; shape and scratch space stay. -/
theorem C23_scale_rows (alpha : K) {x : Buf K} {H : HMat K} (hS : Sized H) (hx : H.rows ≤ x.size) :
    ∃ H', scaleRows alpha x H 0 = some H' ∧ H'.rows = H.rows ∧ H'.cols = H.cols ∧ Sized H' ∧ (∀ t s, ScrOk t s H' = ScrOk t s H) ∧ (∀ t, Scr t H' = Scr t H) ∧
      ∀ i j, 0 ≤ i → i < H.rows → 0 ≤ j → j < H.cols → ent H' i j = alpha * x.val i * ent H i j := by
  obtain ⟨H', e, p⟩ := scaleRows_run alpha x hS (le_refl 0) (by omega)
  refine ⟨H', e, p.rows, p.cols, p.sized, p.scrOk, p.scr, fun i j i0 i1 j0 j1 => ?_⟩
  have := p.ent i j i0 i1 j0 j1
  simpa only [zero_add] using this

/-- Scaling the columns multiplies entry `(i, j)` by `alpha*x[j]`; shape and scratch space stay. -/
theorem C23_scale_columns (alpha : K) {x : Buf K} {H : HMat K} (hS : Sized H) (hx : H.cols ≤ x.size) :
    ∃ H', scaleCols alpha x H 0 = some H' ∧ H'.rows = H.rows ∧ H'.cols = H.cols ∧ Sized H' ∧ (∀ t s, ScrOk t s H' = ScrOk t s H) ∧ (∀ t, Scr t H' = Scr t H) ∧
      ∀ i j, 0 ≤ i → i < H.rows → 0 ≤ j → j < H.cols → ent H' i j = alpha * x.val j * ent H i j := by
  obtain ⟨H', e, p⟩ := scaleCols_run alpha x hS (le_refl 0) (by omega)
  refine ⟨H', e, p.rows, p.cols, p.sized, p.scrOk, p.scr, fun i j i0 i1 j0 j1 => ?_⟩
  have := p.ent i j i0 i1 j0 j1
  simpa only [zero_add] using this

/-! ## C24: matrix-matrix products -/

/-- `C ← alpha*H*B + beta*C`, or with the transpose of `H`, for any number of columns, as executed by one thread. -/
theorem C24_product {tr : Char} (htr : tr = 'N' ∨ tr = 'T') (alpha beta : K) {LDB LDC p : Int} (p0 : 0 ≤ p) {H : HMat K} (hS : Sized H) (hH : H ≠ .nil) {B C : Ptr} {M : Buf K}
    (hO : ScrMOk p M.size H) (hB : ∀ k, 0 ≤ k → k < p → (B.add (k * LDB)).Ok (opCols tr H) M.size) (hC : ∀ k, 0 ≤ k → k < p → (C.add (k * LDC)).Ok (opRows tr H) M.size)
    (hLD : opRows tr H ≤ LDC) (hBC : ∀ k j, 0 ≤ k → k < p → 0 ≤ j → j < opCols tr H → ¬ CIn C LDC (opRows tr H) p ((B.add (k * LDB)).at j))
    (sB : ∀ k j, 0 ≤ k → k < p → 0 ≤ j → j < opCols tr H → ¬ ScrM p H ((B.add (k * LDB)).at j))
    (sC : ∀ k i, 0 ≤ k → k < p → 0 ≤ i → i < opRows tr H → ¬ ScrM p H ((C.add (k * LDC)).at i)) :
    ∃ M', (hmmP tr alpha LDB LDC H p B beta C).run M = some ((), M') ∧ M'.size = M.size ∧
      (∀ k i, 0 ≤ k → k < p → 0 ≤ i → i < opRows tr H → M'.val ((C.add (k * LDC)).at i) =
        beta * M.val ((C.add (k * LDC)).at i) + alpha * ∑ j ∈ Finset.Ico 0 (opCols tr H), op tr H i j * M.val ((B.add (k * LDB)).at j)) ∧
      ∀ a, ¬ CIn C LDC (opRows tr H) p a → ¬ ScrM p H a → M'.val a = M.val a :=
  hmmP_spec htr alpha LDB LDC hS p B C beta M p0 (fun h => (hH h).elim) hO hB hC hLD hBC sB sC

/-- The same for the parallel routine: any number of threads, any assignment of the iterations of its parallel loops to threads, any
interleaving of their memory accesses.  Every execution ends, without undefined behaviour, with the dense product. -/
theorem C24_parallel {tr : Char} (htr : tr = 'N' ∨ tr = 'T') (alpha beta : K) {T : Nat} {LDB LDC p : Int} (p0 : 0 ≤ p) {P Q m n : Int} {b : Int → Int → HMat K}
    (hS : Sized (.hier P Q m n b)) {B C : Ptr} {M : Buf K} (hO : ScrMOk p M.size (.hier P Q m n b))
    (hB : ∀ k, 0 ≤ k → k < p → (B.add (k * LDB)).Ok (opCols tr (.hier P Q m n b)) M.size)
    (hC : ∀ k, 0 ≤ k → k < p → (C.add (k * LDC)).Ok (opRows tr (.hier P Q m n b)) M.size) (hLD : opRows tr (.hier P Q m n b) ≤ LDC)
    (hBC : ∀ k j, 0 ≤ k → k < p → 0 ≤ j → j < opCols tr (.hier P Q m n b) → ¬ CIn C LDC (opRows tr (.hier P Q m n b)) p ((B.add (k * LDB)).at j))
    (sB : ∀ k j, 0 ≤ k → k < p → 0 ≤ j → j < opCols tr (.hier P Q m n b) → ¬ ScrM p (.hier P Q m n b) ((B.add (k * LDB)).at j))
    (sC : ∀ k i, 0 ≤ k → k < p → 0 ≤ i → i < opRows tr (.hier P Q m n b) → ¬ ScrM p (.hier P Q m n b) ((C.add (k * LDC)).at i))
    (hSS : ∀ i j i' j', 0 ≤ i → i < P → 0 ≤ j → j < Q → 0 ≤ i' → i' < P → 0 ≤ j' → j' < Q → ¬ (i = i' ∧ j = j') → ∀ z, ScrM p (b i j) z → ¬ ScrM p (b i' j') z)
    {owner : Nat → Int → Nat} (hown : ∀ r i, owner r i < T) :
    ∃ rs, ghmm tr alpha P Q m n b p B LDB beta C LDC owner = some rs ∧ Regions T rs M fun M' => M'.size = M.size ∧
      (∀ k i, 0 ≤ k → k < p → 0 ≤ i → i < opRows tr (.hier P Q m n b) → M'.val ((C.add (k * LDC)).at i) =
        beta * M.val ((C.add (k * LDC)).at i) + alpha * ∑ j ∈ Finset.Ico 0 (opCols tr (.hier P Q m n b)), op tr (.hier P Q m n b) i j * M.val ((B.add (k * LDB)).at j)) ∧
      ∀ a, ¬ CIn C LDC (opRows tr (.hier P Q m n b)) p a → ¬ ScrM p (.hier P Q m n b) a → M'.val a = M.val a :=
  ghmm_par htr hS p0 hO hB hC hLD hBC sB sC hSS hown

/-- Column `k` of the matrix-matrix product is the matrix-vector product with column `k`. -/
theorem C24_columns {tr : Char} (htr : tr = 'N' ∨ tr = 'T') (alpha beta : K) {LDB LDC p : Int} {H : HMat K} (hS : Sized H) (hH : H ≠ .nil) {B C : Ptr} {M : Buf K}
    (hO : ScrMOk p M.size H) (hB : ∀ k, 0 ≤ k → k < p → (B.add (k * LDB)).Ok (opCols tr H) M.size) (hC : ∀ k, 0 ≤ k → k < p → (C.add (k * LDC)).Ok (opRows tr H) M.size)
    (hLD : opRows tr H ≤ LDC) (hBC : ∀ k j, 0 ≤ k → k < p → 0 ≤ j → j < opCols tr H → ¬ CIn C LDC (opRows tr H) p ((B.add (k * LDB)).at j))
    (sB : ∀ k j, 0 ≤ k → k < p → 0 ≤ j → j < opCols tr H → ¬ ScrM p H ((B.add (k * LDB)).at j))
    (sC : ∀ k i, 0 ≤ k → k < p → 0 ≤ i → i < opRows tr H → ¬ ScrM p H ((C.add (k * LDC)).at i))
    {k : Int} (k0 : 0 ≤ k) (k1 : k < p) (t : Int) (hO' : ScrOk t M.size H)
    (sB' : ∀ j, 0 ≤ j → j < opCols tr H → ¬ Scr t H ((B.add (k * LDB)).at j)) (sC' : ∀ i, 0 ≤ i → i < opRows tr H → ¬ Scr t H ((C.add (k * LDC)).at i)) :
    ∃ M1 M2, (hmmP tr alpha LDB LDC H p B beta C).run M = some ((), M1) ∧ (hmvP tr alpha t H (B.add (k * LDB)) beta (C.add (k * LDC))).run M = some ((), M2) ∧
      ∀ i, 0 ≤ i → i < opRows tr H → M1.val ((C.add (k * LDC)).at i) = M2.val ((C.add (k * LDC)).at i) := by
  obtain ⟨M1, e1, -, v1, -⟩ := C24_product htr alpha beta (by omega) hS hH hO hB hC hLD hBC sB sC
  obtain ⟨M2, e2, -, v2, -⟩ := C23_product htr alpha beta t hS hH hO' (hB k k0 k1) (hC k k0 k1) (fun j j0 j1 h => hBC k j k0 k1 j0 j1 ⟨k, k0, k1, h⟩) sB' sC'
  exact ⟨M1, M2, e1, e2, fun i i0 i1 => by rw [v1 k i k0 k1 i0 i1, v2 i i0 i1]⟩

/-! ## C25: scratch space -/

/-- `FT_SET_NUM_THREADS` is never called with more threads than an existing plan has scratch for. -/
def NeverRaised : Lib → List Ev → Prop
  | _, [] => True
  | l, e :: es => (∀ n, e = .setThreads n → ∀ p ∈ l.plans, n ≤ p) ∧ NeverRaised (l.step e) es

/-- If the number of threads is not raised after planning, no team is larger than the number of threads the plan has scratch for. -/
theorem C25_history : ∀ (es : List Ev) (l : Lib), (∀ p ∈ l.plans, l.threads ≤ p) → NeverRaised l es → ∀ T p, (T, p) ∈ l.executions es → T ≤ p
  | [], _, _, _, _, _, h => by simp [Lib.executions] at h
  | e :: es, l, hl, hr, T, p, h => by
    have h' : (T = l.threads ∧ p ∈ l.plans) ∨ (T, p) ∈ (l.step e).executions es := by
      cases e with
      | execute i =>
        rw [Lib.executions, List.mem_append] at h
        refine h.imp_left fun h => ?_
        simp only [List.mem_map, Option.mem_toList, Prod.mk.injEq] at h
        obtain ⟨q, hq, rfl, rfl⟩ := h
        exact ⟨rfl, List.mem_of_getElem? hq⟩
      | setThreads n => exact Or.inr h
      | plan => exact Or.inr h
    rcases h' with ⟨h1, h2⟩ | h'
    · rw [h1]; exact hl p h2
    · refine C25_history es (l.step e) ?_ hr.2 T p h'
      cases e with
      | execute i => exact hl
      | setThreads n => exact fun p hp => hr.1 n rfl p hp
      | plan =>
        intro p hp
        simp only [Lib.step, List.mem_append, List.mem_singleton] at hp ⊢
        rcases hp with hp | rfl
        · exact hl p hp
        · exact le_refl _

theorem alloc_scr {p c t : Int} (t0 : 0 ≤ t) (t1 : t < p) {s : Nat} : ∀ {H : HMat K}, Sized H → Alloc p c s H → ScrOk t s H
  | .nil, _, _ => trivial
  | .dense _, _, _ => trivial
  | .low L, hS, hA => by
    obtain ⟨-, m0, n0, r0, -⟩ := hS
    obtain ⟨-, ⟨a1, a2, a3, a4⟩, ⟨b1, b2, b3, b4⟩, ap, -⟩ := hA
    have h1 : 0 ≤ L.r * t := mul_nonneg r0 t0
    have h2 : L.r * (t + 1) ≤ L.r * p := Int.mul_le_mul_of_nonneg_left (by omega) r0
    rw [Int.mul_add, Int.mul_one] at h2
    refine ⟨?_, ?_, ?_⟩
    · unfold Ptr.Ok Ptr.add; dsimp only; omega
    · unfold Ptr.Ok Ptr.add; dsimp only; omega
    · intro a h h'
      unfold Ptr.In Ptr.add Ptr.at at h h'
      unfold Apart at ap
      dsimp only at h h'
      omega
  | .hier _ _ _ _ _, hS, hA => fun i j i0 i1 j0 j1 => alloc_scr t0 t1 (hS.2.2.1 i j i0 i1 j0 j1).1 (hA i j i0 i1 j0 j1)

/-- Whatever was done with the library, as long as the number of threads was not raised after planning: every thread of a team executing
a plan computes a product without leaving the scratch arrays allocated at planning time.  It reads `x`, `y` and its own slices of the
scratch arrays and writes to `y` and its own slices. -/
theorem C25_safe {c : Int} {es : List Ev} {l : Lib} (h0 : l.plans = []) (hr : NeverRaised l es) {T p : Int} (hex : (T, p) ∈ l.executions es) {t : Int} (t0 : 0 ≤ t) (t1 : t < T)
    {tr : Char} (htr : tr = 'N' ∨ tr = 'T') (alpha beta : K) {H : HMat K} (hS : Sized H) (hH : H ≠ .nil) {x y : Ptr} {M : Buf K} (hA : Alloc p c M.size H)
    (hx : x.Ok (opCols tr H) M.size) (hy : y.Ok (opRows tr H) M.size) (hxy : ∀ j, 0 ≤ j → j < opCols tr H → ¬ y.In (opRows tr H) (x.at j))
    (sx : ∀ j, 0 ≤ j → j < opCols tr H → ¬ Scr t H (x.at j)) (sy : ∀ j, 0 ≤ j → j < opRows tr H → ¬ Scr t H (y.at j)) :
    (∃ M', (hmvP tr alpha t H x beta y).run M = some ((), M') ∧
      (∀ i, 0 ≤ i → i < opRows tr H → M'.val (y.at i) = beta * M.val (y.at i) + alpha * ∑ j ∈ Finset.Ico 0 (opCols tr H), op tr H i j * M.val (x.at j))) ∧
    (hmvP tr alpha t H x beta y).Acc (fun a => x.In (opCols tr H) a ∨ y.In (opRows tr H) a ∨ Scr t H a) (fun a => y.In (opRows tr H) a ∨ Scr t H a) := by
  have hT := C25_history es l (by rw [h0]; intro p hp; simp at hp) hr T p hex
  obtain ⟨M', e, -, v, -⟩ := C23_product htr alpha beta t hS hH (alloc_scr t0 (by omega) hS hA) hx hy hxy sx sy
  exact ⟨⟨M', e, v⟩, hmvP_acc hS (fun j j0 j1 => Or.inl (Ptr.in_at j0 j1)) (fun i i0 i1 => Or.inr (Or.inl (Ptr.in_at i0 i1)))
    (fun i i0 i1 => Or.inl (Ptr.in_at i0 i1)) (fun a h => Or.inr (Or.inr h)) (fun a h => Or.inr h)⟩

/-- The slices of different threads do not overlap. -/
theorem C25_private {p c t u : Int} {s : Nat} {L : Low K} (hS : Sized (.low L)) (hA : Alloc p c s (.low L)) (t0 : 0 ≤ t) (t1 : t < p) (u0 : 0 ≤ u) (u1 : u < p) (htu : t ≠ u) {a : Int}
    (h : Scr t (.low L) a) : ¬ Scr u (.low L) a := by
  obtain ⟨-, m0, n0, r0, -⟩ := hS
  obtain ⟨-, ⟨a1, a2, a3, a4⟩, ⟨b1, b2, b3, b4⟩, ap, -⟩ := hA
  have le : ∀ {v w : Int}, v < w → L.r * v + L.r ≤ L.r * w := by
    intro v w h
    have h2 : L.r * (v + 1) ≤ L.r * w := Int.mul_le_mul_of_nonneg_left (by omega) r0
    rwa [Int.mul_add, Int.mul_one] at h2
  have h1 : 0 ≤ L.r * t := mul_nonneg r0 t0
  have h2 : 0 ≤ L.r * u := mul_nonneg r0 u0
  have h3 := le t1
  have h4 := le u1
  unfold Apart at ap
  intro h'
  simp only [Scr, Ptr.In, Ptr.add, Ptr.at] at h h'
  rcases lt_or_gt_of_ne htu with c | c
  · have := le c; omega
  · have := le c; omega

/-- Scratch of products with several columns: `check_temps` makes the arrays large enough. -/
theorem C25_columns {p q : Int} (p0 : 0 ≤ p) {s : Nat} : ∀ {H : HMat K}, Sized H → Alloc p q s H → ScrMOk q s H
  | .nil, _, _ => trivial
  | .dense _, _, _ => trivial
  | .low L, hS, hA => by
    intro k k0 k1
    obtain ⟨-, m0, n0, r0, -⟩ := hS
    obtain ⟨hp, ⟨a1, a2, a3, a4⟩, ⟨b1, b2, b3, b4⟩, ap, hre⟩ := hA
    unfold Low.s1 Low.s2
    rw [hp]
    by_cases h : p < k
    · rw [if_pos h, if_pos h]
      obtain ⟨⟨a1, a2, a3, a4⟩, ⟨b1, b2, b3, b4⟩, ap⟩ := hre k h k1
      unfold Apart at ap
      refine ⟨by unfold Ptr.Ok; omega, by unfold Ptr.Ok; omega, fun a => by unfold Ptr.In Ptr.at; omega⟩
    · rw [if_neg h, if_neg h]
      have h2 : L.r * k ≤ L.r * p := Int.mul_le_mul_of_nonneg_left (by omega) r0
      unfold Apart at ap
      refine ⟨by unfold Ptr.Ok; omega, by unfold Ptr.Ok; omega, fun a => by unfold Ptr.In Ptr.at; omega⟩
  | .hier _ _ _ _ _, hS, hA => fun i j i0 i1 j0 j1 => C25_columns p0 (hS.2.2.1 i j i0 i1 j0 j1).1 (hA i j i0 i1 j0 j1)

/-- A history in which the number of threads is raised after planning, and the team that results. -/
theorem C25_raised_history {p T : Int} : (T, p) ∈ (⟨p, []⟩ : Lib).executions [.plan, .setThreads T, .execute 0] := by
  simp [Lib.executions, Lib.step]

theorem rUp_cons {lo hi : Int} (h : lo < hi) : ∃ l, rUp lo hi = lo :: l := by
  unfold rUp
  obtain ⟨k, hk⟩ : ∃ k, (hi - lo).toNat = k + 1 := ⟨(hi - lo).toNat - 1, by omega⟩
  rw [hk, List.range_succ_eq_map]
  refine ⟨List.map (fun k : Nat => lo + (k : Int)) (List.map Nat.succ (List.range k)), ?_⟩
  rw [List.map_cons, Nat.cast_zero, add_zero]

theorem gemv_oob [Nontrivial K] {m n LDA : Int} {alpha : K} {A : Buf K} {x y : Ptr} (hn : 0 < n) (hy : y.size ≤ y.off) (M : Buf K) :
    (gemvP 'T' m n alpha A LDA x 0 y).run M = none := by
  obtain ⟨l, hl⟩ := rUp_cons hn
  have : (betaP (0 : K) n y).run M = none := by
    unfold betaP
    rw [if_pos (by exact zero_ne_one), if_pos rfl, hl, run_each]
    simp only [exec_cons, put]
    rw [if_neg (by omega)]
    rfl
  unfold gemvP
  rw [if_neg (by decide), if_pos rfl, run_bind, this]
  rfl

/-- A thread beyond those the scratch was allocated for leaves the scratch arrays, whatever the low-rank matrix (of positive rank), the
vectors and the scalars. -/
theorem C25_raised [Nontrivial K] {p c t : Int} (ht : p ≤ t) {tr : Char} (htr : tr = 'N' ∨ tr = 'T') {s : Nat} {L : Low K} (hr : 0 < L.r) (hS : Sized (.low L)) (hA : Alloc p c s (.low L))
    (alpha beta : K) (x y : Ptr) (M : Buf K) : (hmvP tr alpha t (.low L) x beta y).run M = none := by
  obtain ⟨hN, -⟩ := hS
  obtain ⟨-, ⟨a1, a2, -, -⟩, -⟩ := hA
  have h2 : L.r * p ≤ L.r * t := Int.mul_le_mul_of_nonneg_left ht (by omega)
  have oob : (L.t1.add (L.r * t)).size ≤ (L.t1.add (L.r * t)).off := by unfold Ptr.add; dsimp only; omega
  rw [hmvP]
  unfold lrmvP
  dsimp only
  rcases htr with rfl | rfl <;> rcases hN with h | h <;> rw [h]
  · rw [if_pos rfl, if_pos rfl, run_bind, gemv_oob hr oob]; rfl
  · rw [if_pos rfl, if_neg (by decide), if_pos rfl, run_bind, gemv_oob hr oob]; rfl
  · rw [if_neg (by decide), if_pos rfl, if_pos rfl, run_bind, gemv_oob hr oob]; rfl
  · rw [if_neg (by decide), if_pos rfl, if_neg (by decide), if_pos rfl, run_bind, gemv_oob hr oob]; rfl

/-! ## C51: norms -/

/-- The squared-norm routines return the sum of the squares of the entries of the matrix. -/
theorem C51_norm2 {H : HMat K} (hS : Sized H) :
    norm2 H = some (∑ i ∈ Finset.Ico 0 H.rows, ∑ j ∈ Finset.Ico 0 H.cols, ent H i j * ent H i j) := norm2_run hS

/-! ## A concrete matrix -/

section Example

/-- The 2 by 3 matrix `[1 2 12; 3 4 18]`: a dense block and a block of rank one, with scratch for two threads. -/
def exL : Low ℤ := ⟨'2', 2, 1, 1, 2, Buf.ofList [2, 3], Buf.ofList [], Buf.ofList [6], ⟨8, 2, 0⟩, ⟨10, 2, 0⟩, fun q => ⟨12, q, 0⟩, fun q => ⟨12 + q, q, 0⟩⟩
def exH : HMat ℤ := .hier 1 2 2 3 fun _ j => if j = 0 then .dense ⟨2, 2, Buf.ofList [1, 3, 2, 4]⟩ else .low exL

theorem exH_sized : Sized exH := by
  refine ⟨by decide, by decide, ?_, by decide, by decide⟩
  intro a c a0 a1 c0 c1
  obtain rfl : a = 0 := by omega
  rcases (by omega : c = 0 ∨ c = 1) with rfl | rfl
  · exact ⟨⟨by decide, by decide, by decide⟩, Or.inr ⟨by decide, by decide⟩⟩
  · exact ⟨⟨by decide, by decide, by decide, by decide, by decide, by decide, by decide⟩, Or.inr ⟨by decide, by decide⟩⟩

theorem exH_scr {t a : Int} (t0 : 0 ≤ t) (t1 : t < 2) (h : Scr t exH a) : 8 ≤ a := by
  obtain ⟨i, j, i0, i1, j0, j1, h⟩ := h
  rcases (by omega : j = 0 ∨ j = 1) with rfl | rfl
  · exact h.elim
  · have h : (exL.t1.add (exL.r * t)).In exL.r a ∨ (exL.t2.add (exL.r * t)).In exL.r a := h
    simp only [exL, Ptr.add, Ptr.In, Ptr.at] at h
    omega

theorem exH_scrOk {t : Int} (t0 : 0 ≤ t) (t1 : t < 2) : ScrOk t 12 exH := by
  intro i j i0 i1 j0 j1
  rcases (by omega : j = 0 ∨ j = 1) with rfl | rfl
  · trivial
  · refine ⟨?_, ?_, fun a => ?_⟩
    · simp only [exL, Ptr.add, Ptr.Ok]; omega
    · simp only [exL, Ptr.add, Ptr.Ok]; omega
    · simp only [exL, Ptr.add, Ptr.In, Ptr.at]; omega

/-- `x = [1, -1, 2]` at 0, `y = [5, 7]` at 3. -/
example : ∃ M', (hmvP 'N' (2 : ℤ) 1 exH ⟨0, 3, 0⟩ 10 ⟨3, 2, 0⟩).run (Buf.ofList [1, -1, 2, 5, 7, 0, 0, 0, 0, 0, 0, 0]) = some ((), M') ∧ M'.val 3 = 96 ∧ M'.val 4 = 140 := by
  obtain ⟨M', e, -, v, -⟩ := C23_product (tr := 'N') (Or.inl rfl) (2 : ℤ) 10 1 exH_sized (by unfold exH; exact fun h => by cases h) (x := ⟨0, 3, 0⟩) (y := ⟨3, 2, 0⟩)
    (M := Buf.ofList [1, -1, 2, 5, 7, 0, 0, 0, 0, 0, 0, 0]) (exH_scrOk (by decide) (by decide)) (by unfold Ptr.Ok; decide) (by unfold Ptr.Ok; decide)
    (by intro j j0 j1 h; change j < 3 at j1; simp only [Ptr.In, Ptr.at] at h; omega)
    (by intro j j0 j1 h; change j < 3 at j1; have := exH_scr (by decide) (by decide) h; simp only [Ptr.at] at this; omega)
    (by intro j j0 j1 h; change j < 2 at j1; have := exH_scr (by decide) (by decide) h; simp only [Ptr.at] at this; omega)
  exact ⟨M', e, (v 0 (by decide) (by decide)).trans (by decide), (v 1 (by decide) (by decide)).trans (by decide)⟩

example : norm2 exH = some 498 := (C51_norm2 exH_sized).trans (by decide)

example : ∃ H', scaleRows 2 (Buf.ofList [5, 7]) exH 0 = some H' ∧ ent H' 1 2 = 252 := by
  obtain ⟨H', e, -, -, -, -, -, v⟩ := C23_scale_rows 2 (x := Buf.ofList [5, 7]) exH_sized (by decide)
  exact ⟨H', e, (v 1 2 (by decide) (by decide) (by decide) (by decide)).trans (by decide)⟩

example : ∃ H', scaleCols 2 (Buf.ofList [5, 7, 9]) exH 0 = some H' ∧ ent H' 0 1 = 28 := by
  obtain ⟨H', e, -, -, -, -, -, v⟩ := C23_scale_columns 2 (x := Buf.ofList [5, 7, 9]) exH_sized (by decide)
  exact ⟨H', e, (v 0 1 (by decide) (by decide) (by decide) (by decide)).trans (by decide)⟩

theorem exL_alloc : Alloc 2 3 18 (.low exL) := by
  refine ⟨rfl, by decide, by decide, by unfold Apart; decide, ?_⟩
  intro q h1 h2
  obtain rfl : q = 3 := by omega
  exact ⟨by decide, by decide, by unfold Apart; decide⟩

theorem exH_alloc : Alloc 2 3 18 exH := by
  intro i j i0 i1 j0 j1
  rcases (by omega : j = 0 ∨ j = 1) with rfl | rfl
  · trivial
  · exact exL_alloc

end Example

section Example2
/-- Two of these matrices, one above the other, with separate scratch arrays at 20 and 40. -/
def ex2L (b : Int) : Low ℤ := ⟨'2', 2, 1, 1, 2, Buf.ofList [2, 3], Buf.ofList [], Buf.ofList [6], ⟨b, 2, 0⟩, ⟨b + 2, 2, 0⟩, fun q => ⟨b + 4, q, 0⟩, fun q => ⟨b + 4 + q, q, 0⟩⟩
def ex2b (i j : Int) : HMat ℤ := if j = 0 then .dense ⟨2, 2, Buf.ofList [1, 3, 2, 4]⟩ else .low (ex2L (20 + 20 * i))
def ex2H : HMat ℤ := .hier 2 2 4 3 ex2b

theorem ex2_sized : Sized ex2H := by
  refine ⟨by decide, by decide, ?_, by decide, by decide⟩
  intro a c a0 a1 c0 c1
  rcases (by omega : c = 0 ∨ c = 1) with rfl | rfl
  · exact ⟨⟨by decide, by decide, by decide⟩, Or.inr ⟨rfl, rfl⟩⟩
  · exact ⟨⟨Or.inl rfl, by show (0 : Int) ≤ 2; decide, by show (0 : Int) ≤ 1; decide, by show (0 : Int) ≤ 1; decide, by show (2 : Int) * 1 ≤ 2; decide,
      by show (1 : Int) * 1 ≤ 1; decide, fun h => absurd (show '2' = '3' from h) (by decide)⟩, Or.inr ⟨rfl, rfl⟩⟩

theorem ex2_s1 (b k : Int) : (ex2L b).s1 k = if 2 < k then ⟨b + 4, k, 0⟩ else ⟨b, 2, 0⟩ := rfl
theorem ex2_s2 (b k : Int) : (ex2L b).s2 k = if 2 < k then ⟨b + 4 + k, k, 0⟩ else ⟨b + 2, 2, 0⟩ := rfl
theorem ex2_r (b : Int) : (ex2L b).r = 1 := rfl

theorem ex2_scr {i j a : Int} (h : ScrM 3 (ex2b i j) a) : 20 + 20 * i ≤ a ∧ a < 30 + 20 * i := by
  unfold ex2b at h
  split_ifs at h
  · exact h.elim
  · obtain ⟨k, k0, k1, h⟩ := h
    rw [ex2_s1, ex2_s2, ex2_r] at h
    by_cases h2 : 2 < k
    · rw [if_pos h2, if_pos h2] at h
      simp only [Ptr.In, Ptr.at] at h
      omega
    · rw [if_neg h2, if_neg h2] at h
      simp only [Ptr.In, Ptr.at] at h
      omega

theorem ex2_scrOk : ScrMOk 3 60 ex2H := by
  intro i j i0 i1 j0 j1
  unfold ex2b
  split_ifs
  · trivial
  · intro k k0 k1
    rw [ex2_s1, ex2_s2, ex2_r]
    by_cases h2 : 2 < k
    · rw [if_pos h2, if_pos h2]
      simp only [Ptr.Ok, Ptr.In, Ptr.at]
      refine ⟨by omega, by omega, fun a => by omega⟩
    · rw [if_neg h2, if_neg h2]
      simp only [Ptr.Ok, Ptr.In, Ptr.at]
      refine ⟨by omega, by omega, fun a => by omega⟩

/-- The transposed product with two columns, by two threads: `B` is 4 by 2 at 0 and `C` is 3 by 2 at 8. -/
example (M : Buf ℤ) (hM : M.size = 60) : ∃ rs, ghmm 'T' 2 2 2 4 3 ex2b 2 ⟨0, 8, 0⟩ 4 5 ⟨8, 6, 0⟩ 3 (fun _ i => (i % 2).toNat) = some rs ∧
    Regions 2 rs M fun M' => M'.val 10 = 5 * M.val 10 + 2 * (12 * M.val 0 + 18 * M.val 1 + 12 * M.val 2 + 18 * M.val 3) := by
  obtain ⟨rs, e, h⟩ := C24_parallel (tr := 'T') (Or.inr rfl) (2 : ℤ) 5 (T := 2) (LDB := 4) (LDC := 3) (p := 2) (by decide) ex2_sized (B := ⟨0, 8, 0⟩) (C := ⟨8, 6, 0⟩) (M := M)
    (by rw [hM]; intro i j i0 i1 j0 j1; exact (ex2_scrOk i j i0 i1 j0 j1).mono (by decide))
    (by intro k k0 k1; rw [hM]; change Ptr.Ok _ 4 _; simp only [Ptr.Ok, Ptr.add]; omega)
    (by intro k k0 k1; rw [hM]; change Ptr.Ok _ 3 _; simp only [Ptr.Ok, Ptr.add]; omega)
    (by decide)
    (by
      intro k j k0 k1 j0 j1
      change j < 4 at j1
      rintro ⟨k', a, b, h⟩
      change Ptr.In _ 3 _ at h
      simp only [Ptr.In, Ptr.add, Ptr.at] at h
      omega)
    (by
      intro k j k0 k1 j0 j1
      change j < 4 at j1
      rintro ⟨i', j', a0, a1, b0, b1, h⟩
      have := ex2_scr (h.mono (by decide))
      simp only [Ptr.add, Ptr.at] at this
      omega)
    (by
      intro k j k0 k1 j0 j1
      change j < 3 at j1
      rintro ⟨i', j', a0, a1, b0, b1, h⟩
      have := ex2_scr (h.mono (by decide))
      simp only [Ptr.add, Ptr.at] at this
      omega)
    (by
      intro i j i' j' i0 i1 j0 j1 i0' i1' j0' j1' hne z h h'
      have h1 := ex2_scr (ScrM.mono (by decide) h)
      have h2 := ex2_scr (ScrM.mono (by decide) h')
      have : i = i' := by omega
      subst this
      rcases (by omega : j = 0 ∨ j' = 0) with rfl | rfl
      · exact h.elim
      · exact h'.elim)
    (owner := fun _ i => (i % 2).toNat) (fun _ i => by omega)
  refine ⟨rs, e, Regions.mono (fun M' h => ?_) h⟩
  rw [show (10 : Int) = ((⟨8, 6, 0⟩ : Ptr).add (0 * 3)).at 2 by decide, h.2.1 0 2 (by decide) (by decide) (by decide) (by decide)]
  have : Finset.Ico 0 (opCols 'T' (.hier 2 2 4 3 ex2b)) = {0, 1, 2, 3} := by decide
  rw [this, Finset.sum_insert (by decide), Finset.sum_insert (by decide), Finset.sum_insert (by decide), Finset.sum_singleton]
  rw [show op 'T' (.hier 2 2 4 3 ex2b) 2 0 = 12 by decide, show op 'T' (.hier 2 2 4 3 ex2b) 2 1 = 18 by decide,
    show op 'T' (.hier 2 2 4 3 ex2b) 2 2 = 12 by decide, show op 'T' (.hier 2 2 4 3 ex2b) 2 3 = 18 by decide]
  simp only [Ptr.add, Ptr.at]
  ring_nf

end Example2

section Example

/-- A history: two threads, a plan, one thread, execution, two threads, execution. -/
example : (2, 2) ∈ (⟨2, []⟩ : Lib).executions [.plan, .setThreads 1, .execute 0, .setThreads 2, .execute 0] ∧
    NeverRaised ⟨2, []⟩ [.plan, .setThreads 1, .execute 0, .setThreads 2, .execute 0] := by
  constructor
  · decide
  · simp [NeverRaised, Lib.step]

/-- The second thread of the second execution. -/
example (M : Buf ℤ) (hM : M.size = 18) : ∃ M', (hmvP 'N' 2 1 exH ⟨0, 3, 0⟩ 10 ⟨3, 2, 0⟩).run M = some ((), M') := by
  obtain ⟨⟨M', e, -⟩, -⟩ := C25_safe (T := 2) (p := 2) (c := 3) (l := ⟨2, []⟩) (es := [.plan, .setThreads 1, .execute 0, .setThreads 2, .execute 0]) rfl
    (by simp [NeverRaised, Lib.step]) (by decide) (t := 1) (by decide) (by decide) (tr := 'N') (Or.inl rfl) (2 : ℤ) 10 exH_sized (by unfold exH; exact fun h => by cases h)
    (x := ⟨0, 3, 0⟩) (y := ⟨3, 2, 0⟩) (M := M) (by rw [hM]; exact exH_alloc) (by rw [hM]; unfold Ptr.Ok; decide) (by rw [hM]; unfold Ptr.Ok; decide)
    (by intro j j0 j1 h; change j < 3 at j1; simp only [Ptr.In, Ptr.at] at h; omega)
    (by intro j j0 j1 h; change j < 3 at j1; have := exH_scr (by decide) (by decide) h; simp only [Ptr.at] at this; omega)
    (by intro j j0 j1 h; change j < 2 at j1; have := exH_scr (by decide) (by decide) h; simp only [Ptr.at] at this; omega)
  exact ⟨M', e⟩

example (M : Buf ℤ) : (hmvP 'N' 1 2 (.low exL) ⟨0, 1, 0⟩ 0 ⟨1, 2, 0⟩).run M = none :=
  C25_raised (p := 2) (by decide) (Or.inl rfl) (by decide) ((exH_sized.2.2.1 0 1 (by decide) (by decide) (by decide) (by decide)).1) exL_alloc _ _ _ _ M

end Example

end FT.Props.Hier
