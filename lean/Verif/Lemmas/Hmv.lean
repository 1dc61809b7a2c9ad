import Verif.Lemmas.Hier
import Verif.Props.HierSpec
import Mathlib.Algebra.Order.BigOperators.Group.Finset

/-! # The product of a hierarchical matrix and a vector -/

namespace FT.Props.Hier
open FT FT.Model FT.Prog
variable {K : Type*} [CommRing K] [DecidableEq K]

/-- From `M` to `M'`: `y` becomes `z`, nothing else changes outside `S`. -/
def Sets (M M' : Buf K) (y : Ptr) (n : Int) (S : Int → Prop) (z : Int → K) : Prop :=
  M'.size = M.size ∧ (∀ i, 0 ≤ i → i < n → M'.val (y.at i) = z i) ∧ ∀ a, ¬ y.In n a → ¬ S a → M'.val a = M.val a

theorem col_rd {m n : Int} {A : Buf K} (hs : m * n ≤ A.size) {i j : Int} (i0 : 0 ≤ i) (i1 : i < m) (j0 : 0 ≤ j) (j1 : j < n) :
    A.rd (i + j * m) = some (A.val (i + j * m)) := by
  have h1 : 0 ≤ j * m := Int.mul_nonneg j0 (by omega)
  have h2 : (j + 1) * m ≤ n * m := Int.mul_le_mul_of_nonneg_right (by omega) (by omega)
  rw [Int.add_mul, Int.one_mul] at h2
  rw [Int.mul_comm m n] at hs
  exact Buf.rd_of (by omega) (by omega)

theorem dense_run {tr : Char} (htr : tr = 'N' ∨ tr = 'T') {alpha beta : K} {D : Dense K} (hS : Sized (.dense D)) {x y : Ptr} {M : Buf K}
    (hx : x.Ok (opCols tr (.dense D)) M.size) (hy : y.Ok (opRows tr (.dense D)) M.size)
    (hxy : ∀ j, 0 ≤ j → j < opCols tr (.dense D) → ¬ y.In (opRows tr (.dense D)) (x.at j)) :
    (demvP tr alpha D x beta y).run M = some ((), updP M y (opRows tr (.dense D)) fun i =>
      beta * M.val (y.at i) + alpha * ∑ j ∈ Finset.Ico 0 (opCols tr (.dense D)), op tr (.dense D) i j * M.val (x.at j)) := by
  obtain ⟨h0, h1, h2⟩ := hS
  unfold demvP
  rcases htr with rfl | rfl
  · unfold opRows opCols HMat.rows HMat.cols op at *
    simp only [if_true] at *
    rw [gemvN_run hx hy (fun i j a b c d => col_rd h2 a b c d) hxy]
    refine congrArg (fun z => some ((), z)) (updP_congr fun i a b => ?_)
    congr 2
    refine sum_Ico_congr fun j c d => ?_
    rw [ent, if_pos ⟨a, b, c, d⟩]
  · unfold opRows opCols HMat.rows HMat.cols op at *
    simp only [show ('T' = 'N') = False by decide, if_false] at *
    rw [gemvT_run hx hy (fun i j a b c d => col_rd h2 a b c d) hxy]
    refine congrArg (fun z => some ((), z)) (updP_congr fun i a b => ?_)
    congr 2
    refine sum_Ico_congr fun j c d => ?_
    rw [ent, if_pos ⟨c, d, a, b⟩]

theorem two_sum {r n : Int} (f : Int → K) (g : Int → Int → K) (x : Int → K) :
    ∑ k ∈ Finset.Ico 0 r, f k * (∑ j ∈ Finset.Ico 0 n, g k j * x j) = ∑ j ∈ Finset.Ico 0 n, (∑ k ∈ Finset.Ico 0 r, f k * g k j) * x j := by
  simp only [Finset.mul_sum, Finset.sum_mul]
  rw [Finset.sum_comm]
  exact Finset.sum_congr rfl fun _ _ => Finset.sum_congr rfl fun _ _ => by ring

theorem low_run {tr : Char} (htr : tr = 'N' ∨ tr = 'T') {alpha beta : K} {L : Low K} (hS : Sized (.low L)) {t : Int} {x y : Ptr} {M : Buf K}
    (hO : ScrOk t M.size (.low L)) (hx : x.Ok (opCols tr (.low L)) M.size) (hy : y.Ok (opRows tr (.low L)) M.size)
    (sx : ∀ j, 0 ≤ j → j < opCols tr (.low L) → ¬ Scr t (.low L) (x.at j)) (sy : ∀ j, 0 ≤ j → j < opRows tr (.low L) → ¬ Scr t (.low L) (y.at j)) :
    ∃ M', (lrmvP tr alpha L t x beta y).run M = some ((), M') ∧ Sets M M' y (opRows tr (.low L)) (Scr t (.low L)) fun i =>
      beta * M.val (y.at i) + alpha * ∑ j ∈ Finset.Ico 0 (opCols tr (.low L)), op tr (.low L) i j * M.val (x.at j) := by
  obtain ⟨hN, m0, n0, r0, hU, hV, hS3⟩ := hS
  obtain ⟨o1, o2, o3⟩ := hO
  simp only [Scr] at sx sy
  unfold lrmvP
  dsimp only
  generalize ht1 : L.t1.add (L.r * t) = t1 at *
  generalize ht2 : L.t2.add (L.r * t) = t2 at *
  -- a vector in scratch does not meet `y`
  have ny : ∀ (s : Ptr), (∀ j, 0 ≤ j → j < opRows tr (.low L) → ¬ s.In L.r (y.at j)) → ∀ k, 0 ≤ k → k < L.r → ¬ y.In (opRows tr (.low L)) (s.at k) := by
    intro s hs k k0 k1 h
    obtain ⟨j, j0, j1, e⟩ := Ptr.in_iff.1 h
    exact hs j j0 j1 (e ▸ Ptr.in_at k0 k1)
  have n1 := ny t1 (fun j a b h => sy j a b (Or.inl h))
  have n2 := ny t2 (fun j a b h => sy j a b (Or.inr h))
  have n12 : ∀ k, 0 ≤ k → k < L.r → ¬ t2.In L.r (t1.at k) := fun k a b => o3 _ (Ptr.in_at a b)
  rcases htr with rfl | rfl
  · unfold opRows opCols HMat.rows HMat.cols op at *
    simp only [if_true] at *
    rcases hN with hN | hN
    · simp only [hN, if_true]
      rw [run_then (gemvT_run hx o1 (fun i j a b c d => col_rd hV a b c d) (fun j a b h => sx j a b (Or.inl h))),
        gemvN_run (x := t1) (by exact o1) (by exact hy) (fun i j a b c d => col_rd hU a b c d) n1]
      refine ⟨_, rfl, rfl, fun i a b => ?_, fun c h1 h2 => ?_⟩
      · rw [updP_in a b, updP_out (fun h => sy i a b (Or.inl h))]
        congr 2
        rw [sum_Ico_congr (g := fun k => L.U.val (i + k * L.m) * ∑ j ∈ Finset.Ico 0 L.n, L.V.val (j + k * L.n) * M.val (x.at j)) (fun k c d => by
          rw [updP_in c d, zero_mul, zero_add, one_mul]), two_sum]
        refine sum_Ico_congr fun j c d => ?_
        rw [ent, if_pos ⟨a, b, c, d⟩, if_pos hN]
      · simp only [Scr, ht1, ht2] at h2
        rw [updP_out h1, updP_out (fun h => h2 (Or.inl h))]
    · simp only [hN, show ('3' = '2') = False by decide, if_false, if_true]
      rw [run_then (gemvT_run hx o1 (fun i j a b c d => col_rd hV a b c d) (fun j a b h => sx j a b (Or.inl h))),
        run_then (gemvN_run (x := t1) (y := t2) (by exact o1) (by exact o2) (fun i j a b c d => col_rd (hS3 hN) a b c d) n12),
        gemvN_run (x := t2) (by exact o2) (by exact hy) (fun i j a b c d => col_rd hU a b c d) n2]
      refine ⟨_, rfl, rfl, fun i a b => ?_, fun c h1 h2 => ?_⟩
      · rw [updP_in a b, updP_out (fun h => sy i a b (Or.inr h)), updP_out (fun h => sy i a b (Or.inl h))]
        congr 2
        rw [sum_Ico_congr (g := fun k => L.U.val (i + k * L.m) * ∑ j ∈ Finset.Ico 0 L.n, (∑ l ∈ Finset.Ico 0 L.r, L.S.val (k + l * L.r) * L.V.val (j + l * L.n)) * M.val (x.at j)) (fun k c d => by
          rw [updP_in c d, zero_mul, zero_add, one_mul, ← two_sum]
          congr 1
          refine sum_Ico_congr fun l e f => ?_
          rw [updP_in e f, zero_mul, zero_add, one_mul]), two_sum]
        refine sum_Ico_congr fun j c d => ?_
        rw [ent, if_pos ⟨a, b, c, d⟩, if_neg (by rw [hN]; decide)]
        congr 1
        refine sum_Ico_congr fun k e f => ?_
        rw [Finset.mul_sum]
        exact sum_Ico_congr fun l g h => by ring
      · simp only [Scr, ht1, ht2] at h2
        rw [updP_out h1, updP_out (fun h => h2 (Or.inr h)), updP_out (fun h => h2 (Or.inl h))]
  · unfold opRows opCols HMat.rows HMat.cols op at *
    simp only [show ('T' = 'N') = False by decide, if_false, if_true] at *
    rcases hN with hN | hN
    · simp only [hN, if_true]
      rw [run_then (gemvT_run hx o1 (fun i j a b c d => col_rd hU a b c d) (fun j a b h => sx j a b (Or.inl h))),
        gemvN_run (x := t1) (by exact o1) (by exact hy) (fun i j a b c d => col_rd hV a b c d) n1]
      refine ⟨_, rfl, rfl, fun i a b => ?_, fun c h1 h2 => ?_⟩
      · rw [updP_in a b, updP_out (fun h => sy i a b (Or.inl h))]
        congr 2
        rw [sum_Ico_congr (g := fun k => L.V.val (i + k * L.n) * ∑ j ∈ Finset.Ico 0 L.m, L.U.val (j + k * L.m) * M.val (x.at j)) (fun k c d => by
          rw [updP_in c d, zero_mul, zero_add, one_mul]), two_sum]
        refine sum_Ico_congr fun j c d => ?_
        rw [ent, if_pos ⟨c, d, a, b⟩, if_pos hN]
        congr 1
        exact sum_Ico_congr fun k e f => by ring
      · simp only [Scr, ht1, ht2] at h2
        rw [updP_out h1, updP_out (fun h => h2 (Or.inl h))]
    · simp only [hN, show ('3' = '2') = False by decide, if_false, if_true]
      rw [run_then (gemvT_run hx o1 (fun i j a b c d => col_rd hU a b c d) (fun j a b h => sx j a b (Or.inl h))),
        run_then (gemvT_run (x := t1) (y := t2) (by exact o1) (by exact o2) (fun i j a b c d => col_rd (hS3 hN) a b c d) n12),
        gemvN_run (x := t2) (by exact o2) (by exact hy) (fun i j a b c d => col_rd hV a b c d) n2]
      refine ⟨_, rfl, rfl, fun i a b => ?_, fun c h1 h2 => ?_⟩
      · rw [updP_in a b, updP_out (fun h => sy i a b (Or.inr h)), updP_out (fun h => sy i a b (Or.inl h))]
        congr 2
        rw [sum_Ico_congr (g := fun l => L.V.val (i + l * L.n) * ∑ j ∈ Finset.Ico 0 L.m, (∑ k ∈ Finset.Ico 0 L.r, L.S.val (k + l * L.r) * L.U.val (j + k * L.m)) * M.val (x.at j)) (fun l c d => by
          rw [updP_in c d, zero_mul, zero_add, one_mul, ← two_sum]
          congr 1
          refine sum_Ico_congr fun k e f => ?_
          rw [updP_in e f, zero_mul, zero_add, one_mul]), two_sum]
        refine sum_Ico_congr fun j c d => ?_
        rw [ent, if_pos ⟨c, d, a, b⟩, if_neg (by rw [hN]; decide)]
        congr 1
        rw [Finset.sum_comm]
        refine sum_Ico_congr fun l e f => ?_
        rw [Finset.mul_sum]
        exact sum_Ico_congr fun k g h => by ring
      · simp only [Scr, ht1, ht2] at h2
        rw [updP_out h1, updP_out (fun h => h2 (Or.inr h)), updP_out (fun h => h2 (Or.inl h))]


/-! ## Blocks -/

/-- Sum of the first `k` widths. -/
def pre (w : Int → Int) (k : Int) : Int := ∑ i ∈ Finset.Ico 0 k, w i

theorem pre_zero (w : Int → Int) : pre w 0 = 0 := by unfold pre; rw [Finset.Ico_self, Finset.sum_empty]

theorem pre_succ {w : Int → Int} {k : Int} (h : 0 ≤ k) : pre w (k + 1) = pre w k + w k := sum_Ico_succ h _

theorem pre_mono {w : Int → Int} {n : Int} (hw : ∀ i, 0 ≤ i → i < n → 0 ≤ w i) {j k : Int} (h1 : j ≤ k) (h2 : k ≤ n) : pre w j ≤ pre w k := by
  unfold pre
  refine Finset.sum_le_sum_of_subset_of_nonneg (Finset.Ico_subset_Ico_right h1) fun i hi _ => ?_
  rw [Finset.mem_Ico] at hi
  exact hw i hi.1 (by omega)

theorem pre_nonneg {w : Int → Int} {n : Int} (hw : ∀ i, 0 ≤ i → i < n → 0 ≤ w i) {k : Int} (h2 : k ≤ n) : 0 ≤ pre w k := by
  unfold pre
  refine Finset.sum_nonneg fun i hi => ?_
  rw [Finset.mem_Ico] at hi
  exact hw i hi.1 (by omega)

/-- The part from `k` of width `w k` lies in the whole. -/
theorem pre_fits {w : Int → Int} {n : Int} (hw : ∀ i, 0 ≤ i → i < n → 0 ≤ w i) {k : Int} (h0 : 0 ≤ k) (h1 : k < n) : 0 ≤ pre w k ∧ pre w k + w k ≤ pre w n := by
  refine ⟨pre_nonneg hw (by omega), ?_⟩
  rw [← pre_succ h0]
  exact pre_mono hw (by omega) (le_refl _)

theorem sum_shift {lo w n : Int} (h0 : 0 ≤ lo) (h1 : lo + w ≤ n) (f : Int → K) (hz : ∀ j, ¬ (lo ≤ j ∧ j < lo + w) → f j = 0) :
    ∑ j ∈ Finset.Ico 0 n, f j = ∑ j ∈ Finset.Ico 0 w, f (lo + j) := by
  rw [sum_Ico_shrink (lo' := lo) (hi' := lo + w) (fun k _ _ h => hz k h) (by omega) (by omega)]
  refine (Finset.sum_bij (fun j _ => lo + j) ?_ ?_ ?_ ?_).symm
  · intro j hj; rw [Finset.mem_Ico] at *; omega
  · intro j _ k _ h; omega
  · intro j hj; rw [Finset.mem_Ico] at hj; exact ⟨j - lo, by rw [Finset.mem_Ico]; omega, by omega⟩
  · intro j _; rfl

/-- The product with an assembled matrix is the sum of the products with the blocks. -/
theorem assemble {O I : Int} {xs ys : Int → Int} (hxs : ∀ o, 0 ≤ o → o < O → 0 ≤ xs o) {e : Int → Int → Int → Int → K}
    (he : ∀ o i, 0 ≤ o → o < O → 0 ≤ i → i < I → ∀ k j, ¬ ((0 ≤ k ∧ k < ys i) ∧ 0 ≤ j ∧ j < xs o) → e o i k j = 0) (X : Int → K) (k : Int) :
    ∑ j ∈ Finset.Ico 0 (pre xs O), (∑ o ∈ Finset.Ico 0 O, ∑ i ∈ Finset.Ico 0 I, e o i (k - pre ys i) (j - pre xs o)) * X j =
    ∑ o ∈ Finset.Ico 0 O, ∑ i ∈ Finset.Ico 0 I, if pre ys i ≤ k ∧ k < pre ys i + ys i then
      ∑ j ∈ Finset.Ico 0 (xs o), e o i (k - pre ys i) j * X (pre xs o + j) else 0 := by
  simp only [Finset.sum_mul]
  rw [Finset.sum_comm]
  refine sum_Ico_congr fun o o0 o1 => ?_
  rw [Finset.sum_comm]
  refine sum_Ico_congr fun i i0 i1 => ?_
  obtain ⟨p0, p1⟩ := pre_fits hxs o0 o1
  rw [sum_shift p0 p1 (fun j => e o i (k - pre ys i) (j - pre xs o) * X j) (fun j hj => by
    rw [he o i o0 o1 i0 i1 _ _ (by omega), zero_mul])]
  split_ifs with h
  · refine sum_Ico_congr fun j _ _ => ?_
    rw [show pre xs o + j - pre xs o = j by omega]
  · refine Finset.sum_eq_zero fun j _ => ?_
    rw [he o i o0 o1 i0 i1 _ _ (by omega), zero_mul]

theorem Sets.trans {M0 M M' : Buf K} {y : Ptr} {n p w : Int} {S : Int → Prop} {z g : Int → K} (h : Sets M0 M y n S z) (p0 : 0 ≤ p) (pn : p + w ≤ n)
    (hS : ∀ k, 0 ≤ k → k < n → ¬ S (y.at k)) (h' : Sets M M' (y.add p) w S fun k => M.val ((y.add p).at k) + g k) :
    Sets M0 M' y n S fun k => z k + if p ≤ k ∧ k < p + w then g (k - p) else 0 := by
  obtain ⟨a1, a2, a3⟩ := h
  obtain ⟨b1, b2, b3⟩ := h'
  refine ⟨b1.trans a1, fun k k0 k1 => ?_, fun a ha hs => ?_⟩
  · dsimp only
    split_ifs with c
    · have := b2 (k - p) (by omega) (by omega)
      dsimp only at this
      rw [Ptr.add_at, show p + (k - p) = k by omega, a2 k k0 k1] at this
      exact this
    · rw [b3 _ (by rw [Ptr.add_in]; unfold Ptr.at; omega) (hS k k0 k1), a2 k k0 k1, add_zero]
  · rw [b3 a (by rw [Ptr.add_in]; unfold Ptr.In Ptr.at at *; omega) hs, a3 a ha hs]

theorem blocksP_run {O I : Int} (hO : 0 ≤ O) (hI : 0 ≤ I) {xsz ysz : Int → Option Int} {xs ys : Int → Int}
    (hxs : ∀ o, 0 ≤ o → o < O → xsz o = some (xs o)) (hys : ∀ i, 0 ≤ i → i < I → ysz i = some (ys i))
    (ys0 : ∀ i, 0 ≤ i → i < I → 0 ≤ ys i) {call : Int → Int → Ptr → Ptr → Prog K Unit} {x y : Ptr} {S : Int → Prop} {G : Int → Int → Int → K} {M0 : Buf K}
    (hcall : ∀ o i, 0 ≤ o → o < O → 0 ≤ i → i < I → ∀ M : Buf K, M.size = M0.size → (∀ a, ¬ y.In (pre ys I) a → ¬ S a → M.val a = M0.val a) →
      ∃ M', (call o i (x.add (pre xs o)) (y.add (pre ys i))).run M = some ((), M') ∧
        Sets M M' (y.add (pre ys i)) (ys i) S fun k => M.val ((y.add (pre ys i)).at k) + G o i k)
    (hyS : ∀ k, 0 ≤ k → k < pre ys I → ¬ S (y.at k)) :
    ∃ M', (blocksP O I xsz ysz call x y).run M0 = some ((), M') ∧ Sets M0 M' y (pre ys I) S fun k => M0.val (y.at k) +
      ∑ o ∈ Finset.Ico 0 O, ∑ i ∈ Finset.Ico 0 I, if pre ys i ≤ k ∧ k < pre ys i + ys i then G o i (k - pre ys i) else 0 := by
  set D : Int → Int → Int → K := fun o i k => if pre ys i ≤ k ∧ k < pre ys i + ys i then G o i (k - pre ys i) else 0 with hD
  unfold blocksP
  obtain ⟨q, M', e, -, hM'⟩ := each_upS (K := K) (lo := 0) (hi := O) (s := (0 : Int)) (A := M0)
    (body := fun o q =>
      (each (fun i p => (call o i (x.add q) (y.add p)).bind fun _ => (ofOption (ysz i)).bind fun w => .ret (p + w)) (rUp 0 I) 0).bind fun _ =>
      (ofOption (xsz o)).bind fun w => .ret (q + w))
    (fun o q M => q = pre xs o ∧ Sets M0 M y (pre ys I) S fun k => M0.val (y.at k) + ∑ o' ∈ Finset.Ico 0 o, ∑ i ∈ Finset.Ico 0 I, D o' i k)
    ⟨(pre_zero xs).symm, rfl, fun k _ _ => by dsimp only; rw [Finset.Ico_self, Finset.sum_empty, add_zero], fun _ _ _ => rfl⟩ (by
      rintro o o0 o1 q M ⟨rfl, hM⟩
      obtain ⟨p, M', e, -, hM'⟩ := each_upS (K := K) (lo := 0) (hi := I) (s := (0 : Int)) (A := M)
        (body := fun i p => (call o i (x.add (pre xs o)) (y.add p)).bind fun _ => (ofOption (ysz i)).bind fun w => .ret (p + w))
        (fun i p M => p = pre ys i ∧ Sets M0 M y (pre ys I) S fun k => (M0.val (y.at k) + ∑ o' ∈ Finset.Ico 0 o, ∑ i ∈ Finset.Ico 0 I, D o' i k) +
          ∑ i' ∈ Finset.Ico 0 i, D o i' k)
        ⟨(pre_zero ys).symm, hM.1, fun k k0 k1 => by rw [hM.2.1 k k0 k1]; dsimp only; rw [Finset.Ico_self, Finset.sum_empty, add_zero], hM.2.2⟩ (by
          rintro i i0 i1 p M ⟨rfl, hM⟩
          obtain ⟨M', e, hM'⟩ := hcall o i o0 o1 i0 i1 M hM.1 hM.2.2
          obtain ⟨f0, f1⟩ := pre_fits ys0 i0 i1
          refine ⟨pre ys (i + 1), M', ?_, rfl, ?_⟩
          · rw [run_then e, run_ofOption_bind (hys i i0 i1), pre_succ i0]; rfl
          · have := Sets.trans hM f0 f1 hyS hM'
            refine ⟨this.1, fun k k0 k1 => ?_, this.2.2⟩
            rw [this.2.1 k k0 k1]
            dsimp only
            rw [sum_Ico_succ i0, hD, add_assoc])
      refine ⟨pre xs (o + 1), M', ?_, rfl, hM'.1, fun k k0 k1 => ?_, hM'.2.2⟩
      · rw [run_then e, run_ofOption_bind (hxs o o0 o1), pre_succ o0]; rfl
      · rw [hM'.2.1 k k0 k1]
        dsimp only
        rw [sum_Ico_succ o0, max_eq_right hI, add_assoc])
  refine ⟨M', ?_, hM'.1, fun k k0 k1 => ?_, hM'.2.2⟩
  · rw [run_then e]; rfl
  · rw [hM'.2.1 k k0 k1]
    dsimp only
    rw [max_eq_right hO]

/-! ## Induction over the tree -/

theorem sized_nonneg : ∀ {H : HMat K}, Sized H → 0 ≤ H.rows ∧ 0 ≤ H.cols
  | .nil, _ => ⟨show (0 : Int) ≤ 1 by omega, show (0 : Int) ≤ 1 by omega⟩
  | .dense _, h => ⟨h.1, h.2.1⟩
  | .low _, h => ⟨h.2.1, h.2.2.1⟩
  | .hier M N m n b, ⟨h1, h2, h3, h4, h5⟩ => by
    simp only [HMat.rows, HMat.cols]
    rw [h4, h5]
    exact ⟨pre_nonneg (w := fun k => (b k (N - 1)).rows) (n := M) (fun i i0 i1 => (sized_nonneg (h3 i (N - 1) i0 i1 (by omega) (by omega)).1).1) (le_refl _),
      pre_nonneg (w := fun k => (b 0 k).cols) (n := N) (fun j j0 j1 => (sized_nonneg (h3 0 j (by omega) (by omega) j0 j1).1).2) (le_refl _)⟩

/-- There is nothing outside the matrix. -/
theorem ent_out : ∀ {H : HMat K}, Sized H → ∀ {i j : Int}, ¬ ((0 ≤ i ∧ i < H.rows) ∧ 0 ≤ j ∧ j < H.cols) → ent H i j = 0
  | .nil, _, _, _, _ => rfl
  | .dense D, _, i, j, h => by
    simp only [HMat.rows, HMat.cols] at h
    rw [ent, if_neg (by omega)]
  | .low L, _, i, j, h => by
    simp only [HMat.rows, HMat.cols] at h
    rw [ent, if_neg (by omega)]
  | .hier M N m n b, ⟨h1, h2, h3, h4, h5⟩, i, j, h => by
    simp only [HMat.rows, HMat.cols] at h
    rw [ent]
    refine Finset.sum_eq_zero fun a ha => Finset.sum_eq_zero fun c hc => ?_
    rw [Finset.mem_Ico] at ha hc
    obtain ⟨hs, hb⟩ := h3 a c ha.1 ha.2 hc.1 hc.2
    rcases hb with hb | ⟨hr, hl⟩
    · rw [hb]; rfl
    refine ent_out hs ?_
    rw [hr, hl]
    have p1 := pre_fits (w := fun k => (b k (N - 1)).rows) (n := M) (fun i i0 i1 => (sized_nonneg (h3 i (N - 1) i0 i1 (by omega) (by omega)).1).1) ha.1 ha.2
    have p2 := pre_fits (w := fun k => (b 0 k).cols) (n := N) (fun j j0 j1 => (sized_nonneg (h3 0 j (by omega) (by omega) j0 j1).1).2) hc.1 hc.2
    change 0 ≤ top N b a ∧ top N b a + (b a (N - 1)).rows ≤ top N b M at p1
    change 0 ≤ left b c ∧ left b c + (b 0 c).cols ≤ left b N at p2
    omega

/-- What the product routine does for the matrix `H`. -/
def MvSpec (tr : Char) (alpha : K) (t : Int) (H : HMat K) : Prop := ∀ (x y : Ptr) (beta : K) (M : Buf K), (H = .nil → beta = 1) → ScrOk t M.size H →
  x.Ok (opCols tr H) M.size → y.Ok (opRows tr H) M.size → (∀ j, 0 ≤ j → j < opCols tr H → ¬ y.In (opRows tr H) (x.at j)) →
  (∀ j, 0 ≤ j → j < opCols tr H → ¬ Scr t H (x.at j)) → (∀ j, 0 ≤ j → j < opRows tr H → ¬ Scr t H (y.at j)) →
  ∃ M', (hmvP tr alpha t H x beta y).run M = some ((), M') ∧ Sets M M' y (opRows tr H) (Scr t H) fun i =>
    beta * M.val (y.at i) + alpha * ∑ j ∈ Finset.Ico 0 (opCols tr H), op tr H i j * M.val (x.at j)

theorem block_call {tr : Char} {alpha : K} {t : Int} {B : HMat K} (hsp : MvSpec tr alpha t B) {x y : Ptr} {n l px wx py wy : Int}
    (hB : B = .nil ∨ opRows tr B = wy ∧ opCols tr B = wx) (px0 : 0 ≤ px) (pxl : px + wx ≤ l) (py0 : 0 ≤ py) (pyn : py + wy ≤ n) {M0 : Buf K}
    (hO : ScrOk t M0.size B) (hx : x.Ok l M0.size) (hy : y.Ok n M0.size) (hxy : ∀ j, 0 ≤ j → j < l → ¬ y.In n (x.at j)) {S : Int → Prop}
    (hS : ∀ a, Scr t B a → S a) (sx : ∀ j, 0 ≤ j → j < l → ¬ S (x.at j)) (sy : ∀ j, 0 ≤ j → j < n → ¬ S (y.at j)) (M : Buf K) (hM : M.size = M0.size)
    (hM' : ∀ a, ¬ y.In n a → ¬ S a → M.val a = M0.val a) :
    ∃ M', (hmvP tr alpha t B (x.add px) 1 (y.add py)).run M = some ((), M') ∧ Sets M M' (y.add py) wy S fun k =>
      M.val ((y.add py).at k) + alpha * ∑ j ∈ Finset.Ico 0 wx, op tr B k j * M0.val (x.at (px + j)) := by
  rcases hB with rfl | ⟨rfl, rfl⟩
  · refine ⟨M, rfl, rfl, fun i _ _ => ?_, fun _ _ _ => rfl⟩
    dsimp only
    rw [Finset.sum_eq_zero (fun j _ => by simp [op, ent]), mul_zero, add_zero]
  · obtain ⟨M', e, h1, h2, h3⟩ := hsp (x.add px) (y.add py) 1 M (fun _ => rfl) (by rw [hM]; exact hO) (by rw [hM]; exact hx.add px0 pxl)
      (by rw [hM]; exact hy.add py0 pyn) (fun j j0 j1 h => by
        rw [Ptr.add_at, Ptr.add_in] at h
        exact hxy (px + j) (by omega) (by omega) (by unfold Ptr.In Ptr.at at *; omega))
      (fun j j0 j1 h => by rw [Ptr.add_at] at h; exact sx _ (by omega) (by omega) (hS _ h))
      (fun j j0 j1 h => by rw [Ptr.add_at] at h; exact sy _ (by omega) (by omega) (hS _ h))
    refine ⟨M', e, h1, fun i i0 i1 => ?_, fun a ha hs => h3 a ha (fun h => hs (hS a h))⟩
    rw [h2 i i0 i1]
    dsimp only
    rw [one_mul]
    congr 2
    refine sum_Ico_congr fun j j0 j1 => ?_
    rw [Ptr.add_at, hM' _ (hxy _ (by omega) (by omega)) (sx _ (by omega) (by omega))]

/-- Splitting off the scaling of `y`. -/
theorem beta_blocks {beta : K} {n : Int} {y : Ptr} {M : Buf K} (hy : y.Ok n M.size) {S : Int → Prop} {q : Prog K Unit} {g : Int → K}
    (h : ∃ M', q.run (updP M y n fun i => beta * M.val (y.at i)) = some ((), M') ∧
      Sets (updP M y n fun i => beta * M.val (y.at i)) M' y n S fun k => (updP M y n fun i => beta * M.val (y.at i)).val (y.at k) + g k) :
    ∃ M', ((betaP beta n y).bind fun _ => q).run M = some ((), M') ∧ Sets M M' y n S fun k => beta * M.val (y.at k) + g k := by
  obtain ⟨M', e, h1, h2, h3⟩ := h
  refine ⟨M', by rw [run_then (betaP_run hy), e], h1, fun k k0 k1 => ?_, fun a ha hs => ?_⟩
  · rw [h2 k k0 k1]
    dsimp only
    rw [updP_in k0 k1]
  · rw [h3 a ha hs, updP_out ha]

theorem hmvP_spec {tr : Char} (htr : tr = 'N' ∨ tr = 'T') (alpha : K) (t : Int) : ∀ {H : HMat K}, Sized H → MvSpec tr alpha t H
  | .nil, _ => by
    intro x y beta M hb _ _ _ _ _ _
    refine ⟨M, rfl, rfl, fun i _ _ => ?_, fun _ _ _ => rfl⟩
    dsimp only
    rw [hb rfl, one_mul, Finset.sum_eq_zero (fun j _ => by simp [op, ent]), mul_zero, add_zero]
  | .dense D, hS => by
    intro x y beta M _ _ hx hy hxy _ _
    refine ⟨_, dense_run htr hS hx hy hxy, rfl, fun i i0 i1 => updP_in i0 i1, fun a ha _ => updP_out ha⟩
  | .low L, hS => by
    intro x y beta M _ hO hx hy _ sx sy
    exact low_run htr hS hO hx hy sx sy
  | .hier P Q m n b, hS => by
    have ih : ∀ a c, 0 ≤ a → a < P → 0 ≤ c → c < Q → MvSpec tr alpha t (b a c) := fun a c a0 a1 c0 c1 => hmvP_spec htr alpha t (hS.2.2.1 a c a0 a1 c0 c1).1
    obtain ⟨h1, h2, h3, h4, h5⟩ := hS
    have nr := fun i i0 i1 => (sized_nonneg (h3 i (Q - 1) i0 i1 (by omega) (by omega)).1).1
    have nc := fun j j0 j1 => (sized_nonneg (h3 0 j (by omega) (by omega) j0 j1).1).2
    have fr := fun a a0 a1 => pre_fits (w := fun k => (b k (Q - 1)).rows) (n := P) (k := a) nr a0 a1
    have fc := fun c c0 c1 => pre_fits (w := fun k => (b 0 k).cols) (n := Q) (k := c) nc c0 c1
    change m = pre (fun k => (b k (Q - 1)).rows) P at h4
    change n = pre (fun k => (b 0 k).cols) Q at h5
    have br : ∀ i, 0 ≤ i → i < P → blockRows P Q b i (Q - 1) = some (b i (Q - 1)).rows := fun i i0 i1 => if_pos ⟨i0, i1, by omega, by omega⟩
    have bc : ∀ j, 0 ≤ j → j < Q → blockCols P Q b 0 j = some (b 0 j).cols := fun j j0 j1 => if_pos ⟨by omega, by omega, j0, j1⟩
    have eo : ∀ a c, 0 ≤ a → a < P → 0 ≤ c → c < Q → ∀ i j, ¬ ((0 ≤ i ∧ i < (b a (Q - 1)).rows) ∧ 0 ≤ j ∧ j < (b 0 c).cols) → ent (b a c) i j = 0 := by
      intro a c a0 a1 c0 c1 i j hij
      obtain ⟨hs, hb⟩ := h3 a c a0 a1 c0 c1
      rcases hb with hb | ⟨hr, hl⟩
      · rw [hb]; rfl
      · exact ent_out hs (by rw [hr, hl]; exact hij)
    intro x y beta M _ hO hx hy hxy sx sy
    rcases htr with rfl | rfl
    · simp only [opRows, opCols, if_true, HMat.rows, HMat.cols] at hx hy hxy sx sy ⊢
      rw [hmvP, if_pos rfl]
      refine beta_blocks hy ?_
      rw [h4] at hy hxy sy ⊢
      rw [h5] at hx hxy sx ⊢
      obtain ⟨M', e, s⟩ := blocksP_run (K := K) (O := Q) (I := P) (by omega) (by omega) (xsz := fun j => blockCols P Q b 0 j) (ysz := fun i => blockRows P Q b i (Q - 1))
        (xs := fun k => (b 0 k).cols) (ys := fun k => (b k (Q - 1)).rows) bc br nr
        (call := fun j i x y => if 0 ≤ i ∧ i < P ∧ 0 ≤ j ∧ j < Q then hmvP 'N' alpha t (b i j) x 1 y else .fail) (x := x) (y := y)
        (S := Scr t (.hier P Q m n b))
        (G := fun c a k => alpha * ∑ j ∈ Finset.Ico 0 (b 0 c).cols, op 'N' (b a c) k j * M.val (x.at (pre (fun k => (b 0 k).cols) c + j)))
        (M0 := updP M y (pre (fun k => (b k (Q - 1)).rows) P) fun i => beta * M.val (y.at i)) (by
          intro c a c0 c1 a0 a1 X hX hX'
          rw [if_pos ⟨a0, a1, c0, c1⟩]
          obtain ⟨M', e, s⟩ := block_call (ih a c a0 a1 c0 c1) (x := x) (y := y) (M0 := updP M y (pre (fun k => (b k (Q - 1)).rows) P) fun i => beta * M.val (y.at i))
            (wx := (b 0 c).cols) (wy := (b a (Q - 1)).rows) (by simpa [opRows, opCols] using (h3 a c a0 a1 c0 c1).2) (fc c c0 c1).1 (fc c c0 c1).2 (fr a a0 a1).1 (fr a a0 a1).2
            (hO a c a0 a1 c0 c1) hx hy hxy (S := Scr t (.hier P Q m n b)) (fun z hz => ⟨a, c, a0, a1, c0, c1, hz⟩) sx sy X hX hX'
          refine ⟨M', e, s.1, fun k k0 k1 => ?_, s.2.2⟩
          rw [s.2.1 k k0 k1]
          dsimp only
          congr 2
          refine sum_Ico_congr fun j j0 j1 => ?_
          have := fc c c0 c1
          rw [updP_out (hxy _ (by omega) (by omega))]) sy
      refine ⟨M', e, s.1, fun k k0 k1 => ?_, s.2.2⟩
      rw [s.2.1 k k0 k1]
      dsimp only
      congr 1
      have := assemble (O := Q) (I := P) (xs := fun k => (b 0 k).cols) (ys := fun k => (b k (Q - 1)).rows) nc (e := fun c a i j => ent (b a c) i j)
        (fun c a c0 c1 a0 a1 i j h => eo a c a0 a1 c0 c1 i j h) (fun j => M.val (x.at j)) k
      simp only [op, if_true]
      have e2 := this.symm.trans (b := _) (sum_Ico_congr (g := fun j => ent (HMat.hier P Q (pre (fun k => (b k (Q - 1)).rows) P) (pre (fun k => (b 0 k).cols) Q) b) k j * M.val (x.at j))
        fun j _ _ => by rw [ent, Finset.sum_comm]; rfl)
      rw [← e2, Finset.mul_sum]
      refine sum_Ico_congr fun c _ _ => ?_
      rw [Finset.mul_sum]
      refine sum_Ico_congr fun a _ _ => ?_
      rw [mul_ite, mul_zero]
    · simp only [opRows, opCols, show ('T' = 'N') = False by decide, if_false, HMat.rows, HMat.cols] at hx hy hxy sx sy ⊢
      rw [hmvP, if_neg (by decide), if_pos rfl]
      refine beta_blocks hy ?_
      rw [h5] at hy hxy sy ⊢
      rw [h4] at hx hxy sx ⊢
      obtain ⟨M', e, s⟩ := blocksP_run (K := K) (O := P) (I := Q) (by omega) (by omega) (ysz := fun j => blockCols P Q b 0 j) (xsz := fun i => blockRows P Q b i (Q - 1))
        (ys := fun k => (b 0 k).cols) (xs := fun k => (b k (Q - 1)).rows) br bc nc
        (call := fun i j x y => if 0 ≤ i ∧ i < P ∧ 0 ≤ j ∧ j < Q then hmvP 'T' alpha t (b i j) x 1 y else .fail) (x := x) (y := y)
        (S := Scr t (.hier P Q m n b))
        (G := fun a c k => alpha * ∑ j ∈ Finset.Ico 0 (b a (Q - 1)).rows, op 'T' (b a c) k j * M.val (x.at (pre (fun k => (b k (Q - 1)).rows) a + j)))
        (M0 := updP M y (pre (fun k => (b 0 k).cols) Q) fun i => beta * M.val (y.at i)) (by
          intro a c a0 a1 c0 c1 X hX hX'
          rw [if_pos ⟨a0, a1, c0, c1⟩]
          obtain ⟨M', e, s⟩ := block_call (ih a c a0 a1 c0 c1) (x := x) (y := y) (M0 := updP M y (pre (fun k => (b 0 k).cols) Q) fun i => beta * M.val (y.at i))
            (wy := (b 0 c).cols) (wx := (b a (Q - 1)).rows) (by
              have := (h3 a c a0 a1 c0 c1).2
              simp only [opRows, opCols, show ('T' = 'N') = False by decide, if_false]
              tauto) (fr a a0 a1).1 (fr a a0 a1).2 (fc c c0 c1).1 (fc c c0 c1).2
            (hO a c a0 a1 c0 c1) hx hy hxy (S := Scr t (.hier P Q m n b)) (fun z hz => ⟨a, c, a0, a1, c0, c1, hz⟩) sx sy X hX hX'
          refine ⟨M', e, s.1, fun k k0 k1 => ?_, s.2.2⟩
          rw [s.2.1 k k0 k1]
          dsimp only
          congr 2
          refine sum_Ico_congr fun j j0 j1 => ?_
          have := fr a a0 a1
          rw [updP_out (hxy _ (by omega) (by omega))]) sy
      refine ⟨M', e, s.1, fun k k0 k1 => ?_, s.2.2⟩
      rw [s.2.1 k k0 k1]
      dsimp only
      congr 1
      have := assemble (O := P) (I := Q) (ys := fun k => (b 0 k).cols) (xs := fun k => (b k (Q - 1)).rows) nr (e := fun a c i j => ent (b a c) j i)
        (fun a c a0 a1 c0 c1 i j h => eo a c a0 a1 c0 c1 j i (fun hh => h ⟨hh.2, hh.1⟩)) (fun j => M.val (x.at j)) k
      simp only [op, show ('T' = 'N') = False by decide, if_false]
      have e2 := this.symm.trans (b := _) (sum_Ico_congr (g := fun j => ent (HMat.hier P Q (pre (fun k => (b k (Q - 1)).rows) P) (pre (fun k => (b 0 k).cols) Q) b) j k * M.val (x.at j))
        fun j _ _ => by rw [ent]; rfl)
      rw [← e2, Finset.mul_sum]
      refine sum_Ico_congr fun c _ _ => ?_
      rw [Finset.mul_sum]
      refine sum_Ico_congr fun a _ _ => ?_
      rw [mul_ite, mul_zero]

end FT.Props.Hier
