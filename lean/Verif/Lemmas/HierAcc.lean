import Verif.Lemmas.Hmm

/-! # Memory accesses of the products with hierarchical matrices -/

namespace FT.Props.Hier
open FT FT.Model FT.Prog
set_option linter.unusedSectionVars false
variable {K : Type*} [CommRing K] [DecidableEq K] {R W : Int → Prop}

theorem gemv_acc {tr : Char} {m n LDA : Int} {alpha beta : K} {A : Buf K} {x y : Ptr} (hx : ∀ i, 0 ≤ i → i < gr tr n m → R (x.at i))
    (hR : ∀ i, 0 ≤ i → i < gr tr m n → R (y.at i)) (hW : ∀ i, 0 ≤ i → i < gr tr m n → W (y.at i)) : (gemvP tr m n alpha A LDA x beta y).Acc R W :=
  gemvP_acc hx hR hW

theorem gemm_acc {tr : Char} {m n p LDA LDB LDC : Int} {alpha beta : K} {A : Buf K} {B C : Ptr} (hB : ∀ k j, 0 ≤ k → k < p → 0 ≤ j → j < gr tr n m → R ((B.add (k * LDB)).at j))
    (hR : ∀ k i, 0 ≤ k → k < p → 0 ≤ i → i < gr tr m n → R ((C.add (k * LDC)).at i)) (hW : ∀ k i, 0 ≤ k → k < p → 0 ≤ i → i < gr tr m n → W ((C.add (k * LDC)).at i)) :
    (gemmP tr m n p alpha A LDA B LDB beta C LDC).Acc R W :=
  Acc.each (fun k hk _ => gemv_acc (fun i => hB k i (mem_rUp.1 hk).1 (mem_rUp.1 hk).2) (fun i => hR k i (mem_rUp.1 hk).1 (mem_rUp.1 hk).2)
    (fun i => hW k i (mem_rUp.1 hk).1 (mem_rUp.1 hk).2)) ()

theorem lrmv_acc {tr : Char} {alpha beta : K} {L : Low K} {t : Int} {x y : Ptr} (hx : ∀ i, 0 ≤ i → i < opCols tr (.low L) → R (x.at i))
    (hR : ∀ i, 0 ≤ i → i < opRows tr (.low L) → R (y.at i)) (hW : ∀ i, 0 ≤ i → i < opRows tr (.low L) → W (y.at i))
    (sR : ∀ a, Scr t (.low L) a → R a) (sW : ∀ a, Scr t (.low L) a → W a) : (lrmvP tr alpha L t x beta y).Acc R W := by
  have r1 := fun k (k0 : 0 ≤ k) (k1 : k < L.r) => sR _ (Or.inl (Ptr.in_at (y := L.t1.add (L.r * t)) k0 k1))
  have r2 := fun k (k0 : 0 ≤ k) (k1 : k < L.r) => sR _ (Or.inr (Ptr.in_at (y := L.t2.add (L.r * t)) k0 k1))
  have w1 := fun k (k0 : 0 ≤ k) (k1 : k < L.r) => sW _ (Or.inl (Ptr.in_at (y := L.t1.add (L.r * t)) k0 k1))
  have w2 := fun k (k0 : 0 ≤ k) (k1 : k < L.r) => sW _ (Or.inr (Ptr.in_at (y := L.t2.add (L.r * t)) k0 k1))
  unfold lrmvP
  simp only [opRows, opCols, HMat.rows, HMat.cols] at hx hR hW
  dsimp only
  split_ifs at hx hR hW ⊢ with h1 h2 h3
  · refine Acc.bind ?_ fun _ => ?_
    · exact gemv_acc hx r1 w1
    · exact gemv_acc r1 hR hW
  · refine Acc.bind ?_ fun _ => Acc.bind ?_ fun _ => ?_
    · exact gemv_acc hx r1 w1
    · exact gemv_acc r1 r2 w2
    · exact gemv_acc r2 hR hW
  · trivial
  · refine Acc.bind ?_ fun _ => ?_
    · exact gemv_acc hx r1 w1
    · exact gemv_acc r1 hR hW
  · refine Acc.bind ?_ fun _ => Acc.bind ?_ fun _ => ?_
    · exact gemv_acc hx r1 w1
    · exact gemv_acc r1 r2 w2
    · exact gemv_acc r2 hR hW
  · trivial
  · trivial

theorem blocksP_acc {O I : Int} {xsz ysz : Int → Option Int} {xs ys : Int → Int}
    (hxs : ∀ o, 0 ≤ o → o < O → xsz o = some (xs o)) (hys : ∀ i, 0 ≤ i → i < I → ysz i = some (ys i)) {call : Int → Int → Ptr → Ptr → Prog K Unit} {x y : Ptr}
    (hcall : ∀ o i, 0 ≤ o → o < O → 0 ≤ i → i < I → (call o i (x.add (pre xs o)) (y.add (pre ys i))).Acc R W) : (blocksP O I xsz ysz call x y).Acc R W := by
  unfold blocksP
  refine Acc.bind (AccQ.acc (AccQ.each_up (fun o q => q = pre xs o) ?_ (pre_zero xs).symm)) (fun _ => trivial)
  rintro o o0 o1 q rfl
  refine AccQ.bind (AccQ.each_up (fun i p => p = pre ys i) ?_ (pre_zero ys).symm) (fun _ _ => ?_)
  · rintro i i0 i1 p rfl
    refine AccQ.bind (Acc.accQ (hcall o i o0 o1 i0 i1)) (fun _ _ => AccQ.bind (Q := fun w => w = ys i) (AccQ.ofOption fun w hw => ?_) fun w hw => ?_)
    · rw [hys i i0 i1] at hw; exact (Option.some.inj hw).symm
    · rw [hw]; exact (pre_succ i0).symm
  · refine AccQ.bind (Q := fun w => w = xs o) (AccQ.ofOption fun w hw => ?_) fun w hw => ?_
    · rw [hxs o o0 o1] at hw; exact (Option.some.inj hw).symm
    · rw [hw]; exact (pre_succ o0).symm

/-- The matrix-vector product reads `x`, reads and writes `y` and the thread's own scratch, and nothing else. -/
theorem hmvP_acc {tr : Char} {alpha : K} {t : Int} : ∀ {H : HMat K}, Sized H → ∀ {x y : Ptr} {beta : K},
    (∀ j, 0 ≤ j → j < opCols tr H → R (x.at j)) → (∀ i, 0 ≤ i → i < opRows tr H → R (y.at i)) → (∀ i, 0 ≤ i → i < opRows tr H → W (y.at i)) →
    (∀ a, Scr t H a → R a) → (∀ a, Scr t H a → W a) → (hmvP tr alpha t H x beta y).Acc R W
  | .nil, _, _, _, _, _, _, _, _, _ => trivial
  | .dense _, _, _, _, _, hx, hR, hW, _, _ => gemvP_acc hx hR hW
  | .low _, _, _, _, _, hx, hR, hW, sR, sW => lrmv_acc hx hR hW sR sW
  | .hier P Q m n b, ⟨h1, h2, h3, h4, h5⟩, x, y, beta, hx, hR, hW, sR, sW => by
    have nr := fun i i0 i1 => (sized_nonneg (h3 i (Q - 1) i0 i1 (by omega) (by omega)).1).1
    have nc := fun j j0 j1 => (sized_nonneg (h3 0 j (by omega) (by omega) j0 j1).1).2
    have fr := fun a a0 a1 => pre_fits (w := fun k => (b k (Q - 1)).rows) (n := P) (k := a) nr a0 a1
    have fc := fun c c0 c1 => pre_fits (w := fun k => (b 0 k).cols) (n := Q) (k := c) nc c0 c1
    change m = pre (fun k => (b k (Q - 1)).rows) P at h4
    change n = pre (fun k => (b 0 k).cols) Q at h5
    have br : ∀ i, 0 ≤ i → i < P → blockRows P Q b i (Q - 1) = some (b i (Q - 1)).rows := fun i i0 i1 => if_pos ⟨i0, i1, by omega, by omega⟩
    have bc : ∀ j, 0 ≤ j → j < Q → blockCols P Q b 0 j = some (b 0 j).cols := fun j j0 j1 => if_pos ⟨by omega, by omega, j0, j1⟩
    have ih := fun a c a0 a1 c0 c1 {x y : Ptr} {beta : K} => hmvP_acc (tr := tr) (alpha := alpha) (t := t) (h3 a c a0 a1 c0 c1).1 (x := x) (y := y) (beta := beta)
    rw [hmvP]
    simp only [opRows, opCols, HMat.rows, HMat.cols] at hx hR hW
    split_ifs at hx hR hW ⊢ with e1 e2
    · refine (betaP_acc hR hW).bind fun _ => ?_
      rw [h4] at hR hW
      rw [h5] at hx
      refine blocksP_acc (xs := fun k => (b 0 k).cols) (ys := fun k => (b k (Q - 1)).rows) bc br fun c a c0 c1 a0 a1 => ?_
      rw [if_pos ⟨a0, a1, c0, c1⟩]
      rcases (h3 a c a0 a1 c0 c1).2 with hb | ⟨hr, hc⟩
      · rw [hb]; trivial
      have f1 := fr a a0 a1
      have f2 := fc c c0 c1
      have rr : opRows tr (b a c) = (b a (Q - 1)).rows := by rw [opRows, if_pos e1]; exact hr
      have cc : opCols tr (b a c) = (b 0 c).cols := by rw [opCols, if_pos e1]; exact hc
      refine ih a c a0 a1 c0 c1 (fun j j0 j1 => ?_) (fun i i0 i1 => ?_) (fun i i0 i1 => ?_) (fun z hz => sR z ⟨a, c, a0, a1, c0, c1, hz⟩) (fun z hz => sW z ⟨a, c, a0, a1, c0, c1, hz⟩)
      all_goals rw [Ptr.add_at]
      · exact hx _ (by omega) (by omega)
      · exact hR _ (by omega) (by omega)
      · exact hW _ (by omega) (by omega)
    · refine (betaP_acc hR hW).bind fun _ => ?_
      rw [h5] at hR hW
      rw [h4] at hx
      refine blocksP_acc (ys := fun k => (b 0 k).cols) (xs := fun k => (b k (Q - 1)).rows) br bc fun a c a0 a1 c0 c1 => ?_
      rw [if_pos ⟨a0, a1, c0, c1⟩]
      rcases (h3 a c a0 a1 c0 c1).2 with hb | ⟨hr, hc⟩
      · rw [hb]; trivial
      have f1 := fr a a0 a1
      have f2 := fc c c0 c1
      have rr : opRows tr (b a c) = (b 0 c).cols := by rw [opRows, if_neg e1]; exact hc
      have cc : opCols tr (b a c) = (b a (Q - 1)).rows := by rw [opCols, if_neg e1]; exact hr
      refine ih a c a0 a1 c0 c1 (fun j j0 j1 => ?_) (fun i i0 i1 => ?_) (fun i i0 i1 => ?_) (fun z hz => sR z ⟨a, c, a0, a1, c0, c1, hz⟩) (fun z hz => sW z ⟨a, c, a0, a1, c0, c1, hz⟩)
      all_goals rw [Ptr.add_at]
      · exact hx _ (by omega) (by omega)
      · exact hR _ (by omega) (by omega)
      · exact hW _ (by omega) (by omega)
    · trivial

theorem lrmm_acc {tr : Char} {alpha beta : K} {L : Low K} (r0 : 0 ≤ L.r) {p LDB LDC : Int} {B C : Ptr} (hB : ∀ k j, 0 ≤ k → k < p → 0 ≤ j → j < opCols tr (.low L) → R ((B.add (k * LDB)).at j))
    (hR : ∀ k i, 0 ≤ k → k < p → 0 ≤ i → i < opRows tr (.low L) → R ((C.add (k * LDC)).at i)) (hW : ∀ k i, 0 ≤ k → k < p → 0 ≤ i → i < opRows tr (.low L) → W ((C.add (k * LDC)).at i))
    (sR : ∀ a, ScrM p (.low L) a → R a) (sW : ∀ a, ScrM p (.low L) a → W a) : (lrmmP tr p alpha L B LDB beta C LDC).Acc R W := by
  have i1 : ∀ k i, 0 ≤ k → k < p → 0 ≤ i → i < L.r → ScrM p (.low L) (((L.s1 p).add (k * L.r)).at i) := fun k i k0 k1 i0 i1 =>
    ⟨p, by omega, le_refl _, Or.inl (cin_scr r0 (at_cin k0 k1 i0 i1))⟩
  have i2 : ∀ k i, 0 ≤ k → k < p → 0 ≤ i → i < L.r → ScrM p (.low L) (((L.s2 p).add (k * L.r)).at i) := fun k i k0 k1 i0 i1 =>
    ⟨p, by omega, le_refl _, Or.inr (cin_scr r0 (at_cin k0 k1 i0 i1))⟩
  have r1 := fun k i k0 k1 l0 l1 => sR _ (i1 k i k0 k1 l0 l1)
  have r2 := fun k i k0 k1 l0 l1 => sR _ (i2 k i k0 k1 l0 l1)
  have w1 := fun k i k0 k1 l0 l1 => sW _ (i1 k i k0 k1 l0 l1)
  have w2 := fun k i k0 k1 l0 l1 => sW _ (i2 k i k0 k1 l0 l1)
  unfold lrmmP
  simp only [opRows, opCols, HMat.rows, HMat.cols] at hB hR hW
  dsimp only
  split_ifs at hB hR hW ⊢ with h1 h2 h3
  · refine Acc.bind ?_ fun _ => ?_
    · exact gemm_acc hB r1 w1
    · exact gemm_acc r1 hR hW
  · refine Acc.bind ?_ fun _ => Acc.bind ?_ fun _ => ?_
    · exact gemm_acc hB r1 w1
    · exact gemm_acc r1 r2 w2
    · exact gemm_acc r2 hR hW
  · trivial
  · refine Acc.bind ?_ fun _ => ?_
    · exact gemm_acc hB r1 w1
    · exact gemm_acc r1 hR hW
  · refine Acc.bind ?_ fun _ => Acc.bind ?_ fun _ => ?_
    · exact gemm_acc hB r1 w1
    · exact gemm_acc r1 r2 w2
    · exact gemm_acc r2 hR hW
  · trivial
  · trivial

/-- What the matrix-matrix product accesses. -/
def MmAcc (tr : Char) (alpha : K) (LDB LDC : Int) (H : HMat K) : Prop := ∀ (R W : Int → Prop) (p : Int) (B C : Ptr) (beta : K), 0 ≤ p →
    (∀ k j, 0 ≤ k → k < p → 0 ≤ j → j < opCols tr H → R ((B.add (k * LDB)).at j)) → (∀ k i, 0 ≤ k → k < p → 0 ≤ i → i < opRows tr H → R ((C.add (k * LDC)).at i)) →
    (∀ k i, 0 ≤ k → k < p → 0 ≤ i → i < opRows tr H → W ((C.add (k * LDC)).at i)) → (∀ a, ScrM p H a → R a) → (∀ a, ScrM p H a → W a) →
    (hmmP tr alpha LDB LDC H p B beta C).Acc R W

/-- Accesses of one iteration of the parallel loops. -/
theorem hier_iter_acc {tr : Char} {alpha : K} {LDB LDC : Int} {P Q m n : Int} {b : Int → Int → HMat K} (hS : Sized (.hier P Q m n b))
    (ih : ∀ a c, 0 ≤ a → a < P → 0 ≤ c → c < Q → MmAcc tr alpha LDB LDC (b a c)) {rows cols : Buf Int}
    (hrows : ∀ k, 0 ≤ k → k < P → rows.rd k = some (pre (fun k => (b k (Q - 1)).rows) k)) (hcols : ∀ k, 0 ≤ k → k < Q → cols.rd k = some (pre (fun k => (b 0 k).cols) k))
    {p c q : Int} (c0 : 0 ≤ c) (q0 : 0 ≤ q) (c1 : c + q ≤ p) {B C : Ptr} (hB : ∀ k j, 0 ≤ k → k < p → 0 ≤ j → j < opCols tr (.hier P Q m n b) → R ((B.add (k * LDB)).at j)) :
    (tr = 'N' → ∀ a, 0 ≤ a → a < P → (∀ z, CIn (C.add (pre (fun k => (b k (Q - 1)).rows) a + c * LDC)) LDC (b a (Q - 1)).rows q z → R z ∧ W z) →
      (∀ z i, 0 ≤ i → i < Q → ScrM p (b a i) z → R z ∧ W z) →
      (hmmIter Q cols rows (fun i j q B C => if 0 ≤ i ∧ i < P ∧ 0 ≤ j ∧ j < Q then hmmP tr alpha LDB LDC (b i j) q B 1 C else .fail) q c B LDB C LDC a).Acc R W) ∧
    (tr = 'T' → ∀ a, 0 ≤ a → a < Q → (∀ z, CIn (C.add (pre (fun k => (b 0 k).cols) a + c * LDC)) LDC (b 0 a).cols q z → R z ∧ W z) →
      (∀ z i, 0 ≤ i → i < P → ScrM p (b i a) z → R z ∧ W z) →
      (hmmIter P rows cols (fun j i q B C => if 0 ≤ i ∧ i < P ∧ 0 ≤ j ∧ j < Q then hmmP tr alpha LDB LDC (b i j) q B 1 C else .fail) q c B LDB C LDC a).Acc R W) := by
  obtain ⟨h1, h2, h3, h4, h5⟩ := hS
  have nr := fun i i0 i1 => (sized_nonneg (h3 i (Q - 1) i0 i1 (by omega) (by omega)).1).1
  have nc := fun j j0 j1 => (sized_nonneg (h3 0 j (by omega) (by omega) j0 j1).1).2
  have fr := fun a a0 a1 => pre_fits (w := fun k => (b k (Q - 1)).rows) (n := P) (k := a) nr a0 a1
  have fc := fun c c0 c1 => pre_fits (w := fun k => (b 0 k).cols) (n := Q) (k := c) nc c0 c1
  change m = pre (fun k => (b k (Q - 1)).rows) P at h4
  change n = pre (fun k => (b 0 k).cols) Q at h5
  constructor
  · rintro rfl a a0 a1 hC hs
    simp only [opCols, if_true, HMat.cols] at hB
    refine Acc.each (fun i hi _ => ?_) ()
    obtain ⟨i0, i1⟩ := mem_rUp.1 hi
    refine Acc.ofOption_bind fun d hd => Acc.ofOption_bind fun e he => ?_
    rw [hcols i i0 i1] at hd
    rw [hrows a a0 a1] at he
    obtain rfl := Option.some.inj hd
    obtain rfl := Option.some.inj he
    dsimp only
    rw [if_pos ⟨a0, a1, i0, i1⟩]
    rcases (h3 a i a0 a1 i0 i1).2 with hb | ⟨hr, hc⟩
    · rw [hb]; trivial
    have f1 := fr a a0 a1
    have f2 := fc i i0 i1
    have rr : opRows 'N' (b a i) = (b a (Q - 1)).rows := hr
    have cc : opCols 'N' (b a i) = (b 0 i).cols := hc
    refine ih a i a0 a1 i0 i1 R W q _ _ 1 q0 (fun k j k0 k1 j0 j1 => ?_) (fun k j k0 k1 j0 j1 => (hC _ (at_cin k0 k1 j0 (by omega))).1) (fun k j k0 k1 j0 j1 => (hC _ (at_cin k0 k1 j0 (by omega))).2)
      (fun z hz => (hs z i i0 i1 (hz.mono (by omega))).1) (fun z hz => (hs z i i0 i1 (hz.mono (by omega))).2)
    rw [col_at]
    exact hB _ _ (by omega) (by omega) (by omega) (by omega)
  · rintro rfl a a0 a1 hC hs
    simp only [opCols, show ('T' = 'N') = False by decide, if_false, HMat.rows] at hB
    refine Acc.each (fun i hi _ => ?_) ()
    obtain ⟨i0, i1⟩ := mem_rUp.1 hi
    refine Acc.ofOption_bind fun d hd => Acc.ofOption_bind fun e he => ?_
    rw [hrows i i0 i1] at hd
    rw [hcols a a0 a1] at he
    obtain rfl := Option.some.inj hd
    obtain rfl := Option.some.inj he
    dsimp only
    rw [if_pos ⟨i0, i1, a0, a1⟩]
    rcases (h3 i a i0 i1 a0 a1).2 with hb | ⟨hr, hc⟩
    · rw [hb]; trivial
    have f1 := fc a a0 a1
    have f2 := fr i i0 i1
    have rr : opRows 'T' (b i a) = (b 0 a).cols := hc
    have cc : opCols 'T' (b i a) = (b i (Q - 1)).rows := hr
    refine ih i a i0 i1 a0 a1 R W q _ _ 1 q0 (fun k j k0 k1 j0 j1 => ?_) (fun k j k0 k1 j0 j1 => (hC _ (at_cin k0 k1 j0 (by omega))).1) (fun k j k0 k1 j0 j1 => (hC _ (at_cin k0 k1 j0 (by omega))).2)
      (fun z hz => (hs z i i0 i1 (hz.mono (by omega))).1) (fun z hz => (hs z i i0 i1 (hz.mono (by omega))).2)
    rw [col_at]
    exact hB _ _ (by omega) (by omega) (by omega) (by omega)

theorem hmmP_acc {tr : Char} {alpha : K} {LDB LDC : Int} : ∀ {H : HMat K}, Sized H → MmAcc tr alpha LDB LDC H
  | .nil, _ => fun _ _ _ _ _ _ _ _ _ _ _ _ => trivial
  | .dense _, _ => fun _ _ _ _ _ _ _ hB hR hW _ _ => gemm_acc hB hR hW
  | .low _, hS => fun _ _ _ _ _ _ _ hB hR hW sR sW => lrmm_acc hS.2.2.2.1 hB hR hW sR sW
  | .hier P Q m n b, hS => by
    intro R W p B C beta p0 hB hR hW sR sW
    have ih : ∀ a c, 0 ≤ a → a < P → 0 ≤ c → c < Q → MmAcc tr alpha LDB LDC (b a c) := fun a c a0 a1 c0 c1 => hmmP_acc (hS.2.2.1 a c a0 a1 c0 c1).1
    have hS' := hS
    obtain ⟨h1, h2, h3, h4, h5⟩ := hS
    have nr := fun i i0 i1 => (sized_nonneg (h3 i (Q - 1) i0 i1 (by omega) (by omega)).1).1
    have nc := fun j j0 j1 => (sized_nonneg (h3 0 j (by omega) (by omega) j0 j1).1).2
    have fr := fun a a0 a1 => pre_fits (w := fun k => (b k (Q - 1)).rows) (n := P) (k := a) nr a0 a1
    have fc := fun c c0 c1 => pre_fits (w := fun k => (b 0 k).cols) (n := Q) (k := c) nc c0 c1
    change m = pre (fun k => (b k (Q - 1)).rows) P at h4
    change n = pre (fun k => (b 0 k).cols) Q at h5
    obtain ⟨X, eX, hX⟩ := offsets_run (cnt := P) (bs := fun i => blockRows P Q b i (Q - 1)) (w := fun k => (b k (Q - 1)).rows) (fun i i0 i1 => if_pos ⟨i0, i1, by omega, by omega⟩)
    obtain ⟨L, eL, hL⟩ := offsets_run (cnt := Q) (bs := fun j => blockCols P Q b 0 j) (w := fun k => (b 0 k).cols) (fun j j0 j1 => if_pos ⟨by omega, by omega, j0, j1⟩)
    unfold hmmP
    refine Acc.ofOption_bind fun X' e1 => Acc.ofOption_bind fun L' e2 => ?_
    rw [eX] at e1
    rw [eL] at e2
    obtain rfl := Option.some.inj e1
    obtain rfl := Option.some.inj e2
    have cR : ∀ {z : Int}, CIn C LDC (opRows tr (.hier P Q m n b)) p z → R z ∧ W z := by
      intro z hz
      obtain ⟨k, i, k0, k1, i0, i1, rfl⟩ := cin_iff.1 hz
      exact ⟨hR k i k0 k1 i0 i1, hW k i k0 k1 i0 i1⟩
    split_ifs with e1 e2
    · subst e1
      have er : opRows 'N' (.hier P Q m n b) = m := rfl
      rw [er] at *
      have it := fun c q (c0 : 0 ≤ c) (q0 : 0 ≤ q) (c1 : c + q ≤ p) a a0 a1 => (hier_iter_acc (R := R) (W := W) hS' ih hX hL c0 q0 c1 (C := C) hB).1 rfl a a0 a1
        (fun z hz => cR (cin_le (fr a a0 a1).1 (by rw [h4]; exact (fr a a0 a1).2) c0 c1 hz)) (fun z i i0 i1 hz => ⟨sR z ⟨a, i, a0, a1, i0, i1, hz⟩, sW z ⟨a, i, a0, a1, i0, i1, hz⟩⟩)
      unfold hmmSeq
      refine Acc.bind ?_ fun _ => ?_
      · split_ifs
        · exact Acc.each (fun k hk _ => betaP_acc (fun i => hR k i (mem_rUp.1 hk).1 (mem_rUp.1 hk).2) (fun i => hW k i (mem_rUp.1 hk).1 (mem_rUp.1 hk).2)) ()
        · trivial
      · split_ifs
        · refine Acc.bind (Acc.each (fun a ha _ => it _ _ (by omega) (by omega) (by omega) a (mem_rUp.1 ha).1 (mem_rUp.1 ha).2) ()) fun _ => ?_
          exact Acc.each (fun a ha _ => it _ _ (by omega) (by omega) (by omega) a (mem_rUp.1 ha).1 (mem_rUp.1 ha).2) ()
        · exact Acc.each (fun a ha _ => it _ _ (by omega) (by omega) (by omega) a (mem_rUp.1 ha).1 (mem_rUp.1 ha).2) ()
    · subst e2
      have er : opRows 'T' (.hier P Q m n b) = n := rfl
      rw [er] at *
      have it := fun c q (c0 : 0 ≤ c) (q0 : 0 ≤ q) (c1 : c + q ≤ p) a a0 a1 => (hier_iter_acc (R := R) (W := W) hS' ih hX hL c0 q0 c1 (C := C) hB).2 rfl a a0 a1
        (fun z hz => cR (cin_le (fc a a0 a1).1 (by rw [h5]; exact (fc a a0 a1).2) c0 c1 hz)) (fun z i i0 i1 hz => ⟨sR z ⟨i, a, i0, i1, a0, a1, hz⟩, sW z ⟨i, a, i0, i1, a0, a1, hz⟩⟩)
      unfold hmmSeq
      refine Acc.bind ?_ fun _ => ?_
      · split_ifs
        · exact Acc.each (fun k hk _ => betaP_acc (fun i => hR k i (mem_rUp.1 hk).1 (mem_rUp.1 hk).2) (fun i => hW k i (mem_rUp.1 hk).1 (mem_rUp.1 hk).2)) ()
        · trivial
      · split_ifs
        · refine Acc.bind (Acc.each (fun a ha _ => it _ _ (by omega) (by omega) (by omega) a (mem_rUp.1 ha).1 (mem_rUp.1 ha).2) ()) fun _ => ?_
          exact Acc.each (fun a ha _ => it _ _ (by omega) (by omega) (by omega) a (mem_rUp.1 ha).1 (mem_rUp.1 ha).2) ()
        · exact Acc.each (fun a ha _ => it _ _ (by omega) (by omega) (by omega) a (mem_rUp.1 ha).1 (mem_rUp.1 ha).2) ()
    · trivial

end FT.Props.Hier
