import Verif.Lemmas.HeapPlans
/-
Specifications of operator Clenshaw, banded factorisations and modified plans.
-/
set_option linter.unusedVariables false
namespace FT.Heap

theorem IsBanded.ptr {mm n l u : Int} {p : Val} {m : Res} (H : IsBanded mm n l u p m) :
    ∃ i, p = .ptr i 0 := by
  obtain ⟨i, _, _, _, e, _⟩ := H; exact ⟨i, e⟩

theorem IsBanded.cell {mm n l u : Int} {p : Val} {m : Res} (H : IsBanded mm n l u p m) :
    ∃ i d c cd, p = .ptr i 0 ∧ (i, c) ∈ m ∧ (d, cd) ∈ m ∧ c.val (.fld .data) = .ptr d 0 ∧
      c.val (.fld .m) = .int mm ∧ c.val (.fld .n) = .int n ∧ c.val (.fld .l) = .int l ∧
      c.val (.fld .u) = .int u := by
  obtain ⟨i, d, c, cd, rfl, rfl, _, _, h⟩ := H
  exact ⟨i, d, c, cd, rfl, by simp, by simp, h⟩

/-! ### Clenshaw -/

theorem clenshawLoop_spec {X : Val} {R : Res} {mm l u : Int}
    {Q : Val × Val × Val → Heap → Prop} (hX : LiveAt .data X R) : ∀ (k : Nat) (p1 p2 p3 : Val)
    (m1 m2 m3 : Res) (h : Heap), IsBanded mm mm l u p1 m1 → IsBanded mm mm l u p2 m2 →
    IsBanded mm mm l u p3 m3 → Sat h (m1 + (m2 + (m3 + R))) →
    (∀ q1 q2 q3 n1 n2 n3 h', IsBanded mm mm l u q1 n1 → IsBanded mm mm l u q2 n2 →
      IsBanded mm mm l u q3 n3 → Sat h' (n1 + (n2 + (n3 + R))) → Q (q1, q2, q3) h') →
    WP (clenshawLoop X k p1 p2 p3) h Q
  | 0, p1, p2, p3, m1, m2, m3, h, H1, H2, H3, S, K => wp_pure (K _ _ _ _ _ _ _ H1 H2 H3 S)
  | k + 1, p1, p2, p3, m1, m2, m3, h, H1, H2, H3, S, K => by
    unfold clenshawLoop
    refine wp_bind (useBanded_spec S (hX.mono (by fle)) ?_)
    refine wp_bind (useBanded_spec S (H1.liveAt.mono (by fle)) ?_)
    refine wp_bind (useBanded_spec S (H3.liveAt.mono (by fle)) ?_)
    exact clenshawLoop_spec hX k p3 p1 p2 m3 m1 m2 h H3 H1 H2 (S.perm (by fnd)) K

theorem operatorClenshaw_spec {nc : Nat} {n l u : Int} {A B C X : Val} {mX R : Res} {h : Heap}
    {Q : Val → Heap → Prop} (S : Sat h R) (hX : IsBanded n n l u X mX) (lX : mX ≤ R)
    (hA : Live A R) (hB : Live B R) (hC : Live C R) (h0 : 0 ≤ n) (h1 : 1 ≤ nc)
    (K : ∀ p h', Own (IsBanded n n (nc - 1) (nc - 1) p) R h' → Q p h') :
    WP (operatorClenshaw nc A B C X) h Q := by
  obtain ⟨i, d, c, cd, rfl, mi, md, fd, fm, fn, fl, fu⟩ := hX.cell
  have mi' := Multiset.mem_of_le lX mi
  have hs : (0 : Int) ≤ n * ((nc - 1 : Int) + (nc - 1) + 1) := mul_nonneg h0 (by omega)
  unfold operatorClenshaw
  hs
  refine wp_bind (callocBanded_spec (by assumption) (by assumption) ?_)
  intro B1 g1 ⟨m1, hm1, S1⟩
  refine wp_bind (callocBanded_spec (by assumption) (by assumption) ?_)
  intro B2 g2 ⟨m2, hm2, S2⟩
  refine wp_bind (callocBanded_spec (by assumption) (by assumption) ?_)
  intro B3 g3 ⟨m3, hm3, S3⟩
  refine wp_bind (use_live S3 (hA.mono (by fle)) ?_)
  refine wp_bind (use_live S3 (hB.mono (by fle)) ?_)
  refine wp_bind (use_live S3 (hC.mono (by fle)) ?_)
  refine wp_bind (clenshawLoop_spec (hX.liveAt.mono lX) nc _ _ _ m1 m2 m3 g3 hm1 hm2 hm3
    (S3.perm (by abel)) ?_)
  intro q1 q2 q3 n1 n2 n3 g4 k1 k2 k3 S4
  refine wp_bind (useBanded_spec S4 (k1.liveAt.mono (by fle)) ?_)
  refine wp_bind ((destroyBanded_spec k2).run S4 (by fnd) fun _ _ => ?_)
  refine wp_bind ((destroyBanded_spec k3).run (by assumption) (by fnd) fun _ _ => ?_)
  exact wp_pure (K _ _ ⟨_, k1, by assumption⟩)

theorem makes_operatorNormalizedClenshaw {n : Int} {nc : Nat} (h0 : 0 ≤ n) (h1 : 1 ≤ nc) :
    Makes (operatorNormalizedClenshaw n nc) (IsBanded n n (nc - 1) (nc - 1)) := by
  intro R h Q S K
  have hs : (0 : Int) ≤ n * ((nc - 1 : Int) + (nc - 1) + 1) := mul_nonneg h0 (by omega)
  unfold operatorNormalizedClenshaw
  refine wp_bind (callocBanded_spec (by assumption) (by positivity) ?_)
  intro X g1 ⟨mX, hX, S1⟩
  hs
  hs
  hs
  refine wp_bind (operatorClenshaw_spec (by assumption) hX (by fle) ⟨_, _, _, rfl, by fmem⟩
    ⟨_, _, _, rfl, by fmem⟩ ⟨_, _, _, rfl, by fmem⟩ (by omega) h1 ?_)
  intro Ml g2 ⟨ml, hl, S2⟩
  refine wp_bind (callocBanded_spec (by assumption) (by assumption) ?_)
  intro M g3 ⟨mM, hM, S3⟩
  refine wp_bind (useBanded_spec S3 (hM.liveAt.mono (by fle)) ?_)
  refine wp_bind (useBanded_spec S3 (hl.liveAt.mono (by fle)) ?_)
  refine wp_bind ((destroyBanded_spec hX).run (by assumption) (by fnd) fun _ _ => ?_)
  refine wp_bind ((destroyBanded_spec hl).run (by assumption) (by fnd) fun _ _ => ?_)
  hss
  exact wp_pure (K _ _ ⟨_, hM, by assumption⟩)

/-! ### QR and QL factorisations -/

/-- A banded QR or QL factorisation owning `m`. -/
def IsQR (mm n l u : Int) (p : Val) (m : Res) : Prop :=
  ∃ i t c ct q mq, p = .ptr i 0 ∧ m = {(i, c)} + ({(t, ct)} + mq) ∧ c.tag = .libc ∧
    ct.tag = .libc ∧ IsBanded mm n l u q mq ∧ c.val (.fld .factors) = q ∧
    c.val (.fld .tau) = .ptr t 0

theorem IsQR.intro {h : Heap} {M M1 mq R : Res} {mm n l u : Int} {i t : Nat} {c ct : Cell}
    {q : Val} (hq : IsBanded mm n l u q mq) (H : Sat h M) (e : M = {(i, c)} + M1)
    (tc : c.tag = .libc) (ft : c.val (.fld .tau) = .ptr t 0) (et : M1 = {(t, ct)} + (mq + R))
    (tt : ct.tag = .libc) (ff : c.val (.fld .factors) = q) : Own (IsQR mm n l u (.ptr i 0)) R h :=
  ⟨_, ⟨i, t, c, ct, q, mq, rfl, rfl, tc, tt, hq, ff, ft⟩, H.perm (by rw [e, et]; abel)⟩

theorem destroyQR_spec {mm n l u : Int} {p : Val} {m : Res} (H : IsQR mm n l u p m) :
    Destroys destroyQR p m := by
  intro R h Q S K
  obtain ⟨i, t, c, ct, q, mq, rfl, rfl, tc, tt, hq, ff, ft⟩ := H
  obtain ⟨_, rfl⟩ := hq.ptr
  simp only [add_assoc] at S
  unfold destroyQR
  hs
  refine wp_bind ((destroyBanded_spec hq).run (by assumption) (by fnd) fun _ _ => ?_)
  hss
  exact K _ (by assumption)

theorem factor_spec {mm n l u lf uf : Int} {p : Val} {m R : Res} {h : Heap} {Q : Val → Heap → Prop}
    (S : Sat h R) (H : IsBanded mm n l u p m) (lm : m ≤ R) (h0 : 0 ≤ mm) (h1 : 0 ≤ n)
    (h2 : 0 ≤ lf + uf + 1) (K : ∀ q h', Own (IsQR mm n lf uf q) R h' → Q q h') :
    WP (factor p lf uf) h Q := by
  obtain ⟨i, d, c, cd, rfl, mi, md, fd, fm, fn, fl, fu⟩ := H.cell
  have mi' := Multiset.mem_of_le lm mi
  have md' := Multiset.mem_of_le lm md
  unfold factor
  hs
  hs
  refine wp_bind (callocBanded_spec (by assumption) (mul_nonneg h1 h2) ?_)
  intro q g1 ⟨mq, hq, S1⟩
  obtain ⟨i', d', c', cd', rfl, k1, k2, k3, -⟩ := hq.cell
  refine wp_bind (wp_calloc (by assumption) (le_min h0 h1) fun _ _ _ => ?_)
  hss
  exact wp_pure (K _ _ (IsQR.intro hq (by assumption) (by fnd) (by tg) (by getv) (by fnd) (by tg)
    (by getv)))

/-! ### Modified plans -/

/-- A modified plan with `nv` owning `m`. -/
def IsMod (p : Val) (m : Res) : Prop :=
  ∃ i c nv, p = .ptr i 0 ∧ c.tag = .libc ∧ c.val (.fld .nv) = .int nv ∧
    ((nv < 1 ∧ ∃ r mr n b, IsTB n b r mr ∧ c.val (.fld .R) = r ∧ m = {(i, c)} + mr) ∨
      (1 ≤ nv ∧ ∃ r mr k mk n b n' b', IsTB n b r mr ∧ IsTB n' b' k mk ∧ c.val (.fld .R) = r ∧
        c.val (.fld .K) = k ∧ m = {(i, c)} + (mr + mk)))

theorem IsMod.poly {h : Heap} {M mr R : Res} {i : Nat} {c : Cell} {nv n b : Int} {r : Val}
    (hr : IsTB n b r mr) (hn : nv < 1) (H : Sat h M) (e : M = {(i, c)} + (mr + R))
    (t : c.tag = .libc) (fv : c.val (.fld .nv) = .int nv) (fr : c.val (.fld .R) = r) :
    Own (IsMod (.ptr i 0)) R h :=
  ⟨_, ⟨i, c, nv, rfl, t, fv, Or.inl ⟨hn, r, mr, n, b, hr, fr, rfl⟩⟩, H.perm (by rw [e]; abel)⟩

theorem IsMod.rat {h : Heap} {M mr mk R : Res} {i : Nat} {c : Cell} {nv n b n' b' : Int}
    {r k : Val} (hr : IsTB n b r mr) (hk : IsTB n' b' k mk) (hn : 1 ≤ nv) (H : Sat h M)
    (e : M = {(i, c)} + (mr + (mk + R))) (t : c.tag = .libc) (fv : c.val (.fld .nv) = .int nv)
    (fr : c.val (.fld .R) = r) (fk : c.val (.fld .K) = k) :
    Own (IsMod (.ptr i 0)) R h :=
  ⟨_, ⟨i, c, nv, rfl, t, fv, Or.inr ⟨hn, r, mr, k, mk, n, b, n', b', hr, hk, fr, fk, rfl⟩⟩,
    H.perm (by rw [e]; abel)⟩

theorem destroyModified_spec {p : Val} {m : Res} (H : IsMod p m) : Destroys destroyModified p m := by
  intro R h Q S K
  obtain ⟨i, c, nv, rfl, t, fv, ⟨hn, r, mr, n, b, hr, fr, rfl⟩ |
    ⟨hn, r, mr, k, mk, n, b, n', b', hr, hk, fr, fk, rfl⟩⟩ := H
  · obtain ⟨_, rfl⟩ := hr.ptr
    simp only [add_assoc] at S
    unfold destroyModified
    hs
    refine wp_if_pos hn ?_
    hs
    refine wp_bind ((destroyTB_spec hr).run (by assumption) (by fnd) fun _ _ => ?_)
    hss
    exact K _ (by assumption)
  · obtain ⟨_, rfl⟩ := hr.ptr
    obtain ⟨_, rfl⟩ := hk.ptr
    simp only [add_assoc] at S
    unfold destroyModified
    hs
    refine wp_if_neg (not_lt.2 hn) ?_
    hs
    refine wp_bind ((destroyTB_spec hk).run (by assumption) (by fnd) fun _ _ => ?_)
    hs
    refine wp_bind ((destroyTB_spec hr).run (by assumption) (by fnd) fun _ _ => ?_)
    hss
    exact K _ (by assumption)

/-- A constructor of multiplication operators. -/
def IsOp (op : Int → Nat → HM Val) : Prop :=
  ∀ (n : Int) (nc : Nat), 0 ≤ n → 1 ≤ nc → Makes (op n nc) (IsBanded n n (nc - 1) (nc - 1))

theorem isOp_clenshaw : IsOp operatorNormalizedClenshaw :=
  fun _ _ h0 h1 => makes_operatorNormalizedClenshaw h0 h1

theorem makes_planModifiedPoly {op : Int → Nat → HM Val} (hop : IsOp op) {n nv : Int} {nu : Nat}
    (h0 : 0 ≤ n) (h1 : 1 ≤ nu) (h2 : nv < 1) : Makes (planModifiedPoly op n nu nv) IsMod := by
  intro R h Q S K
  unfold planModifiedPoly
  hs
  refine wp_bind (hop n nu h0 h1 _ _ _ (by assumption) ?_)
  intro U g1 ⟨mU, hU, S1⟩
  refine wp_bind (useBanded_spec S1 (hU.liveAt.mono (by fle)) ?_)
  refine wp_bind (convertBandedToTB_spec hU (by assumption) (by fnd) h0 (by omega) ?_)
  intro T g2 ⟨mT, hT, S2⟩
  hss
  exact wp_pure (K _ _ (IsMod.poly hT h2 (by assumption) (by fnd) (by tg) (by getv) (by getv)))

theorem truncate_spec {β : Type} {mm n l u N : Int} {p : Val} {m M R : Res} {h : Heap} {f : HM β}
    {Q : β → Heap → Prop} (H : IsBanded mm n l u p m) (S : Sat h M) (e : M = m + R)
    (K : ∀ h', Own (IsBanded N N l u p) R h' → WP f h' Q) :
    WP (do stf p .n (.int N); stf p .m (.int N); f) h Q := by
  subst e
  obtain ⟨i, d, c, cd, rfl, rfl, t, td, fd, fm, fn, fl, fu⟩ := H
  simp only [add_assoc] at S
  hs
  hs
  exact K _ (by mkBanded)

theorem qlPass_spec {op : Int → Nat → HM Val} (hop : IsOp op) {nu nv : Nat} (h1 : 1 ≤ nv) {R : Res}
    {Q : Val → Heap → Prop} {N : Int} {h : Heap} (h0 : 0 ≤ N) (S : Sat h R)
    (K : ∀ p h', Own (IsQR N N (2 * (nv - 1)) (nv - 1) p) R h' → Q p h') :
    WP (qlPass op nu nv N) h Q := by
  unfold qlPass
  refine wp_bind (hop _ nv (by positivity) h1 _ _ _ (by assumption) ?_)
  intro V g1 ⟨mV, hV, S1⟩
  refine wp_bind (wp_calloc S1 (mul_nonneg h0 (by omega)) fun _ _ _ => ?_)
  hs
  refine wp_bind (useBanded_spec (by assumption) (hV.liveAt.mono (by fle)) ?_)
  refine truncate_spec hV (by assumption) (by fnd) ?_
  intro g2 ⟨mV2, hV2, S2⟩
  refine wp_bind (factor_spec S2 hV2 (by fle) h0 h0 (by omega) ?_)
  intro F g3 ⟨mF, hF, S3⟩
  hs
  hs
  refine wp_bind ((destroyBanded_spec hV2).run (by assumption) (by fnd) fun _ _ => ?_)
  exact wp_pure (K _ _ ⟨_, hF, by assumption⟩)

theorem qlLoop_spec {op : Int → Nat → HM Val} (hop : IsOp op) {nu nv : Nat} (h1 : 1 ≤ nv) {R : Res}
    {Q : Val → Heap → Prop} : ∀ (k : Nat) (N : Int) (h : Heap), 0 ≤ N → Sat h R →
    (∀ p h' N', Own (IsQR N' N' (2 * (nv - 1)) (nv - 1) p) R h' → Q p h') →
    WP (qlLoop op nu nv k N) h Q
  | 0, N, h, h0, S, K => qlPass_spec hop h1 h0 S fun p h' O => K p h' N O
  | k + 1, N, h, h0, S, K => by
    unfold qlLoop
    refine wp_bind (qlPass_spec hop h1 h0 S ?_)
    intro F g3 ⟨mF, hF, S3⟩
    refine wp_bind ((destroyQR_spec hF).run (by assumption) (by fnd) fun _ _ => ?_)
    exact qlLoop_spec hop h1 k (2 * N) _ (by positivity) (by assumption) K

theorem IsQR.inv {mm n l u : Int} {p : Val} {m : Res} (H : IsQR mm n l u p m) :
    ∃ i t c ct q mq, p = .ptr i 0 ∧ (i, c) ∈ m ∧ (t, ct) ∈ m ∧ mq ≤ m ∧ IsBanded mm n l u q mq ∧
      c.val (.fld .factors) = q ∧ c.val (.fld .tau) = .ptr t 0 := by
  obtain ⟨i, t, c, ct, q, mq, rfl, rfl, tc, tt, hq, ff, ft⟩ := H
  exact ⟨i, t, c, ct, q, mq, rfl, by simp, by simp, le_next (Multiset.le_add_left _ _), hq, ff, ft⟩

theorem partialBqmm_spec {mm n l u mm' n' l' u' : Int} {p q : Val} {m mq R : Res} {h : Heap}
    {Q : Unit → Heap → Prop} (S : Sat h R) (H : IsQR mm n l u p m) (lm : m ≤ R)
    (Hq : IsBanded mm' n' l' u' q mq) (lq : mq ≤ R) (h0 : 0 ≤ l' + u' + 1 + u)
    (K : ∀ h', Sat h' R → Q () h') : WP (partialBqmm p q) h Q := by
  obtain ⟨i, t, c, ct, q', mq', rfl, mi, mt, lmq, hq, ff, ft⟩ := H.inv
  obtain ⟨i1, d1, c1, cd1, rfl, a1, a2, a3, -, -, a6, a7⟩ := hq.cell
  obtain ⟨i2, d2, c2, cd2, rfl, b1, b2, b3, -, -, b6, b7⟩ := Hq.cell
  have mi := Multiset.mem_of_le lm mi
  have mt := Multiset.mem_of_le lm mt
  have a1 := Multiset.mem_of_le lm (Multiset.mem_of_le lmq a1)
  have a2 := Multiset.mem_of_le lm (Multiset.mem_of_le lmq a2)
  have b1 := Multiset.mem_of_le lq b1
  have b2 := Multiset.mem_of_le lq b2
  unfold partialBqmm
  hs
  hs
  hs
  hs
  hs
  hs
  hs
  hs
  hs
  hs
  refine wp_bind (useBanded_spec (by assumption) (Hq.liveAt.mono (le_next lq)) ?_)
  hss
  exact K _ (by assumption)

set_option maxHeartbeats 1000000 in
theorem modifiedFactors_spec {op : Int → Nat → HM Val} (hop : IsOp op) {nu nv : Nat} {n : Int}
    {mm n' : Int} {F : Val} {mF R : Res} {h : Heap} {Q : Val × Val → Heap → Prop}
    (h0 : 0 ≤ n) (h1 : 1 ≤ nu) (h2 : 1 ≤ nv) (S : Sat h (mF + R))
    (hF : IsQR mm n' (2 * (nv - 1)) (nv - 1) F mF)
    (K : ∀ k r mk mr b b' h', IsTB n b k mk → IsTB n b' r mr → Sat h' (mr + (mk + R)) →
      Q (k, r) h') : WP (modifiedFactors op n nu nv F) h Q := by
  obtain ⟨i, t, c, ct, q, mq, rfl, rfl, tc, tt, hq, ff, ft⟩ := hF
  obtain ⟨iq, rfl⟩ := hq.ptr
  simp only [add_assoc] at S
  unfold modifiedFactors
  hs
  refine truncate_spec hq (by assumption) (by fnd) ?_
  intro g1 ⟨mq1, hq1, S1⟩
  refine wp_bind (hop _ nu (by positivity) h1 _ _ _ (by assumption) ?_)
  intro U g2 ⟨mU, hU, S2⟩
  obtain ⟨i1, d1, c1, cd1, e1, a1, a2, a3, a4, a5, a6, a7⟩ := hq1.cell
  rw [e1]
  hs
  refine wp_bind (callocBanded_spec (by assumption)
    (mul_nonneg (by positivity) (by omega)) ?_)
  intro Lt g3 ⟨mL, hL, S3⟩
  refine wp_bind (useBanded_spec (by assumption) ((e1 ▸ hq1.liveAt).mono (by fle)) ?_)
  refine wp_bind (useBanded_spec (by assumption) (hL.liveAt.mono (by fle)) ?_)
  refine wp_bind (wp_calloc (by assumption) (by positivity) ?_)
  intro x g35 S35
  generalize hcx : Cell.mk _ _ _ = cx at S35
  have tx : cx.tag = .libc := by rw [← hcx]
  hs
  refine wp_bind (callocBanded_spec (by assumption)
    (mul_nonneg (by positivity) (by omega)) ?_)
  intro UL g4 ⟨mUL, hUL, S4⟩
  refine wp_bind (useBanded_spec (by assumption) (hU.liveAt.mono (by fle)) ?_)
  refine wp_bind (useBanded_spec (by assumption) (hUL.liveAt.mono (by fle)) ?_)
  have hQ : IsQR (n + nu + nv) (n + nu + nv) (2 * (nv - 1)) (nv - 1) (.ptr i 0)
      ({(i, c)} + ({(t, ct)} + mq1)) := ⟨i, t, c, ct, _, mq1, rfl, rfl, tc, tt, hq1, ff, ft⟩
  refine wp_bind (partialBqmm_spec (m := {(i, c)} + ({(t, ct)} + mq1)) (mq := mUL)
    (S4.perm (N := ({(i, c)} + ({(t, ct)} + mq1)) + (mUL + ({(x, cx)} + (mL + (mU + R)))))
      (by abel)) hQ (by fle) hUL (by fle) (by omega) ?_)
  intro g5 S5
  refine wp_bind (callocBanded_spec S5 (mul_nonneg h0 (by omega)) ?_)
  intro QT g6 ⟨mQT, hQT, S6⟩
  refine wp_bind (useBanded_spec (by assumption) (hQT.liveAt.mono (by fle)) ?_)
  refine wp_bind (convertBandedToTB_spec hQT (by assumption) (by fnd) h0 (by omega) ?_)
  intro Kp g7 ⟨mK, hK, S7⟩
  obtain ⟨i2, d2, c2, cd2, rfl, b1, b2, b3, b4, b5, b6, b7⟩ := hL.cell
  refine wp_bind (wp_ldInt S7 (mem_next (mem_next (mem_next (mem_next (mem_sub b1))))) rfl b7 ?_)
  refine wp_bind (callocTB_spec (by assumption) h0 (by omega) ?_)
  intro Rp g8 ⟨mR, hR, S8⟩
  refine wp_bind (useBanded_spec (by assumption) (hR.tbin.liveAt.mono (by fle)) ?_)
  hs
  refine wp_bind ((destroyBanded_spec hU).run (by assumption) (by fnd) fun _ _ => ?_)
  refine wp_bind ((destroyBanded_spec hL).run (by assumption) (by fnd) fun _ _ => ?_)
  refine wp_bind ((destroyBanded_spec hUL).run (by assumption) (by fnd) fun _ _ => ?_)
  refine wp_bind ((destroyQR_spec hQ).run (by assumption) (by fnd) fun _ _ => ?_)
  exact wp_pure (K _ _ _ _ _ _ _ hK hR (by assumption))

theorem makes_planModifiedRat {op : Int → Nat → HM Val} (hop : IsOp op) {k : Nat} {n : Int}
    {nu nv : Nat} (h0 : 0 ≤ n) (h1 : 1 ≤ nu) (h2 : 1 ≤ nv) :
    Makes (planModifiedRat op k n nu nv) IsMod := by
  intro R h Q S K
  unfold planModifiedRat
  hs
  refine wp_bind (qlLoop_spec hop h2 k _ _ (by positivity) (by assumption) ?_)
  intro F g1 N' ⟨mF, hF, S1⟩
  refine wp_bind (modifiedFactors_spec hop h0 h1 h2 S1 hF ?_)
  intro k' r mk mr b b' g2 hk hr S2
  dsimp only
  hss
  exact wp_pure (K _ _ (IsMod.rat (nv := nv) hr hk (by exact_mod_cast h2) (by assumption) (by fnd) (by tg)
    (by getv) (by getv) (by getv)))

end FT.Heap
