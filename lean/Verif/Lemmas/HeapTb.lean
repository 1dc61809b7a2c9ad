import Verif.Lemmas.HeapHier
/-
Specifications of the divide-and-conquer factorisations of triangular banded pencils.
-/
set_option linter.unusedVariables false
namespace FT.Heap

/-- A factorisation of size `n` (as made by `X(tb_eig_FMM)`) owning `m`. -/
inductive IsFmm : Int → Val → Res → Prop
  | small {n : Int} {i v l : Nat} {c cv cl : Cell} (hn : n < 128) (h0 : 0 ≤ n)
      (t : c.tag = .libc) (tv : cv.tag = .libc) (tl : cl.tag = .libc)
      (fv : c.val (.fld .V) = .ptr v 0) (fl : c.val (.fld .lambda) = .ptr l 0)
      (fn : c.val (.fld .n) = .int n) :
      IsFmm n (.ptr i 0) ({(i, c)} + ({(v, cv)} + {(l, cl)}))
  | large {n b : Int} {i x y t1 t2 l p1 p2 : Nat} {c cx cy c1 c2 cl cp1 cp2 : Cell}
      {q0 q1 q2 q3 : Val} {m0 m1 m2 m3 : Res} {B : Blk} (hn : 128 ≤ n) (h0 : 0 ≤ b)
      (hB : IsBlk B q0 m0) (hc : B.code = 1) (h1 : IsFmm (n / 2) q1 m1)
      (h2 : IsFmm (n - n / 2) q2 m2) (h3 : IsSparse q3 m3)
      (t : c.tag = .libc) (tx : cx.tag = .libc) (ty : cy.tag = .libc) (tt1 : c1.tag = .libc)
      (tt2 : c2.tag = .libc) (tl : cl.tag = .libc) (tp1 : cp1.tag = .libc)
      (tp2 : cp2.tag = .libc)
      (f0 : c.val (.fld .F0) = q0) (f1 : c.val (.fld .F1) = q1) (f2 : c.val (.fld .F2) = q2)
      (fs : c.val (.fld .S) = q3) (fx : c.val (.fld .X) = .ptr x 0)
      (fy : c.val (.fld .Y) = .ptr y 0) (ft1 : c.val (.fld .t1) = .ptr t1 0)
      (ft2 : c.val (.fld .t2) = .ptr t2 0) (fl : c.val (.fld .lambda) = .ptr l 0)
      (fp1 : c.val (.fld .p1) = .ptr p1 0) (fp2 : c.val (.fld .p2) = .ptr p2 0)
      (fn : c.val (.fld .n) = .int n) (fb : c.val (.fld .b) = .int b) :
      IsFmm n (.ptr i 0) ({(i, c)} + (m0 + (m1 + (m2 + (m3 + ({(x, cx)} + ({(y, cy)} +
        ({(t1, c1)} + ({(t2, c2)} + ({(l, cl)} + ({(p1, cp1)} + {(p2, cp2)})))))))))))

theorem IsSparse.ptr {p : Val} {m : Res} (H : IsSparse p m) : ∃ i, p = .ptr i 0 := by
  obtain ⟨i, _, _, _, _, _, _, _, _, _, _, e, _⟩ := H; exact ⟨i, e⟩

theorem IsFmm.ptr {n : Int} {p : Val} {m : Res} (H : IsFmm n p m) : ∃ i, p = .ptr i 0 := by
  cases H <;> exact ⟨_, rfl⟩

theorem IsFmm.lam {n : Int} {p : Val} {m : Res} (H : IsFmm n p m) :
    ∃ i c l cl, p = .ptr i 0 ∧ (i, c) ∈ m ∧ c.val (.fld .lambda) = .ptr l 0 ∧ (l, cl) ∈ m ∧
      c.val (.fld .n) = .int n := by
  cases H with
  | @small _ _ _ _ c _ cl hn h0 t tv tl fv fl fn =>
    exact ⟨_, c, _, cl, rfl, by fmem, fl, mem_next (Multiset.mem_add.2 (.inr (by simp))), fn⟩
  | @large _ _ _ _ _ _ _ _ _ _ c _ _ _ _ cl _ _ _ _ _ _ _ _ _ _ _ hn h0 hB hc h1 h2 h3 t tx ty
      tt1 tt2 tl tp1 tp2 f0 f1 f2 fs fx fy ft1 ft2 fl fp1 fp2 fn fb =>
    exact ⟨_, c, _, cl, rfl, mem_here, fl, by fmem, fn⟩

theorem IsFmm.small' {h : Heap} {M M1 M2 R : Res} {n : Int} {i v l : Nat} {c cv cl : Cell}
    (H : Sat h M) (e : M = {(i, c)} + M1) (t : c.tag = .libc)
    (fv : c.val (.fld .V) = .ptr v 0) (ev : M1 = {(v, cv)} + M2) (tv : cv.tag = .libc)
    (fl : c.val (.fld .lambda) = .ptr l 0) (el : M2 = {(l, cl)} + R) (tl : cl.tag = .libc)
    (fn : c.val (.fld .n) = .int n) (hn : n < 128) (h0 : 0 ≤ n) : Own (IsFmm n (.ptr i 0)) R h :=
  ⟨_, .small hn h0 t tv tl fv fl fn, H.perm (by rw [e, ev, el]; abel)⟩

theorem IsFmm.large' {h : Heap} {M M1 M2 M3 M4 M5 M6 M7 M8 M9 M10 M11 R : Res} {n b : Int}
    {i x y t1 t2 l p1 p2 : Nat} {c cx cy c1 c2 cl cp1 cp2 : Cell}
    {q0 q1 q2 q3 : Val} {m0 m1 m2 m3 : Res} {B : Blk}
    (H : Sat h M) (hB : IsBlk B q0 m0) (hc : B.code = 1) (h1 : IsFmm (n / 2) q1 m1)
    (h2 : IsFmm (n - n / 2) q2 m2) (h3 : IsSparse q3 m3)
    (e : M = {(i, c)} + M1) (t : c.tag = .libc)
    (e0 : M1 = m0 + M2) (e1 : M2 = m1 + M3) (e2 : M3 = m2 + M4) (e3 : M4 = m3 + M5)
    (f0 : c.val (.fld .F0) = q0) (f1 : c.val (.fld .F1) = q1) (f2 : c.val (.fld .F2) = q2)
    (fs : c.val (.fld .S) = q3)
    (fx : c.val (.fld .X) = .ptr x 0) (ex : M5 = {(x, cx)} + M6) (tx : cx.tag = .libc)
    (fy : c.val (.fld .Y) = .ptr y 0) (ey : M6 = {(y, cy)} + M7) (ty : cy.tag = .libc)
    (ft1 : c.val (.fld .t1) = .ptr t1 0) (et1 : M7 = {(t1, c1)} + M8) (tt1 : c1.tag = .libc)
    (ft2 : c.val (.fld .t2) = .ptr t2 0) (et2 : M8 = {(t2, c2)} + M9) (tt2 : c2.tag = .libc)
    (fl : c.val (.fld .lambda) = .ptr l 0) (el : M9 = {(l, cl)} + M10) (tl : cl.tag = .libc)
    (fp1 : c.val (.fld .p1) = .ptr p1 0) (ep1 : M10 = {(p1, cp1)} + M11) (tp1 : cp1.tag = .libc)
    (fp2 : c.val (.fld .p2) = .ptr p2 0) (ep2 : M11 = {(p2, cp2)} + R) (tp2 : cp2.tag = .libc)
    (fn : c.val (.fld .n) = .int n) (fb : c.val (.fld .b) = .int b) (hn : 128 ≤ n) (h0 : 0 ≤ b) :
    Own (IsFmm n (.ptr i 0)) R h :=
  ⟨_, .large hn h0 hB hc h1 h2 h3 t tx ty tt1 tt2 tl tp1 tp2 f0 f1 f2 fs fx fy ft1 ft2 fl fp1 fp2
    fn fb, H.perm (by rw [e, e0, e1, e2, e3, ex, ey, et1, et2, el, ep1, ep2]; abel)⟩

theorem destroyTbFMM_spec {n : Int} {p : Val} {m : Res} (H : IsFmm n p m) :
    DestroysF destroyTbFMM p m := by
  induction H with
  | small hn h0 t tv tl fv fl fn =>
    refine ⟨1, fun fuel hf => ?_⟩
    obtain ⟨f, rfl⟩ : ∃ f, fuel = f + 1 := ⟨fuel - 1, by omega⟩
    intro R h Q S K
    simp only [add_assoc] at S
    unfold destroyTbFMM
    hs
    refine wp_if_pos hn ?_
    hss
    exact K _ (by assumption)
  | @large n b i x y t1 t2 l p1 p2 c cx cy c1 c2 cl cp1 cp2 q0 q1 q2 q3 m0 m1 m2 m3 B hn h0 hB hc
      h1 h2 h3 t tx ty tt1 tt2 tl tp1 tp2 f0 f1 f2 fs fx fy ft1 ft2 fl fp1 fp2 fn fb I1 I2 =>
    obtain ⟨k1, I1⟩ := I1
    obtain ⟨k2, I2⟩ := I2
    refine ⟨1 + B.depth + k1 + k2, fun fuel hf => ?_⟩
    obtain ⟨f, rfl⟩ : ∃ f, fuel = f + 1 := ⟨fuel - 1, by omega⟩
    obtain ⟨_, rfl⟩ := hB.ptr
    obtain ⟨_, rfl⟩ := h1.ptr
    obtain ⟨_, rfl⟩ := h2.ptr
    obtain ⟨_, rfl⟩ := h3.ptr
    intro R h Q S K
    simp only [add_assoc] at S
    unfold destroyTbFMM
    hs
    refine wp_if_neg (by omega) ?_
    hs
    refine wp_bind ((destroyHier_spec B _ _ f hB hc (by omega)).run (by assumption) (by fnd)
      fun _ _ => ?_)
    hs
    refine wp_bind ((I1 f (by omega)).run (by assumption) (by fnd) fun _ _ => ?_)
    hs
    refine wp_bind ((I2 f (by omega)).run (by assumption) (by fnd) fun _ _ => ?_)
    hs
    refine wp_bind ((destroySparse_spec h3).run (by assumption) (by fnd) fun _ _ => ?_)
    hss
    exact K _ (by assumption)

theorem TBin.mk' {n n' b : Int} {i d : Nat} {o : Int} {c cd : Cell} {M : Res} (hm : (i, c) ∈ M)
    (fd : c.val (.fld .data) = .ptr d o) (hd : (d, cd) ∈ M) (fn : c.val (.fld .n) = .int n')
    (e : n' = n) (fb : c.val (.fld .b) = .int b) : TBin n b (.ptr i 0) M :=
  ⟨i, c, d, o, cd, rfl, hm, hd, fd, e ▸ fn, fb⟩

theorem viewTB_spec {h : Heap} {M : Res} {b start stop oa : Int} {ia da : Nat} {ca : Cell}
    {Q : Val → Heap → Prop}
    (H : Sat h M) (ma : (ia, ca) ∈ M) (fda : ca.val (.fld .data) = .ptr da oa)
    (fba : ca.val (.fld .b) = .int b)
    (K : ∀ i c o h', Sat h' ({(i, c)} + M) → c.tag = .libc →
      c.val (.fld .data) = .ptr da o → c.val (.fld .n) = .int (stop - start) →
      c.val (.fld .b) = .int b → Q (.ptr i 0) h') : WP (viewTB (.ptr ia 0) start stop) h Q := by
  unfold viewTB
  hss
  refine wp_pure (K _ _ _ _ (by assumption) (by tg) (by getv) (by getv) (by getv))

theorem tbOffDiag_spec {h : Heap} {M : Res} {n s b b1 b2 na nb nb1 : Int} {i q1 q2 l1 l2 : Nat}
    {c c1 c2 cl1 cl2 : Cell} {A B B1 lam : Val}
    {Q : Val × Val × Val → Heap → Prop} (H : Sat h M) (hF : (i, c) ∈ M)
    (f1 : c.val (.fld .F1) = .ptr q1 0) (m1 : (q1, c1) ∈ M)
    (fl1 : c1.val (.fld .lambda) = .ptr l1 0) (ml1 : (l1, cl1) ∈ M)
    (f2 : c.val (.fld .F2) = .ptr q2 0) (m2 : (q2, c2) ∈ M)
    (fl2 : c2.val (.fld .lambda) = .ptr l2 0) (ml2 : (l2, cl2) ∈ M)
    (tA : TBin na b1 A M) (tB : TBin nb b2 B M) (tB1 : TBin nb1 b2 B1 M) (tl : Live lam M)
    (h1 : 0 ≤ s * b) (h2 : 0 ≤ (n - s) * b) (h3 : 0 ≤ (n - s) * b2)
    (K : ∀ x y z cx cy cz h', Sat h' ({(z, cz)} + ({(y, cy)} + ({(x, cx)} + M))) → cx.tag = .libc →
      cy.tag = .libc → cz.tag = .libc → Q (.ptr x 0, .ptr y 0, .ptr z 0) h') :
    WP (tbOffDiag (.ptr i 0) A B B1 lam n s b b2) h Q := by
  obtain ⟨ia, ca, da, oa, cda, rfl, ma, mda, fda, fna, fba⟩ := tA
  obtain ⟨ib, cb, db, ob, cdb, rfl, mb, mdb, fdb, fnb, fbb⟩ := tB
  obtain ⟨ic, cc, dc, oc, cdc, rfl, mc, mdc, fdc, fnc, fbc⟩ := tB1
  obtain ⟨d, od, cdd, rfl, md⟩ := tl
  unfold tbOffDiag useBanded
  hss
  exact wp_pure (K _ _ _ _ _ _ _ (by assumption) (by tg) (by tg) (by tg))

theorem tbSpectra_spec {h : Heap} {M : Res} {i q1 q2 l1 l2 : Nat}
    {c c1 c2 cl1 cl2 : Cell} {lam : Val}
    {Q : Unit → Heap → Prop} (H : Sat h M) (hF : (i, c) ∈ M)
    (f1 : c.val (.fld .F1) = .ptr q1 0) (m1 : (q1, c1) ∈ M)
    (fl1 : c1.val (.fld .lambda) = .ptr l1 0) (ml1 : (l1, cl1) ∈ M)
    (f2 : c.val (.fld .F2) = .ptr q2 0) (m2 : (q2, c2) ∈ M)
    (fl2 : c2.val (.fld .lambda) = .ptr l2 0) (ml2 : (l2, cl2) ∈ M) (tl : Live lam M)
    (K : Q () h) :
    WP (tbSpectra (.ptr i 0) lam) h Q := by
  obtain ⟨d, od, cdd, rfl, md⟩ := tl
  unfold tbSpectra
  hss
  exact K

theorem useFld3_spec {S : Val} {mS M R : Res} {h : Heap} {α : Type} {k : HM α}
    {Q : α → Heap → Prop} (H : Sat h M) (hS : IsSparse S mS) (e : M = mS + R)
    (K : WP k h Q) : WP (do
      use (← ldf S .p)
      use (← ldf S .q)
      use (← ldf S .v)
      k) h Q := by
  obtain ⟨i, a, b, v, c, ca, cb, cv, mm, n, nnz, rfl, rfl, t1, t2, t3, t4, f1, f2, f3, _⟩ := hS
  simp only [add_assoc] at e
  subst e
  hss
  exact K

theorem sparseFromEigenvectors_spec {h : Heap} {M : Res} {n s b1 b2 na nb idx : Int}
    {A B D p1 p2 p3 p4 : Val}
    {Q : Val → Heap → Prop} (H : Sat h M)
    (tA : TBin na b1 A M) (tB : TBin nb b2 B M) (tD : Live D M) (t1 : Live p1 M) (t2 : Live p2 M)
    (t3 : Live p3 M) (t4 : Live p4 M) (h0 : 0 ≤ n) (h3 : 0 ≤ idx)
    (K : ∀ S h', Own (IsSparse S) M h' → Q S h') :
    WP (sparseFromEigenvectors A B D p1 p2 p3 p4 n s idx) h Q := by
  unfold sparseFromEigenvectors
  refine wp_bind (mallocSparse_spec (by assumption) h3 ?_)
  intro p h' ⟨m, hm, S⟩
  hs
  have e : ∀ {X Y : Res}, M ≤ X + (Y + M) := by intro X Y; fle
  refine wp_bind (use_live (by assumption) (t1.mono e) ?_)
  refine wp_bind (use_live (by assumption) (t2.mono e) ?_)
  refine wp_bind (use_live (by assumption) (t3.mono e) ?_)
  refine wp_bind (use_live (by assumption) (t4.mono e) ?_)
  refine wp_bind (use_live (by assumption) (tD.mono e) ?_)
  refine wp_bind (useBanded_spec (by assumption) (tA.mono e).liveAt ?_)
  refine wp_bind (useBanded_spec (by assumption) (tB.mono e).liveAt ?_)
  refine useFld3_spec (by assumption) hm (by fnd) ?_
  hss
  exact wp_pure (K _ _ ⟨_, hm, by assumption⟩)

theorem tbSparse_spec {h : Heap} {M : Res} {n s b1 b2 na nb idx : Int} {A B D lam : Val}
    {Q : Val × Val × Val → Heap → Prop} (H : Sat h M)
    (tA : TBin na b1 A M) (tB : TBin nb b2 B M) (tD : Live D M) (tl : Live lam M)
    (h0 : 0 ≤ n) (h1 : 0 ≤ s) (h2 : 0 ≤ n - s) (h3 : 0 ≤ idx)
    (K : ∀ x y S cx cy mS h', IsSparse S mS → Sat h' (mS + ({(y, cy)} + ({(x, cx)} + M))) →
      cx.tag = .libc → cy.tag = .libc → Q (.ptr x 0, .ptr y 0, S) h') :
    WP (tbSparse A B D lam n s idx) h Q := by
  unfold tbSparse
  hs
  hs
  hs
  hs
  refine wp_bind (use_live (by assumption) (tl.mono (by fle)) ?_)
  hs
  hs
  refine wp_bind (sparseFromEigenvectors_spec (by assumption) (tA.mono (by fle))
    (tB.mono (by fle)) (tD.mono (by fle)) ⟨_, _, _, rfl, by fmem⟩ ⟨_, _, _, rfl, by fmem⟩
    ⟨_, _, _, rfl, by fmem⟩ ⟨_, _, _, rfl, by fmem⟩ h0 h3 ?_)
  intro S h' ⟨mS, hm, S'⟩
  hss
  exact wp_pure (K _ _ _ _ _ _ _ hm (by assumption) (by tg) (by tg))

theorem IsFmm.link {n : Int} {p : Val} {m : Res} (H : IsFmm n p m) :
    ∃ i c l cl, p = .ptr i 0 ∧ (i, c) ∈ m ∧ c.val (.fld .lambda) = .ptr l 0 ∧ (l, cl) ∈ m := by
  obtain ⟨i, c, l, cl, h1, h2, h3, h4, _⟩ := H.lam
  exact ⟨i, c, l, cl, h1, h2, h3, h4⟩

set_option maxHeartbeats 1000000 in
theorem tbEigFMM_spec (T : Nat) (sh : Int → Int → TbShape) : ∀ (fuel : Nat) (n b1 b2 : Int)
    (lo : Int) (A B D : Val) (R : Res) (h : Heap) (Q : Val → Heap → Prop), n.toNat < fuel →
    0 ≤ n → 0 ≤ b1 → 0 ≤ b2 → Sat h R → TBin n b1 A R → TBin n b2 B R → Live D R →
    (∀ p h', Own (IsFmm n p) R h' → Q p h') → WP (tbEigFMM T sh fuel lo A B D) h Q
  | 0, _, _, _, _, _, _, _, _, _, _, hf, _, _, _, _, _, _, _, _ => absurd hf (by omega)
  | fuel + 1, n, b1, b2, lo, A, B, D, R, h, Q, hf, hn, hb1, hb2, S, tA, tB, tD, K => by
    obtain ⟨ia, ca, da, oa, cda, rfl, ma, mda, fda, fna, fba⟩ := tA
    obtain ⟨ib, cb, db, ob, cdb, rfl, mb, mdb, fdb, fnb, fbb⟩ := tB
    obtain ⟨d, od, cdd, rfl, md⟩ := tD
    unfold tbEigFMM
    hs
    hs
    hs
    hs
    by_cases hc : n < 128
    · refine wp_if_pos hc ?_
      unfold tbSmall useBanded
      hss
      refine wp_pure (K _ _ ?_)
      exact IsFmm.small' (by assumption) (by fnd) (by tg) (by getv) (by fnd) (by tg) (by getv)
        (by fnd) (by tg) (by getv) hc hn
    · refine wp_if_neg hc ?_
      have hs0 : 0 ≤ n / 2 := by omega
      have hs1 : 0 ≤ n - n / 2 := by omega
      have hb : 0 ≤ max b1 b2 := le_max_of_le_left hb1
      have hz1 : 0 ≤ n / 2 * max b1 b2 := mul_nonneg hs0 hb
      have hz2 : 0 ≤ (n - n / 2) * max b1 b2 := mul_nonneg hs1 hb
      have hz3 : 0 ≤ (n - n / 2) * b2 := mul_nonneg hs1 hb2
      have hz4 : 0 ≤ n / 2 * (T : Int) := mul_nonneg hs0 (by omega)
      have hz5 : 0 ≤ (n - n / 2) * (T : Int) := mul_nonneg hs1 (by omega)
      refine wp_bind ?_
      unfold tbLarge
      refine wp_bind (viewTB_spec (by assumption) (by fmem) fda fba
        fun i1 v1 o1 h1 S1 ti1 fe1 fn1 fb1 => ?_)
      refine wp_bind (viewTB_spec (by assumption) (by fmem) fdb fbb
        fun i2 v2 o2 h2 S2 ti2 fe2 fn2 fb2 => ?_)
      refine wp_bind (viewTB_spec (by assumption) (by fmem) fda fba
        fun i3 v3 o3 h3 S3 ti3 fe3 fn3 fb3 => ?_)
      refine wp_bind (viewTB_spec (by assumption) (by fmem) fdb fbb
        fun i4 v4 o4 h4 S4 ti4 fe4 fn4 fb4 => ?_)
      refine wp_bind (tbEigFMM_spec T sh fuel (n / 2) b1 b2 lo _ _ _ _ _ _ (by omega) hs0 hb1 hb2 S4
        (TBin.mk' (by fmem) fe1 (by fmem) fn1 (by omega) fb1)
        (TBin.mk' (by fmem) fe2 (by fmem) fn2 (by omega) fb2) ⟨d, od, cdd, rfl, by fmem⟩ ?_)
      intro p1 h5 ⟨m1, hm1, S5⟩
      obtain ⟨j1, w1, l1, cl1, rfl, mj1, fl1, ml1⟩ := hm1.link
      hs
      hs
      refine wp_bind (tbEigFMM_spec T sh fuel (n - n / 2) b1 b2 (lo + n / 2) _ _ _ _ _ _ (by omega)
        hs1 hb1 hb2 (by assumption) (TBin.mk' (by fmem) fe3 (by fmem) fn3 (by omega) fb3)
        (TBin.mk' (by fmem) fe4 (by fmem) fn4 (by omega) fb4) ⟨d, _, cdd, rfl, by fmem⟩ ?_)
      intro p2 h6 ⟨m2, hm2, S6⟩
      obtain ⟨j2, w2, l2, cl2, rfl, mj2, fl2, ml2⟩ := hm2.link
      hs
      hs
      refine wp_bind (tbSpectra_spec (by assumption) (by fmem) (by getv) (by fmem) fl1 (by fmem)
        (by getv) (by fmem) fl2 (by fmem) ⟨_, _, _, rfl, by fmem⟩ ?_)
      refine wp_bind (tbOffDiag_spec (by assumption) (by fmem) (by getv) (by fmem) fl1 (by fmem)
        (by getv) (by fmem) fl2 (by fmem)
        (TBin.mk' (n := n) (by fmem) fda (by fmem) fna rfl fba)
        (TBin.mk' (n := n) (by fmem) fdb (by fmem) fnb rfl fbb)
        (TBin.mk' (by fmem) fe2 (by fmem) fn2 rfl fb2) ⟨_, _, _, rfl, by fmem⟩ hz1 hz2 hz3 ?_)
      intro x y z cx cy cz h7 S7 tx ty tz
      refine wp_bind (tbSparse_spec (by assumption)
        (TBin.mk' (n := n) (by fmem) fda (by fmem) fna rfl fba)
        (TBin.mk' (n := n) (by fmem) fdb (by fmem) fnb rfl fbb)
        ⟨d, od, cdd, rfl, by fmem⟩ ⟨_, _, _, rfl, by fmem⟩ hn hs0 hs1 (by omega) ?_)
      intro q1 q2 qS cq1 cq2 mS h8 hmS S8 tq1 tq2
      refine wp_bind ?_
      unfold tbStore
      hs
      refine wp_bind (sampleBlk_spec T _ _ _ _ (by assumption) ?_)
      intro qB h9 ⟨mB, hmB, S9⟩
      hss
      refine wp_pure (K _ _ ?_)
      exact IsFmm.large' (by assumption) hmB rfl hm1 hm2 hmS (by fnd) (by tg) (by fnd) (by fnd)
        (by fnd) (by fnd) (by getv) (by getv) (by getv) (by getv)
        (by getv) (by fnd) (by tg) (by getv) (by fnd) (by tg) (by getv) (by fnd) (by tg)
        (by getv) (by fnd) (by tg) (by getv) (by fnd) (by tg) (by getv) (by fnd) (by tg)
        (by getv) (by fnd) (by tg) (by getv) (by getv) (by omega) hb

theorem dropSparse_spec {S2 : Val} {m2 M R : Res} {h : Heap} {Q : Val → Heap → Prop} (H : Sat h M)
    (hS : IsSparse S2 m2) (e : M = m2 + R) (K : ∀ p h', Own (IsSparse p) M h' → Q p h') :
    WP (dropSparse S2) h Q := by
  have hS' := hS
  obtain ⟨i, a, b, v, c, ca, cb, cv, mm, n, nnz, rfl, rfl, t1, t2, t3, t4, f1, f2, f3, fm, fn, fz,
    hz⟩ := hS
  have mi : (i, c) ∈ M := by rw [e]; exact mem_sub mem_here
  unfold dropSparse
  hs
  hs
  hs
  refine wp_bind (mallocSparse_spec (by assumption) hz ?_)
  intro p h' ⟨m, hm, S⟩
  refine useFld3_spec (R := m + R) S hS' (by rw [e]; abel) ?_
  exact useFld3_spec S hm rfl (wp_pure (K _ _ ⟨_, hm, S⟩))

set_option maxHeartbeats 1000000 in
theorem dropTbFMM_spec (T : Nat) (sh : Int → Int → TbShape) : ∀ (fuel : Nat) (n : Int)
    (lo : Int) (F2 : Val) (m2 R : Res) (h : Heap) (Q : Val → Heap → Prop), n.toNat < fuel →
    Sat h R → IsFmm n F2 m2 → m2 ≤ R →
    (∀ p h', Own (IsFmm n p) R h' → Q p h') → WP (dropTbFMM T sh fuel lo F2) h Q
  | 0, _, _, _, _, _, _, _, hf, _, _, _, _ => absurd hf (by omega)
  | fuel + 1, n, lo, F2, m2, R, h, Q, hf, S, hF, hle, K => by
    have sub : ∀ {x}, x ∈ m2 → x ∈ R := fun hx => Multiset.mem_of_le hle hx
    unfold dropTbFMM
    cases hF with
    | @small _ i v l c cv cl hn h0 t tv tl fv fl fn =>
      have e1 : (i, c) ∈ R := sub mem_here
      have e2 : (v, cv) ∈ R := sub (mem_next mem_here)
      have e3 : (l, cl) ∈ R := sub (mem_next (mem_next (by simp)))
      hs
      hs
      refine wp_if_pos hn ?_
      unfold dropSmall
      hss
      refine wp_pure (K _ _ ?_)
      exact IsFmm.small' (by assumption) (by fnd) (by tg) (by getv) (by fnd) (by tg) (by getv)
        (by fnd) (by tg) (by getv) hn h0
    | @large _ b i x y t1 t2 l p1 p2 c cx cy c1 c2 cl cp1 cp2 q0 q1 q2 q3 m0 m1 m2' m3 B hn hb hB hc
        h1 h2 h3 t tx ty tt1 tt2 tl tp1 tp2 f0 f1 f2 fs fx fy ft1 ft2 fl fp1 fp2 fn fb =>
      have hs0 : 0 ≤ n / 2 := by omega
      have hs1 : 0 ≤ n - n / 2 := by omega
      have hn0 : 0 ≤ n := by omega
      have hz1 : 0 ≤ n / 2 * b := mul_nonneg hs0 hb
      have hz2 : 0 ≤ (n - n / 2) * b := mul_nonneg hs1 hb
      have hz4 : 0 ≤ n / 2 * (T : Int) := mul_nonneg hs0 (by omega)
      have hz5 : 0 ≤ (n - n / 2) * (T : Int) := mul_nonneg hs1 (by omega)
      have e1 : (i, c) ∈ R := sub mem_here
      have e2 : (x, cx) ∈ R := sub (by fmem)
      have e3 : (y, cy) ∈ R := sub (by fmem)
      have e4 : (l, cl) ∈ R := sub (by fmem)
      have e5 : (p1, cp1) ∈ R := sub (by fmem)
      have e6 : (p2, cp2) ∈ R := sub (by
        repeat (first | exact Multiset.mem_singleton_self _ | refine mem_next ?_))
      have e7 : m1 ≤ R := le_trans (by fle) hle
      have e8 : m2' ≤ R := le_trans (by fle) hle
      have e9 : m3 ≤ R := le_trans (by fle) hle
      obtain ⟨i1, rfl⟩ := h1.ptr
      obtain ⟨i2, rfl⟩ := h2.ptr
      obtain ⟨i3, rfl⟩ := h3.ptr
      hs
      hs
      refine wp_if_neg (by omega) ?_
      unfold dropLarge
      refine wp_bind ?_
      hss
      refine wp_bind (sampleBlk_spec T _ _ _ _ (by assumption) ?_)
      intro qB h9 ⟨mB, hmB, S9⟩
      hs
      hs
      refine wp_bind (dropTbFMM_spec T sh fuel (n / 2) lo _ m1 _ _ _ (by omega) (by assumption) h1
        (le_trans e7 (by fle)) ?_)
      intro p1 h5 ⟨m1, hm1, S5⟩
      hs
      hs
      refine wp_bind (dropTbFMM_spec T sh fuel (n - n / 2) (lo + n / 2) _ m2' _ _ _ (by omega)
        (by assumption) h2 (le_trans e8 (by fle)) ?_)
      intro p2 h6 ⟨m2, hm2, S6⟩
      hs
      hs
      obtain ⟨R3, rfl⟩ := Multiset.le_iff_exists_add.1 e9
      refine wp_bind (dropSparse_spec (by assumption) h3 (by fnd) ?_)
      intro qS h7 ⟨mS, hmS, S7⟩
      hss
      refine wp_pure (K _ _ ?_)
      exact IsFmm.large' (by assumption) hmB rfl hm1 hm2 hmS (by fnd) (by tg) (by fnd) (by fnd)
        (by fnd) (by fnd) (by getv) (by getv) (by getv) (by getv)
        (by getv) (by fnd) (by tg) (by getv) (by fnd) (by tg) (by getv) (by fnd) (by tg)
        (by getv) (by fnd) (by tg) (by getv) (by fnd) (by tg) (by getv) (by fnd) (by tg)
        (by getv) (by fnd) (by tg) (by getv) (by getv) (by omega) hb

/-! ### The variant with alternating directions -/

/-- A factorisation of size `n` (as made by `X(tb_eig_ADI)`) owning `m`. -/
inductive IsAdi : Int → Val → Res → Prop
  | small {n : Int} {i v l : Nat} {c cv cl : Cell} (hn : n < 128)
      (t : c.tag = .libc) (tv : cv.tag = .libc) (tl : cl.tag = .libc)
      (fv : c.val (.fld .V) = .ptr v 0) (fl : c.val (.fld .lambda) = .ptr l 0)
      (fn : c.val (.fld .n) = .int n) :
      IsAdi n (.ptr i 0) ({(i, c)} + ({(l, cl)} + {(v, cv)}))
  | large {n : Int} {i l : Nat} {c cl : Cell}
      {q0 q1 q2 : Val} {m0 m1 m2 : Res} (hn : 128 ≤ n)
      (hB : IsLow q0 m0) (h1 : IsAdi (n / 2) q1 m1) (h2 : IsAdi (n - n / 2) q2 m2)
      (t : c.tag = .libc) (tl : cl.tag = .libc)
      (f0 : c.val (.fld .F0) = q0) (f1 : c.val (.fld .F1) = q1) (f2 : c.val (.fld .F2) = q2)
      (fl : c.val (.fld .lambda) = .ptr l 0) (fn : c.val (.fld .n) = .int n) :
      IsAdi n (.ptr i 0) ({(i, c)} + ({(l, cl)} + (m0 + (m1 + m2))))

theorem IsLow.ptr {p : Val} {m : Res} (H : IsLow p m) : ∃ i, p = .ptr i 0 := by
  obtain ⟨i, _, _, _, _, _, _, _, _, _, _, _, e, _⟩ := H; exact ⟨i, e⟩

theorem IsAdi.link {n : Int} {p : Val} {m : Res} (H : IsAdi n p m) :
    ∃ i c l cl, p = .ptr i 0 ∧ (i, c) ∈ m ∧ c.val (.fld .lambda) = .ptr l 0 ∧ (l, cl) ∈ m := by
  cases H with
  | @small _ _ _ _ c _ cl hn t tv tl fv fl fn =>
    exact ⟨_, c, _, cl, rfl, mem_here, fl, mem_next mem_here⟩
  | @large _ _ _ c cl _ _ _ _ _ _ hn hB h1 h2 t tl f0 f1 f2 fl fn =>
    exact ⟨_, c, _, cl, rfl, mem_here, fl, mem_next mem_here⟩

theorem IsAdi.small' {h : Heap} {M M1 M2 R : Res} {n : Int} {i v l : Nat} {c cv cl : Cell}
    (H : Sat h M) (e : M = {(i, c)} + M1) (t : c.tag = .libc)
    (fv : c.val (.fld .V) = .ptr v 0) (ev : M1 = {(v, cv)} + M2) (tv : cv.tag = .libc)
    (fl : c.val (.fld .lambda) = .ptr l 0) (el : M2 = {(l, cl)} + R) (tl : cl.tag = .libc)
    (fn : c.val (.fld .n) = .int n) (hn : n < 128) : Own (IsAdi n (.ptr i 0)) R h :=
  ⟨_, .small hn t tv tl fv fl fn, H.perm (by rw [e, ev, el]; abel)⟩

theorem IsAdi.large' {h : Heap} {M M1 M2 M3 M4 M5 M6 M7 L1 L2 R : Res} {n : Int} {i l x y : Nat}
    {c cl cx cy : Cell} {q0 q1 q2 : Val} {m0 m1 m2 : Res} (H : Sat h M)
    (hB : IsLow q0 m0) (h1 : IsAdi (n / 2) q1 m1) (h2 : IsAdi (n - n / 2) q2 m2)
    (e : M = {(i, c)} + M1) (t : c.tag = .libc)
    (e0 : M1 = m0 + M2) (e1 : M2 = m1 + M3) (e2 : M3 = m2 + M4)
    (ex : M4 = {(x, cx)} + M5) (ey : M5 = {(y, cy)} + M6) (el1 : M6 = L1 + M7)
    (f0 : c.val (.fld .F0) = q0) (f1 : c.val (.fld .F1) = q1) (f2 : c.val (.fld .F2) = q2)
    (fl : c.val (.fld .lambda) = .ptr l 0) (el : M7 = {(l, cl)} + (L2 + R)) (tl : cl.tag = .libc)
    (fn : c.val (.fld .n) = .int n) (hn : 128 ≤ n) :
    Own (IsAdi n (.ptr i 0)) (({(x, cx)} + ({(y, cy)} + (L1 + L2))) + R) h :=
  ⟨_, .large hn hB h1 h2 t tl f0 f1 f2 fl fn,
    H.perm (by rw [e, e0, e1, e2, ex, ey, el1, el]; abel)⟩

theorem destroyTbADI_spec {n : Int} {p : Val} {m : Res} (H : IsAdi n p m) :
    DestroysF destroyTbADI p m := by
  induction H with
  | small hn t tv tl fv fl fn =>
    refine ⟨1, fun fuel hf => ?_⟩
    obtain ⟨f, rfl⟩ : ∃ f, fuel = f + 1 := ⟨fuel - 1, by omega⟩
    intro R h Q S K
    simp only [add_assoc] at S
    unfold destroyTbADI
    hs
    refine wp_if_pos hn ?_
    hss
    exact K _ (by assumption)
  | @large n i l c cl q0 q1 q2 m0 m1 m2 hn hB h1 h2 t tl f0 f1 f2 fl fn I1 I2 =>
    obtain ⟨k1, I1⟩ := I1
    obtain ⟨k2, I2⟩ := I2
    refine ⟨1 + k1 + k2, fun fuel hf => ?_⟩
    obtain ⟨f, rfl⟩ : ∃ f, fuel = f + 1 := ⟨fuel - 1, by omega⟩
    obtain ⟨_, rfl⟩ := hB.ptr
    obtain ⟨_, _, _, _, rfl, _⟩ := h1.link
    obtain ⟨_, _, _, _, rfl, _⟩ := h2.link
    intro R h Q S K
    simp only [add_assoc] at S
    unfold destroyTbADI
    hs
    refine wp_if_neg (by omega) ?_
    hs
    refine wp_bind ((destroyLowrank_spec hB).run (by assumption) (by fnd) fun _ _ => ?_)
    hs
    refine wp_bind ((I1 f (by omega)).run (by assumption) (by fnd) fun _ _ => ?_)
    hs
    refine wp_bind ((I2 f (by omega)).run (by assumption) (by fnd) fun _ _ => ?_)
    hss
    exact K _ (by assumption)

/-- The number of blocks that no call frees. -/
def adiLeak (n : Int) : Nat :=
  if n < 128 then 0 else 2 + adiLeak (n / 2) + adiLeak (n - n / 2)
termination_by n.toNat
decreasing_by all_goals omega

theorem adiLeak_small {n : Int} (h : n < 128) : adiLeak n = 0 := by
  rw [adiLeak, if_pos h]

theorem adiLeak_large {n : Int} (h : 128 ≤ n) :
    adiLeak n = 2 + adiLeak (n / 2) + adiLeak (n - n / 2) := by
  rw [adiLeak, if_neg (by omega)]

set_option maxHeartbeats 1000000 in
theorem tbEigADI_spec (T r J : Nat) : ∀ (fuel : Nat) (n b1 b2 : Int)
    (A B : Val) (R : Res) (h : Heap) (Q : Val → Heap → Prop), n.toNat < fuel →
    0 ≤ n → 0 ≤ b1 → 0 ≤ b2 → Sat h R → TBin n b1 A R → TBin n b2 B R →
    (∀ p h' L, L.card = adiLeak n → Own (IsAdi n p) (L + R) h' → Q p h') →
    WP (tbEigADI T r J fuel A B) h Q
  | 0, _, _, _, _, _, _, _, _, hf, _, _, _, _, _, _, _ => absurd hf (by omega)
  | fuel + 1, n, b1, b2, A, B, R, h, Q, hf, hn, hb1, hb2, S, tA, tB, K => by
    obtain ⟨ia, ca, da, oa, cda, rfl, ma, mda, fda, fna, fba⟩ := tA
    obtain ⟨ib, cb, db, ob, cdb, rfl, mb, mdb, fdb, fnb, fbb⟩ := tB
    unfold tbEigADI
    hs
    hs
    hs
    hs
    by_cases hc : n < 128
    · refine wp_if_pos hc ?_
      unfold tbSmall useBanded
      hss
      refine wp_pure (K _ _ 0 (by rw [adiLeak_small hc]; rfl) ?_)
      rw [zero_add]
      exact IsAdi.small' (by assumption) (by fnd) (by tg) (by getv) (by fnd) (by tg) (by getv)
        (by fnd) (by tg) (by getv) hc
    · refine wp_if_neg hc ?_
      have hs0 : 0 ≤ n / 2 := by omega
      have hs1 : 0 ≤ n - n / 2 := by omega
      have hb : 0 ≤ max b1 b2 := le_max_of_le_left hb1
      have hz1 : 0 ≤ n / 2 * max b1 b2 := mul_nonneg hs0 hb
      have hz2 : 0 ≤ (n - n / 2) * max b1 b2 := mul_nonneg hs1 hb
      have hz3 : 0 ≤ (n - n / 2) * b2 := mul_nonneg hs1 hb2
      refine wp_bind ?_
      unfold tbLargeADI
      refine wp_bind (viewTB_spec (by assumption) (by fmem) fda fba
        fun i1 v1 o1 h1 S1 ti1 fe1 fn1 fb1 => ?_)
      refine wp_bind (viewTB_spec (by assumption) (by fmem) fdb fbb
        fun i2 v2 o2 h2 S2 ti2 fe2 fn2 fb2 => ?_)
      refine wp_bind (viewTB_spec (by assumption) (by fmem) fda fba
        fun i3 v3 o3 h3 S3 ti3 fe3 fn3 fb3 => ?_)
      refine wp_bind (viewTB_spec (by assumption) (by fmem) fdb fbb
        fun i4 v4 o4 h4 S4 ti4 fe4 fn4 fb4 => ?_)
      refine wp_bind (tbEigADI_spec T r J fuel (n / 2) b1 b2 _ _ _ _ _ (by omega) hs0 hb1 hb2 S4
        (TBin.mk' (by fmem) fe1 (by fmem) fn1 (by omega) fb1)
        (TBin.mk' (by fmem) fe2 (by fmem) fn2 (by omega) fb2) ?_)
      intro p1 h5 L1 hL1 ⟨m1, hm1, S5⟩
      obtain ⟨j1, w1, l1, cl1, rfl, mj1, fl1, ml1⟩ := hm1.link
      hs
      refine wp_bind (tbEigADI_spec T r J fuel (n - n / 2) b1 b2 _ _ _ _ _ (by omega)
        hs1 hb1 hb2 (by assumption) (TBin.mk' (by fmem) fe3 (by fmem) fn3 (by omega) fb3)
        (TBin.mk' (by fmem) fe4 (by fmem) fn4 (by omega) fb4) ?_)
      intro p2 h6 L2 hL2 ⟨m2, hm2, S6⟩
      obtain ⟨j2, w2, l2, cl2, rfl, mj2, fl2, ml2⟩ := hm2.link
      hs
      hs
      refine wp_bind (tbSpectra_spec (by assumption) (by fmem) (by getv) (by fmem) fl1 (by fmem)
        (by getv) (by fmem) fl2 (by fmem) ⟨_, _, _, rfl, by fmem⟩ ?_)
      refine wp_bind (tbOffDiag_spec (by assumption) (by fmem) (by getv) (by fmem) fl1 (by fmem)
        (by getv) (by fmem) fl2 (by fmem)
        (TBin.mk' (n := n) (by fmem) fda (by fmem) fna rfl fba)
        (TBin.mk' (n := n) (by fmem) fdb (by fmem) fnb rfl fbb)
        (TBin.mk' (by fmem) fe2 (by fmem) fn2 rfl fb2) ⟨_, _, _, rfl, by fmem⟩ hz1 hz2 hz3 ?_)
      intro x y z cx cy cz h7 S7 tx ty tz
      refine wp_bind ?_
      unfold ddfadi
      hs
      hs
      hs
      hs
      refine wp_bind (mallocLowrank_spec (by assumption) ?_)
      intro qB h9 ⟨mB, hmB, S9⟩
      hss
      refine wp_pure ?_
      hss
      refine wp_pure (K _ _ ({(x, cx)} + ({(y, cy)} + (L2 + L1))) (by
        rw [adiLeak_large (by omega)]; simp [hL1, hL2]; omega) ?_)
      refine IsAdi.large' (L1 := L2) (L2 := L1) (by assumption) hmB hm1 hm2 (by fnd) (by tg)
        (by fnd) (by fnd) (by fnd) (by fnd) (by fnd) (by fnd) (by getv) (by getv) (by getv)
        (by getv) (by fnd) (by tg) (by getv) (by omega)

end FT.Heap
