import Verif.Lemmas.HeapBanded
/-
Specifications of the constructors and destructors of hierarchical matrices.
-/
set_option linter.unusedVariables false
namespace FT.Heap

/-- A dense block owning `m`. -/
def IsDense (p : Val) (m : Res) : Prop :=
  ∃ i a c ca, p = .ptr i 0 ∧ m = {(i, c)} + {(a, ca)} ∧ c.tag = .libc ∧ ca.tag = .libc ∧
    c.val (.fld .A) = .ptr a 0

/-- A low-rank block owning `m`. -/
def IsLow (p : Val) (m : Res) : Prop :=
  ∃ i u s v t1 t2 c cu cs cv c1 c2, p = .ptr i 0 ∧
    m = {(i, c)} + ({(u, cu)} + ({(s, cs)} + ({(v, cv)} + ({(t1, c1)} + {(t2, c2)})))) ∧
    c.tag = .libc ∧ cu.tag = .libc ∧ cs.tag = .libc ∧ cv.tag = .libc ∧ c1.tag = .libc ∧
    c2.tag = .libc ∧ c.val (.fld .U) = .ptr u 0 ∧ c.val (.fld .S) = .ptr s 0 ∧
    c.val (.fld .V) = .ptr v 0 ∧ c.val (.fld .t1) = .ptr t1 0 ∧ c.val (.fld .t2) = .ptr t2 0

/-- The header of a 2×2 hierarchical matrix. -/
structure IsHdr (ih id il ix : Nat) (c ch cd cl cx : Cell) : Prop where
  tag : c.tag = .libc
  fh : c.val (.fld .hierarchical) = .ptr ih 0
  fd : c.val (.fld .dense) = .ptr id 0
  fl : c.val (.fld .lowrank) = .ptr il 0
  fx : c.val (.fld .hash) = .ptr ix 0
  fM : c.val (.fld .Mrows) = .int 2
  fN : c.val (.fld .Ncols) = .int 2
  th : ch.tag = .libc
  td : cd.tag = .libc
  tl : cl.tag = .libc
  tx : cx.tag = .libc
  sh : ch.size = 4
  sd : cd.size = 4
  sl : cl.size = 4
  sx : cx.size = 4

/-- The array holding a block of the kind of `b`. -/
def Blk.sel (b : Blk) (ch cd cl : Cell) : Cell :=
  match b with
  | .hier .. => ch
  | .dense .. => cd
  | .low .. => cl

/-- Entry `k` of the arrays holds the block `p`. -/
def IsEntry (b : Blk) (k : Int) (p : Val) (ch cd cl cx : Cell) : Prop :=
  (b.sel ch cd cl).val (.idx k) = p ∧ cx.val (.idx k) = .int b.code

/-- A block owning `m`. -/
def IsBlk : Blk → Val → Res → Prop
  | .dense .., p, m => IsDense p m
  | .low .., p, m => IsLow p m
  | .hier b0 b1 b2 b3, p, m =>
    ∃ i ih id il ix c ch cd cl cx p0 p1 p2 p3 m0 m1 m2 m3, p = .ptr i 0 ∧
      IsHdr ih id il ix c ch cd cl cx ∧
      IsEntry b0 0 p0 ch cd cl cx ∧ IsEntry b1 1 p1 ch cd cl cx ∧
      IsEntry b2 2 p2 ch cd cl cx ∧ IsEntry b3 3 p3 ch cd cl cx ∧
      IsBlk b0 p0 m0 ∧ IsBlk b1 p1 m1 ∧ IsBlk b2 p2 m2 ∧ IsBlk b3 p3 m3 ∧
      m = {(i, c)} + ({(ih, ch)} + ({(id, cd)} + ({(il, cl)} + ({(ix, cx)} +
        (m0 + (m1 + (m2 + m3)))))))

theorem IsBlk.ptr {b : Blk} {p : Val} {m : Res} (H : IsBlk b p m) : ∃ i, p = .ptr i 0 := by
  cases b with
  | dense => obtain ⟨i, _, _, _, e, _⟩ := H; exact ⟨i, e⟩
  | low => obtain ⟨i, _, _, _, _, _, _, _, _, _, _, _, e, _⟩ := H; exact ⟨i, e⟩
  | hier => obtain ⟨i, _, _, _, _, _, _, _, _, _, _, _, _, _, _, _, _, _, e, _⟩ := H; exact ⟨i, e⟩

theorem IsDense.intro {h : Heap} {M M1 R : Res} {i a : Nat} {c ca : Cell} (H : Sat h M)
    (e : M = {(i, c)} + M1) (t : c.tag = .libc) (f : c.val (.fld .A) = .ptr a 0)
    (ea : M1 = {(a, ca)} + R) (ta : ca.tag = .libc) : Own (IsDense (.ptr i 0)) R h :=
  ⟨_, ⟨i, a, c, ca, rfl, rfl, t, ta, f⟩, H.perm (by rw [e, ea]; abel)⟩

theorem IsLow.intro {h : Heap} {M M1 M2 M3 M4 M5 R : Res} {i u s v t1 t2 : Nat}
    {c cu cs cv c1 c2 : Cell} (H : Sat h M) (e : M = {(i, c)} + M1) (t : c.tag = .libc)
    (fu : c.val (.fld .U) = .ptr u 0) (eu : M1 = {(u, cu)} + M2) (tu : cu.tag = .libc)
    (fs : c.val (.fld .S) = .ptr s 0) (es : M2 = {(s, cs)} + M3) (ts : cs.tag = .libc)
    (fv : c.val (.fld .V) = .ptr v 0) (ev : M3 = {(v, cv)} + M4) (tv : cv.tag = .libc)
    (f1 : c.val (.fld .t1) = .ptr t1 0) (e1 : M4 = {(t1, c1)} + M5) (tt1 : c1.tag = .libc)
    (f2 : c.val (.fld .t2) = .ptr t2 0) (e2 : M5 = {(t2, c2)} + R) (tt2 : c2.tag = .libc) :
    Own (IsLow (.ptr i 0)) R h :=
  ⟨_, ⟨i, u, s, v, t1, t2, c, cu, cs, cv, c1, c2, rfl, rfl, t, tu, ts, tv, tt1, tt2, fu, fs, fv,
    f1, f2⟩, H.perm (by rw [e, eu, es, ev, e1, e2]; abel)⟩

section
variable {h : Heap} {M R : Res}

theorem sampleDense_spec {m n : Nat} {Q : Val → Heap → Prop} (H : Sat h R)
    (K : ∀ p h', Own (IsDense p) R h' → Q p h') : WP (sampleDense m n) h Q := by
  unfold sampleDense
  hss
  refine wp_pure (K _ _ ?_)
  exact IsDense.intro (by assumption) (by fnd) (by tg) (by getv) (by fnd) (by tg)

theorem destroyDense_spec {p : Val} {m : Res} (H : IsDense p m) : Destroys destroyDense p m := by
  intro R h Q S K
  obtain ⟨i, a, c, ca, rfl, rfl, h1, h2, h3⟩ := H
  simp only [add_assoc] at S
  unfold destroyDense
  hss
  exact K _ (by assumption)

theorem mallocLowrank_spec {T sz m n r : Nat} {Q : Val → Heap → Prop} (H : Sat h R)
    (K : ∀ p h', Own (IsLow p) R h' → Q p h') : WP (mallocLowrank T sz m n r) h Q := by
  unfold mallocLowrank
  hss
  refine wp_pure (K _ _ ?_)
  exact IsLow.intro (by assumption) (by fnd) (by tg) (by getv) (by fnd) (by tg) (by getv) (by fnd)
    (by tg) (by getv) (by fnd) (by tg) (by getv) (by fnd) (by tg) (by getv) (by fnd) (by tg)

theorem destroyLowrank_spec {p : Val} {m : Res} (H : IsLow p m) : Destroys destroyLowrank p m := by
  intro R h Q S K
  obtain ⟨i, u, s, v, t1, t2, c, cu, cs, cv, c1, c2, rfl, rfl, g1, g2, g3, g4, g5, g6, f1, f2, f3,
    f4, f5⟩ := H
  simp only [add_assoc] at S
  unfold destroyLowrank
  hss
  exact K _ (by assumption)

theorem sampleLowrank_spec {T m n r : Nat} {Q : Val → Heap → Prop} (H : Sat h R)
    (K : ∀ p h', Own (IsLow p) R h' → Q p h') : WP (sampleLowrank T m n r) h Q := by
  unfold sampleLowrank
  refine wp_bind (mallocLowrank_spec H fun p h1 ⟨m, hm, S⟩ => ?_)
  have hm' := hm
  obtain ⟨i, u, s, v, t1, t2, c, cu, cs, cv, c1, c2, rfl, rfl, g1, g2, g3, g4, g5, g6, f1, f2, f3,
    f4, f5⟩ := hm
  simp only [add_assoc] at S
  hss
  exact wp_pure (K _ _ ⟨_, hm', Sat.perm (by assumption) (by abel)⟩)

/-- `x'` differs from `x` at most in entry `k`. -/
structure Upd (k : Int) (x x' : Cell) : Prop where
  tag : x'.tag = x.tag
  size : x'.size = x.size
  val : ∀ j, j ≠ k → x'.val (.idx j) = x.val (.idx j)

theorem Upd.rfl' (k : Int) (x : Cell) : Upd k x x := ⟨rfl, rfl, fun _ _ => rfl⟩
theorem Upd.set (k : Int) (x : Cell) (v : Val) : Upd k x (x.set (.idx k) v) :=
  ⟨rfl, rfl, fun j hj => Function.update_of_ne (by simpa using hj) _ _⟩

theorem IsHdr.upd {ih id il ix : Nat} {c ch cd cl cx ch' cd' cl' cx' : Cell} {k : Int}
    (H : IsHdr ih id il ix c ch cd cl cx) (uh : Upd k ch ch') (ud : Upd k cd cd')
    (ul : Upd k cl cl') (ux : Upd k cx cx') : IsHdr ih id il ix c ch' cd' cl' cx' :=
  ⟨H.tag, H.fh, H.fd, H.fl, H.fx, H.fM, H.fN, uh.tag.trans H.th, ud.tag.trans H.td,
    ul.tag.trans H.tl, ux.tag.trans H.tx, uh.size.trans H.sh, ud.size.trans H.sd,
    ul.size.trans H.sl, ux.size.trans H.sx⟩

theorem IsEntry.upd {b : Blk} {j k : Int} {p : Val} {ch cd cl cx ch' cd' cl' cx' : Cell}
    (H : IsEntry b j p ch cd cl cx) (hj : j ≠ k) (uh : Upd k ch ch') (ud : Upd k cd cd')
    (ul : Upd k cl cl') (ux : Upd k cx cx') : IsEntry b j p ch' cd' cl' cx' := by
  refine ⟨?_, (ux.val j hj).trans H.2⟩
  have := H.1
  cases b <;> simp only [Blk.sel] at this ⊢
  · rw [ud.val j hj]; exact this
  · rw [ul.val j hj]; exact this
  · rw [uh.val j hj]; exact this

theorem place_idx {s k : Int} (h0 : 0 ≤ k) (h1 : k < s) : place s 0 (.idx k) = some (.idx k) := by
  simp [place, h0, h1]

theorem storeBlk_spec {b : Blk} {k : Int} {create : HM Val} {i ih id il ix : Nat}
    {c ch cd cl cx : Cell} {Q : Unit → Heap → Prop}
    (H : Sat h M)
    (e : M = {(i, c)} + ({(ih, ch)} + ({(id, cd)} + ({(il, cl)} + ({(ix, cx)} + R)))))
    (hh : IsHdr ih id il ix c ch cd cl cx) (h0 : 0 ≤ k) (h4 : k < 4)
    (hc : ∀ (R : Res) (h : Heap) (Q : Val → Heap → Prop), Sat h R →
      (∀ p h', Own (IsBlk b p) R h' → Q p h') → WP create h Q)
    (K : ∀ p m ch' cd' cl' cx' h', IsBlk b p m → IsEntry b k p ch' cd' cl' cx' →
      Upd k ch ch' → Upd k cd cd' → Upd k cl cl' → Upd k cx cx' →
      Sat h' ({(i, c)} + ({(ih, ch')} + ({(id, cd')} + ({(il, cl')} + ({(ix, cx')} + (m + R)))))) →
      Q () h') : WP (storeBlk (.ptr i 0) b.arr b.code k create) h Q := by
  subst e
  unfold storeBlk
  obtain ⟨hf0, hf1, hf2, hf3, hf4, hf5, hf6, hf7, hf8, hf9, hf10, hf11, hf12, hf13, hf14⟩ := hh
  refine wp_bind (hc _ _ _ H fun p h1 ⟨m, hm, S⟩ => ?_)
  cases b with
  | dense =>
    simp only [Blk.arr]
    hs
    refine wp_bind (wp_st S (by fnd) (place_idx h0 (by omega)) fun _ S' => ?_)
    hs
    refine wp_st S' (by fnd) (place_idx h0 (by omega)) fun _ S'' => ?_
    refine K p m ch (cd.set (.idx k) p) cl (cx.set (.idx k) _) _ hm
      ⟨Cell.set_same _ _ _, Cell.set_same _ _ _⟩ (Upd.rfl' _ _) (Upd.set _ _ _) (Upd.rfl' _ _)
      (Upd.set _ _ _) (S''.perm ?_)
    abel
  | low =>
    simp only [Blk.arr]
    hs
    refine wp_bind (wp_st S (by fnd) (place_idx h0 (by omega)) fun _ S' => ?_)
    hs
    refine wp_st S' (by fnd) (place_idx h0 (by omega)) fun _ S'' => ?_
    refine K p m ch cd (cl.set (.idx k) p) (cx.set (.idx k) _) _ hm
      ⟨Cell.set_same _ _ _, Cell.set_same _ _ _⟩ (Upd.rfl' _ _) (Upd.rfl' _ _) (Upd.set _ _ _)
      (Upd.set _ _ _) (S''.perm ?_)
    abel
  | hier =>
    simp only [Blk.arr]
    hs
    refine wp_bind (wp_st S (by fnd) (place_idx h0 (by omega)) fun _ S' => ?_)
    hs
    refine wp_st S' (by fnd) (place_idx h0 (by omega)) fun _ S'' => ?_
    refine K p m (ch.set (.idx k) p) cd cl (cx.set (.idx k) _) _ hm
      ⟨Cell.set_same _ _ _, Cell.set_same _ _ _⟩ (Upd.set _ _ _) (Upd.rfl' _ _) (Upd.rfl' _ _)
      (Upd.set _ _ _) (S''.perm ?_)
    abel

/-- A 2×2 hierarchical matrix whose entries are not filled in. -/
def IsHier (R : Res) (h : Heap) (p : Val) : Prop :=
  ∃ i ih id il ix c ch cd cl cx, p = .ptr i 0 ∧ IsHdr ih id il ix c ch cd cl cx ∧
    Sat h ({(i, c)} + ({(ih, ch)} + ({(id, cd)} + ({(il, cl)} + ({(ix, cx)} + R)))))

theorem IsHier.intro {M1 M2 M3 M4 : Res} {i ih id il ix : Nat} {c ch cd cl cx : Cell}
    (H : Sat h M) (e : M = {(i, c)} + M1) (t : c.tag = .libc)
    (fh : c.val (.fld .hierarchical) = .ptr ih 0) (eh : M1 = {(ih, ch)} + M2)
    (th : ch.tag = .libc) (sh : ch.size = 4)
    (fd : c.val (.fld .dense) = .ptr id 0) (ed : M2 = {(id, cd)} + M3)
    (td : cd.tag = .libc) (sd : cd.size = 4)
    (fl : c.val (.fld .lowrank) = .ptr il 0) (el : M3 = {(il, cl)} + M4)
    (tl : cl.tag = .libc) (sl : cl.size = 4)
    (fx : c.val (.fld .hash) = .ptr ix 0) (ex : M4 = {(ix, cx)} + R)
    (tx : cx.tag = .libc) (sx : cx.size = 4)
    (fM : c.val (.fld .Mrows) = .int 2) (fN : c.val (.fld .Ncols) = .int 2) :
    IsHier R h (.ptr i 0) :=
  ⟨i, ih, id, il, ix, c, ch, cd, cl, cx, rfl,
    ⟨t, fh, fd, fl, fx, fM, fN, th, td, tl, tx, sh, sd, sl, sx⟩,
    H.perm (by rw [e, eh, ed, el, ex])⟩

theorem mallocHier_spec {Q : Val → Heap → Prop} (H : Sat h R)
    (K : ∀ p h', IsHier R h' p → Q p h') : WP (mallocHier 2 2) h Q := by
  unfold mallocHier
  hss
  refine wp_pure (K _ _ ?_)
  exact IsHier.intro (by assumption) (by fnd) (by tg) (by getv) (by fnd) (by tg) (by rfl)
    (by getv) (by fnd) (by tg) (by rfl) (by getv) (by fnd) (by tg) (by rfl) (by getv) (by fnd)
    (by tg) (by rfl) (by getv) (by getv)

theorem sampleBlk_spec (T : Nat) : ∀ (b : Blk) (R : Res) (h : Heap) (Q : Val → Heap → Prop),
    Sat h R → (∀ p h', Own (IsBlk b p) R h' → Q p h') → WP (sampleBlk T b) h Q
  | .dense m n, R, h, Q, H, K => by unfold sampleBlk; exact sampleDense_spec H K
  | .low m n r, R, h, Q, H, K => by unfold sampleBlk; exact sampleLowrank_spec H K
  | .hier b0 b1 b2 b3, R, h, Q, H, K => by
    unfold sampleBlk
    refine wp_bind (mallocHier_spec H ?_)
    rintro _ h0 ⟨i, ih, id, il, ix, c, ch, cd, cl, cx, rfl, hd, S⟩
    refine wp_bind (storeBlk_spec S rfl hd (by decide) (by decide) (sampleBlk_spec T b0)
      fun p0 m0 ch1 cd1 cl1 cx1 h1 q0 E0 uh1 ud1 ul1 ux1 S1 => ?_)
    have hd1 := hd.upd uh1 ud1 ul1 ux1
    refine wp_bind (storeBlk_spec S1 rfl hd1 (by decide) (by decide) (sampleBlk_spec T b1)
      fun p1 m1 ch2 cd2 cl2 cx2 h2 q1 E1 uh2 ud2 ul2 ux2 S2 => ?_)
    have hd2 := hd1.upd uh2 ud2 ul2 ux2
    refine wp_bind (storeBlk_spec S2 rfl hd2 (by decide) (by decide) (sampleBlk_spec T b2)
      fun p2 m2 ch3 cd3 cl3 cx3 h3 q2 E2 uh3 ud3 ul3 ux3 S3 => ?_)
    have hd3 := hd2.upd uh3 ud3 ul3 ux3
    refine wp_bind (storeBlk_spec S3 rfl hd3 (by decide) (by decide) (sampleBlk_spec T b3)
      fun p3 m3 ch4 cd4 cl4 cx4 h4 q3 E3 uh4 ud4 ul4 ux4 S4 => ?_)
    have hd4 := hd3.upd uh4 ud4 ul4 ux4
    refine wp_pure (K _ _ ⟨_, ⟨i, ih, id, il, ix, c, ch4, cd4, cl4, cx4, p0, p1, p2, p3, m0, m1,
      m2, m3, rfl, hd4, ?_, ?_, ?_, E3, q0, q1, q2, q3, rfl⟩, S4.perm (by abel)⟩)
    · exact ((E0.upd (by decide) uh2 ud2 ul2 ux2).upd (by decide) uh3 ud3 ul3 ux3).upd (by decide)
        uh4 ud4 ul4 ux4
    · exact (E1.upd (by decide) uh3 ud3 ul3 ux3).upd (by decide) uh4 ud4 ul4 ux4
    · exact E2.upd (by decide) uh4 ud4 ul4 ux4

/-- Height of a block. -/
def Blk.depth : Blk → Nat
  | .hier b0 b1 b2 b3 => 1 + max (max b0.depth b1.depth) (max b2.depth b3.depth)
  | _ => 0

theorem destroyBlk_spec {b : Blk} {k : Int} {p : Val} {m : Res} {dh : Val → HM Unit}
    {i ih id il ix : Nat} {c ch cd cl cx : Cell} {Q : Unit → Heap → Prop}
    (H : Sat h M) (e : M = m + R) (m0 : (i, c) ∈ M) (m1 : (ih, ch) ∈ M) (m2 : (id, cd) ∈ M)
    (m3 : (il, cl) ∈ M) (m4 : (ix, cx) ∈ M)
    (hh : IsHdr ih id il ix c ch cd cl cx) (h0 : 0 ≤ k) (h4 : k < 4)
    (E : IsEntry b k p ch cd cl cx) (hb : IsBlk b p m)
    (D : b.code = 1 → Destroys dh p m)
    (K : ∀ h', Sat h' R → Q () h') : WP (destroyBlk dh (.ptr i 0) k) h Q := by
  obtain ⟨hf0, hf1, hf2, hf3, hf4, hf5, hf6, hf7, hf8, hf9, hf10, hf11, hf12, hf13, hf14⟩ := hh
  obtain ⟨ev, ex⟩ := E
  obtain ⟨j, rfl⟩ := hb.ptr
  unfold destroyBlk
  hs
  refine wp_bind (wp_ldInt H m4 (place_idx h0 (by omega)) ex ?_)
  cases b with
  | dense =>
    refine wp_if_neg (by simp [Blk.code]) (wp_if_pos rfl ?_)
    hs
    refine wp_bind (wp_ld H m2 (place_idx h0 (by omega)) ev (by simp) ?_)
    exact (destroyDense_spec hb).run H e K
  | low =>
    refine wp_if_neg (by simp [Blk.code]) (wp_if_neg (by simp [Blk.code]) (wp_if_pos rfl ?_))
    hs
    refine wp_bind (wp_ld H m3 (place_idx h0 (by omega)) ev (by simp) ?_)
    exact (destroyLowrank_spec hb).run H e K
  | hier =>
    refine wp_if_pos rfl ?_
    hs
    refine wp_bind (wp_ld H m1 (place_idx h0 (by omega)) ev (by simp) ?_)
    exact (D rfl).run H e K

theorem forN_four (lo : Int) (body : Int → HM Unit) : forN lo 4 body = (do
    body lo; body (lo + 1); body (lo + 1 + 1); body (lo + 1 + 1 + 1); pure ()) := rfl

theorem destroyHier_spec : ∀ (b : Blk) (p : Val) (m : Res) (fuel : Nat), IsBlk b p m →
    b.code = 1 → b.depth ≤ fuel → Destroys (destroyHier fuel) p m
  | .dense .., _, _, _, _, hc, _ => by simp [Blk.code] at hc
  | .low .., _, _, _, _, hc, _ => by simp [Blk.code] at hc
  | .hier b0 b1 b2 b3, p, m, fuel, hb, _, hf => by
    simp only [Blk.depth] at hf
    obtain ⟨f, rfl⟩ : ∃ f, fuel = f + 1 := ⟨fuel - 1, by omega⟩
    obtain ⟨i, ih, id, il, ix, c, ch, cd, cl, cx, p0, p1, p2, p3, m0, m1, m2, m3, rfl, hh, E0, E1,
      E2, E3, q0, q1, q2, q3, rfl⟩ := hb
    intro R h Q S K
    simp only [add_assoc] at S
    have hh' := hh
    obtain ⟨hf0, hf1, hf2, hf3, hf4, hf5, hf6, hf7, hf8, hf9, hf10, hf11, hf12, hf13, hf14⟩ := hh
    unfold destroyHier
    hs
    hs
    rw [show ((2 : Int) * 2).toNat = 4 from rfl, forN_four]
    refine wp_bind ?_
    refine wp_bind (destroyBlk_spec S (by fnd) (by fmem) (by fmem) (by fmem) (by fmem) (by fmem)
      hh' (by decide) (by decide) E0 q0
      (fun hc => destroyHier_spec b0 _ _ f q0 hc (by omega)) fun h1 S1 => ?_)
    refine wp_bind (destroyBlk_spec S1 (by fnd) (by fmem) (by fmem) (by fmem) (by fmem) (by fmem)
      hh' (by decide) (by decide) E1 q1
      (fun hc => destroyHier_spec b1 _ _ f q1 hc (by omega)) fun h2 S2 => ?_)
    refine wp_bind (destroyBlk_spec S2 (by fnd) (by fmem) (by fmem) (by fmem) (by fmem) (by fmem)
      hh' (by decide) (by decide) E2 q2
      (fun hc => destroyHier_spec b2 _ _ f q2 hc (by omega)) fun h3 S3 => ?_)
    refine wp_bind (destroyBlk_spec S3 (by fnd) (by fmem) (by fmem) (by fmem) (by fmem) (by fmem)
      hh' (by decide) (by decide) E3 q3
      (fun hc => destroyHier_spec b3 _ _ f q3 hc (by omega)) fun h4 S4 => ?_)
    refine wp_pure ?_
    hss
    exact K _ (by assumption)

end

end FT.Heap
