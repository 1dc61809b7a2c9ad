import Verif.Lemmas.HeapHarmonic
/-
Specifications of gradient, Helmholtz-Hodge and isometry plans.
-/
set_option linter.unusedVariables false
namespace FT.Heap

theorem Items.entry_set {P : Val → Res → Prop} {ca : Cell} {k : Nat} {lo i : Int} {v : Val}
    {M : Res} (H : Items (fun j => Entry P ca (j - lo)) lo k M) (hi : k ≤ i) :
    Items (fun j => Entry P (ca.set (.idx i) v) (j - lo)) lo k M :=
  H.mono fun j m h0 h1 hE => by
    show P _ m
    rw [Cell.set_ne (v := ca.val (.idx (j - lo))) (by simp; omega) rfl]
    exact hE

theorem Items.shift0 {E : Int → Res → Prop} {lo : Int} : ∀ {k : Nat} {s : Int} {M : Res},
    Items (fun j => E (j - lo)) (lo + s) k M → Items E s k M
  | 0, _, _, H => H
  | k + 1, s, _, ⟨m, M', h1, h2, e⟩ =>
    ⟨m, M', by simpa using h1, (by rw [add_assoc] at h2; exact h2.shift0), e⟩

/-- A loop that fills two arrays. -/
theorem forN_fill2 {body : Int → HM Unit} {P1 P2 : Val → Res → Prop} {a b : Nat} {R : Res}
    {lo : Int} {n : Nat} {Q : Unit → Heap → Prop} {ca cb : Cell} {h : Heap}
    (S : Sat h ({(a, ca)} + ({(b, cb)} + R))) (ta : ca.tag = .libc) (tb : cb.tag = .libc)
    (sa : ca.size = n) (sb : cb.size = n)
    (B : ∀ (j : Nat) (h : Heap) (ca cb : Cell) (F : Res) (Q : Unit → Heap → Prop), j < n → ca.size = n → cb.size = n →
      Sat h ({(a, ca)} + ({(b, cb)} + F)) →
      (∀ p1 p2 m1 m2 h', P1 p1 m1 → P2 p2 m2 →
        Sat h' (m1 + (m2 + ({(a, ca.set (.idx j) p1)} + ({(b, cb.set (.idx j) p2)} + F)))) →
        Q () h') → WP (body (lo + j)) h Q)
    (K : ∀ h' ca cb M1 M2, IsArray P1 n a ca M1 → IsArray P2 n b cb M2 →
      Sat h' (M1 + (M2 + ({(a, ca)} + ({(b, cb)} + R)))) → Q () h') :
    WP (forN lo n body) h Q := by
  refine wp_forN (fun j h => ∃ (ca cb : Cell) (M1 M2 : Res), ca.tag = .libc ∧ cb.tag = .libc ∧ ca.size = n ∧
    cb.size = n ∧ Items (Entry P1 ca) 0 j M1 ∧ Items (Entry P2 cb) 0 j M2 ∧
    Sat h (M1 + (M2 + ({(a, ca)} + ({(b, cb)} + R))))) n lo 0 h
    ⟨ca, cb, 0, 0, ta, tb, sa, sb, rfl, rfl, by simpa using S⟩ ?_ ?_
  · rintro j h hj ⟨ca, cb, M1, M2, ta, tb, sa, sb, I1, I2, S⟩
    rw [Nat.zero_add] at I1 I2 ⊢
    refine B j h ca cb (M1 + (M2 + R)) _ hj sa sb (S.perm (by abel)) ?_
    intro p1 p2 m1 m2 h' h1 h2 S'
    refine ⟨ca.set (.idx j) p1, cb.set (.idx j) p2, M1 + m1, M2 + m2, ta, tb, sa, sb,
      Items.snoc (I1.mono fun i m h0 h1 hE => ?_) ?_, Items.snoc (I2.mono fun i m h0 h1 hE => ?_) ?_,
      S'.perm (by abel)⟩
    · show P1 _ m
      rw [Cell.set_ne (v := ca.val (.idx i)) (by simp; omega) rfl]
      exact hE
    · show P1 _ m1
      rw [zero_add, Cell.set_same]
      exact h1
    · show P2 _ m
      rw [Cell.set_ne (v := cb.val (.idx i)) (by simp; omega) rfl]
      exact hE
    · show P2 _ m2
      rw [zero_add, Cell.set_same]
      exact h2
  · rintro h' ⟨ca, cb, M1, M2, ta, tb, sa, sb, I1, I2, S⟩
    rw [Nat.zero_add] at I1 I2
    exact K _ _ _ _ _ ⟨ta, by omega, I1⟩ ⟨tb, by omega, I2⟩ S

/-! ### Gradient -/

/-- Some banded matrix. -/
def SomeBanded (p : Val) (m : Res) : Prop := ∃ mm n l u, IsBanded mm n l u p m
/-- Some triangular banded matrix. -/
def SomeTB (p : Val) (m : Res) : Prop := ∃ n b, IsTB n b p m
/-- Some QR factorisation. -/
def SomeQR (p : Val) (m : Res) : Prop := ∃ mm n l u, IsQR mm n l u p m

theorem proper_banded : Proper SomeBanded := fun _ _ ⟨_, _, _, _, H⟩ => H.ptr
theorem proper_tb : Proper SomeTB := fun _ _ ⟨_, _, H⟩ => H.ptr
theorem proper_qr : Proper SomeQR := fun _ _ ⟨_, _, _, _, i, _, _, _, _, _, e, _⟩ => ⟨i, e⟩

/-- A gradient plan owning `m`. -/
def IsGrad (p : Val) (m : Res) : Prop :=
  ∃ (i a b : Nat) (c ca cb : Cell) (M1 M2 : Res) (n : Nat), p = .ptr i 0 ∧
    m = {(i, c)} + (M1 + (M2 + ({(a, ca)} + {(b, cb)}))) ∧ c.tag = .libc ∧
    IsArray SomeBanded n a ca M1 ∧ IsArray SomeTB n b cb M2 ∧ c.val (.fld .B) = .ptr a 0 ∧
    c.val (.fld .T) = .ptr b 0 ∧ c.val (.fld .n) = .int n

theorem IsGrad.intro {h : Heap} {M M1 M2 R : Res} {i a b n : Nat} {c ca cb : Cell}
    (A1 : IsArray SomeBanded n a ca M1) (A2 : IsArray SomeTB n b cb M2) (H : Sat h M)
    (e : M = {(i, c)} + (M2 + (M1 + ({(b, cb)} + ({(a, ca)} + R))))) (t : c.tag = .libc)
    (f1 : c.val (.fld .B) = .ptr a 0) (f2 : c.val (.fld .T) = .ptr b 0)
    (f3 : c.val (.fld .n) = .int n) : Own (IsGrad (.ptr i 0)) R h :=
  ⟨_, ⟨i, a, b, c, ca, cb, M1, M2, n, rfl, rfl, t, A1, A2, f1, f2, f3⟩, H.perm (by rw [e]; abel)⟩

theorem destroyGradient_spec {p : Val} {m : Res} (H : IsGrad p m) : Destroys destroyGradient p m := by
  intro R h Q S K
  obtain ⟨i, a, b, c, ca, cb, M1, M2, n, rfl, rfl, t, A1, A2, f1, f2, f3⟩ := H
  simp only [add_assoc] at S
  have t1 := A1.1
  have t2 := A2.1
  unfold destroyGradient
  hs
  refine wp_bind (destroyPair_spec proper_banded proper_tb
    (fun _ _ ⟨_, _, _, _, H⟩ => destroyBanded_spec H) (fun _ _ ⟨_, _, H⟩ => destroyTB_spec H)
    A1 A2 f1 f2 S (R := {(i, c)} + ({(a, ca)} + ({(b, cb)} + R))) (by abel) (by fmem) (by fmem)
    (by fmem) fun h1 S1 => ?_)
  hss
  exact K _ (by assumption)

theorem makes_planGradient {n : Nat} : Makes (planGradient n) IsGrad := by
  intro R h Q S K
  unfold planGradient
  hs
  hs
  rename_i S1
  refine wp_bind (forN_fill2 (P1 := SomeTB) (P2 := SomeBanded) S1 rfl rfl rfl rfl ?_ ?_)
  · intro j h ca cb F Q hj sa sb S K
    refine wp_bind (callocBanded_spec S (mul_nonneg (by omega) (by norm_num)) ?_)
    intro X g1 ⟨m1, h1, S1⟩
    refine wp_bind (wp_st S1 (by fnd) (place_idx (s := cb.size) (by omega) (by omega)) fun g2 S2 => ?_)
    refine wp_bind (callocTB_spec S2 (by omega) (by norm_num) ?_)
    intro Y g3 ⟨m2, h2, S3⟩
    refine wp_st S3 (by fnd) (place_idx (s := ca.size) (by omega) (by omega)) fun g4 S4 => ?_
    refine K Y X m2 m1 _ ⟨_, _, h2⟩ ⟨_, _, _, _, h1⟩ (S4.perm ?_)
    rw [show 1 + (j : Int) - 1 = j by omega]
    abel
  · intro h' ca cb M1 M2 A1 A2 S2
    hss
    rename_i S3
    exact wp_pure (K _ _ (IsGrad.intro A2 A1 S3 rfl rfl (by getv) (by getv) (by getv)))

/-! ### Helmholtz-Hodge -/

/-- A Helmholtz-Hodge plan owning `m`. -/
def IsHodge (p : Val) (m : Res) : Prop :=
  ∃ (i a b x : Nat) (c ca cb cx : Cell) (M1 M2 : Res) (n : Nat), p = .ptr i 0 ∧
    m = {(i, c)} + (M1 + (M2 + ({(a, ca)} + ({(b, cb)} + {(x, cx)})))) ∧ c.tag = .libc ∧
    cx.tag = .libc ∧ IsArray SomeTB n a ca M1 ∧ IsArray SomeQR n b cb M2 ∧
    c.val (.fld .T) = .ptr a 0 ∧ c.val (.fld .F) = .ptr b 0 ∧ c.val (.fld .X) = .ptr x 0 ∧
    c.val (.fld .n) = .int n

theorem IsHodge.intro {h : Heap} {M M1 M2 R : Res} {i a b x n : Nat} {c ca cb cx : Cell}
    (A1 : IsArray SomeTB n a ca M1) (A2 : IsArray SomeQR n b cb M2) (H : Sat h M)
    (e : M = {(i, c)} + ({(x, cx)} + (M2 + (M1 + ({(b, cb)} + ({(a, ca)} + R))))))
    (t : c.tag = .libc) (tx : cx.tag = .libc)
    (f1 : c.val (.fld .T) = .ptr a 0) (f2 : c.val (.fld .F) = .ptr b 0)
    (f3 : c.val (.fld .X) = .ptr x 0) (f4 : c.val (.fld .n) = .int n) :
    Own (IsHodge (.ptr i 0)) R h :=
  ⟨_, ⟨i, a, b, x, c, ca, cb, cx, M1, M2, n, rfl, rfl, t, tx, A1, A2, f1, f2, f3, f4⟩,
    H.perm (by rw [e]; abel)⟩

theorem destroyHodge_spec {p : Val} {m : Res} (H : IsHodge p m) : Destroys destroyHodge p m := by
  intro R h Q S K
  obtain ⟨i, a, b, x, c, ca, cb, cx, M1, M2, n, rfl, rfl, t, tx, A1, A2, f1, f2, f3, f4⟩ := H
  simp only [add_assoc] at S
  have t1 := A1.1
  have t2 := A2.1
  unfold destroyHodge
  hs
  refine wp_bind (destroyPair_spec proper_tb proper_qr
    (fun _ _ ⟨_, _, H⟩ => destroyTB_spec H) (fun _ _ ⟨_, _, _, _, H⟩ => destroyQR_spec H)
    A1 A2 f1 f2 S (R := {(i, c)} + ({(a, ca)} + ({(b, cb)} + ({(x, cx)} + R)))) (by abel) (by fmem)
    (by fmem) (by fmem) fun h1 S1 => ?_)
  hss
  exact K _ (by assumption)

theorem makes_planHodge {n : Nat} : Makes (planHodge n) IsHodge := by
  intro R h Q S K
  unfold planHodge
  hs
  hs
  rename_i S1
  refine wp_bind (forN_fill2 (P1 := SomeQR) (P2 := SomeTB) S1 rfl rfl rfl rfl ?_ ?_)
  · intro j h ca cb F Q hj sa sb S K
    refine wp_bind (callocTB_spec S (by omega) (by norm_num) ?_)
    intro Y g1 ⟨m1, h1, S1⟩
    refine wp_bind (wp_st S1 (by fnd) (place_idx (s := cb.size) (by omega) (by omega)) fun g2 S2 => ?_)
    refine wp_bind (callocBanded_spec S2 (mul_nonneg (by omega) (by norm_num)) ?_)
    intro A g3 ⟨mA, hA, S3⟩
    refine wp_bind (factor_spec S3 hA (by fle) (by omega) (by omega) (by norm_num) ?_)
    intro X g4 ⟨m2, h2, S4⟩
    refine wp_bind (wp_st S4 (by fnd) (place_idx (s := ca.size) (by omega) (by omega)) fun g5 S5 => ?_)
    refine (destroyBanded_spec hA).run S5 (by fnd) fun g6 S6 => ?_
    refine K X Y m2 m1 _ ⟨_, _, _, _, h2⟩ ⟨_, _, h1⟩ (S6.perm ?_)
    rw [show 1 + (j : Int) - 1 = j by omega]
    abel
  · intro h' ca cb M1 M2 A1 A2 S2
    hss
    rename_i S3
    exact wp_pure (K _ _ (IsHodge.intro A2 A1 S3 rfl rfl rfl (by getv) (by getv) (by getv)
      (by getv)))

/-! ### Isometries -/

/-- A symmetric eigenvalue factorisation owning `m`. -/
def IsTriEig (p : Val) (m : Res) : Prop :=
  ∃ i a b d l c ca cb cd cl, p = .ptr i 0 ∧
    m = {(i, c)} + ({(a, ca)} + ({(b, cb)} + ({(d, cd)} + {(l, cl)}))) ∧ c.tag = .libc ∧
    ca.tag = .libc ∧ cb.tag = .libc ∧ cd.tag = .libc ∧ cl.tag = .libc ∧
    c.val (.fld .A) = .ptr a 0 ∧ c.val (.fld .B) = .ptr b 0 ∧
    c.val (.fld .C) = .ptr d 0 ∧ c.val (.fld .lambda) = .ptr l 0

theorem IsTriEig.intro {h : Heap} {M M1 M2 M3 M4 R : Res} {i a b d l : Nat}
    {c ca cb cd cl : Cell} (H : Sat h M)
    (e : M = {(i, c)} + M1) (t : c.tag = .libc) (fa : c.val (.fld .A) = .ptr a 0)
    (ea : M1 = {(a, ca)} + M2) (ta : ca.tag = .libc) (fb : c.val (.fld .B) = .ptr b 0)
    (eb : M2 = {(b, cb)} + M3) (tb : cb.tag = .libc) (fd : c.val (.fld .C) = .ptr d 0)
    (ed : M3 = {(d, cd)} + M4) (td : cd.tag = .libc) (fl : c.val (.fld .lambda) = .ptr l 0)
    (el : M4 = {(l, cl)} + R) (tl : cl.tag = .libc) : Own (IsTriEig (.ptr i 0)) R h :=
  ⟨_, ⟨i, a, b, d, l, c, ca, cb, cd, cl, rfl, rfl, t, ta, tb, td, tl, fa, fb, fd, fl⟩,
    H.perm (by rw [e, ea, eb, ed, el]; abel)⟩

theorem IsTriEig.ptr {p : Val} {m : Res} (H : IsTriEig p m) : ∃ i, p = .ptr i 0 := by
  obtain ⟨i, _, _, _, _, _, _, _, _, _, e, _⟩ := H; exact ⟨i, e⟩

theorem destroySymTriEig_spec {p : Val} {m : Res} (H : IsTriEig p m) :
    Destroys destroySymTriEig p m := by
  intro R h Q S K
  obtain ⟨i, a, b, d, l, c, ca, cb, cd, cl, rfl, rfl, t, ta, tb, td, tl, fa, fb, fd, fl⟩ := H
  simp only [add_assoc] at S
  unfold destroySymTriEig
  hss
  exact K _ (by assumption)

theorem symTriEig_spec {n : Int} {T lam : Val} {m R : Res} {h : Heap} {Q : Val → Heap → Prop}
    (S : Sat h R) (H : IsSymTri n T m) (lm : m ≤ R) (hl : Live lam R) (h0 : 0 ≤ n)
    (K : ∀ p h', Own (IsTriEig p) R h' → Q p h') : WP (symTriEig T lam) h Q := by
  obtain ⟨i, a, b, ci, ca, cb, rfl, rfl, t, ta, tb, fa, fb, fn⟩ := H
  have mi : (i, ci) ∈ R := Multiset.mem_of_le lm (by simp)
  have ma : (a, ca) ∈ R := Multiset.mem_of_le lm (by simp)
  have mb : (b, cb) ∈ R := Multiset.mem_of_le lm (by simp)
  obtain ⟨il, ol, cl, rfl, ml⟩ := hl
  unfold symTriEig
  hss
  exact wp_pure (K _ _ (IsTriEig.intro (by assumption) (by fnd) (by tg) (by getv) (by fnd) (by tg)
    (by getv) (by fnd) (by tg) (by getv) (by fnd) (by tg) (by getv) (by fnd) (by tg)))

theorem isometryBlock_spec {n : Int} {R : Res} {h : Heap} {Q : Val × Val × Val → Heap → Prop}
    (S : Sat h R) (h1 : 1 ≤ n)
    (K : ∀ y l f my ml mf h', IsSymTri n y my → IsVec l ml → IsTriEig f mf →
      Sat h' (mf + (my + (ml + R))) → Q (y, l, f) h') : WP (isometryBlock n) h Q := by
  unfold isometryBlock
  hs
  hs
  hs
  hs
  hs
  hs
  hs
  hs
  rename_i S1
  obtain ⟨my, hy, S2⟩ : Own (IsSymTri n (.ptr _ 0)) R _ := IsSymTri.intro S1 (by fnd) (by tg)
    (by getv) (by fnd) (by tg) (by getv) (by fnd) (by tg) (by getv)
  hs
  hs
  refine wp_bind (symTriEig_spec (by assumption) hy (by fle) ⟨_, _, _, rfl, by fmem⟩ (by omega) ?_)
  intro F g2 ⟨mF, hF, S3⟩
  exact wp_pure (K _ _ _ _ _ _ _ hy ⟨_, _, rfl, rfl, rfl⟩ hF (S3.perm (by abel)))

/-- A partial isometry plan owning `m`. -/
def IsPartIso (p : Val) (m : Res) : Prop :=
  ∃ i c q1 q2 q3 q4 m1 m2 m3 m4, p = .ptr i 0 ∧ m = {(i, c)} + (m1 + (m2 + (m3 + m4))) ∧
    c.tag = .libc ∧ IsTriEig q1 m1 ∧ IsTriEig q2 m2 ∧ IsTriEig q3 m3 ∧ IsTriEig q4 m4 ∧
    c.val (.fld .F11) = q1 ∧ c.val (.fld .F21) = q2 ∧ c.val (.fld .F12) = q3 ∧
    c.val (.fld .F22) = q4

theorem IsPartIso.intro {h : Heap} {M m1 m2 m3 m4 R : Res} {i : Nat} {c : Cell} {q1 q2 q3 q4 : Val}
    (g1 : IsTriEig q1 m1) (g2 : IsTriEig q2 m2) (g3 : IsTriEig q3 m3) (g4 : IsTriEig q4 m4)
    (H : Sat h M) (e : M = {(i, c)} + (m4 + (m3 + (m2 + (m1 + R))))) (t : c.tag = .libc)
    (f1 : c.val (.fld .F11) = q1) (f2 : c.val (.fld .F21) = q2) (f3 : c.val (.fld .F12) = q3)
    (f4 : c.val (.fld .F22) = q4) : Own (IsPartIso (.ptr i 0)) R h :=
  ⟨_, ⟨i, c, q1, q2, q3, q4, m1, m2, m3, m4, rfl, rfl, t, g1, g2, g3, g4, f1, f2, f3, f4⟩,
    H.perm (by rw [e]; abel)⟩

theorem proper_partIso : Proper IsPartIso := fun _ _ ⟨i, _, _, _, _, _, _, _, _, _, e, _⟩ => ⟨i, e⟩

theorem destroyPartialIsometry_spec {p : Val} {m : Res} (H : IsPartIso p m) :
    Destroys destroyPartialIsometry p m := by
  intro R h Q S K
  obtain ⟨i, c, q1, q2, q3, q4, m1, m2, m3, m4, rfl, rfl, t, g1, g2, g3, g4, f1, f2, f3, f4⟩ := H
  obtain ⟨_, rfl⟩ := g1.ptr
  obtain ⟨_, rfl⟩ := g2.ptr
  obtain ⟨_, rfl⟩ := g3.ptr
  obtain ⟨_, rfl⟩ := g4.ptr
  simp only [add_assoc] at S
  unfold destroyPartialIsometry
  hs
  refine wp_bind ((destroySymTriEig_spec g1).run (by assumption) (by fnd) fun _ _ => ?_)
  hs
  refine wp_bind ((destroySymTriEig_spec g2).run (by assumption) (by fnd) fun _ _ => ?_)
  hs
  refine wp_bind ((destroySymTriEig_spec g3).run (by assumption) (by fnd) fun _ _ => ?_)
  hs
  refine wp_bind ((destroySymTriEig_spec g4).run (by assumption) (by fnd) fun _ _ => ?_)
  hss
  exact K _ (by assumption)

set_option maxHeartbeats 1000000 in
theorem makes_planPartialIsometry {l : Int} (h2 : 2 ≤ l) :
    Makes (planPartialIsometry l) IsPartIso := by
  intro R h Q S K
  unfold planPartialIsometry
  refine wp_bind (isometryBlock_spec S (by omega) ?_)
  intro y1 l1 f1 my1 ml1 mf1 g1 hy1 hl1 hf1 S1
  refine wp_bind (isometryBlock_spec S1 (by omega) ?_)
  intro y2 l2 f2 my2 ml2 mf2 g2 hy2 hl2 hf2 S2
  refine wp_bind (isometryBlock_spec S2 (by omega) ?_)
  intro y3 l3 f3 my3 ml3 mf3 g3 hy3 hl3 hf3 S3
  refine wp_bind (isometryBlock_spec S3 (by omega) ?_)
  intro y4 l4 f4 my4 ml4 mf4 g4 hy4 hl4 hf4 S4
  dsimp only
  refine wp_bind ((freeVec_spec hl1).run (by assumption) (by fnd) fun _ _ => ?_)
  refine wp_bind ((freeVec_spec hl2).run (by assumption) (by fnd) fun _ _ => ?_)
  refine wp_bind ((freeVec_spec hl3).run (by assumption) (by fnd) fun _ _ => ?_)
  refine wp_bind ((freeVec_spec hl4).run (by assumption) (by fnd) fun _ _ => ?_)
  refine wp_bind ((destroySymTri_spec hy1).run (by assumption) (by fnd) fun _ _ => ?_)
  refine wp_bind ((destroySymTri_spec hy2).run (by assumption) (by fnd) fun _ _ => ?_)
  refine wp_bind ((destroySymTri_spec hy3).run (by assumption) (by fnd) fun _ _ => ?_)
  refine wp_bind ((destroySymTri_spec hy4).run (by assumption) (by fnd) fun _ _ => ?_)
  hss
  exact wp_pure (K _ _ (IsPartIso.intro hf1 hf2 hf3 hf4 (by assumption) rfl rfl (by getv) (by getv)
    (by getv) (by getv)))

/-- An isometry plan: the array `a` that holds the partial plans outlives the plan, the other
blocks are `m`. -/
def IsIso (p : Val) (a : Nat) (ca : Cell) (m : Res) : Prop :=
  ∃ (i : Nat) (c : Cell) (M : Res) (k : Nat), p = .ptr i 0 ∧ m = {(i, c)} + M ∧ c.tag = .libc ∧
    (k : Int) ≤ ca.size ∧ Items (fun j => Entry IsPartIso ca (j - 2)) 2 k M ∧
    c.val (.fld .F) = .ptr a 0 ∧ c.val (.fld .n) = .int (k + 2)

theorem destroyIsometry_spec {p : Val} {a : Nat} {ca : Cell} {m R : Res} {h : Heap}
    {Q : Unit → Heap → Prop} (H : IsIso p a ca m) (S : Sat h (m + ({(a, ca)} + R)))
    (K : ∀ h', Sat h' ({(a, ca)} + R) → Q () h') : WP (destroyIsometry p) h Q := by
  obtain ⟨i, c, M, k, rfl, rfl, t, hk, hI, f1, f2⟩ := H
  simp only [add_assoc] at S
  unfold destroyIsometry
  hs
  rw [show ((k : Int) + 2 - 2).toNat = k by omega]
  refine wp_bind (forN_consume k 2 M h hI (R := {(i, c)} + ({(a, ca)} + R)) (S.perm (by fnd)) ?_ ?_)
  · intro j m R' h' h0 h1 hE hR S'
    have mp' := Multiset.mem_of_le hR (by fmem : (i, c) ∈ {(i, c)} + ({(a, ca)} + R))
    have ma' := Multiset.mem_of_le hR (by fmem : (a, ca) ∈ {(i, c)} + ({(a, ca)} + R))
    obtain ⟨i', ei⟩ := proper_partIso _ _ hE
    refine wp_bind (wp_ld S' (mem_next mp') rfl f1 (by simp) ?_)
    refine wp_bind (wp_ld S' (mem_next ma') (place_idx (by omega) (by omega)) ei (by simp) ?_)
    rw [← ei]
    exact (destroyPartialIsometry_spec hE).run S' rfl fun _ S => S
  · intro h' S'
    hss
    exact K _ (by assumption)

theorem planIsometry_spec {n : Int} {R : Res} {h : Heap} {Q : Val → Heap → Prop} (h2 : 2 ≤ n)
    (S : Sat h R) (K : ∀ p a ca h', Own (IsIso p a ca) ({(a, ca)} + R) h' → Q p h') :
    WP (planIsometry n) h Q := by
  unfold planIsometry
  refine wp_bind (wp_mallocStruct S ?_)
  intro i h1 S1
  refine wp_bind (wp_malloc S1 (by omega) ?_)
  intro a h2' S2
  refine wp_bind (wp_st S2 (by fnd) rfl ?_)
  intro h3 S3
  generalize hc : Cell.set _ _ _ = c at S3
  have tc : c.tag = .libc := by rw [← hc]; rfl
  have fc : c.val (.fld .F) = .ptr a 0 := by rw [← hc]; exact Cell.set_same ..
  have e : n = ((n - 2).toNat : Int) + 2 := by omega
  have hsz : n - 2 = ((n - 2).toNat : Int) := by omega
  generalize (n - 2).toNat = k at e hsz
  refine wp_bind (wp_forN (fun j h => ∃ (ca : Cell) (M : Res), ca.size = (k : Int) ∧
    Items (fun j => Entry IsPartIso ca (j - 2)) 2 j M ∧
    Sat h (M + ({(a, ca)} + ({(i, c)} + R)))) k 2 0 h3
    ⟨_, 0, hsz, rfl, by rw [zero_add]; exact S3.perm (by fnd)⟩ ?_ ?_)
  · rintro j h hj ⟨ca, M, sa, hI, S⟩
    rw [Nat.zero_add] at hI ⊢
    refine wp_bind (wp_ld S (by fmem) rfl fc (by simp) ?_)
    refine wp_bind (makes_planPartialIsometry (by omega) _ _ _ S ?_)
    intro p g1 ⟨m, hm, S4⟩
    refine wp_st S4 (by fnd) (place_idx (s := ca.size) (by omega) (by omega)) fun g2 S5 => ?_
    refine ⟨ca.set (.idx j) p, M + m, sa, Items.snoc (hI.entry_set le_rfl) ?_, S5.perm ?_⟩
    · show IsPartIso _ m
      rw [show (2 : Int) + j - 2 = j by omega, Cell.set_same]
      exact hm
    · rw [show 2 + (j : Int) - 2 = j by omega]; abel
  · rintro h' ⟨ca, M, sa, hI, S⟩
    rw [Nat.zero_add] at hI
    refine wp_bind (wp_st S (by fnd) rfl fun g S6 => ?_)
    refine wp_pure (K _ a ca _ ⟨_, ⟨i, c.set (.fld .n) (.int n), M, k, rfl, rfl, tc, by omega, hI,
      by getv, by rw [Cell.set_same, e]⟩, S6.perm (by abel)⟩)

end FT.Heap
