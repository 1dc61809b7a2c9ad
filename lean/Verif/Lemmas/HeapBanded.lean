import Verif.Model.HeapBanded
import Verif.Lemmas.HeapLogic
/-
Ownership predicates for banded and hierarchical matrices and divide-and-conquer factorisations,
and specifications of their constructors and destructors.
-/
set_option linter.unusedVariables false
namespace FT.Heap

/-- `d p` releases exactly the blocks `m`. -/
def Destroys (d : Val → HM Unit) (p : Val) (m : Res) : Prop :=
  ∀ (R : Res) (h : Heap) (Q : Unit → Heap → Prop), Sat h (m + R) → (∀ h', Sat h' R → Q () h') →
    WP (d p) h Q

/-- `d`, run with enough fuel, releases exactly the blocks `m`. -/
def DestroysF (d : Nat → Val → HM Unit) (p : Val) (m : Res) : Prop :=
  ∃ k, ∀ fuel, k ≤ fuel → Destroys (d fuel) p m

theorem Destroys.run {d : Val → HM Unit} {p : Val} {m M R : Res} {h : Heap}
    {Q : Unit → Heap → Prop} (D : Destroys d p m) (H : Sat h M) (e : M = m + R)
    (K : ∀ h', Sat h' R → Q () h') : WP (d p) h Q := D R h Q (e ▸ H) K

theorem destroys_free {i : Nat} {c : Cell} (h : c.tag = .libc) :
    Destroys free (.ptr i 0) {(i, c)} := fun _ _ _ H K => wp_free' H rfl h K

/-- A sparse matrix owning `m`. -/
def IsSparse (p : Val) (m : Res) : Prop :=
  ∃ i a b v c ca cb cv mm n nnz, p = .ptr i 0 ∧ m = {(i, c)} + ({(a, ca)} + ({(b, cb)} + {(v, cv)})) ∧
    c.tag = .libc ∧ ca.tag = .libc ∧ cb.tag = .libc ∧ cv.tag = .libc ∧
    c.val (.fld .p) = .ptr a 0 ∧ c.val (.fld .q) = .ptr b 0 ∧ c.val (.fld .v) = .ptr v 0 ∧
    c.val (.fld .m) = .int mm ∧ c.val (.fld .n) = .int n ∧ c.val (.fld .nu) = .int nnz ∧ 0 ≤ nnz

/-- A triangular banded matrix owning `m`. -/
def IsTB (n b : Int) (p : Val) (m : Res) : Prop :=
  ∃ i d c cd, p = .ptr i 0 ∧ m = {(i, c)} + {(d, cd)} ∧ c.tag = .libc ∧ cd.tag = .libc ∧
    c.val (.fld .data) = .ptr d 0 ∧ c.val (.fld .n) = .int n ∧ c.val (.fld .b) = .int b

/-- A banded matrix owning `m`. -/
def IsBanded (mm n l u : Int) (p : Val) (m : Res) : Prop :=
  ∃ i d c cd, p = .ptr i 0 ∧ m = {(i, c)} + {(d, cd)} ∧ c.tag = .libc ∧ cd.tag = .libc ∧
    c.val (.fld .data) = .ptr d 0 ∧ c.val (.fld .m) = .int mm ∧ c.val (.fld .n) = .int n ∧
    c.val (.fld .l) = .int l ∧ c.val (.fld .u) = .int u

/-- `p` points to a live structure with members `n`, `b` and live data (possibly shared). -/
def TBin (n b : Int) (p : Val) (M : Res) : Prop :=
  ∃ i c d o cd, p = .ptr i 0 ∧ (i, c) ∈ M ∧ (d, cd) ∈ M ∧ c.val (.fld .data) = .ptr d o ∧
    c.val (.fld .n) = .int n ∧ c.val (.fld .b) = .int b

/-- `p` points into a live block. -/
def Live (p : Val) (M : Res) : Prop := ∃ i o c, p = .ptr i o ∧ (i, c) ∈ M

/-- `p` points to a live structure whose member `f` points to a live block. -/
def LiveAt (f : Fld) (p : Val) (M : Res) : Prop :=
  ∃ i c d o cd, p = .ptr i 0 ∧ (i, c) ∈ M ∧ c.val (.fld f) = .ptr d o ∧ (d, cd) ∈ M

theorem Live.mono {p : Val} {M N : Res} (H : Live p M) (h : M ≤ N) : Live p N := by
  obtain ⟨i, o, c, e, hm⟩ := H
  exact ⟨i, o, c, e, Multiset.mem_of_le h hm⟩

theorem LiveAt.mono {f : Fld} {p : Val} {M N : Res} (H : LiveAt f p M) (h : M ≤ N) :
    LiveAt f p N := by
  obtain ⟨i, c, d, o, cd, e, hm, hv, hd⟩ := H
  exact ⟨i, c, d, o, cd, e, Multiset.mem_of_le h hm, hv, Multiset.mem_of_le h hd⟩

theorem TBin.mono {n b : Int} {p : Val} {M N : Res} (H : TBin n b p M) (h : M ≤ N) :
    TBin n b p N := by
  obtain ⟨i, c, d, o, cd, e, hm, hd, r⟩ := H
  exact ⟨i, c, d, o, cd, e, Multiset.mem_of_le h hm, Multiset.mem_of_le h hd, r⟩

theorem le_next {M S R : Res} (h : M ≤ R) : M ≤ S + R := le_trans h (Multiset.le_add_left R S)
theorem le_here {M R : Res} : M ≤ M + R := Multiset.le_add_right M R

/-- The blocks `m` are among the live ones. -/
macro "fle" : tactic => `(tactic|
  repeat (first | exact le_rfl | exact le_here | refine le_next ?_))

theorem IsTB.tbin {n b : Int} {p : Val} {m : Res} (H : IsTB n b p m) : TBin n b p m := by
  obtain ⟨i, d, c, cd, rfl, rfl, _, _, h⟩ := H
  exact ⟨i, c, d, 0, cd, rfl, by simp, by simp, h⟩

theorem TBin.liveAt {n b : Int} {p : Val} {m : Res} (H : TBin n b p m) : LiveAt .data p m := by
  obtain ⟨i, c, d, o, cd, rfl, hm, hd, hv, _⟩ := H
  exact ⟨i, c, d, o, cd, rfl, hm, hv, hd⟩

theorem IsBanded.liveAt {mm n l u : Int} {p : Val} {m : Res} (H : IsBanded mm n l u p m) :
    LiveAt .data p m := by
  obtain ⟨i, d, c, cd, rfl, rfl, _, _, h, _⟩ := H
  exact ⟨i, c, d, 0, cd, rfl, by simp, h, by simp⟩

theorem IsSparse.intro {h : Heap} {M M1 M2 M3 R : Res} {i a b v : Nat} {c ca cb cv : Cell}
    {mm n nnz : Int} (H : Sat h M) (e : M = {(i, c)} + M1) (t : c.tag = .libc)
    (fp : c.val (.fld .p) = .ptr a 0) (ea : M1 = {(a, ca)} + M2) (ta : ca.tag = .libc)
    (fq : c.val (.fld .q) = .ptr b 0) (eb : M2 = {(b, cb)} + M3) (tb : cb.tag = .libc)
    (fv : c.val (.fld .v) = .ptr v 0) (ev : M3 = {(v, cv)} + R) (tv : cv.tag = .libc)
    (fm : c.val (.fld .m) = .int mm) (fn : c.val (.fld .n) = .int n)
    (fz : c.val (.fld .nu) = .int nnz) (hz : 0 ≤ nnz) : Own (IsSparse (.ptr i 0)) R h :=
  ⟨_, ⟨i, a, b, v, c, ca, cb, cv, mm, n, nnz, rfl, rfl, t, ta, tb, tv, fp, fq, fv, fm, fn, fz, hz⟩,
    H.perm (by rw [e, ea, eb, ev]; abel)⟩

theorem IsTB.intro {h : Heap} {M M1 R : Res} {i d : Nat} {c cd : Cell} {n b : Int} (H : Sat h M)
    (e : M = {(i, c)} + M1) (t : c.tag = .libc) (fd : c.val (.fld .data) = .ptr d 0)
    (ed : M1 = {(d, cd)} + R) (td : cd.tag = .libc) (fn : c.val (.fld .n) = .int n)
    (fb : c.val (.fld .b) = .int b) : Own (IsTB n b (.ptr i 0)) R h :=
  ⟨_, ⟨i, d, c, cd, rfl, rfl, t, td, fd, fn, fb⟩, H.perm (by rw [e, ed]; abel)⟩

theorem IsBanded.intro {h : Heap} {M M1 R : Res} {i d : Nat} {c cd : Cell} {mm n l u : Int}
    (H : Sat h M) (e : M = {(i, c)} + M1) (t : c.tag = .libc) (fd : c.val (.fld .data) = .ptr d 0)
    (ed : M1 = {(d, cd)} + R) (td : cd.tag = .libc) (fm : c.val (.fld .m) = .int mm)
    (fn : c.val (.fld .n) = .int n) (fl : c.val (.fld .l) = .int l)
    (fu : c.val (.fld .u) = .int u) : Own (IsBanded mm n l u (.ptr i 0)) R h :=
  ⟨_, ⟨i, d, c, cd, rfl, rfl, t, td, fd, fm, fn, fl, fu⟩, H.perm (by rw [e, ed]; abel)⟩

/-- Collects the blocks of a triangular banded matrix. -/
macro "mkTB" : tactic => `(tactic| exact IsTB.intro (by assumption) (by fnd) (by tg) (by getv)
  (by fnd) (by tg) (by getv) (by getv))
/-- Collects the blocks of a banded matrix. -/
macro "mkBanded" : tactic => `(tactic| exact IsBanded.intro (by assumption) (by fnd) (by tg)
  (by getv) (by fnd) (by tg) (by getv) (by getv) (by getv) (by getv))

section
variable {h : Heap} {M R : Res}

theorem use_live {p : Val} {Q : Unit → Heap → Prop} (H : Sat h M) (L : Live p M) (K : Q () h) :
    WP (use p) h Q := by
  obtain ⟨i, o, c, rfl, hm⟩ := L
  exact wp_use H hm K

theorem useBanded_spec {p : Val} {Q : Unit → Heap → Prop} (H : Sat h M)
    (L : LiveAt .data p M) (K : Q () h) : WP (useBanded p) h Q := by
  obtain ⟨i, c, d, o, cd, rfl, hm, hv, hd⟩ := L
  unfold useBanded
  hss
  exact K

theorem useFld_spec {f : Fld} {p : Val} {Q : Unit → Heap → Prop} (H : Sat h M)
    (L : LiveAt f p M) (K : Q () h) : WP (do use (← ldf p f)) h Q := by
  obtain ⟨i, c, d, o, cd, rfl, hm, hv, hd⟩ := L
  hss
  exact K

theorem mallocSparse_spec {m n nnz : Int} {Q : Val → Heap → Prop} (H : Sat h R) (h0 : 0 ≤ nnz)
    (K : ∀ p h', Own (IsSparse p) R h' → Q p h') : WP (mallocSparse m n nnz) h Q := by
  unfold mallocSparse
  hss
  refine wp_pure (K _ _ ?_)
  exact IsSparse.intro (by assumption) (by fnd) (by tg) (by getv) (by fnd) (by tg) (by getv)
    (by fnd) (by tg) (by getv) (by fnd) (by tg) (by getv) (by getv) (by getv) h0

theorem destroySparse_spec {p : Val} {m : Res} (H : IsSparse p m) : Destroys destroySparse p m := by
  intro R h Q S K
  obtain ⟨i, a, b, v, c, ca, cb, cv, mm, n, nnz, rfl, rfl, h1, h2, h3, h4, h5, h6, h7, _⟩ := H
  simp only [add_assoc] at S
  unfold destroySparse
  hss
  exact K _ (by assumption)

theorem callocTB_spec {n b : Int} {Q : Val → Heap → Prop} (H : Sat h R) (h0 : 0 ≤ n) (h1 : 0 ≤ b)
    (K : ∀ p h', Own (IsTB n b p) R h' → Q p h') : WP (callocTB n b) h Q := by
  unfold callocTB
  hss
  refine wp_pure (K _ _ ?_)
  mkTB

theorem callocBanded_spec {mm n l u : Int} {Q : Val → Heap → Prop} (H : Sat h R)
    (h0 : 0 ≤ n * (l + u + 1))
    (K : ∀ p h', Own (IsBanded mm n l u p) R h' → Q p h') :
    WP (callocBanded mm n l u) h Q := by
  unfold callocBanded
  hss
  refine wp_pure (K _ _ ?_)
  mkBanded

theorem destroyBanded_spec {mm n l u : Int} {p : Val} {m : Res} (H : IsBanded mm n l u p m) :
    Destroys destroyBanded p m := by
  intro R h Q S K
  obtain ⟨i, d, c, cd, rfl, rfl, h1, h2, h3, _⟩ := H
  simp only [add_assoc] at S
  unfold destroyBanded
  hss
  exact K _ (by assumption)

theorem destroyTB_spec {n b : Int} {p : Val} {m : Res} (H : IsTB n b p m) :
    Destroys destroyBanded p m := by
  intro R h Q S K
  obtain ⟨i, d, c, cd, rfl, rfl, h1, h2, h3, _⟩ := H
  simp only [add_assoc] at S
  unfold destroyBanded
  hss
  exact K _ (by assumption)

theorem reallocTB_spec {n b b' : Int} {p : Val} {m : Res} {Q : Unit → Heap → Prop}
    (H : IsTB n b p m) (S : Sat h M) (e : M = m + R) (h0 : 0 ≤ n) (h1 : 0 ≤ b')
    (K : ∀ h', Own (IsTB n b' p) R h' → Q () h') : WP (reallocTB p b') h Q := by
  subst e
  obtain ⟨i, d, c, cd, rfl, rfl, h1, h2, h3, h4, h5⟩ := H
  simp only [add_assoc] at S
  unfold reallocTB useBanded
  hss
  refine K _ ?_
  mkTB

theorem convertTBToBanded_spec {n b : Int} {p : Val} {m : Res} {Q : Val → Heap → Prop}
    (H : IsTB n b p m) (S : Sat h M) (e : M = m + R)
    (K : ∀ p h', Own (IsBanded n n 0 b p) R h' → Q p h') :
    WP (convertTBToBanded p) h Q := by
  subst e
  obtain ⟨i, d, c, cd, rfl, rfl, h1, h2, h3, h4, h5⟩ := H
  simp only [add_assoc] at S
  unfold convertTBToBanded
  hss
  refine wp_pure (K _ _ ?_)
  mkBanded

theorem convertBandedToTB_spec {mm n l u : Int} {p : Val} {m : Res} {Q : Val → Heap → Prop}
    (H : IsBanded mm n l u p m) (S : Sat h M) (e : M = m + R) (h0 : 0 ≤ n) (hu : 0 ≤ u)
    (K : ∀ p h', Own (IsTB n u p) R h' → Q p h') :
    WP (convertBandedToTB p) h Q := by
  subst e
  obtain ⟨i, d, c, cd, rfl, rfl, h1, h2, h3, h4, h5, h6, h7⟩ := H
  simp only [add_assoc] at S
  unfold convertBandedToTB
  hs
  hs
  by_cases hl : l = 0
  · refine wp_if_pos hl ?_
    hss
    refine wp_pure (K _ _ ?_)
    mkTB
  · refine wp_if_neg hl ?_
    unfold destroyBanded useBanded
    hss
    refine wp_pure (K _ _ ?_)
    mkTB

end

end FT.Heap
