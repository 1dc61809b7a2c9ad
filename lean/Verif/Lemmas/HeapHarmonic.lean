import Verif.Lemmas.HeapRot
import Verif.Lemmas.HeapModified
/-
Arrays of objects, and specifications of harmonic, gradient, Helmholtz-Hodge and isometry plans.
-/
set_option linter.unusedVariables false
namespace FT.Heap

/-! ### Arrays of objects -/

/-- The blocks `M` split into pieces described by `E lo`, ..., `E (lo + k - 1)`. -/
def Items (E : Int → Res → Prop) : Int → Nat → Res → Prop
  | _, 0, M => M = 0
  | lo, k + 1, M => ∃ m M', E lo m ∧ Items E (lo + 1) k M' ∧ M = m + M'

theorem Items.mono {E E' : Int → Res → Prop} : ∀ {k : Nat} {lo : Int} {M : Res}, Items E lo k M →
    (∀ j m, lo ≤ j → j < lo + k → E j m → E' j m) → Items E' lo k M
  | 0, _, _, H, _ => H
  | k + 1, lo, _, ⟨m, M', h1, h2, e⟩, he =>
    ⟨m, M', he _ _ le_rfl (by push_cast; omega) h1,
      h2.mono fun j m a b => he j m (by omega) (by push_cast; omega), e⟩

theorem Items.snoc {E : Int → Res → Prop} {m : Res} : ∀ {k : Nat} {lo : Int} {M : Res},
    Items E lo k M → E (lo + k) m → Items E lo (k + 1) (M + m)
  | 0, lo, _, H, h => ⟨m, 0, by simpa using h, rfl, by rw [show _ = (0 : Res) from H]; simp⟩
  | k + 1, lo, _, ⟨m', M', h1, h2, e⟩, h =>
    ⟨m', M' + m, h1, h2.snoc (by rw [show lo + 1 + (k : Int) = lo + (k + 1 : Nat) by push_cast; omega]; exact h),
      by rw [e, add_assoc]⟩

theorem Items.zip {E E' : Int → Res → Prop} : ∀ {k : Nat} {lo : Int} {M M' : Res},
    Items E lo k M → Items E' lo k M' →
    Items (fun j m => ∃ m1 m2, E j m1 ∧ E' j m2 ∧ m = m1 + m2) lo k (M + M')
  | 0, _, _, _, H, H' => by
    rw [show _ = (0 : Res) from H, show _ = (0 : Res) from H']; rfl
  | k + 1, lo, _, _, ⟨m, M, h1, h2, e⟩, ⟨m', M', h1', h2', e'⟩ =>
    ⟨m + m', M + M', ⟨m, m', h1, h1', rfl⟩, h2.zip h2', by rw [e, e']; abel⟩

/-- A loop that releases one piece per pass. -/
theorem forN_consume {body : Int → HM Unit} {E : Int → Res → Prop} {R : Res}
    {Q : Unit → Heap → Prop} : ∀ (k : Nat) (lo : Int) (M : Res) (h : Heap), Items E lo k M →
    Sat h (M + R) →
    (∀ j m R' h, lo ≤ j → j < lo + k → E j m → R ≤ R' → Sat h (m + R') →
      WP (body j) h fun _ h' => Sat h' R') →
    (∀ h', Sat h' R → Q () h') → WP (forN lo k body) h Q
  | 0, lo, M, h, I, S, _, K => wp_pure (K _ (by rw [show M = 0 from I, zero_add] at S; exact S))
  | k + 1, lo, M, h, ⟨m, M', h1, h2, e⟩, S, B, K => by
    refine wp_bind (wp_mono (B lo m (M' + R) h le_rfl (by push_cast; omega) h1
      (Multiset.le_add_left _ _) (S.perm (by rw [e]; abel))) fun _ h' S' => ?_)
    exact forN_consume k (lo + 1) M' h' h2 S'
      (fun j m R' h a b => B j m R' h (by omega) (by push_cast; omega)) K

/-- The entry `j` of the array `ca` is described by `P`. -/
def Entry (P : Val → Res → Prop) (ca : Cell) (j : Int) (m : Res) : Prop :=
  P (ca.val (.idx j)) m

/-- Objects are referred to by proper pointers. -/
def Proper (P : Val → Res → Prop) : Prop := ∀ p m, P p m → ∃ i, p = .ptr i 0

theorem proper_vec : Proper IsVec := fun _ _ ⟨i, _, e, _⟩ => ⟨i, e⟩
theorem proper_rot : Proper IsRot := fun _ _ ⟨i, _, _, _, _, _, e, _⟩ => ⟨i, e⟩
theorem proper_mod : Proper IsMod := fun _ _ ⟨i, _, _, e, _⟩ => ⟨i, e⟩

theorem storeAll_spec {P : Val → Res → Prop} {f : Fld} {ip a : Nat} {cp : Cell} {R : Res}
    {Q : Unit → Heap → Prop} (mp : (ip, cp) ∈ R) (fa : cp.val (.fld f) = .ptr a 0) :
    ∀ (mks : List (HM Val)) (i : Int) (ca : Cell) (h : Heap), (∀ mk ∈ mks, Makes mk P) →
    0 ≤ i → i + mks.length ≤ ca.size → Sat h ({(a, ca)} + R) →
    (∀ h' ca' M, ca'.tag = ca.tag → ca'.size = ca.size →
      (∀ j, j < i → ca'.val (.idx j) = ca.val (.idx j)) →
      Items (Entry P ca') i mks.length M → Sat h' (M + ({(a, ca')} + R)) → Q () h') →
    WP (storeAll (.ptr ip 0) f i mks) h Q
  | [], i, ca, h, _, _, _, S, K =>
    wp_pure (K h ca 0 rfl rfl (fun _ _ => rfl) rfl (by rw [zero_add]; exact S))
  | mk :: mks, i, ca, h, hm, h0, h1, S, K => by
    rw [List.length_cons] at h1
    push_cast at h1
    unfold storeAll
    refine wp_bind (hm mk (by simp) _ _ _ S ?_)
    intro p h' ⟨m, hp, S1⟩
    refine wp_bind (wp_ld S1 (mem_next (mem_next mp)) rfl fa (by simp) ?_)
    refine wp_bind (wp_st S1 (by fnd) (place_idx (s := ca.size) h0 (by omega)) fun h2 S2 => ?_)
    refine storeAll_spec (R := m + R) (mem_next mp) fa mks (i + 1) (ca.set (.idx i) p) h2
      (fun mk' h' => hm mk' (by simp [h'])) (by omega) (by show _ ≤ ca.size; omega) S2 ?_
    intro h3 ca' M ht hsz hv hI S3
    refine K h3 ca' (m + M) (ht.trans rfl) (hsz.trans rfl) (fun j hj => ?_) ⟨m, M, ?_, hI, rfl⟩
      (S3.perm (by abel))
    · rw [hv j (by omega)]
      exact Cell.set_ne (by simp; omega) rfl
    · show P _ m
      rw [hv i (by omega), Cell.set_same]
      exact hp

/-! ### Harmonic plans -/

/-- An array of `k` objects described by `P`: the array is `a` and the blocks are `M`. -/
def IsArray (P : Val → Res → Prop) (k : Nat) (a : Nat) (ca : Cell) (M : Res) : Prop :=
  ca.tag = .libc ∧ (k : Int) ≤ ca.size ∧ Items (Entry P ca) 0 k M

/-- A loop that destroys the entries of an array, which is a member of a structure. -/
theorem destroyArray_spec {P : Val → Res → Prop} {d : Val → HM Unit} {f : Fld} {ip a k : Nat}
    {cp ca : Cell} {M N R : Res} {h : Heap} {Q : Unit → Heap → Prop} (hP : Proper P)
    (hd : ∀ p m, P p m → Destroys d p m) (hA : IsArray P k a ca M)
    (fa : cp.val (.fld f) = .ptr a 0) (S : Sat h N) (e : N = M + R)
    (mp : (ip, cp) ∈ R) (ma : (a, ca) ∈ R)
    (K : ∀ h', Sat h' R → Q () h') :
    WP (forN 0 k fun i => do d (← ldi (← ldf (.ptr ip 0) f) i)) h Q := by
  subst e
  obtain ⟨ta, hs, hI⟩ := hA
  refine forN_consume k 0 M h hI S ?_ K
  intro j m R' h' h0 h1 hE hR S'
  have mp' := Multiset.mem_of_le hR mp
  have ma' := Multiset.mem_of_le hR ma
  obtain ⟨i, ei⟩ := hP _ _ hE
  refine wp_bind (wp_ld S' (mem_next mp') rfl fa (by simp) ?_)
  refine wp_bind (wp_ld S' (mem_next ma') (place_idx h0 (by omega)) ei (by simp) ?_)
  rw [← ei]
  exact (hd _ _ hE).run S' rfl fun _ S => S

theorem storeAll_run {P : Val → Res → Prop} {f : Fld} {ip a : Nat} {cp ca : Cell} {N R : Res}
    {Q : Unit → Heap → Prop} {mks : List (HM Val)} {h : Heap} (hm : ∀ mk ∈ mks, Makes mk P)
    (S : Sat h N) (mp : (ip, cp) ∈ N) (fa : cp.val (.fld f) = .ptr a 0) (e : N = {(a, ca)} + R)
    (ne : ip ≠ a) (t : ca.tag = .libc) (hsz : ca.size = mks.length)
    (K : ∀ h' ca' M, IsArray P mks.length a ca' M → Sat h' (M + ({(a, ca')} + R)) → Q () h') :
    WP (storeAll (.ptr ip 0) f 0 mks) h Q := by
  subst e
  have mp' : (ip, cp) ∈ R := by
    rcases Multiset.mem_add.1 mp with h | h
    · rw [Multiset.mem_singleton, Prod.mk.injEq] at h
      exact absurd h.1 ne
    · exact h
  refine storeAll_spec mp' fa mks 0 ca h hm le_rfl (by omega) S ?_
  intro h' ca' M ht hs _ hI S'
  exact K h' ca' M ⟨ht.trans t, by omega, hI⟩ S'

theorem Sat.ne {h : Heap} {i j : Nat} {c d : Cell} {M R : Res} (S : Sat h M)
    (e : M = {(i, c)} + R) (hj : (j, d) ∈ R) : j ≠ i := by
  subst e
  rintro rfl
  exact S.notin _ hj

/-- A harmonic plan owning `m`. -/
def IsHarm (p : Val) (m : Res) : Prop :=
  ∃ i rp b p1 p2 c crp cb cp1 cp2 MR mm M1 M2 nr nm np, p = .ptr i 0 ∧
    m = {(i, c)} + ({(rp, crp)} + (MR + (mm + ({(b, cb)} + ({(p1, cp1)} + (M1 + ({(p2, cp2)} +
      M2))))))) ∧ c.tag = .libc ∧ cb.tag = .libc ∧ 1 ≤ nr ∧ 1 ≤ np ∧
    IsArray IsRot nr rp crp MR ∧ IsArray IsVec np p1 cp1 M1 ∧ IsArray IsVec np p2 cp2 M2 ∧
    ((nm = 0 ∧ mm = 0) ∨ (1 ≤ nm ∧ ∃ mp cmp MM, c.val (.fld .MP) = .ptr mp 0 ∧
      IsArray IsMod nm mp cmp MM ∧ mm = {(mp, cmp)} + MM)) ∧
    c.val (.fld .RP) = .ptr rp 0 ∧ c.val (.fld .B) = .ptr b 0 ∧ c.val (.fld .P) = .ptr p1 0 ∧
    c.val (.fld .Pinv) = .ptr p2 0 ∧ c.val (.fld .NRP) = .int (nr : Nat) ∧
    c.val (.fld .NMP) = .int (nm : Nat) ∧ c.val (.fld .NP) = .int (np : Nat)

theorem destroyPair_spec {P1 P2 : Val → Res → Prop} {d1 d2 : Val → HM Unit} {f g : Fld}
    {ip a b k : Nat} {cp ca cb : Cell} {M1 M2 N R : Res} {h : Heap} {Q : Unit → Heap → Prop}
    (hP1 : Proper P1) (hP2 : Proper P2) (hd1 : ∀ p m, P1 p m → Destroys d1 p m)
    (hd2 : ∀ p m, P2 p m → Destroys d2 p m)
    (hA : IsArray P1 k a ca M1) (hB : IsArray P2 k b cb M2)
    (fa : cp.val (.fld f) = .ptr a 0) (fb : cp.val (.fld g) = .ptr b 0) (S : Sat h N)
    (e : N = (M1 + M2) + R) (mp : (ip, cp) ∈ R) (ma : (a, ca) ∈ R) (mb : (b, cb) ∈ R)
    (K : ∀ h', Sat h' R → Q () h') :
    WP (forN 0 k fun i => do
      d1 (← ldi (← ldf (.ptr ip 0) f) i)
      d2 (← ldi (← ldf (.ptr ip 0) g) i)) h Q := by
  subst e
  obtain ⟨ta, hsa, hI⟩ := hA
  obtain ⟨tb, hsb, hJ⟩ := hB
  refine forN_consume k 0 (M1 + M2) h (hI.zip hJ) S ?_ K
  intro j m R' h' h0 h1 ⟨m1, m2, hE1, hE2, em⟩ hR S'
  subst em
  rw [add_assoc] at S'
  have mp' := Multiset.mem_of_le hR mp
  have ma' := Multiset.mem_of_le hR ma
  have mb' := Multiset.mem_of_le hR mb
  obtain ⟨i1, e1⟩ := hP1 _ _ hE1
  obtain ⟨i2, e2⟩ := hP2 _ _ hE2
  refine wp_bind (wp_ld S' (mem_next (mem_next mp')) rfl fa (by simp) ?_)
  refine wp_bind (wp_ld S' (mem_next (mem_next ma')) (place_idx h0 (by omega)) e1 (by simp) ?_)
  rw [← e1]
  refine wp_bind ((hd1 _ _ hE1).run S' rfl fun h2 S2 => ?_)
  refine wp_bind (wp_ld S2 (mem_next mp') rfl fb (by simp) ?_)
  refine wp_bind (wp_ld S2 (mem_next mb') (place_idx h0 (by omega)) e2 (by simp) ?_)
  rw [← e2]
  exact (hd2 _ _ hE2).run S2 rfl fun _ S => S

theorem destroyHarmonic_spec {p : Val} {m : Res} (H : IsHarm p m) :
    Destroys destroyHarmonic p m := by
  intro R h Q S K
  obtain ⟨i, rp, b, p1, p2, c, crp, cb, cp1, cp2, MR, mm, M1, M2, nr, nm, np, rfl, rfl, t, tb, hr,
    hp, aR, a1, a2, hM, f1, f2, f3, f4, f5, f6, f7⟩ := H
  simp only [add_assoc] at S
  have tr := aR.1
  have t1 := a1.1
  have t2 := a2.1
  unfold destroyHarmonic
  hs
  refine wp_if_pos (by exact_mod_cast hr) ?_
  refine wp_bind (destroyArray_spec proper_rot (fun _ _ => destroyRotation_spec) aR f1 S
    (by fnd) (by fmem) (by fmem) fun h1 S1 => ?_)
  hs
  hs
  hs
  rcases hM with ⟨rfl, rfl⟩ | ⟨hm, mp, cmp, MM, fm, aM, rfl⟩
  · rename_i S2
    rw [zero_add] at S2
    refine wp_if_neg (by simp) ?_
    hs
    hs
    hs
    refine wp_if_pos (by exact_mod_cast hp) ?_
    rename_i S3
    refine wp_bind (destroyPair_spec proper_vec proper_vec
      (fun _ _ => freeVec_spec) (fun _ _ => freeVec_spec) a1 a2 f3 f4 S3 (R := {(i, c)} + ({(p1, cp1)} + ({(p2, cp2)} + R)))
      (by abel) (by fmem) (by fmem) (by fmem) fun h1 S1 => ?_)
    hss
    exact K _ (by assumption)
  · rename_i S2
    simp only [add_assoc] at S2
    have tm := aM.1
    refine wp_if_pos (by exact_mod_cast hm) ?_
    refine wp_bind (destroyArray_spec proper_mod (fun _ _ => destroyModified_spec) aM fm S2
      (by fnd) (by fmem) (by fmem) fun h1 S1 => ?_)
    hs
    hs
    hs
    hs
    hs
    refine wp_if_pos (by exact_mod_cast hp) ?_
    rename_i S3
    refine wp_bind (destroyPair_spec proper_vec proper_vec
      (fun _ _ => freeVec_spec) (fun _ _ => freeVec_spec) a1 a2 f3 f4 S3 (R := {(i, c)} + ({(p1, cp1)} + ({(p2, cp2)} + R)))
      (by abel) (by fmem) (by fmem) (by fmem) fun h1 S1 => ?_)
    hss
    exact K _ (by assumption)

theorem IsHarm.intro {h : Heap} {M mm MR N1 N2 R : Res} {i rp b p1 p2 : Nat}
    {c crp cb cp1 cp2 : Cell} {nr nm np : Nat} (aR : IsArray IsRot nr rp crp MR)
    (a1 : IsArray IsVec np p1 cp1 N1) (a2 : IsArray IsVec np p2 cp2 N2)
    (hM : (nm = 0 ∧ mm = 0) ∨ (1 ≤ nm ∧ ∃ mp cmp MM, c.val (.fld .MP) = .ptr mp 0 ∧
      IsArray IsMod nm mp cmp MM ∧ mm = {(mp, cmp)} + MM)) (hr : 1 ≤ nr) (hp : 1 ≤ np)
    (H : Sat h M) (e : M = {(i, c)} + (N2 + ({(p2, cp2)} + (N1 + ({(p1, cp1)} + ({(b, cb)} +
      (mm + (MR + ({(rp, crp)} + R))))))))) (t : c.tag = .libc) (tb : cb.tag = .libc)
    (f1 : c.val (.fld .RP) = .ptr rp 0) (f2 : c.val (.fld .B) = .ptr b 0)
    (f3 : c.val (.fld .P) = .ptr p1 0) (f4 : c.val (.fld .Pinv) = .ptr p2 0)
    (f5 : c.val (.fld .NRP) = .int (nr : Nat)) (f6 : c.val (.fld .NMP) = .int (nm : Nat))
    (f7 : c.val (.fld .NP) = .int (np : Nat)) : Own (IsHarm (.ptr i 0)) R h :=
  ⟨_, ⟨i, rp, b, p1, p2, c, crp, cb, cp1, cp2, MR, mm, N1, N2, nr, nm, np, rfl, rfl, t, tb, hr,
    hp, aR, a1, a2, hM, f1, f2, f3, f4, f5, f6, f7⟩, H.perm (by rw [e]; abel)⟩

/-- The part of the constructor after the rotation and modified plans. -/
theorem planHarmonic_tail {i rp : Nat} {k : Int} {fwd inv : List (HM Val)}
    {c crp : Cell} {MR mm R : Res} {h : Heap} {Q : Val → Heap → Prop} {nr nm : Nat}
    (aR : IsArray IsRot nr rp crp MR) (S : Sat h ({(i, c)} + (mm + (MR + ({(rp, crp)} + R)))))
    (hM : (nm = 0 ∧ mm = 0) ∨ (1 ≤ nm ∧ ∃ mp cmp MM, c.val (.fld .MP) = .ptr mp 0 ∧
      IsArray IsMod nm mp cmp MM ∧ mm = {(mp, cmp)} + MM)) (hr : 1 ≤ nr) (hk : 0 ≤ k)
    (hf : ∀ mk ∈ fwd, Makes mk IsVec) (hi : ∀ mk ∈ inv, Makes mk IsVec)
    (h1 : 1 ≤ fwd.length) (h2 : inv.length = fwd.length) (t : c.tag = .libc)
    (f1 : c.val (.fld .RP) = .ptr rp 0) (K : ∀ p h', Own (IsHarm p) R h' → Q p h') :
    WP (do
      stf (.ptr i 0) .B (← malloc k)
      stf (.ptr i 0) .P (← malloc fwd.length)
      storeAll (.ptr i 0) .P 0 fwd
      stf (.ptr i 0) .Pinv (← malloc inv.length)
      storeAll (.ptr i 0) .Pinv 0 inv
      stf (.ptr i 0) .NRP (.int nr)
      stf (.ptr i 0) .NMP (.int nm)
      stf (.ptr i 0) .NP (.int fwd.length)
      pure (.ptr i 0)) h Q := by
  hs
  hs
  hs
  hs
  rename_i S1
  refine wp_bind (storeAll_run hf S1 mem_here (by getv) (by fnd) (S1.ne (by fnd) (by fmem)) rfl rfl ?_)
  intro g1 ca1 N1 A1 S2
  hs
  hs
  rename_i S3
  refine wp_bind (storeAll_run hi S3 mem_here (by getv) (by fnd) (S3.ne (by fnd) (by fmem)) rfl rfl ?_)
  intro g2 ca2 N2 A2 S4
  rw [h2] at A2
  hss
  refine wp_pure (K _ _ (IsHarm.intro (nm := nm) aR A1 A2 ?_ hr h1 (by assumption) rfl (by tg)
    rfl (by getv) (by getv) (by getv) (by getv) (by getv) (by getv) (by getv)))
  rcases hM with hM | ⟨hm, mp, cmp, MM, fm, aM, e⟩
  · exact Or.inl hM
  · exact Or.inr ⟨hm, mp, cmp, MM, by getv, aM, e⟩

theorem makes_planHarmonic {rots mods fwd inv : List (HM Val)} {k : Int} (hk : 0 ≤ k)
    (hR : ∀ mk ∈ rots, Makes mk IsRot) (hM : ∀ mk ∈ mods, Makes mk IsMod)
    (hf : ∀ mk ∈ fwd, Makes mk IsVec) (hi : ∀ mk ∈ inv, Makes mk IsVec) (hr : 1 ≤ rots.length)
    (h1 : 1 ≤ fwd.length) (h2 : inv.length = fwd.length) :
    Makes (planHarmonic rots mods k fwd inv) IsHarm := by
  intro R h Q S K
  unfold planHarmonic
  hs
  hs
  hs
  rename_i S1
  refine wp_bind (storeAll_run hR S1 mem_here (by getv) (by fnd) (S1.ne (by fnd) (by fmem)) rfl rfl ?_)
  intro g1 ca1 N1 A1 S2
  by_cases hm : mods.length = 0
  · refine wp_if_pos hm ?_
    exact planHarmonic_tail (mm := 0) A1 (S2.perm (by rw [zero_add]; abel)) (Or.inl ⟨hm, rfl⟩)
      hr hk hf hi h1 h2 (by tg) (by getv) K
  · refine wp_if_neg hm ?_
    hs
    hs
    rename_i S3
    refine wp_bind (storeAll_run hM S3 mem_here (by getv) (by fnd) (S3.ne (by fnd) (by fmem)) rfl rfl ?_)
    intro g3 ca3 N3 A3 S4
    exact planHarmonic_tail (mm := {(_, ca3)} + N3) A1 (S4.perm (by abel))
      (Or.inr ⟨by omega, _, _, _, by getv, A3, rfl⟩) hr hk hf hi h1 h2 (by tg) (by getv) K

/-! ### Spin-weighted spherical harmonics -/

/-- A spin-weighted plan owning `m`. -/
def IsSpinHarm (p : Val) (m : Res) : Prop :=
  ∃ i b p1 p2 p3 p4 c cb c1 c2 c3 c4 q mq, p = .ptr i 0 ∧
    m = {(i, c)} + ({(b, cb)} + ({(p1, c1)} + ({(p2, c2)} + ({(p3, c3)} + ({(p4, c4)} + mq))))) ∧
    c.tag = .libc ∧ cb.tag = .libc ∧ c1.tag = .libc ∧ c2.tag = .libc ∧ c3.tag = .libc ∧
    c4.tag = .libc ∧ IsSpinRot q mq ∧ c.val (.fld .SRP) = q ∧ c.val (.fld .B) = .ptr b 0 ∧
    c.val (.fld .P1) = .ptr p1 0 ∧ c.val (.fld .P2) = .ptr p2 0 ∧
    c.val (.fld .P1inv) = .ptr p3 0 ∧ c.val (.fld .P2inv) = .ptr p4 0

theorem IsSpinHarm.intro {h : Heap} {M M1 M2 M3 M4 M5 mq R : Res} {i b p1 p2 p3 p4 : Nat}
    {c cb c1 c2 c3 c4 : Cell} {q : Val} (hq : IsSpinRot q mq) (H : Sat h M)
    (e : M = {(i, c)} + M1) (t : c.tag = .libc) (fb : c.val (.fld .B) = .ptr b 0)
    (eb : M1 = {(b, cb)} + M2) (tb : cb.tag = .libc) (f1 : c.val (.fld .P1) = .ptr p1 0)
    (e1 : M2 = {(p1, c1)} + M3) (t1 : c1.tag = .libc) (f2 : c.val (.fld .P2) = .ptr p2 0)
    (e2 : M3 = {(p2, c2)} + M4) (t2 : c2.tag = .libc) (f3 : c.val (.fld .P1inv) = .ptr p3 0)
    (e3 : M4 = {(p3, c3)} + M5) (t3 : c3.tag = .libc) (f4 : c.val (.fld .P2inv) = .ptr p4 0)
    (e4 : M5 = {(p4, c4)} + (mq + R)) (t4 : c4.tag = .libc) (fq : c.val (.fld .SRP) = q) :
    Own (IsSpinHarm (.ptr i 0)) R h :=
  ⟨_, ⟨i, b, p1, p2, p3, p4, c, cb, c1, c2, c3, c4, q, mq, rfl, rfl, t, tb, t1, t2, t3, t4, hq, fq,
    fb, f1, f2, f3, f4⟩, H.perm (by rw [e, eb, e1, e2, e3, e4]; abel)⟩

theorem destroySpinHarmonic_spec {p : Val} {m : Res} (H : IsSpinHarm p m) :
    Destroys destroySpinHarmonic p m := by
  intro R h Q S K
  obtain ⟨i, b, p1, p2, p3, p4, c, cb, c1, c2, c3, c4, q, mq, rfl, rfl, t, tb, t1, t2, t3, t4, hq,
    fq, fb, f1, f2, f3, f4⟩ := H
  obtain ⟨_, rfl⟩ := hq.ptr
  simp only [add_assoc] at S
  unfold destroySpinHarmonic
  hs
  refine wp_bind ((destroySpinRotation_spec hq).run (by assumption) (by fnd) fun _ _ => ?_)
  hss
  exact K _ (by assumption)

set_option maxHeartbeats 1000000 in
theorem makes_planSpinHarmonic {n s k : Int} {mk1 mk2 mk3 mk4 : HM Val} (h0 : 0 ≤ n) (hk : 0 ≤ k)
    (H1 : Makes mk1 IsVec) (H2 : Makes mk2 IsVec) (H3 : Makes mk3 IsVec) (H4 : Makes mk4 IsVec) :
    Makes (planSpinHarmonic n s k mk1 mk2 mk3 mk4) IsSpinHarm := by
  intro R h Q S K
  unfold planSpinHarmonic
  hs
  refine wp_bind (makes_planSpinRotation h0 _ _ _ (by assumption) ?_)
  intro q g1 ⟨mq, hq, S1⟩
  hs
  hs
  hs
  refine wp_bind (H1 _ _ _ (by assumption) ?_)
  rintro q1 g2 ⟨m1, ⟨i1, c1, rfl, rfl, t1⟩, S2⟩
  refine wp_bind (H2 _ _ _ (by assumption) ?_)
  rintro q2 g3 ⟨m2, ⟨i2, c2, rfl, rfl, t2⟩, S3⟩
  refine wp_bind (H3 _ _ _ (by assumption) ?_)
  rintro q3 g4 ⟨m3, ⟨i3, c3, rfl, rfl, t3⟩, S4⟩
  refine wp_bind (H4 _ _ _ (by assumption) ?_)
  rintro q4 g5 ⟨m4, ⟨i4, c4, rfl, rfl, t4⟩, S5⟩
  hss
  exact wp_pure (K _ _ (IsSpinHarm.intro hq (by assumption) (by fnd) (by tg) (by getv) (by fnd)
    (by tg) (by getv) (by fnd) (by tg) (by getv) (by fnd) (by tg) (by getv) (by fnd) (by tg)
    (by getv) (by fnd) (by tg) (by getv)))

end FT.Heap
