import Verif.Model.HeapFmm
import Verif.Lemmas.HeapIso
import Verif.Lemmas.HeapBlock
/-
Specifications of the plans of the fast multipole Legendre-Chebyshev transform.
-/
set_option linter.unusedVariables false
namespace FT.Heap

/-- The null pointer, or a block of `fftw_malloc`. -/
def OptV (v : Val) (m : Res) : Prop :=
  (v = .null ∧ m = 0) ∨ ∃ i c, v = .ptr i 0 ∧ m = {(i, c)} ∧ c.tag = .fftw

/-- The null pointer, or an FFTW plan. -/
def OptP (v : Val) (m : Res) : Prop :=
  (v = .null ∧ m = 0) ∨ ∃ i c, v = .ptr i 0 ∧ m = {(i, c)} ∧ c.tag = .plan

theorem OptV.ne_junk {v : Val} {m : Res} (H : OptV v m) : v ≠ .junk := by
  rcases H with ⟨rfl, -⟩ | ⟨i, c, rfl, -⟩ <;> simp

theorem optV_null : OptV .null 0 := Or.inl ⟨rfl, rfl⟩
theorem optV_ptr {i : Nat} {c : Cell} (h : c.tag = .fftw) : OptV (.ptr i 0) {(i, c)} :=
  Or.inr ⟨i, c, rfl, rfl, h⟩

section
variable {h : Heap} {M R m : Res} {i : Nat} {c : Cell} {v : Val}

theorem Cell.set_self {c : Cell} {k : Key} {x : Val} (e : c.val k = x) : c.set k x = c := by
  obtain ⟨t, s, f⟩ := c
  unfold Cell.set
  subst e
  simp [Function.update_eq_self]

theorem freeMember_spec {key : Key} {Q : Unit → Heap → Prop} (S : Sat h ({(i, c)} + M))
    (hk : c.val key = v) (hp : place c.size 0 key = some key) (H : OptV v m) (e : M = m + R)
    (K : ∀ h', Sat h' ({(i, c.set key .null)} + R) → Q () h') :
    WP (freeMember (.ptr i 0) key) h Q := by
  subst e
  unfold freeMember
  have S : Sat h (m + ({(i, c)} + R)) := S.perm (by abel)
  refine wp_bind (wp_ld S (mem_next mem_here) hp hk H.ne_junk ?_)
  unfold unlessNull
  rcases H with ⟨rfl, rfl⟩ | ⟨j, cj, rfl, rfl, tj⟩
  · refine wp_if_pos rfl (wp_pure (K _ ?_))
    rw [Cell.set_self hk]
    rw [zero_add] at S
    exact S
  · refine wp_if_neg (by simp) ?_
    refine wp_bind (wp_fftwFree S find_here tj fun h' S' => ?_)
    exact wp_st S' find_here hp K

theorem fftwMallocIf_spec {b : Bool} {n : Int} {Q : Val → Heap → Prop} (S : Sat h R) (h0 : 0 ≤ n)
    (K : ∀ v m h', OptV v m → m.card = (if b then 1 else 0) → Sat h' (m + R) → Q v h') :
    WP (fftwMallocIf b n) h Q := by
  unfold fftwMallocIf
  cases b with
  | true => exact wp_fftwMalloc S h0 fun i h' S' => K _ _ _ (optV_ptr rfl) rfl S'
  | false => exact wp_pure (K _ 0 _ optV_null rfl (by rwa [zero_add]))

theorem fftwPlanIf_spec {b : Bool} {Q : Val → Heap → Prop} (S : Sat h R)
    (K : ∀ v m h', OptP v m → Sat h' (m + R) → Q v h') : WP (fftwPlanIf b) h Q := by
  unfold fftwPlanIf
  cases b with
  | true => exact wp_fftwPlan S fun i h' S' => K _ _ _ (Or.inr ⟨_, _, rfl, rfl, rfl⟩) S'
  | false => exact wp_pure (K _ 0 _ (Or.inl ⟨rfl, rfl⟩) (by rwa [zero_add]))

theorem freeOptV {Q : Unit → Heap → Prop} (H : OptV v m) (S : Sat h M) (e : M = m + R)
    (K : ∀ h', Sat h' R → Q () h') : WP (fftwFree v) h Q := by
  rcases H with ⟨rfl, rfl⟩ | ⟨j, cj, rfl, rfl, tj⟩
  · exact wp_free_null (K _ (S.perm (by rw [e, zero_add])))
  · exact wp_fftwFree S e tj K

theorem freeOptP {Q : Unit → Heap → Prop} (H : OptP v m) (S : Sat h M) (e : M = m + R)
    (K : ∀ h', Sat h' R → Q () h') : WP (fftwDestroyPlan v) h Q := by
  rcases H with ⟨rfl, rfl⟩ | ⟨j, cj, rfl, rfl, tj⟩
  · exact wp_free_null (K _ (S.perm (by rw [e, zero_add])))
  · exact wp_fftwDestroyPlan S e tj K

end

/-! ### The direct method -/

/-- Number of blocks of the plan of the direct method. -/
def directBlocks (dir : Int) : Nat := if dir = 1 ∨ dir = 2 then 4 else 2

/-- A plan of the direct method. -/
def IsDirect (dir : Int) (p : Val) (m : Res) : Prop :=
  ∃ i c va vn vd ma mn md, p = .ptr i 0 ∧ m = ma + ({(i, c)} + (mn + md)) ∧ c.tag = .libc ∧
    c.val (.fld .a) = va ∧ c.val (.fld .an) = vn ∧ c.val (.fld .dn) = vd ∧ OptV va ma ∧ OptV vn mn ∧
    OptV vd md ∧ m.card = directBlocks dir

theorem createDirect_spec {N dir : Int} (hN : 0 ≤ N) : Makes (createDirect N dir) (IsDirect dir) := by
  intro R h Q S K
  unfold createDirect
  hs; hs; hs; hs; hs; hs
  by_cases hd : dir = 1 ∨ dir = 2
  · refine wp_if_pos hd ?_
    hs; hs; hs; hs; hs; hs; hs
    rename_i p _ _ a _ _ _ _ _ _ _ _ dn _ _ an _ _ _ _ h' S'
    have S6 : Sat h' (({(a, _)} + ({(p, _)} + ({(an, _)} + {(dn, _)}))) + R) := S'.perm (by abel)
    refine wp_pure (K _ _ ⟨_, ?_, S6⟩)
    refine ⟨_, _, _, _, _, _, _, _, rfl, rfl, by tg, by getv, by getv, by getv, optV_ptr rfl, optV_ptr rfl,
      optV_ptr rfl, ?_⟩
    simp [directBlocks, hd]
  · refine wp_if_neg hd ?_
    rename_i p _ _ a _ _ _ _ _ _ h' S'
    have S6 : Sat h' (({(a, _)} + ({(p, _)} + (0 + 0))) + R) := S'.perm (by abel)
    refine wp_pure (K _ _ ⟨_, ?_, S6⟩)
    refine ⟨_, _, _, _, _, _, _, _, rfl, rfl, by tg, by getv, by getv, by getv, optV_ptr rfl, optV_null,
      optV_null, ?_⟩
    simp [directBlocks, hd]

theorem freeDirect_spec {dir : Int} {p : Val} {m : Res} (H : IsDirect dir p m) : Destroys freeDirect p m := by
  obtain ⟨i, c, va, vn, vd, ma, mn, md, rfl, rfl, tc, f1, f2, f3, o1, o2, o3, -⟩ := H
  intro R h Q S K
  unfold freeDirect
  have S : Sat h ({(i, c)} + (ma + (mn + (md + R)))) := S.perm (by abel)
  refine wp_bind (freeMember_spec S f1 rfl o1 rfl fun h1 S1 => ?_)
  refine wp_bind (freeMember_spec S1 (by getv) rfl o2 rfl fun h2 S2 => ?_)
  refine wp_bind (freeMember_spec S2 (by getv) rfl o3 rfl fun h3 S3 => ?_)
  exact wp_free' S3 rfl tc K

/-! ### Parts of a plan -/

/-- What the arguments of a plan with levels satisfy. -/
structure FmmArgs.Ok (g : FmmArgs) : Prop where
  N : 0 ≤ g.N
  Nn : 0 ≤ g.Nn
  s : 0 ≤ g.s
  M : 0 ≤ g.M
  dir : g.dir = 0 ∨ g.dir = 1 ∨ g.dir = 2
  lagrange : g.lagrange = 0 ∨ g.lagrange = 1
  subs : 0 ≤ g.subs
  blocks : 0 ≤ g.blocks

/-- Number of blocks of `B` and `BT`. -/
def FmmArgs.bBlocks (g : FmmArgs) : Nat :=
  if g.lagrange = 0 then if g.dbl = true ∧ g.M = 18 then 0 else 2 else 1

/-- Number of blocks behind `A`. -/
def FmmArgs.aBlocks (g : FmmArgs) : Nat := if g.dir = 2 then 2 else 1

section
variable {g : FmmArgs} {h : Heap} {M R m : Res}

theorem fmmFillA_spec {a : Nat} {Q : Unit → Heap → Prop} (hg : g.Ok) (S : Sat h M)
    (e : M = {(a, ⟨.libc, 2, fun _ => .null⟩)} + R)
    (K : ∀ ca v0 v1 m0 m1 h', ca.tag = .libc → ca.size = 2 → ca.val (.idx 0) = v0 → ca.val (.idx 1) = v1 →
      OptV v0 m0 → OptV v1 m1 → (m0 + m1).card = g.aBlocks → Sat h' ({(a, ca)} + (m0 + (m1 + R))) → Q () h') :
    WP (fmmFillA g (.ptr a 0)) h Q := by
  subst e
  have h0 : 0 ≤ g.subs * (g.M * g.M) := mul_nonneg hg.subs (mul_self_nonneg _)
  unfold fmmFillA
  by_cases hd : g.dir = 2
  · refine wp_if_pos hd ?_
    hs; hs; hs; hs
    rename_i i1 _ _ _ _ i2 _ _ h' S'
    have S6 : Sat h' ({(a, _)} + ({(i1, _)} + ({(i2, _)} + R))) := S'.perm (by abel)
    exact K _ _ _ _ _ _ rfl rfl (by getv) (by getv) (optV_ptr rfl) (optV_ptr rfl)
      (by simp [FmmArgs.aBlocks, hd]) S6
  · refine wp_if_neg hd ?_
    rcases hg.dir with hd' | hd' | hd'
    · rw [hd']
      hs; hs
      rename_i i1 _ _ h' S'
      have S6 : Sat h' ({(a, _)} + ({(i1, _)} + (0 + R))) := S'.perm (by abel)
      exact K _ _ .null _ _ _ rfl rfl (by getv) (Cell.set_ne (by simp) rfl) (optV_ptr rfl) optV_null
        (by simp [FmmArgs.aBlocks, hd]) S6
    · rw [hd']
      hs; hs
      rename_i i1 _ _ h' S'
      have S6 : Sat h' ({(a, _)} + (0 + ({(i1, _)} + R))) := S'.perm (by abel)
      exact K _ .null _ _ _ _ rfl rfl (Cell.set_ne (by simp) rfl) (by getv) optV_null (optV_ptr rfl)
        (by simp [FmmArgs.aBlocks, hd]) S6
    · exact (hd hd').elim

theorem fmmB_spec {Q : Val × Val → Heap → Prop} (hg : g.Ok) (S : Sat h R)
    (K : ∀ B BT mB mT h', (g.M ≠ 18 → OptV B mB ∧ OptV BT mT) → (mB + mT).card = g.bBlocks →
      Sat h' (mB + (mT + R)) → Q (B, BT) h') : WP (fmmB g) h Q := by
  have h0 : 0 ≤ g.M := hg.M
  have h1 : 0 ≤ g.M * g.M := mul_self_nonneg _
  have h2 : 0 ≤ (g.M * g.M + g.M) / 2 := Int.ediv_nonneg (by omega) (by norm_num)
  unfold fmmB
  by_cases hl : g.lagrange = 0
  · by_cases hu : g.useFFTW = false
    · refine wp_if_pos ⟨hu, hl⟩ (wp_pure (K _ _ 0 0 _ ?_ ?_ (by simpa using S)))
      · intro hM
        simp [FmmArgs.useFFTW, hl, hM] at hu
      · simp only [FmmArgs.useFFTW, hl, decide_true, Bool.and_true, Bool.or_eq_false_iff, Bool.not_eq_false',
          decide_eq_false_iff_not, not_not] at hu
        simp [FmmArgs.bBlocks, hl, hu]
    · refine wp_if_neg (fun hh => hu hh.1) (wp_if_pos hl ?_)
      hs; hs; hs; hs; hs; hs; hs; hs; hs; hs
      rename_i i1 _ _ i2 _ _ _ _ _ _ _ _ _ _ h' S'
      have S6 : Sat h' ({(i1, _)} + ({(i2, _)} + R)) := S'.perm (by abel)
      refine wp_pure (K _ _ _ _ _ (fun _ => ⟨optV_ptr rfl, optV_ptr rfl⟩) ?_ S6)
      have : ¬ (g.dbl = true ∧ g.M = 18) := by
        rintro ⟨hh, hM⟩
        exact hu (by simp [FmmArgs.useFFTW, hh, hM])
      simp [FmmArgs.bBlocks, hl, this]
  · refine wp_if_neg (fun hh => hl hh.2) (wp_if_neg hl ?_)
    hs; hs; hs; hs; hs
    rename_i i1 _ _ _ _ _ h' S'
    have S6 : Sat h' ({(i1, _)} + (0 + R)) := S'.perm (by abel)
    refine wp_pure (K _ _ _ _ _ (fun _ => ⟨optV_ptr rfl, optV_null⟩) ?_ S6)
    simp [FmmArgs.bBlocks, hl]

theorem fmmT_spec {Q : Val → Heap → Prop} (hg : g.Ok) (S : Sat h R)
    (K : ∀ v m h', OptV v m → m.card = 1 → Sat h' (m + R) → Q v h') : WP (fmmT g) h Q := by
  have h0 : 0 ≤ 2 * g.s * g.M := mul_nonneg (mul_nonneg (by norm_num) hg.s) hg.M
  have h1 : 0 ≤ 2 * g.s := mul_nonneg (by norm_num) hg.s
  unfold fmmT
  hs
  by_cases hl : g.lagrange = 0
  · refine wp_if_pos hl ?_
    hs
    rename_i S'
    exact wp_pure (K _ _ _ (optV_ptr rfl) rfl S')
  · refine wp_if_neg hl ?_
    hs; hs; hs; hs
    rename_i S'
    exact wp_pure (K _ _ _ (optV_ptr rfl) rfl S')

/-- The pointers to the levels and the block they point into. -/
def IsLev (L : Int) (p : Val) (m : Res) : Prop :=
  ∃ w cw b cb, p = .ptr w 0 ∧ m = {(w, cw)} + {(b, cb)} ∧ cw.tag = .fftw ∧ cw.size = L ∧
    cw.val (.idx 0) = .ptr b 0 ∧ cb.tag = .fftw

theorem IsLev.card {L : Int} {p : Val} (H : IsLev L p m) : m.card = 2 := by
  obtain ⟨w, cw, b, cb, -, rfl, -⟩ := H
  simp

theorem fmmLevels_spec {Q : Val → Heap → Prop} (hg : g.Ok) (hL : 1 ≤ g.L) (S : Sat h R)
    (K : ∀ v m h', IsLev g.L v m → Sat h' (m + R) → Q v h') : WP (fmmLevels g) h Q := by
  have h0 : 0 ≤ g.L := by omega
  have h1 : 0 ≤ g.blocks * 2 * g.M := mul_nonneg (mul_nonneg hg.blocks (by norm_num)) hg.M
  unfold fmmLevels
  hs; hs
  rename_i w _ _ b _ S2
  refine wp_bind (wp_st (c := ⟨.fftw, g.L, fun _ => .junk⟩) S2 (by fnd)
    (place_idx (by omega) (by show (0 : Int) < g.L; omega)) fun h3 S3 => ?_)
  refine wp_bind (wp_forN (fun j h => ∃ (cw : Cell), cw.tag = .fftw ∧ cw.size = g.L ∧
    cw.val (.idx 0) = .ptr b 0 ∧ (∃ o, cw.val (.idx j) = .ptr b o) ∧
    Sat h ({(w, cw)} + ({(b, ⟨.fftw, g.blocks * 2 * g.M, fun _ => .junk⟩)} + R))) (g.L - 1).toNat 1 0 h3
    ⟨_, rfl, rfl, by getv, ⟨0, by getv⟩, S3⟩ ?_ ?_)
  · rintro j h hj ⟨cw, t1, s1, v0, ⟨o, vj⟩, S⟩
    rw [Nat.zero_add] at vj ⊢
    rw [show (1 : Int) + j - 1 = j by omega]
    refine wp_bind (wp_ld S mem_here (place_idx (by omega) (by omega)) vj (by simp) ?_)
    refine wp_bind (wp_shift ?_)
    refine wp_st S rfl (place_idx (by omega) (by omega)) fun h' S' => ?_
    refine ⟨cw.set _ _, t1, s1, Cell.set_ne (by simp; omega) v0, ⟨o + g.nb j * 2 * g.M, ?_⟩, S'⟩
    rw [show (((j + 1 : Nat)) : Int) = 1 + j by push_cast; omega]
    exact Cell.set_same _ _ _
  · rintro h' ⟨cw, t1, s1, v0, -, S⟩
    exact wp_pure (K _ _ _ ⟨w, cw, b, _, rfl, rfl, t1, s1, v0, rfl⟩ (S.perm (by abel)))

theorem freeLevels_spec {L : Int} {i : Nat} {c : Cell} {f : Fld} {v : Val} {Q : Unit → Heap → Prop}
    (hL : 1 ≤ L) (S : Sat h ({(i, c)} + M)) (hk : c.val (.fld f) = v) (hl : c.val (.fld .L) = .int L)
    (H : IsLev L v m) (e : M = m + R) (K : ∀ h', Sat h' ({(i, c)} + R) → Q () h') :
    WP (freeLevels (.ptr i 0) f) h Q := by
  obtain ⟨w, cw, b, cb, rfl, rfl, tw, sw, v0, tb⟩ := H
  subst e
  have S : Sat h ({(i, c)} + ({(w, cw)} + ({(b, cb)} + R))) := S.perm (by abel)
  unfold freeLevels
  refine wp_bind (wp_ld S mem_here rfl hk (by simp) ?_)
  unfold unlessNull
  refine wp_if_neg (by simp) ?_
  refine wp_bind (wp_ld S (mem_next mem_here) (place_idx (by omega) (by omega)) v0 (by simp) ?_)
  refine wp_bind (wp_fftwFree S (by fnd) tb fun h1 S1 => ?_)
  refine wp_bind (wp_ldInt S1 (by fmem) rfl hl ?_)
  refine wp_bind (wp_forN (fun j h => ∃ (cw : Cell), cw.tag = .fftw ∧ cw.size = L ∧
    Sat h ({(w, cw)} + ({(i, c)} + R))) L.toNat 0 0 h1 ⟨cw, tw, sw, S1.perm (by abel)⟩ ?_ ?_)
  · rintro j h hj ⟨cw, t1, s1, S⟩
    rw [zero_add]
    refine wp_st S rfl (place_idx (by omega) (by omega)) fun h' S' => ⟨cw.set _ _, t1, s1, S'⟩
  · rintro h' ⟨cw, t1, s1, S⟩
    exact wp_fftwFree S rfl t1 K

end

/-! ### Plans with levels -/

/-- Number of blocks of a plan with levels. -/
def FmmArgs.planBlocks (g : FmmArgs) : Nat :=
  2 + g.aBlocks + 1 + g.bBlocks + 3 + 2 + 2 + directBlocks g.dir

/-- Number of blocks of a plan with levels that the destructor does not release. -/
def FmmArgs.leak (g : FmmArgs) : Nat := 1 + if g.M = 18 then g.bBlocks else 0

/-- A plan with levels. -/
def IsFmmPlan (g : FmmArgs) (p : Val) (m : Res) : Prop :=
  ∃ i c a ca v0 v1 m0 m1 vT mT vB mB vBT mBT vi mi vo mo vw mw vk mk vc mc d md, p = .ptr i 0 ∧
    m = {(i, c)} + ({(a, ca)} + (m0 + (m1 + (mT + (mB + (mBT + (mi + (mo + (mw + (mk + (mc + md))))))))))) ∧
    c.tag = .libc ∧ c.val (.fld .A) = .ptr a 0 ∧ ca.tag = .libc ∧ ca.size = 2 ∧ ca.val (.idx 0) = v0 ∧
    ca.val (.idx 1) = v1 ∧ OptV v0 m0 ∧ OptV v1 m1 ∧ (m0 + m1).card = g.aBlocks ∧
    c.val (.fld .T) = vT ∧ OptV vT mT ∧ mT.card = 1 ∧ c.val (.fld .m) = .int g.M ∧
    c.val (.fld .B) = vB ∧ c.val (.fld .BT) = vBT ∧ (g.M ≠ 18 → OptV vB mB ∧ OptV vBT mBT) ∧
    (mB + mBT).card = g.bBlocks ∧ c.val (.fld .ia) = vi ∧ OptV vi mi ∧ mi.card = 1 ∧
    c.val (.fld .oa) = vo ∧ OptV vo mo ∧ mo.card = 1 ∧ c.val (.fld .work) = vw ∧ OptV vw mw ∧ mw.card = 1 ∧
    c.val (.fld .wk) = vk ∧ IsLev g.L vk mk ∧ c.val (.fld .ck) = vc ∧ IsLev g.L vc mc ∧
    c.val (.fld .L) = .int g.L ∧ c.val (.fld .dplan) = d ∧ IsDirect g.dir d md

theorem IsFmmPlan.card {g : FmmArgs} {p : Val} {m : Res} (H : IsFmmPlan g p m) : m.card = g.planBlocks := by
  obtain ⟨i, c, a, ca, v0, v1, m0, m1, vT, mT, vB, mB, vBT, mBT, vi, mi, vo, mo, vw, mw, vk, mk, vc, mc, d, md,
    -, rfl, -, -, -, -, -, -, -, -, e1, -, -, e2, -, -, -, -, e3, -, -, e4, -, -, e5, -, -, e6, -, l1, -, l2, -, -,
    hd⟩ := H
  obtain ⟨_, _, _, _, _, _, _, _, -, -, -, -, -, -, -, -, -, e7⟩ := hd
  have e8 := l1.card
  have e9 := l2.card
  simp only [Multiset.card_add, Multiset.card_singleton] at *
  unfold FmmArgs.planBlocks
  omega

theorem IsFmmPlan.ptr {g : FmmArgs} {p : Val} {m : Res} (H : IsFmmPlan g p m) : ∃ i, p = .ptr i 0 := by
  obtain ⟨i, c, a, ca, v0, v1, m0, m1, vT, mT, vB, mB, vBT, mBT, vi, mi, vo, mo, vw, mw, vk, mk, vc, mc, d, md,
    e, -⟩ := H
  exact ⟨i, e⟩

theorem wp_callocPtrs {h : Heap} {R : Res} {n : Int} {Q : Val → Heap → Prop} (H : Sat h R) (h0 : 0 ≤ n)
    (K : ∀ i h', Sat h' ({(i, ⟨.libc, n, fun _ => .null⟩)} + R) → Q (.ptr i 0) h') :
    WP (callocPtrs n) h Q := wp_alloc H h0 K

theorem createFmm_spec {g : FmmArgs} (hg : g.Ok) (hL : 1 ≤ g.L) : Makes (createFmm g) (IsFmmPlan g) := by
  intro R h Q S K
  have h0 : 0 ≤ g.M := hg.M
  have h1 : 0 ≤ g.M * g.M := mul_self_nonneg _
  have h2 : 0 ≤ 2 * (g.M * g.M) := by omega
  have h3 : 0 ≤ g.Nn / 2 := Int.ediv_nonneg hg.Nn (by norm_num)
  unfold createFmm
  hs
  rename_i p _ _
  refine wp_bind (wp_callocPtrs (by assumption) (by norm_num) ?_)
  intro a _ S
  hs; hs; hs; hs; hs; hs; hs; hs; hs; hs
  rename_i S
  refine wp_bind (createDirect_spec hg.N _ _ _ S ?_)
  intro d _ ⟨md, hd, S⟩
  hs
  refine wp_if_neg (by omega) ?_
  hs; hs; hs; hs; hs; hs
  rename_i f _ _ fhat _ S
  refine wp_bind (fftwPlanIf_spec S ?_)
  intro pl1 mp1 _ hp1 S
  refine wp_bind (fftwPlanIf_spec S ?_)
  intro pl2 mp2 _ hp2 S
  refine wp_bind (fmmFillA_spec hg S (by fnd) ?_)
  intro ca v0 v1 m0 m1 _ ta sa e0 e1 o0 o1 hc S
  hs; hs; hs; hs; hs
  rename_i S
  refine wp_bind (fftwMallocIf_spec S h0 ?_)
  intro wj mwj _ owj _ S
  refine wp_bind (fmmT_spec hg S ?_)
  intro T mT _ oT cT S
  hs
  rename_i S
  refine wp_bind (fmmB_spec hg S ?_)
  intro B BT mB mBT _ oB cB S
  dsimp only
  hs; hs; hs
  rename_i ia _ _ oa _ _ work _ S
  refine wp_bind (fmmLevels_spec hg hL S ?_)
  intro wk mk _ lk S
  refine wp_bind (fmmLevels_spec hg hL S ?_)
  intro ck mc _ lc S
  hs; hs; hs; hs; hs
  rename_i S
  refine wp_bind (freeOptP hp2 S (by fnd) fun _ S => ?_)
  refine wp_bind (freeOptP hp1 S (by fnd) fun _ S => ?_)
  hs; hs; hs; hs; hs; hs; hs
  rename_i S
  refine wp_bind (freeOptV owj S (by fnd) fun _ S => ?_)
  hs; hs
  rename_i h' S
  have S6 : Sat h' (({(p, _)} + ({(a, ca)} + (m0 + (m1 + (mT + (mB + (mBT + ({(ia, _)} + ({(oa, _)} +
    ({(work, _)} + (mk + (mc + md)))))))))))) + R) := S.perm (by abel)
  refine wp_pure (K _ _ ⟨_, ?_, S6⟩)
  exact ⟨p, _, a, ca, v0, v1, m0, m1, T, mT, B, mB, BT, mBT, _, _, _, _, _, _, wk, mk, ck, mc, d, md, rfl, rfl,
    by tg, by getv, ta, sa, e0, e1, o0, o1, hc, by getv, oT, cT, by getv, by getv, by getv, oB, cB, by getv,
    optV_ptr rfl, rfl, by getv, optV_ptr rfl, rfl, by getv, optV_ptr rfl, rfl, by getv, lk, by getv, lc,
    by getv, by getv, hd⟩

theorem freeFmmB_spec {g : FmmArgs} {h : Heap} {M R : Res} {i : Nat} {c : Cell} {vB vBT : Val} {mB mBT : Res}
    {Q : Unit → Heap → Prop} (S : Sat h ({(i, c)} + M)) (fm : c.val (.fld .m) = .int g.M)
    (f1 : c.val (.fld .B) = vB) (f2 : c.val (.fld .BT) = vBT) (o : g.M ≠ 18 → OptV vB mB ∧ OptV vBT mBT)
    (hc : (mB + mBT).card = g.bBlocks) (e : M = mB + (mBT + R))
    (K : ∀ L c' h', L.card = (if g.M = 18 then g.bBlocks else 0) → c'.tag = c.tag →
      (∀ f, f ≠ .B → f ≠ .BT → c'.val (.fld f) = c.val (.fld f)) → Sat h' ({(i, c')} + (L + R)) → Q () h') :
    WP (freeFmmB (.ptr i 0)) h Q := by
  subst e
  unfold freeFmmB
  refine wp_bind (wp_ldInt S mem_here rfl fm ?_)
  by_cases hM : g.M = 18
  · refine wp_if_pos hM (wp_pure (K (mB + mBT) c _ (by rw [if_pos hM, hc]) rfl (fun _ _ _ => rfl) ?_))
    exact S.perm (by abel)
  · obtain ⟨oB, oT⟩ := o hM
    refine wp_if_neg hM ?_
    refine wp_bind (freeMember_spec S f1 rfl oB rfl fun h1 S1 => ?_)
    refine freeMember_spec S1 (by getv) rfl oT rfl fun h2 S2 => ?_
    refine K 0 _ _ (by rw [if_neg hM, Multiset.card_zero]) ?_ ?_ (S2.perm (by rw [zero_add]))
    · rfl
    · intro f n1 n2
      exact Cell.set_ne (by simpa using n2) (Cell.set_ne (by simpa using n1) rfl)

theorem freeFmm_spec {g : FmmArgs} {p : Val} {m R : Res} {h : Heap} {Q : Unit → Heap → Prop} (hL : 1 ≤ g.L)
    (H : IsFmmPlan g p m) (S : Sat h (m + R))
    (K : ∀ L h', L.card = g.leak → Sat h' (L + R) → Q () h') : WP (freeFmm p) h Q := by
  obtain ⟨i, c, a, ca, v0, v1, m0, m1, vT, mT, vB, mB, vBT, mBT, vi, mi, vo, mo, vw, mw, vk, mk, vc, mc, d, md,
    rfl, rfl, tc, fA, ta, sa, a0, a1, o0, o1, -, fT, oT, -, fm, fB, fBT, oB, cB, fi, oi, -, fo, oo, co, fw, ow, -,
    fk, lk, fc, lc, fL, fd, hd⟩ := H
  have S : Sat h ({(a, ca)} + (m0 + (m1 + ({(i, c)} + (mT + (mB + (mBT + (mi + (mo + (mw + (mk + (mc +
    (md + R))))))))))))) := S.perm (by abel)
  unfold freeFmm
  refine wp_bind (wp_ld S (by fmem) rfl fA (by simp) ?_)
  refine wp_bind (freeMember_spec S a0 (place_idx (by omega) (by omega)) o0 rfl fun _ S => ?_)
  refine wp_bind (wp_ld S (by fmem) rfl fA (by simp) ?_)
  refine wp_bind (freeMember_spec S (Cell.set_ne (by simp) a1) (by rw [show (Cell.set _ _ _).size = 2 from sa]; rfl)
    o1 rfl fun _ S => ?_)
  refine wp_bind (wp_ld S (by fmem) rfl fA (by simp) ?_)
  refine wp_bind (wp_free' S rfl ta fun _ S => ?_)
  refine wp_bind (wp_st S rfl rfl fun _ S => ?_)
  refine wp_bind (freeMember_spec S (by getv) rfl oT rfl fun _ S => ?_)
  refine wp_bind (freeFmmB_spec S (by getv) (by getv) (by getv) oB cB rfl ?_)
  intro L c' _ hLc tc' fs S
  have gi : c'.val (.fld .ia) = vi := by rw [fs _ (by simp) (by simp)]; getv
  have go : c'.val (.fld .oa) = vo := by rw [fs _ (by simp) (by simp)]; getv
  have gw : c'.val (.fld .work) = vw := by rw [fs _ (by simp) (by simp)]; getv
  have gk : c'.val (.fld .wk) = vk := by rw [fs _ (by simp) (by simp)]; getv
  have gc : c'.val (.fld .ck) = vc := by rw [fs _ (by simp) (by simp)]; getv
  have gL : c'.val (.fld .L) = .int g.L := by rw [fs _ (by simp) (by simp)]; getv
  have gd : c'.val (.fld .dplan) = d := by rw [fs _ (by simp) (by simp)]; getv
  have tc'' : c'.tag = .libc := tc'.trans tc
  clear fs tc'
  refine wp_bind (freeMember_spec S gi rfl oi (R := L + (mo + (mw + (mk + (mc + (md + R)))))) (by abel) fun _ S => ?_)
  have oa : ∀ {c : Cell} {h : Heap} {R : Res} {Q : Unit → Heap → Prop}, Sat h ({(i, c)} + R) → c.val (.fld .ia) = .null →
      c.val (.fld .oa) = vo → (∀ h', Sat h' ({(i, c)} + R) → Q () h') → WP (freeFmmOa (.ptr i 0)) h Q := by
    intro c h R Q S hi ho K
    unfold freeFmmOa
    refine wp_bind (wp_ld S mem_here rfl ho oo.ne_junk ?_)
    unfold unlessNull
    by_cases hv : vo = .null
    · exact wp_if_pos hv (wp_pure (K _ S))
    · refine wp_if_neg hv ?_
      refine wp_bind (wp_ld S mem_here rfl hi (by simp) ?_)
      refine wp_bind (wp_free_null ?_)
      refine wp_st S rfl rfl fun h' S' => K _ ?_
      rwa [Cell.set_self hi] at S'
  refine wp_bind (oa S (by getv) (by getv) fun _ S => ?_)
  refine wp_bind (freeMember_spec S (by getv) rfl ow (R := L + (mo + (mk + (mc + (md + R))))) (by abel) fun _ S => ?_)
  refine wp_bind (freeLevels_spec hL S (by getv) (by getv) lk (R := L + (mo + (mc + (md + R)))) (by abel) fun _ S => ?_)
  refine wp_bind (freeLevels_spec hL S (by getv) (by getv) lc (R := L + (mo + (md + R))) (by abel) fun _ S => ?_)
  have hd' := hd
  obtain ⟨id, _, _, _, _, _, _, _, rfl, -⟩ := hd'
  refine wp_bind (wp_ld S mem_here rfl (by getv) (by simp) ?_)
  unfold unlessNull
  refine wp_bind (wp_if_neg (by simp) ?_)
  refine (freeDirect_spec hd).run S (R := {(i, _)} + (L + (mo + R))) (by abel) fun _ S => ?_
  refine wp_free' S rfl tc'' fun h' S => K (L + mo) h' ?_ (S.perm (by abel))
  rw [Multiset.card_add, hLc, co]
  unfold FmmArgs.leak
  omega

/-! ### Plans without levels -/

/-- `m` runs into undefined behaviour. -/
def Fails {α : Type} (m : HM α) (h : Heap) : Prop := m h = none

theorem fails_bind {α β : Type} {m : HM α} {f : α → HM β} {h : Heap}
    (H : WP m h fun a h' => Fails (f a) h') : Fails (m >>= f) h := by
  obtain ⟨a, h', e, q⟩ := H
  show (m h).bind (fun x => f x.1 x.2) = none
  rw [e]; exact q

theorem fails_first {α β : Type} {m : HM α} {f : α → HM β} {h : Heap} (H : Fails m h) : Fails (m >>= f) h := by
  show (m h).bind (fun x => f x.1 x.2) = none
  rw [H]; rfl

theorem fails_ld {h : Heap} {M : Res} {i : Nat} {c : Cell} {f : Fld} (S : Sat h M) (hm : (i, c) ∈ M)
    (hv : c.val (.fld f) = .junk) : Fails (ld (.ptr i 0) (.fld f)) h := by
  show (match h.cell i with | some c => _ | none => _) = _
  rw [S.mem hm]
  show (if c.val (.fld f) = .junk then none else some (c.val (.fld f), h)) = _
  rw [if_pos hv]

theorem fails_fftwFree {h : Heap} {M : Res} {i : Nat} {c : Cell} (S : Sat h M) (hm : (i, c) ∈ M)
    (hv : c.tag = .libc) : Fails (fftwFree (.ptr i 0)) h := by
  show (match h.cell i with | some c => _ | none => _) = _
  rw [S.mem hm]
  exact if_neg (by rw [hv]; simp)

/-- The plan without levels, as far as its destructor reads it. -/
def IsFlat (p : Val) (m : Res) : Prop :=
  ∃ i c a md, p = .ptr i 0 ∧ m = {(a, ⟨.libc, 2, fun _ => .null⟩)} + ({(i, c)} + md) ∧
    c.val (.fld .A) = .ptr a 0 ∧ c.val (.fld .T) = .null ∧ c.val (.fld .m) = .junk

theorem createFmm_flat {g : FmmArgs} (hN : 0 ≤ g.N) (hL : g.L < 1) : Makes (createFmm g) IsFlat := by
  intro R h Q S K
  unfold createFmm
  hs
  rename_i p _ _
  refine wp_bind (wp_callocPtrs (by assumption) (by norm_num) ?_)
  intro a _ S
  hs; hs; hs; hs; hs; hs; hs; hs; hs; hs
  rename_i S
  refine wp_bind (createDirect_spec hN _ _ _ S ?_)
  intro d _ ⟨md, hd, S⟩
  hs
  refine wp_if_pos hL ?_
  hs
  rename_i h' S
  have S6 : Sat h' (({(a, _)} + ({(p, _)} + md)) + R) := S.perm (by abel)
  refine wp_pure (K _ _ ⟨_, ?_, S6⟩)
  refine ⟨p, _, a, md, rfl, rfl, by getv, by getv, ?_⟩
  repeat apply Cell.set_ne (by simp)
  rfl

theorem freeFmm_flat {p : Val} {m R : Res} {h : Heap} (H : IsFlat p m) (S : Sat h (m + R)) :
    Fails (freeFmm p) h := by
  obtain ⟨i, c, a, md, rfl, rfl, fA, fT, fm⟩ := H
  have S : Sat h ({(a, _)} + (0 + ({(i, c)} + (md + R)))) := S.perm (by abel)
  unfold freeFmm
  refine fails_bind (wp_ld S (by fmem) rfl fA (by simp) ?_)
  refine fails_bind (freeMember_spec S rfl rfl optV_null rfl fun _ S => ?_)
  have S := S.perm (show _ = {(a, _)} + (0 + ({(i, c)} + (md + R))) by abel)
  refine fails_bind (wp_ld S (by fmem) rfl fA (by simp) ?_)
  refine fails_bind (freeMember_spec S (v := .null) rfl rfl optV_null rfl fun _ S => ?_)
  refine fails_bind (wp_ld S (by fmem) rfl fA (by simp) ?_)
  refine fails_bind (wp_free' S rfl rfl fun _ S => ?_)
  refine fails_bind (wp_st S rfl rfl fun _ S => ?_)
  have S := S.perm (show _ = {(i, _)} + (0 + (md + R)) by abel)
  refine fails_bind (freeMember_spec S (by getv) rfl optV_null rfl fun _ S => ?_)
  refine fails_first ?_
  unfold freeFmmB
  refine fails_first (fails_first (fails_ld S mem_here ?_))
  exact Cell.set_ne (by simp) (Cell.set_ne (by simp) fm)

/-! ### Two dimensions -/

/-- A plan that holds the plan `p0` (for both dimensions if `both`). -/
def IsFmm2 (g : FmmArgs) (first both : Bool) (q : Val) (m : Res) : Prop :=
  ∃ i c p mp, q = .ptr i 0 ∧ m = mp + {(i, c)} ∧ c.tag = .libc ∧ IsFmmPlan g p mp ∧
    c.val (.fld .plan1) = (if first then p else .null) ∧
    c.val (.fld .plan2) = (if first then if both then p else .null else p)

theorem create2d_axis0 {g0 g1 : FmmArgs} (hg : g0.Ok) (hL : 1 ≤ g0.L) :
    Makes (createFmm2d g0 g1 0) (IsFmm2 g0 true false) := by
  intro R h Q S K
  unfold createFmm2d
  hs; hs; hs
  rename_i q _ _ _ _ _ S
  refine wp_if_pos rfl ?_
  refine wp_bind (createFmm_spec hg hL _ _ _ S ?_)
  intro p _ ⟨mp, hp, S⟩
  hs
  rename_i h' S
  have S6 : Sat h' ((mp + {(q, _)}) + R) := S.perm (by abel)
  refine wp_pure (K _ _ ⟨_, ?_, S6⟩)
  exact ⟨q, _, p, mp, rfl, rfl, by tg, hp, by simp only [if_true]; getv, by
    simp only [if_true, Bool.false_eq_true, if_false]; getv⟩

theorem create2d_axis1 {g0 g1 : FmmArgs} (hg : g1.Ok) (hL : 1 ≤ g1.L) :
    Makes (createFmm2d g0 g1 1) (IsFmm2 g1 false false) := by
  intro R h Q S K
  unfold createFmm2d
  hs; hs; hs
  rename_i q _ _ _ _ _ S
  refine wp_if_neg (by norm_num) (wp_if_pos rfl ?_)
  refine wp_bind (createFmm_spec hg hL _ _ _ S ?_)
  intro p _ ⟨mp, hp, S⟩
  hs
  rename_i h' S
  have S6 : Sat h' ((mp + {(q, _)}) + R) := S.perm (by abel)
  refine wp_pure (K _ _ ⟨_, ?_, S6⟩)
  exact ⟨q, _, p, mp, rfl, rfl, by tg, hp, by simp only [Bool.false_eq_true, if_false]; getv, by
    simp only [Bool.false_eq_true, if_false]; getv⟩

theorem create2d_square {g0 g1 : FmmArgs} (hg : g0.Ok) (hL : 1 ≤ g0.L) (hN : g0.N = g1.N) :
    Makes (createFmm2d g0 g1 (-1)) (IsFmm2 g0 true true) := by
  intro R h Q S K
  unfold createFmm2d
  hs; hs; hs
  rename_i q _ _ _ _ _ S
  refine wp_if_neg (by decide) (wp_if_neg (by decide) (wp_if_pos rfl ?_))
  refine wp_bind (createFmm_spec hg hL _ _ _ S ?_)
  intro p _ ⟨mp, hp, S⟩
  obtain ⟨i, rfl⟩ := hp.ptr
  hs
  refine wp_if_pos hN ?_
  hs; hs
  rename_i h' S
  have S6 : Sat h' ((mp + {(q, _)}) + R) := S.perm (by abel)
  refine wp_pure (K _ _ ⟨_, ?_, S6⟩)
  exact ⟨q, _, _, mp, rfl, rfl, by tg, hp, by simp only [if_true]; getv, by simp only [if_true]; getv⟩

theorem free2d_spec {g : FmmArgs} {first both : Bool} {q : Val} {m R : Res} {h : Heap} {Q : Unit → Heap → Prop}
    (hL : 1 ≤ g.L) (H : IsFmm2 g first both q m) (S : Sat h (m + R))
    (K : ∀ L h', L.card = g.leak → Sat h' (L + R) → Q () h') : WP (freeFmm2d q) h Q := by
  obtain ⟨i, c, p, mp, rfl, rfl, tc, hp, f1, f2⟩ := H
  have S : Sat h (mp + ({(i, c)} + R)) := S.perm (by abel)
  obtain ⟨j, rfl⟩ := hp.ptr
  unfold freeFmm2d
  refine wp_bind (wp_ld S (by fmem) rfl f1 (by cases first <;> simp) ?_)
  refine wp_bind (wp_ld S (by fmem) rfl f2 (by cases first <;> cases both <;> simp) ?_)
  cases first with
  | false =>
    refine wp_if_neg (by simp) (wp_if_neg (by simp) (wp_if_pos (by simp) ?_))
    refine wp_bind (freeFmm_spec hL hp S fun L h' hl S => ?_)
    exact wp_free' S (by fnd) tc fun h' S => K _ _ hl S
  | true =>
    cases both with
    | false =>
      refine wp_if_neg (by simp) (wp_if_pos (by simp) ?_)
      refine wp_bind (freeFmm_spec hL hp S fun L h' hl S => ?_)
      exact wp_free' S (by fnd) tc fun h' S => K _ _ hl S
    | true =>
      refine wp_if_pos (by simp) ?_
      refine wp_bind (freeFmm_spec hL hp S fun L h' hl S => ?_)
      refine wp_bind (wp_st S (by fnd) rfl fun h' S => ?_)
      exact wp_free' S rfl tc fun h' S => K _ _ hl S

/-- A plan that holds different plans for the two dimensions. -/
def IsFmm2' (g0 g1 : FmmArgs) (q : Val) (m : Res) : Prop :=
  ∃ i c p0 p1 m0 m1, q = .ptr i 0 ∧ m = m0 + (m1 + {(i, c)}) ∧ c.tag = .libc ∧ IsFmmPlan g0 p0 m0 ∧
    IsFmmPlan g1 p1 m1 ∧ c.val (.fld .plan1) = p0 ∧ c.val (.fld .plan2) = p1 ∧ p0 ≠ p1

theorem ptr_ne {g0 g1 : FmmArgs} {p0 p1 : Val} {m0 m1 R : Res} {h : Heap} (H0 : IsFmmPlan g0 p0 m0)
    (H1 : IsFmmPlan g1 p1 m1) (S : Sat h (m1 + (m0 + R))) : p0 ≠ p1 := by
  obtain ⟨i, c, a, ca, v0, v1, n0, n1, vT, mT, vB, mB, vBT, mBT, vi, mi, vo, mo, vw, mw, vk, mk, vc, mc, d, md,
    rfl, rfl, -⟩ := H0
  obtain ⟨i', c', a', ca', v0', v1', n0', n1', vT', mT', vB', mB', vBT', mBT', vi', mi', vo', mo', vw', mw', vk',
    mk', vc', mc', d', md', rfl, rfl, -⟩ := H1
  intro e
  have e : i = i' := by simpa using e
  subst e
  have S := S.perm (add_assoc _ _ _)
  exact S.notin c (mem_next (mem_sub mem_here))

theorem create2d_rect {g0 g1 : FmmArgs} (hg : g0.Ok) (hL : 1 ≤ g0.L) (hg1 : g1.Ok) (hL1 : 1 ≤ g1.L)
    (hN : g0.N ≠ g1.N) : Makes (createFmm2d g0 g1 (-1)) (IsFmm2' g0 g1) := by
  intro R h Q S K
  unfold createFmm2d
  hs; hs; hs
  rename_i q _ _ _ _ _ S
  refine wp_if_neg (by decide) (wp_if_neg (by decide) (wp_if_pos rfl ?_))
  refine wp_bind (createFmm_spec hg hL _ _ _ S ?_)
  intro p0 _ ⟨m0, hp0, S⟩
  hs
  rename_i S
  refine wp_if_neg hN ?_
  refine wp_bind (createFmm_spec hg1 hL1 _ _ _ S ?_)
  intro p1 _ ⟨m1, hp1, S⟩
  have ne : p0 ≠ p1 := ptr_ne hp0 hp1 (S.perm (show _ = m1 + (m0 + ({(q, _)} + R)) by abel))
  hs
  rename_i h' S
  have S6 : Sat h' ((m0 + (m1 + {(q, _)})) + R) := S.perm (by abel)
  refine wp_pure (K _ _ ⟨_, ?_, S6⟩)
  exact ⟨q, _, p0, p1, m0, m1, rfl, rfl, by tg, hp0, hp1, by getv, by getv, ne⟩

theorem free2d_rect {g0 g1 : FmmArgs} {q : Val} {m R : Res} {h : Heap} {Q : Unit → Heap → Prop}
    (hL : 1 ≤ g0.L) (H : IsFmm2' g0 g1 q m) (S : Sat h (m + R))
    (K : ∀ L h', L.card = g0.leak + g1.planBlocks → Sat h' (L + R) → Q () h') : WP (freeFmm2d q) h Q := by
  obtain ⟨i, c, p0, p1, m0, m1, rfl, rfl, tc, h0, h1, f1, f2, ne⟩ := H
  have S : Sat h (m0 + ({(i, c)} + (m1 + R))) := S.perm (by abel)
  obtain ⟨j, rfl⟩ := h0.ptr
  obtain ⟨k, rfl⟩ := h1.ptr
  unfold freeFmm2d
  refine wp_bind (wp_ld S (by fmem) rfl f1 (by simp) ?_)
  refine wp_bind (wp_ld S (by fmem) rfl f2 (by simp) ?_)
  refine wp_if_neg ne (wp_if_pos (by simp) ?_)
  refine wp_bind (freeFmm_spec hL h0 S fun L h' hl S => ?_)
  refine wp_free' S (by fnd) tc fun h' S => K (L + m1) _ ?_ (S.perm (by abel))
  rw [Multiset.card_add, hl, h1.card]

end FT.Heap
