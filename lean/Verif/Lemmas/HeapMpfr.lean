import Verif.Model.HeapMpfr
import Verif.Lemmas.HeapIso
import Verif.Lemmas.HeapBlock
/-
Specifications of multiple precision arrays, matrices and plans.
-/
set_option linter.unusedVariables false
namespace FT.Heap

theorem makes_mpfrInit : Makes mpfrInit IsVec := by
  intro R h Q S K
  refine wp_malloc S (by norm_num) fun i h' S' => K _ _ ⟨_, ⟨i, _, rfl, rfl, rfl⟩, S'⟩

/-- An array of `k` numbers. -/
def IsMp (k : Int) (p : Val) (m : Res) : Prop :=
  ∃ a ca M, p = .ptr a 0 ∧ m = {(a, ca)} + M ∧ IsArray IsVec k.toNat a ca M

theorem makes_mpfrArray {k : Int} (h0 : 0 ≤ k) : Makes (mpfrArray k) (IsMp k) := by
  intro R h Q S K
  unfold mpfrArray
  refine wp_bind (wp_malloc S h0 ?_)
  intro a h1 S1
  refine wp_bind (wp_forN (fun j h => ∃ (ca : Cell) (M : Res), ca.tag = .libc ∧ ca.size = k ∧
    Items (Entry IsVec ca) 0 j M ∧ Sat h (M + ({(a, ca)} + R))) k.toNat 0 0 h1
    ⟨_, 0, rfl, rfl, rfl, by rw [zero_add]; exact S1⟩ ?_ ?_)
  · rintro j h hj ⟨ca, M, ta, sa, hI, S⟩
    rw [Nat.zero_add] at hI ⊢
    refine wp_bind (makes_mpfrInit _ _ _ S ?_)
    intro p g1 ⟨m, hm, S4⟩
    refine wp_st S4 (by fnd) (place_idx (s := ca.size) (by omega) (by omega)) fun g2 S5 => ?_
    refine ⟨ca.set (.idx j) p, M + m, ta, sa, Items.snoc (hI.mono fun i m h0 h1 hE => ?_) ?_, S5.perm ?_⟩
    · show IsVec _ m
      rw [Cell.set_ne (v := ca.val (.idx i)) (by simp; omega) rfl]
      exact hE
    · show IsVec _ m
      rw [zero_add, Cell.set_same]
      exact hm
    · rw [zero_add]; abel
  · rintro h' ⟨ca, M, ta, sa, hI, S⟩
    rw [Nat.zero_add] at hI
    exact wp_pure (K _ _ ⟨_, ⟨a, ca, M, rfl, rfl, ta, by omega, hI⟩, S.perm (by abel)⟩)

theorem mpfrFree_spec {k : Int} {p : Val} {m : Res} (H : IsMp k p m) : Destroys (mpfrFree k) p m := by
  obtain ⟨a, ca, M, rfl, rfl, ta, hs, hI⟩ := H
  intro R h Q S K
  unfold mpfrFree
  refine wp_bind (forN_consume k.toNat 0 M h hI (R := {(a, ca)} + R) (S.perm (by abel)) ?_ ?_)
  · intro j m R' h' h0 h1 hE hR S'
    have ma' := Multiset.mem_of_le hR (by fmem : (a, ca) ∈ {(a, ca)} + R)
    obtain ⟨i', ei⟩ := proper_vec _ _ hE
    refine wp_bind (wp_ld S' (mem_next ma') (place_idx (by omega) (by omega)) ei (by simp) ?_)
    rw [← ei]
    exact (freeVec_spec hE).run S' rfl fun _ S => S
  · intro h' S'
    exact wp_free' S' rfl ta K

/-- A triangular banded matrix of numbers. -/
def IsMpTB (n b : Int) (p : Val) (m : Res) : Prop :=
  ∃ i c d md, p = .ptr i 0 ∧ m = {(i, c)} + md ∧ c.tag = .libc ∧ c.val (.fld .data) = d ∧
    c.val (.fld .n) = .int n ∧ c.val (.fld .b) = .int b ∧ IsMp (n * (b + 1)) d md

theorem makes_mpfrTB {n b : Int} (hn : 0 ≤ n) (hb : 0 ≤ b) : Makes (mpfrTB n b) (IsMpTB n b) := by
  intro R h Q S K
  unfold mpfrTB
  refine wp_bind (makes_mpfrArray (by positivity) _ _ _ S ?_)
  intro d h1 ⟨md, hd, S1⟩
  hss
  rename_i S5
  have S6 := S5.perm (add_assoc _ _ _).symm
  refine wp_pure (K _ _ ⟨_, ?_, S6⟩)
  exact ⟨_, _, d, md, rfl, rfl, rfl, by getv, by getv, by getv, hd⟩

theorem destroyMpfrTB_spec {n b : Int} {p : Val} {m : Res} (H : IsMpTB n b p m) : Destroys destroyMpfrTB p m := by
  obtain ⟨i, c, d, md, rfl, rfl, tc, f1, f2, f3, hd⟩ := H
  obtain ⟨a, ca, M, rfl, -⟩ := id hd
  intro R h Q S K
  unfold destroyMpfrTB
  rw [add_assoc] at S
  hs
  hs
  hs
  refine wp_bind ((mpfrFree_spec hd).run S (by fnd) fun h' S' => ?_)
  exact wp_free' S' rfl tc K

/-- Temporaries. -/
def IsMpTemps : List Val → Res → Prop
  | [], m => m = 0
  | t :: ts, m => ∃ m1 m2, IsVec t m1 ∧ IsMpTemps ts m2 ∧ m = m1 + m2

theorem mpfrTemps_spec : ∀ (k : Nat) {R : Res} {h : Heap} {Q : List Val → Heap → Prop}, Sat h R →
    (∀ ts m h', IsMpTemps ts m → Sat h' (m + R) → Q ts h') → WP (mpfrTemps k) h Q
  | 0, _, h, _, S, K => wp_pure (K [] 0 h rfl (by rw [zero_add]; exact S))
  | k + 1, _, _, _, S, K => by
    unfold mpfrTemps
    refine wp_bind (makes_mpfrInit _ _ _ S ?_)
    intro t h1 ⟨m, hm, S1⟩
    refine wp_bind (mpfrTemps_spec k S1 ?_)
    intro ts m' h2 hts S2
    exact wp_pure (K _ _ _ ⟨m, m', hm, hts, rfl⟩ (S2.perm (by abel)))

theorem mpfrClears_spec : ∀ {ts : List Val} {m M R : Res} {h : Heap} {Q : Unit → Heap → Prop},
    IsMpTemps ts m → Sat h M → M = m + R → (∀ h', Sat h' R → Q () h') → WP (mpfrClears ts) h Q
  | [], m, _, R, h, _, H, S, e, K => wp_pure (K h (by rw [e, show m = 0 from H, zero_add] at S; exact S))
  | t :: ts, m, _, R, h, _, ⟨m1, m2, h1, h2, em⟩, S, e, K => by
    subst em
    unfold mpfrClears
    refine wp_bind ((freeVec_spec h1).run (R := m2 + R) S (by rw [e]; abel) fun h' S' => ?_)
    exact mpfrClears_spec h2 S' rfl K

/-- The data of a matrix are live. -/
theorem useMpTB {n b : Int} {p : Val} {m R : Res} {h : Heap} {Q : Unit → Heap → Prop} (H : IsMpTB n b p m)
    (S : Sat h R) (hR : m ≤ R) (K : Q () h) : WP (useBanded p) h Q := by
  obtain ⟨i, c, d, md, rfl, rfl, tc, f1, f2, f3, a, ca, M, rfl, rfl, -⟩ := H
  unfold useBanded
  refine wp_bind (wp_ld S (Multiset.mem_of_le hR mem_here) rfl f1 (by simp) ?_)
  exact wp_use S (Multiset.mem_of_le hR (mem_next mem_here)) K

theorem useMp {k : Int} {p : Val} {m R : Res} {h : Heap} {Q : Unit → Heap → Prop} (H : IsMp k p m)
    (S : Sat h R) (hR : m ≤ R) (K : Q () h) : WP (use p) h Q := by
  obtain ⟨a, ca, M, rfl, rfl, -⟩ := H
  exact wp_use S (Multiset.mem_of_le hR mem_here) K

theorem makes_mpfrPencil {k : Nat} {n b : Int} (hn : 0 ≤ n) (hb : 0 ≤ b) :
    Makes (mpfrPencil k n b) (IsMpTB n b) := by
  intro R h Q S K
  unfold mpfrPencil
  refine wp_bind (makes_mpfrTB hn hb _ _ _ S ?_)
  intro A h1 ⟨mA, hA, S1⟩
  refine wp_bind (mpfrTemps_spec k S1 ?_)
  intro ts mt h2 ht S2
  refine wp_bind (useMpTB hA S2 (by fle) ?_)
  refine wp_bind (mpfrClears_spec ht S2 rfl fun h3 S3 => ?_)
  exact wp_pure (K _ _ ⟨mA, hA, S3⟩)

theorem mpfrEigenvectors_spec {n b b' k : Int} {A B V : Val} {mA mB mV R : Res} {h : Heap}
    {Q : Unit → Heap → Prop} (hA : IsMpTB n b A mA) (hB : IsMpTB n b' B mB) (hV : IsMp k V mV)
    (S : Sat h (mV + (mB + (mA + R))))
    (K : ∀ L h', L.card = 2 → Sat h' (mV + (mB + (mA + (L + R)))) → Q () h') :
    WP (mpfrEigenvectors A B V) h Q := by
  unfold mpfrEigenvectors mpfrInit
  hs; hs; hs; hs; hs; hs
  rename_i i1 _ _ i2 _ _ i3 _ _ i4 _ _ i5 _ _ i6 h6 S6
  refine wp_bind (useMpTB hA S6 (by fle) ?_)
  refine wp_bind (useMpTB hB S6 (by fle) ?_)
  refine wp_bind (useMp hV S6 (by fle) ?_)
  hs; hs; hs; hs
  rename_i h10 S10
  exact K ({(i1, _)} + {(i6, _)}) _ rfl (S10.perm (by abel))

theorem mpfrPlan_spec {kA kB k : Nat} {bA bB n : Int} (hn : 0 ≤ n) (ha : 0 ≤ bA) (hb : 0 ≤ bB) :
    MakesL (mpfrPlan kA kB k bA bB n) (IsMp (n * n)) 2 := by
  intro R h Q S K
  unfold mpfrPlan
  refine wp_bind (makes_mpfrPencil hn ha _ _ _ S ?_)
  intro A h1 ⟨mA, hA, S1⟩
  refine wp_bind (makes_mpfrPencil hn hb _ _ _ S1 ?_)
  intro B h2 ⟨mB, hB, S2⟩
  refine wp_bind (makes_mpfrArray (by positivity) _ _ _ S2 ?_)
  intro V h3 ⟨mV, hV, S3⟩
  refine wp_bind (mpfrEigenvectors_spec hA hB hV S3 ?_)
  intro L h4 hL S4
  refine wp_bind (makes_mpfrArray hn _ _ _ S4 ?_)
  intro sr h5 ⟨mr, hr, S5⟩
  refine wp_bind (makes_mpfrArray hn _ _ _ S5 ?_)
  intro sc h6 ⟨mc, hc, S6⟩
  refine wp_bind (mpfrTemps_spec k S6 ?_)
  intro ts mt h7 ht S7
  refine wp_bind (useMp hr S7 (by fle) ?_)
  refine wp_bind (useMp hc S7 (by fle) ?_)
  refine wp_bind (useMp hV S7 (by fle) ?_)
  refine wp_bind ((destroyMpfrTB_spec hA).run S7 (by fnd) fun h8 S8 => ?_)
  refine wp_bind ((destroyMpfrTB_spec hB).run S8 (by fnd) fun h9 S9 => ?_)
  refine wp_bind ((mpfrFree_spec hr).run S9 (by fnd) fun h10 S10 => ?_)
  refine wp_bind ((mpfrFree_spec hc).run S10 (by fnd) fun h11 S11 => ?_)
  refine wp_bind (mpfrClears_spec ht S11 (by fnd) fun h12 S12 => ?_)
  exact wp_pure (K _ _ L hL ⟨mV, hV, S12⟩)

theorem mpfrScaled_spec {k : Nat} {n : Int} {inner : HM Val} {l : Nat} (hn : 0 ≤ n)
    (H : MakesL inner (IsMp (n * n)) l) : MakesL (mpfrScaled k n inner) (IsMp (n * n)) l := by
  intro R h Q S K
  unfold mpfrScaled
  refine wp_bind (H _ _ _ S ?_)
  intro V h1 L hL ⟨mV, hV, S1⟩
  refine wp_bind (makes_mpfrArray hn _ _ _ S1 ?_)
  intro sr h5 ⟨mr, hr, S5⟩
  refine wp_bind (mpfrTemps_spec k S5 ?_)
  intro ts mt h7 ht S7
  refine wp_bind (useMp hr S7 (by fle) ?_)
  refine wp_bind (useMp hV S7 (by fle) ?_)
  refine wp_bind ((mpfrFree_spec hr).run S7 (by fnd) fun h10 S10 => ?_)
  refine wp_bind (mpfrClears_spec ht S10 (by fnd) fun h12 S12 => ?_)
  exact wp_pure (K _ _ L hL ⟨mV, hV, S12⟩)

end FT.Heap
