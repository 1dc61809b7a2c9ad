import Verif.Lemmas.HeapDrivers
import Mathlib.Data.Multiset.Fintype
/-
The claims of C42 about heaps, and how they follow from ownership.

An action on the heap returns `none` when it frees a block twice, frees something that is not the
start of a live block, uses the wrong deallocator, or touches a block that is not live; hence
"succeeds, and the live blocks (with their contents) are those from before" is the claim.
-/
set_option linter.unusedVariables false
namespace FT.Props.C42
open FT.Heap

/-- `create` succeeds on every heap, and `destroy` applied to the result succeeds and restores the
live blocks.  Recursive functions take a bound on the depth of recursion; both are claimed for
every bound beyond some `k`. -/
def Balanced (create : Nat → HM Val) (destroy : Nat → Val → HM Unit) (h : Heap) : Prop :=
  ∃ k, ∀ fuel, k ≤ fuel → ∃ p h1, create fuel h = some (p, h1) ∧
    ∃ k', ∀ fuel', k' ≤ fuel' → ∃ h2, destroy fuel' p h1 = some ((), h2) ∧ h2.cell = h.cell

/-- As `Balanced`, but exactly `leak` blocks that were not there before are still live in the
end. -/
def Leaks (leak : Nat) (create : Nat → HM Val) (destroy : Nat → Val → HM Unit) (h : Heap) : Prop :=
  ∃ k, ∀ fuel, k ≤ fuel → ∃ p h1, create fuel h = some (p, h1) ∧
    ∃ k', ∀ fuel', k' ≤ fuel' → ∃ h2, destroy fuel' p h1 = some ((), h2) ∧
      ∃ S : Finset Nat, S.card = leak ∧ (∀ i ∈ S, h.cell i = none ∧ h2.cell i ≠ none) ∧
        ∀ i, i ∉ S → h2.cell i = h.cell i

/-- `Balanced` for functions that do not recurse. -/
def Balanced1 (create : HM Val) (destroy : Val → HM Unit) : Prop :=
  ∀ h : Heap, h.WF → ∃ p h1 h2, create h = some (p, h1) ∧ destroy p h1 = some ((), h2) ∧
    h2.cell = h.cell

/-- `p` points to a triangular banded matrix of size `n` and bandwidth `b` whose array is live. -/
def TBAt (h : Heap) (n b : Int) (p : Val) : Prop :=
  ∃ i c d o cd, p = .ptr i 0 ∧ h.cell i = some c ∧ h.cell d = some cd ∧
    c.val (.fld .data) = .ptr d o ∧ c.val (.fld .n) = .int n ∧ c.val (.fld .b) = .int b

/-- `p` points into a live block. -/
def LiveP (h : Heap) (p : Val) : Prop := ∃ i o c, p = .ptr i o ∧ h.cell i = some c

/-! ### Helpers -/

theorem balanced1_of {create : HM Val} {destroy : Val → HM Unit} {P : Val → Res → Prop}
    (H : Makes create P) (D : ∀ p m, P p m → Destroys destroy p m) : Balanced1 create destroy := by
  intro h hw
  obtain ⟨R, S⟩ := sat_of_wf hw
  obtain ⟨p, h1, e1, h2, e2, r⟩ := H R h (fun p h1 => ∃ h2, destroy p h1 = some ((), h2) ∧
    h2.cell = h.cell) S (by
      intro p h1 ⟨m, hm, S1⟩
      obtain ⟨_, h2, e, r⟩ := D p m hm R h1 (fun _ h2 => h2.cell = h.cell) S1
        fun h2 S2 => S.unique S2
      exact ⟨h2, e, r⟩)
  exact ⟨p, h1, h2, e1, e2, r⟩

theorem balanced_of {create : Nat → HM Val} {destroy : Nat → Val → HM Unit} {P : Val → Res → Prop}
    {h : Heap} {R : Res} (S : Sat h R) (D : ∀ p m, P p m → DestroysF destroy p m)
    (H : ∀ Q : Val → Heap → Prop, (∀ p h', Own (P p) R h' → Q p h') → WPF create h Q) :
    Balanced create destroy h := by
  refine H (fun p h1 => ∃ k', ∀ fuel', k' ≤ fuel' → ∃ h2, destroy fuel' p h1 = some ((), h2) ∧
    h2.cell = h.cell) ?_
  intro p h1 ⟨m, hm, S1⟩
  obtain ⟨k', hk⟩ := D p m hm
  refine ⟨k', fun f hf => ?_⟩
  obtain ⟨_, h2, e, r⟩ := hk f hf R h1 (fun _ h2 => h2.cell = h.cell) S1 fun h2 S2 => S.unique S2
  exact ⟨h2, e, r⟩

/-- The blocks of `L` are what remains. -/
theorem leaked {h h2 : Heap} {R L : Res} (S : Sat h R) (S2 : Sat h2 (L + R)) :
    ∃ S : Finset Nat, S.card = L.card ∧ (∀ i ∈ S, h.cell i = none ∧ h2.cell i ≠ none) ∧
        ∀ i, i ∉ S → h2.cell i = h.cell i := by
  have nd := S2.nodup
  rw [Multiset.map_add, Multiset.nodup_add] at nd
  obtain ⟨n1, n2, dj⟩ := nd
  refine ⟨⟨L.map Prod.fst, n1⟩, by rw [Finset.card_mk, Multiset.card_map], ?_, ?_⟩
  · intro i hi
    obtain ⟨⟨j, c⟩, hx, rfl⟩ := Multiset.mem_map.1 (Finset.mem_mk.1 hi)
    constructor
    · cases hc : h.cell j with
      | none => rfl
      | some d =>
        exact ((Multiset.disjoint_left.1 dj) (Multiset.mem_map.2 ⟨(j, c), hx, rfl⟩)
          (Multiset.mem_map.2 ⟨(j, d), (S.cell _ _).1 hc, rfl⟩)).elim
    · rw [show h2.cell j = some c from (S2.cell j c).2 (Multiset.mem_add.2 (Or.inl hx))]
      exact nofun
  · intro i hi
    apply Option.ext
    intro c
    rw [S.cell, S2.cell, Multiset.mem_add]
    constructor
    · rintro (h | h)
      · exact (hi (Finset.mem_mk.2 (Multiset.mem_map.2 ⟨_, h, rfl⟩))).elim
      · exact h
    · exact Or.inr

theorem leaks_of {create : Nat → HM Val} {destroy : Nat → Val → HM Unit} {P : Val → Res → Prop}
    {h : Heap} {R : Res} {k : Nat} (S : Sat h R) (D : ∀ p m, P p m → DestroysF destroy p m)
    (H : ∀ Q : Val → Heap → Prop, (∀ p h' L, L.card = k → Own (P p) (L + R) h' → Q p h') →
      WPF create h Q) : Leaks k create destroy h := by
  refine H (fun p h1 => ∃ k', ∀ fuel', k' ≤ fuel' → ∃ h2, destroy fuel' p h1 = some ((), h2) ∧
      ∃ S : Finset Nat, S.card = k ∧ (∀ i ∈ S, h.cell i = none ∧ h2.cell i ≠ none) ∧
        ∀ i, i ∉ S → h2.cell i = h.cell i) ?_
  intro p h1 L hL ⟨m, hm, S1⟩
  obtain ⟨k', hk⟩ := D p m hm
  refine ⟨k', fun f hf => ?_⟩
  obtain ⟨_, h2, e, r⟩ := hk f hf (L + R) h1 (fun _ h2 => Sat h2 (L + R)) S1 fun h2 S2 => S2
  refine ⟨h2, e, ?_⟩
  rw [← hL]
  exact leaked S r

theorem wpf_const {m : Nat → HM Val} {n : Nat} {h : Heap} {Q : Val → Heap → Prop}
    (H : ∀ k, n < k → WP (m k) h Q) : WPF m h Q :=
  ⟨n + 1, fun k hk => H k hk⟩

theorem TBAt.tbin {h : Heap} {n b : Int} {p : Val} {R : Res} (H : TBAt h n b p) (S : Sat h R) :
    TBin n b p R := by
  obtain ⟨i, c, d, o, cd, e, h1, h2, r⟩ := H
  exact ⟨i, c, d, o, cd, e, (S.cell _ _).1 h1, (S.cell _ _).1 h2, r⟩

theorem LiveP.live {h : Heap} {p : Val} {R : Res} (H : LiveP h p) (S : Sat h R) : Live p R := by
  obtain ⟨i, o, c, e, h1⟩ := H
  exact ⟨i, o, c, e, (S.cell _ _).1 h1⟩

/-- Number of splittings of a problem of size `n` into halves. -/
def splits (n : Int) : Nat := if n < 128 then 0 else splits (n / 2) + splits (n - n / 2) + 1
termination_by n.toNat

theorem adiLeak_eq (n : Int) : adiLeak n = 2 * splits n := by
  unfold adiLeak splits
  split
  · rfl
  · rename_i h
    rw [adiLeak_eq (n / 2), adiLeak_eq (n - n / 2)]
    omega
termination_by n.toNat

end FT.Props.C42
