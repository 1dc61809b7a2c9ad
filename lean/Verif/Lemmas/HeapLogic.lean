import Verif.Core.Heap
import Mathlib.Algebra.Order.Group.Multiset
import Mathlib.Data.Multiset.MapFold
import Mathlib.Data.Multiset.Filter
import Mathlib.Data.Multiset.UnionInter
import Mathlib.Data.Multiset.Range
import Mathlib.Tactic.Abel
import Mathlib.Tactic.Positivity
/-
A separation logic for `HM`: the live blocks of a heap are described by a multiset of pairs
(identity, cell), and every rule carries an arbitrary frame.
-/
set_option linter.unusedVariables false
namespace FT.Heap

/-- A set of live blocks with their contents. -/
abbrev Res := Multiset (Nat × Cell)

/-- The live blocks of `h` are exactly the members of `M`. -/
structure Sat (h : Heap) (M : Res) : Prop where
  nodup : (M.map Prod.fst).Nodup
  cell : ∀ i c, h.cell i = some c ↔ (i, c) ∈ M
  lt : ∀ x ∈ M, x.1 < h.next

/-- `m` runs from `h` without undefined behaviour, and result and final heap satisfy `Q`. -/
def WP {α : Type} (m : HM α) (h : Heap) (Q : α → Heap → Prop) : Prop :=
  ∃ a h', m h = some (a, h') ∧ Q a h'

/-- A cell after a write. -/
def Cell.set (c : Cell) (k : Key) (x : Val) : Cell := ⟨c.tag, c.size, Function.update c.val k x⟩

theorem Cell.set_same (c : Cell) (k : Key) (x : Val) : (c.set k x).val k = x :=
  Function.update_self ..
theorem Cell.set_ne {c : Cell} {k k' : Key} {x v : Val} (h : k' ≠ k) (e : c.val k' = v) :
    (c.set k x).val k' = v := (Function.update_of_ne h ..).trans e

/-- The heap `h` consists of an object described by `P` and of `R`. -/
def Own (P : Res → Prop) (R : Res) (h : Heap) : Prop := ∃ m, P m ∧ Sat h (m + R)

section Rules
variable {α β : Type} {h : Heap} {M R : Res}

theorem wp_bind {m : HM α} {f : α → HM β} {Q : β → Heap → Prop}
    (H : WP m h fun a h' => WP (f a) h' Q) : WP (m >>= f) h Q := by
  obtain ⟨a, h', e, b, h'', e', q⟩ := H
  refine ⟨b, h'', ?_, q⟩
  show (m h).bind (fun x => f x.1 x.2) = _
  rw [e]; exact e'

theorem wp_pure {a : α} {Q : α → Heap → Prop} (H : Q a h) : WP (pure a : HM α) h Q :=
  ⟨a, h, rfl, H⟩

theorem wp_mono {m : HM α} {Q Q' : α → Heap → Prop} (H : WP m h Q)
    (hQ : ∀ a h', Q a h' → Q' a h') : WP m h Q' := by
  obtain ⟨a, h', e, q⟩ := H
  exact ⟨a, h', e, hQ _ _ q⟩

theorem Sat.perm {N : Res} (H : Sat h M) (e : M = N) : Sat h N := e ▸ H

theorem Sat.get {i : Nat} {c : Cell} (H : Sat h ({(i, c)} + R)) : h.cell i = some c :=
  (H.cell i c).2 (by simp)

theorem Sat.notin {i : Nat} {c : Cell} (H : Sat h ({(i, c)} + R)) (c' : Cell) : (i, c') ∉ R := by
  intro hm
  have := H.nodup
  rw [Multiset.map_add, Multiset.map_singleton, Multiset.singleton_add,
    Multiset.nodup_cons] at this
  exact this.1 (Multiset.mem_map.2 ⟨_, hm, rfl⟩)

theorem Sat.upd {i : Nat} {c c' : Cell} (H : Sat h ({(i, c)} + R)) :
    Sat ⟨h.next, Function.update h.cell i (some c')⟩ ({(i, c')} + R) := by
  refine ⟨?_, ?_, ?_⟩
  · have := H.nodup
    rw [Multiset.map_add, Multiset.map_singleton] at this ⊢
    exact this
  · intro j d
    show Function.update h.cell i (some c') j = some d ↔ _
    by_cases hj : j = i
    · subst hj
      rw [Function.update_self, Multiset.mem_add, Multiset.mem_singleton]
      constructor
      · intro e; left; rw [Option.some.injEq] at e; rw [e]
      · rintro (e | e)
        · rw [Prod.mk.injEq] at e; rw [e.2]
        · exact (H.notin _ e).elim
    · rw [Function.update_of_ne hj, H.cell, Multiset.mem_add, Multiset.mem_add,
        Multiset.mem_singleton, Multiset.mem_singleton, Prod.mk.injEq, Prod.mk.injEq]
      simp [hj]
  · intro x hx
    rw [Multiset.mem_add, Multiset.mem_singleton] at hx
    rcases hx with hx | hx
    · rw [hx]; exact H.lt (i, c) (by simp)
    · exact H.lt x (by simp [hx])

theorem Sat.del {i : Nat} {c : Cell} (H : Sat h ({(i, c)} + R)) :
    Sat ⟨h.next, Function.update h.cell i none⟩ R := by
  refine ⟨?_, ?_, fun x hx => H.lt x (by simp [hx])⟩
  · have := H.nodup
    rw [Multiset.map_add, Multiset.map_singleton, Multiset.singleton_add,
      Multiset.nodup_cons] at this
    exact this.2
  · intro j d
    show Function.update h.cell i none j = some d ↔ _
    by_cases hj : j = i
    · subst hj
      rw [Function.update_self]
      exact ⟨fun e => by simp at e, fun e => (H.notin _ e).elim⟩
    · rw [Function.update_of_ne hj, H.cell, Multiset.mem_add, Multiset.mem_singleton,
        Prod.mk.injEq]
      simp [hj]

theorem Sat.new {c : Cell} (H : Sat h R) :
    Sat ⟨h.next + 1, Function.update h.cell h.next (some c)⟩ ({(h.next, c)} + R) := by
  refine ⟨?_, ?_, ?_⟩
  · rw [Multiset.map_add, Multiset.map_singleton, Multiset.singleton_add, Multiset.nodup_cons]
    refine ⟨fun hm => ?_, H.nodup⟩
    obtain ⟨x, hx, e⟩ := Multiset.mem_map.1 hm
    have := H.lt x hx
    omega
  · intro j d
    show Function.update h.cell h.next (some c) j = some d ↔ _
    by_cases hj : j = h.next
    · subst hj
      rw [Function.update_self, Multiset.mem_add, Multiset.mem_singleton]
      constructor
      · intro e; left; rw [Option.some.injEq] at e; rw [e]
      · rintro (e | e)
        · rw [Prod.mk.injEq] at e; rw [e.2]
        · exact absurd (H.lt _ e) (lt_irrefl _)
    · rw [Function.update_of_ne hj, H.cell, Multiset.mem_add, Multiset.mem_singleton,
        Prod.mk.injEq]
      simp [hj]
  · intro x hx
    rw [Multiset.mem_add, Multiset.mem_singleton] at hx
    rcases hx with hx | hx
    · rw [hx]; exact Nat.lt_succ_self _
    · exact Nat.lt_succ_of_lt (H.lt x hx)

theorem wp_alloc {tag : Tag} {size : Int} {init : Key → Val} {Q : Val → Heap → Prop}
    (H : Sat h R) (h0 : 0 ≤ size)
    (K : ∀ i h', Sat h' ({(i, ⟨tag, size, init⟩)} + R) → Q (.ptr i 0) h') :
    WP (alloc tag size init) h Q :=
  ⟨_, _, if_pos h0, K _ _ H.new⟩

theorem wp_malloc {n : Int} {Q : Val → Heap → Prop} (H : Sat h R) (h0 : 0 ≤ n)
    (K : ∀ i h', Sat h' ({(i, ⟨.libc, n, fun _ => .junk⟩)} + R) → Q (.ptr i 0) h') :
    WP (malloc n) h Q := wp_alloc H h0 K

theorem wp_mallocStruct {Q : Val → Heap → Prop} (H : Sat h R)
    (K : ∀ i h', Sat h' ({(i, ⟨.libc, 0, fun _ => .junk⟩)} + R) → Q (.ptr i 0) h') :
    WP mallocStruct h Q := wp_alloc H le_rfl K

theorem wp_calloc {n : Int} {Q : Val → Heap → Prop} (H : Sat h R) (h0 : 0 ≤ n)
    (K : ∀ i h', Sat h' ({(i, ⟨.libc, n, fun _ => .int 0⟩)} + R) → Q (.ptr i 0) h') :
    WP (calloc n) h Q := wp_alloc H h0 K

theorem wp_fftwMalloc {n : Int} {Q : Val → Heap → Prop} (H : Sat h R) (h0 : 0 ≤ n)
    (K : ∀ i h', Sat h' ({(i, ⟨.fftw, n, fun _ => .junk⟩)} + R) → Q (.ptr i 0) h') :
    WP (fftwMalloc n) h Q := wp_alloc H h0 K

theorem wp_fftwPlan {Q : Val → Heap → Prop} (H : Sat h R)
    (K : ∀ i h', Sat h' ({(i, ⟨.plan, 0, fun _ => .junk⟩)} + R) → Q (.ptr i 0) h') :
    WP fftwPlan h Q := wp_alloc H le_rfl K

theorem wp_free {tag : Tag} {i : Nat} {c : Cell} {Q : Unit → Heap → Prop}
    (H : Sat h M) (e : M = {(i, c)} + R) (ht : c.tag = tag)
    (K : ∀ h', Sat h' R → Q () h') : WP (freeAs tag (.ptr i 0)) h Q := by
  subst e
  refine ⟨(), _, ?_, K _ H.del⟩
  show (match h.cell i with | some c => _ | none => _) = _
  rw [H.get]
  exact if_pos ⟨rfl, ht⟩

theorem wp_free_null {tag : Tag} {Q : Unit → Heap → Prop} (K : Q () h) :
    WP (freeAs tag .null) h Q := ⟨(), h, rfl, K⟩

theorem Sat.mem {i : Nat} {c : Cell} (H : Sat h M) (hm : (i, c) ∈ M) : h.cell i = some c :=
  (H.cell i c).2 hm

theorem wp_ld {i : Nat} {off : Int} {c : Cell} {key k : Key} {v : Val} {Q : Val → Heap → Prop}
    (H : Sat h M) (hm : (i, c) ∈ M) (hp : place c.size off key = some k)
    (hv : c.val k = v) (hj : v ≠ .junk) (K : Q v h) : WP (ld (.ptr i off) key) h Q := by
  refine ⟨v, h, ?_, K⟩
  show (match h.cell i with | some c => _ | none => _) = _
  rw [H.mem hm]
  show (match place c.size off key with | some k => _ | none => _) = _
  rw [hp]
  show (if c.val k = .junk then none else some (c.val k, h)) = _
  rw [hv, if_neg hj]

theorem wp_ldInt {i : Nat} {off : Int} {c : Cell} {key k : Key} {z : Int} {Q : Int → Heap → Prop}
    (H : Sat h M) (hm : (i, c) ∈ M) (hp : place c.size off key = some k)
    (hv : c.val k = .int z) (K : Q z h) : WP (ldInt (.ptr i off) key) h Q :=
  wp_bind (wp_ld H hm hp hv (by simp) (wp_pure K))

theorem wp_st {i : Nat} {off : Int} {c : Cell} {key k : Key} {x : Val} {Q : Unit → Heap → Prop}
    (H : Sat h M) (e : M = {(i, c)} + R) (hp : place c.size off key = some k)
    (K : ∀ h', Sat h' ({(i, c.set k x)} + R) → Q () h') :
    WP (st (.ptr i off) key x) h Q := by
  subst e
  refine ⟨(), _, ?_, K _ H.upd⟩
  show (match h.cell i with | some c => _ | none => _) = _
  rw [H.get]
  show (match place c.size off key with | some k => _ | none => _) = _
  rw [hp]
  rfl

theorem wp_use {i : Nat} {off : Int} {c : Cell} {Q : Unit → Heap → Prop}
    (H : Sat h M) (hm : (i, c) ∈ M) (K : Q () h) : WP (use (.ptr i off)) h Q := by
  refine ⟨(), h, ?_, K⟩
  show (if (h.cell i).isSome then _ else _) = _
  rw [H.mem hm]; rfl

theorem wp_shift {i : Nat} {off k : Int} {Q : Val → Heap → Prop} (K : Q (.ptr i (off + k)) h) :
    WP (shift (.ptr i off) k) h Q := ⟨_, h, rfl, K⟩

/-- Loop rule: `I j` describes the heap before iteration `lo + j`. -/
theorem wp_forN {body : Int → HM Unit} {Q : Unit → Heap → Prop} (I : Nat → Heap → Prop) :
    ∀ (k : Nat) (lo : Int) (j0 : Nat) (h : Heap), I j0 h →
      (∀ j h, j < k → I (j0 + j) h → WP (body (lo + j)) h fun _ h' => I (j0 + j + 1) h') →
      (∀ h', I (j0 + k) h' → Q () h') → WP (forN lo k body) h Q
  | 0, _, _, _, h0, _, K => wp_pure (K _ h0)
  | k + 1, lo, j0, h, h0, hs, K => by
    refine wp_bind (wp_mono (by simpa using hs 0 h (Nat.succ_pos _) h0) fun _ h' h1 => ?_)
    refine wp_forN I k (lo + 1) (j0 + 1) h' h1 (fun j h hj hI => ?_) fun h' hI => K _ ?_
    · have := hs (j + 1) h (by omega) (by rwa [show j0 + (j + 1) = j0 + 1 + j by omega])
      rw [show j0 + 1 + j + 1 = j0 + (j + 1) + 1 by omega]
      rw [show lo + 1 + (j : Int) = lo + ((j + 1 : Nat) : Int) by push_cast; omega]
      exact this
    · rwa [show j0 + (k + 1) = j0 + 1 + k by omega]

theorem find_here {S R : Res} : S + R = S + R := rfl
theorem find_next {S T S' R : Res} (e : T = S' + R) : S + T = S' + (S + R) := by
  rw [e]; abel

theorem mem_here {x : Nat × Cell} {S : Res} : x ∈ ({x} : Res) + S := by simp
theorem mem_sub {x : Nat × Cell} {S T : Res} (e : x ∈ S) : x ∈ S + T :=
  Multiset.mem_add.2 (Or.inl e)
theorem mem_next {x : Nat × Cell} {S T : Res} (e : x ∈ T) : x ∈ S + T :=
  Multiset.mem_add.2 (Or.inr e)

theorem wp_free' {i : Nat} {c : Cell} {Q : Unit → Heap → Prop}
    (H : Sat h M) (e : M = {(i, c)} + R) (ht : c.tag = .libc)
    (K : ∀ h', Sat h' R → Q () h') : WP (free (.ptr i 0)) h Q := wp_free H e ht K

theorem wp_fftwFree {i : Nat} {c : Cell} {Q : Unit → Heap → Prop}
    (H : Sat h M) (e : M = {(i, c)} + R) (ht : c.tag = .fftw)
    (K : ∀ h', Sat h' R → Q () h') : WP (fftwFree (.ptr i 0)) h Q := wp_free H e ht K

theorem wp_fftwDestroyPlan {i : Nat} {c : Cell} {Q : Unit → Heap → Prop}
    (H : Sat h M) (e : M = {(i, c)} + R) (ht : c.tag = .plan)
    (K : ∀ h', Sat h' R → Q () h') : WP (fftwDestroyPlan (.ptr i 0)) h Q := wp_free H e ht K

theorem wp_if_pos {c : Prop} [Decidable c] {a b : HM α} {Q : α → Heap → Prop} (hc : c)
    (H : WP a h Q) : WP (if c then a else b) h Q := by rwa [if_pos hc]
theorem wp_if_neg {c : Prop} [Decidable c] {a b : HM α} {Q : α → Heap → Prop} (hc : ¬ c)
    (H : WP b h Q) : WP (if c then a else b) h Q := by rwa [if_neg hc]

end Rules

/-- Finds a block (or the blocks of an object) among the live ones. -/
macro "fnd" : tactic => `(tactic| repeat (first | exact find_here | apply find_next))
/-- Shows that a block is live. -/
macro "fmem" : tactic => `(tactic|
  repeat (first | exact mem_here | assumption | exact mem_sub (by assumption) | refine mem_next ?_))
/-- Contents of a cell after a chain of writes. -/
macro "getv" : tactic => `(tactic|
  repeat (first | exact Cell.set_same _ _ _ | assumption | apply Cell.set_ne (by simp)))
/-- The allocator of a cell. -/
macro "tg" : tactic => `(tactic| first | rfl | assumption)
/-- Positions inside a block. -/
macro "plc" : tactic => `(tactic| first | exact rfl | (exact if_pos (by constructor <;> (simp <;> omega))))
/-- Non-negative sizes. -/
macro "hnn" : tactic => `(tactic| first | assumption | omega | positivity)
/-- One heap operation. -/
macro "hp" : tactic => `(tactic| first
  | refine wp_mallocStruct (by assumption) fun _ _ _ => ?_
  | refine wp_malloc (by assumption) (by hnn) fun _ _ _ => ?_
  | refine wp_calloc (by assumption) (by hnn) fun _ _ _ => ?_
  | refine wp_fftwMalloc (by assumption) (by hnn) fun _ _ _ => ?_
  | refine wp_fftwPlan (by assumption) fun _ _ _ => ?_
  | refine wp_free' (by assumption) (by fnd) (by tg) fun _ _ => ?_
  | refine wp_fftwFree (by assumption) (by fnd) (by tg) fun _ _ => ?_
  | refine wp_fftwDestroyPlan (by assumption) (by fnd) (by tg) fun _ _ => ?_
  | refine wp_ldInt (by assumption) (by fmem) (by plc) (by getv) ?_
  | refine wp_ld (by assumption) (by fmem) (by plc) (by getv) (by simp) ?_
  | refine wp_st (by assumption) (by fnd) (by plc) fun _ _ => ?_
  | refine wp_use (by assumption) (by fmem) ?_
  | refine wp_shift ?_)
/-- One statement. -/
macro "hs" : tactic => `(tactic| first
  | ((with_reducible refine wp_bind ?_); hp)
  | ((with_reducible refine wp_bind ?_); (with_reducible refine wp_bind ?_); hp)
  | hp)
/-- As many statements as possible. -/
macro "hss" : tactic => `(tactic| repeat hs)

end FT.Heap
