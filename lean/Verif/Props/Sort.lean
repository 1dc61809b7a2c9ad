import Verif.Lemmas.SortPerm
import Verif.Lemmas.SortSearch
import Mathlib.Tactic.NormNum
import Mathlib.Algebra.Order.Ring.Rat

/-! # Properties of searching, permuting and sorting: C26, C27, C28 -/

namespace FT.Props
open FT

/-! ## C26 -/

/-- **C26.** Bisection of a sorted range whose last value is at least `y` ends, returns an index of the range with nothing below `y` from there
on and nothing above `y` before it, and its answer does not depend on any entry outside the range (nor on the size of the array beyond it). -/
theorem C26_search {α : Type*} [LinearOrder α] {x : Buf α} {y : α} {lo hi : Int} (h0 : 0 ≤ lo) (hl : lo < hi) (hx : hi ≤ x.size)
    (mono : ∀ i j, lo ≤ i → i < j → j < hi → x.val i ≤ x.val j) (top : y ≤ x.val (hi - 1)) :
    ∃ r, lo ≤ r ∧ r < hi ∧ (∀ k, r ≤ k → k < hi → y ≤ x.val k) ∧ (∀ k, lo ≤ k → k < r → x.val k ≤ y) ∧
      ∀ x' : Buf α, hi ≤ x'.size → (∀ k, lo ≤ k → k < hi → x'.val k = x.val k) → binarysearch x' lo hi y = some r := by
  obtain ⟨r, e, _, r0, r1, r2, r3⟩ := binarysearch_spec h0 hl hx mono top hx (fun _ _ _ => rfl)
  refine ⟨r, r0, r1, r2, fun k k0 k1 => ?_, fun x' hx' same => ?_⟩
  · rcases r3 with h | ⟨_, h⟩
    · exact le_of_lt (h k k0 k1)
    · exact h k k0 k1
  · obtain ⟨r', e1, e2, _⟩ := binarysearch_spec h0 hl hx mono top hx' same
    rw [e2, ← e1, e]

example : binarysearch (Buf.ofList [9, 1, 1, 4, 6, 0]) 1 5 (5 : Int) = some 4 := by decide

/-- **C26.** Splitting a range of at least two points of a strictly increasing grid at the midpoint of its end values: two consecutive nonempty
ranges covering it, the left one holding exactly the points below the midpoint; entries outside the range play no role. -/
theorem C26_split {K : Type*} [Field K] [LinearOrder K] [IsStrictOrderedRing K] {x : Buf K} {lo hi : Int} (h0 : 0 ≤ lo) (hl : lo + 2 ≤ hi) (hx : hi ≤ x.size)
    (strict : ∀ i j, lo ≤ i → i < j → j < hi → x.val i < x.val j) :
    ∃ m, lo < m ∧ m < hi ∧ (∀ k, lo ≤ k → k < hi → (k < m ↔ x.val k < (x.val lo + x.val (hi - 1)) / 2)) ∧
      ∀ x' : Buf K, hi ≤ x'.size → (∀ k, lo ≤ k → k < hi → x'.val k = x.val k) → indsplit x' lo hi (x.val lo) (x.val (hi - 1)) = some ((lo, m), (m, hi)) := by
  have hab := strict lo (hi - 1) (le_refl _) (by omega) (by omega)
  have htop : (x.val lo + x.val (hi - 1)) / 2 ≤ x.val (hi - 1) := by linarith
  have hbot : x.val lo < (x.val lo + x.val (hi - 1)) / 2 := by linarith
  have mono : ∀ i j, lo ≤ i → i < j → j < hi → x.val i ≤ x.val j := fun i j a b c => le_of_lt (strict i j a b c)
  obtain ⟨r, e, _, r0, r1, r2, r3⟩ := binarysearch_spec h0 (by omega) hx mono htop hx (fun _ _ _ => rfl)
  have hleft : ∀ k, lo ≤ k → k < r → x.val k < (x.val lo + x.val (hi - 1)) / 2 := by
    intro k k0 k1
    rcases r3 with h | ⟨he, _⟩
    · exact h k k0 k1
    · rw [← he]; exact strict k r k0 k1 r1
  refine ⟨r, ?_, r1, fun k k0 k1 => ⟨hleft k k0, fun h => ?_⟩, fun x' hx' same => ?_⟩
  · by_contra hc
    have : r = lo := by omega
    subst this
    exact absurd hbot (not_lt.2 (r2 _ (le_refl _) r1))
  · by_contra hc
    exact absurd h (not_lt.2 (r2 k (by omega) k1))
  · obtain ⟨r', e1, e2, _⟩ := binarysearch_spec h0 (by omega) hx mono htop hx' same
    unfold indsplit
    rw [e2, ← e1, e]; rfl

example : indsplit (Buf.ofList [7, -3, 0, 1, 5, 2]) 1 5 (-3 : Rat) 5 = some ((1, 3), (3, 5)) := by
  have h := C26_split (K := Rat) (x := Buf.ofList [7, -3, 0, 1, 5, 2]) (lo := 1) (hi := 5) (by decide) (by decide) (by decide)
    (by
      intro i j a b c
      obtain h | h | h : i = 1 ∨ i = 2 ∨ i = 3 := by omega
      all_goals obtain h' | h' | h' : j = 2 ∨ j = 3 ∨ j = 4 := by omega
      all_goals subst h; subst h'
      all_goals first | omega | (simp [Buf.ofList]; done) | (simp [Buf.ofList]; norm_num))
  obtain ⟨m, m0, m1, m2, m3⟩ := h
  have e := m3 (Buf.ofList [7, -3, 0, 1, 5, 2]) (by decide) (fun _ _ _ => rfl)
  have h2 := m2 2 (by decide) (by decide)
  have h3 := m2 3 (by decide) (by decide)
  simp [Buf.ofList] at h2 h3 e
  norm_num at h2 h3
  have : m = 3 := by omega
  rw [this] at e
  exact e

/-- **C26, the caveat.** With repeated values a point equal to the midpoint may land in the left range. -/
theorem C26_repeated : ∃ x : Buf Int, (∀ i j, 0 ≤ i → i < j → j < 5 → x.val i ≤ x.val j) ∧ x.size = 5 ∧ binarysearch x 0 5 1 = some 2 ∧ x.val 1 = 1 := by
  refine ⟨Buf.ofList [0, 1, 1, 1, 2], fun i j a b c => ?_, rfl, by decide, by decide⟩
  obtain h | h | h | h : i = 0 ∨ i = 1 ∨ i = 2 ∨ i = 3 := by omega
  all_goals obtain h' | h' | h' | h' : j = 1 ∨ j = 2 ∨ j = 3 ∨ j = 4 := by omega
  all_goals subst h; subst h'
  all_goals first | omega | decide

/-! ## C27 -/

/-- **C27.** For every asymmetric comparison the sort ends without any access outside the arrays, all arrays (key, companions, permutation) are
rearranged by one and the same permutation of the indices, which moves nothing outside `lo … hi`; if the comparison is moreover a strict weak order
(negatively transitive), no entry of the range is ordered before an earlier one. -/
theorem C27_sort {α : Type*} {lt : α → α → Bool} (asym : ∀ x y, lt x y = true → lt y x = false) {lo hi : Int} {s : SortSt α}
    (h0 : 0 ≤ lo) (ha : hi < s.a.size) (hc : ∀ c ∈ s.cs, hi < c.size) (hp : hi < s.p.size) :
    ∃ (s' : SortSt α) (π : Equiv.Perm Int), quicksort lt lo hi s = some s' ∧ (∀ k, ¬ (lo ≤ k ∧ k ≤ hi) → π k = k) ∧
      (s'.a.size = s.a.size ∧ ∀ k, s'.a.val k = s.a.val (π k)) ∧
      List.Forall₂ (fun c c' => c'.size = c.size ∧ ∀ k, c'.val k = c.val (π k)) s.cs s'.cs ∧
      (s'.p.size = s.p.size ∧ ∀ k, s'.p.val k = s.p.val (π k)) ∧
      ((∀ x y z, lt x y = false → lt y z = false → lt x z = false) → ∀ i j, lo ≤ i → i < j → j ≤ hi → lt (s'.a.val j) (s'.a.val i) = false) := by
  obtain ⟨π, f, e, hs⟩ := qsort_spec asym ((hi - lo).toNat + 1) lo hi s ⟨h0, ha, hc, hp⟩ (by push_cast; omega) (Nat.succ_pos _)
  refine ⟨_, π, e, f, ⟨rfl, fun _ => rfl⟩, ?_, ⟨rfl, fun _ => rfl⟩, hs⟩
  show List.Forall₂ _ s.cs (s.cs.map _)
  rw [List.forall₂_map_right_iff]
  exact List.forall₂_same.2 fun c _ => ⟨rfl, fun _ => rfl⟩

/-- The order `<` and the order by absolute value (`lt`, `ltabs`: `dprk_source.c` lines 1492-1499) meet the hypotheses. -/
example : (∀ x y : Int, decide (x < y) = true → decide (y < x) = false) ∧ (∀ x y z : Int, decide (x < y) = false → decide (y < z) = false → decide (x < z) = false) ∧
    (∀ x y : Int, decide (|x| < |y|) = true → decide (|y| < |x|) = false) ∧ (∀ x y z : Int, decide (|x| < |y|) = false → decide (|y| < |z|) = false → decide (|x| < |z|) = false) := by
  simp only [decide_eq_true_eq, decide_eq_false_iff_not]
  exact ⟨fun _ _ h => by omega, fun _ _ _ h1 h2 => by omega, fun _ _ h => not_lt.2 (le_of_lt h), fun _ _ _ h1 h2 => not_lt.2 (le_trans (not_lt.1 h2) (not_lt.1 h1))⟩

/-- With "not a number" values (here `none`, incomparable to everything) `<` is still asymmetric, though not a strict weak order. -/
def nanLt : Option Int → Option Int → Bool
  | some x, some y => decide (x < y)
  | _, _ => false

example : (∀ x y, nanLt x y = true → nanLt y x = false) ∧
    ((quicksort nanLt 0 4 ⟨Buf.ofList [some 3, none, some 1, none, some 2], [], Buf.ofList [0, 1, 2, 3, 4]⟩).map fun s => s.p.toList.length) = some 5 := by
  refine ⟨fun x y h => ?_, by decide⟩
  cases x <;> cases y <;> simp_all [nanLt]
  omega

example : ((quicksort (fun x y : Int => decide (x < y)) 1 5 ⟨Buf.ofList [9, 4, 2, 4, 8, 1, 0], [Buf.ofList [0, 1, 2, 3, 4, 5, 6]], Buf.ofList [0, 1, 2, 3, 4, 5, 6]⟩).map fun s =>
    (s.a.toList, s.p.toList)) = some ([9, 1, 2, 4, 4, 8, 0], [0, 5, 2, 1, 3, 4, 6]) := by decide

theorem scanUp_const {α : Type*} {lt : α → α → Bool} {v : α} (hv : lt v v = true) {a : Buf α} (ha : ∀ k, a.val k = v) : ∀ (f : Nat) (i : Int), scanUp lt a v f i = none
  | 0, _ => rfl
  | f + 1, i => by
    rw [scanUp]
    by_cases h : 0 ≤ i + 1 ∧ i + 1 < a.size
    · rw [Buf.rd_of h.1 h.2, Option.bind_some, ha, if_pos hv]; exact scanUp_const hv ha f (i + 1)
    · rw [Buf.rd_oob (by omega)]; rfl

/-- **C27, the negative part.** With a comparison that holds for equal arguments (such as `le`), sorting any constant array of at least two
entries runs past its end. -/
theorem C27_reflexive_overruns {α : Type*} {lt : α → α → Bool} {v : α} (hv : lt v v = true) {n : Nat} (hn : 2 ≤ n) (cs : List (Buf α)) (p : Buf Int)
    (hc : ∀ c ∈ cs, n ≤ c.size) (hp : n ≤ p.size) : quicksort lt 0 (n - 1) ⟨⟨n, fun _ => v⟩, cs, p⟩ = none := by
  have key : ∀ (s : SortSt α) (u w : Int), s.Has 0 (n - 1) → (∀ k, s.a.val k = v) → 0 ≤ u → u ≤ n - 1 → 0 ≤ w → w ≤ n - 1 →
      ∃ s', swapIf lt u w s = some s' ∧ s'.Has 0 (n - 1) ∧ ∀ k, s'.a.val k = v := by
    intro s u w h hs u0 u1 w0 w1
    obtain ⟨π, _, e⟩ := swapIf_spec (lt := lt) h u0 u1 w0 w1
    exact ⟨_, e, h.pm π, fun k => hs _⟩
  unfold quicksort
  rw [qsort, if_pos (by omega)]
  unfold partition selectpivot
  obtain ⟨s1, e1, h1, c1⟩ := key ⟨⟨n, fun _ => v⟩, cs, p⟩ ((0 + (n - 1)) / 2) 0 ⟨le_refl _, by simp only; omega, fun c hc' => by have := hc c hc'; omega, by simp only; omega⟩ (fun _ => rfl)
    (by omega) (by omega) (by omega) (by omega)
  obtain ⟨s2, e2, h2, c2⟩ := key s1 (n - 1) 0 h1 c1 (by omega) (by omega) (by omega) (by omega)
  simp only [e1, e2, Option.bind_some]
  have hb := h2.2.1
  rw [Buf.rd_of (by omega) (by omega), Option.bind_some, Buf.rd_of (by omega) (by omega), Option.bind_some, c2, c2, if_pos hv,
    swapAll_eq h2 (by omega) (by omega) (by omega) (by omega), Option.bind_some]
  rw [Buf.rd_of (by omega) (by exact hb)]
  simp only [Option.map_some, Option.bind_some]
  obtain ⟨f, hf⟩ : ∃ f, ((n : Int) - 1 - 0 + 2).toNat = f + 1 := ⟨n, by omega⟩
  rw [hf, partLoop]
  have hpv : (s2.pm (Equiv.swap ((0 + ((n : Int) - 1)) / 2) (n - 1))).a.val (n - 1) = v := c2 _
  rw [hpv, scanUp_const hv (a := (s2.pm (Equiv.swap ((0 + ((n : Int) - 1)) / 2) (n - 1))).a) (fun k => c2 _)]
  rfl

example : quicksort (fun x y : Int => decide (x ≤ y)) 0 2 ⟨Buf.ofList [5, 5, 5], [], Buf.ofList [0, 1, 2]⟩ = none := by decide

/-! ## C28 -/

/-- **C28.** `perm('N')`: `x` becomes `x[p]`, and `p` holds its original contents. -/
theorem C28_perm_N {α : Type*} {n : Int} {p : Buf Int} (hp : IsPerm n p) {x : Buf α} (hx : n ≤ x.size) : ∃ x', perm 'N' x p n = some (x', p) ∧ x'.size = x.size ∧
    (∀ i, 0 ≤ i → i < n → x'.val i = x.val (p.val i)) ∧ ∀ i, ¬ (0 ≤ i ∧ i < n) → x'.val i = x.val i := perm_N_eq hp hx

/-- **C28.** `perm('T')`: `x[p]` becomes `x`, and `p` holds its original contents. -/
theorem C28_perm_T {α : Type*} {n : Int} {p : Buf Int} (hp : IsPerm n p) {x : Buf α} (hx : n ≤ x.size) : ∃ x', perm 'T' x p n = some (x', p) ∧ x'.size = x.size ∧
    (∀ i, 0 ≤ i → i < n → x'.val (p.val i) = x.val i) ∧ ∀ i, ¬ (0 ≤ i ∧ i < n) → x'.val i = x.val i := perm_T_eq hp hx

/-- **C28.** The two are inverse to each other, in both orders. -/
theorem C28_perm_inverse {α : Type*} {n : Int} {p : Buf Int} (hp : IsPerm n p) {x : Buf α} (hx : n ≤ x.size) :
    ((perm 'N' x p n).bind fun s => perm 'T' s.1 s.2 n) = some (x, p) ∧ ((perm 'T' x p n).bind fun s => perm 'N' s.1 s.2 n) = some (x, p) := by
  constructor
  · obtain ⟨y, e, hs, h1, h2⟩ := perm_N_eq hp hx
    obtain ⟨z, e', hs', h1', h2'⟩ := perm_T_eq hp (x := y) (by omega)
    rw [e, Option.bind_some, e']
    congr 2
    refine Buf.ext' (by omega) fun k => ?_
    by_cases hk : 0 ≤ k ∧ k < n
    · obtain ⟨i, i0, i1, rfl⟩ := hp.surj hk.1 hk.2
      rw [h1' i i0 i1, h1 i i0 i1]
    · rw [h2' k hk, h2 k hk]
  · obtain ⟨y, e, hs, h1, h2⟩ := perm_T_eq hp hx
    obtain ⟨z, e', hs', h1', h2'⟩ := perm_N_eq hp (x := y) (by omega)
    rw [e, Option.bind_some, e']
    congr 2
    refine Buf.ext' (by omega) fun k => ?_
    by_cases hk : 0 ≤ k ∧ k < n
    · rw [h1' k hk.1 hk.2, h1 k hk.1 hk.2]
    · rw [h2' k hk, h2 k hk]

/-- A permutation with cycles of lengths 3, 1, 2. -/
example : IsPerm 6 (Buf.ofList [2, 0, 1, 3, 5, 4]) ∧
    (perm 'N' (Buf.ofList [10, 11, 12, 13, 14, 15]) (Buf.ofList [2, 0, 1, 3, 5, 4]) 6).map (fun s => (s.1.toList, s.2.toList)) = some ([12, 10, 11, 13, 15, 14], [2, 0, 1, 3, 5, 4]) := by
  refine ⟨⟨by decide, ?_, ?_, ?_⟩, by decide⟩
  · intro k a b; obtain h | h | h | h | h | h : k = 0 ∨ k = 1 ∨ k = 2 ∨ k = 3 ∨ k = 4 ∨ k = 5 := by omega
    all_goals subst h; decide
  · intro k a b; obtain h | h | h | h | h | h : k = 0 ∨ k = 1 ∨ k = 2 ∨ k = 3 ∨ k = 4 ∨ k = 5 := by omega
    all_goals subst h; decide
  · intro k l a b c d
    obtain h | h | h | h | h | h : k = 0 ∨ k = 1 ∨ k = 2 ∨ k = 3 ∨ k = 4 ∨ k = 5 := by omega
    all_goals obtain h' | h' | h' | h' | h' | h' : l = 0 ∨ l = 1 ∨ l = 2 ∨ l = 3 ∨ l = 4 ∨ l = 5 := by omega
    all_goals subst h; subst h'; decide

/-- **C28, a caveat.** For any other letter `x` is unchanged and `p` is left with `n` subtracted from its entries. -/
theorem C28_other_letter {α : Type*} {n : Int} {p : Buf Int} (hp : IsPerm n p) {x : Buf α} {c : Char} (hN : c ≠ 'N') (hT : c ≠ 'T') :
    ∃ q, perm c x p n = some (x, q) ∧ ∀ k, 0 ≤ k → k < n → q.val k = p.val k - n := by
  refine ⟨markP n p ∅, ?_, fun k k0 k1 => if_pos ⟨k0, k1, by simp⟩⟩
  unfold perm
  rw [mark_eq hp, Option.bind_some, if_neg hN, if_neg hT]

end FT.Props
