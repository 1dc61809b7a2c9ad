import Verif.Model.Sort
import Verif.Lemmas.Loop
import Mathlib.Order.Basic
import Mathlib.Algebra.Order.Field.Basic
import Mathlib.Tactic.Linarith

/-! # Lemmas on bisection -/

namespace FT
variable {α : Type*} [LinearOrder α]

/-- Invariant of the loop of `binarysearch` on the range `lo ≤ k < hi`. -/
structure BsInv (x : Buf α) (y : α) (lo hi : Int) (s : BsSt) : Prop where
  nb : s.brk = false
  s0 : lo ≤ s.start
  s1 : s.start < hi
  e1 : s.stop ≤ hi
  se : s.start ≤ s.stop + 1
  left : ∀ k, lo ≤ k → k < s.start → x.val k < y
  right : ∀ k, s.stop < k → k < hi → y < x.val k
  probe : (s.j = none ∧ s.start ≤ s.stop) ∨ ∃ jj, s.j = some jj ∧ lo ≤ jj ∧ jj < hi ∧ ((x.val jj < y ∧ jj = s.start - 1) ∨ (y < x.val jj ∧ jj = s.stop + 1))

theorem bs_loop {x : Buf α} {y : α} {lo hi : Int} (h0 : 0 ≤ lo) (hx : hi ≤ x.size) (mono : ∀ i j, lo ≤ i → i < j → j < hi → x.val i ≤ x.val j)
    (top : y ≤ x.val (hi - 1)) {x' : Buf α} (hx' : hi ≤ x'.size) (same : ∀ k, lo ≤ k → k < hi → x'.val k = x.val k) :
    ∀ (f : Nat) (s : BsSt), BsInv x y lo hi s → s.stop - s.start + 1 ≤ f →
    ∃ s', whileF bsCond (bsBody x y) f s = some s' ∧
      whileF bsCond (bsBody x' y) f s = some s' ∧
      ((BsInv x y lo hi s' ∧ s'.stop < s'.start) ∨ ∃ jj, s'.j = some jj ∧ lo ≤ jj ∧ jj < hi ∧ x.val jj = y)
  | f, s, h, hf => by
    by_cases hc : s.start ≤ s.stop
    · obtain ⟨f, rfl⟩ : ∃ g, f = g + 1 := ⟨f - 1, by omega⟩
      have hcond : bsCond s = true := by unfold bsCond; rw [h.nb]; simpa using hc
      have j0 : lo ≤ (s.start + s.stop) / 2 := by have := h.s0; omega
      have j1 : (s.start + s.stop) / 2 < hi := by have := h.s1; have := h.e1; omega
      have js : s.start ≤ (s.start + s.stop) / 2 := by omega
      have je : (s.start + s.stop) / 2 ≤ s.stop := by omega
      rw [whileF_step (cond := bsCond) hcond, whileF_step (cond := bsCond) hcond]
      unfold bsBody
      simp only
      generalize (s.start + s.stop) / 2 = j at j0 j1 js je
      rw [Buf.rd_of (b := x) (by omega) (by omega), Buf.rd_of (b := x') (by omega) (by omega), same j j0 j1]
      simp only [Option.bind_some]
      rcases lt_trichotomy (x.val j) y with hl | he | hg
      · rw [if_pos hl]
        simp only [Option.bind_some]
        have hj : j ≠ hi - 1 := by rintro rfl; exact absurd hl (not_lt.2 top)
        refine bs_loop h0 hx mono top hx' same f _ ⟨h.nb, by simp only; omega, by simp only; omega, h.e1, by simp only; omega, fun k k0 k1 => ?_, h.right, .inr ⟨j, rfl, j0, j1, .inl ⟨hl, by simp only; omega⟩⟩⟩
          (by simp only; push_cast at hf; omega)
        by_cases hk : k = j
        · rw [hk]; exact hl
        · simp only at k1; exact lt_of_le_of_lt (mono k j k0 (by omega) j1) hl
      · rw [if_neg (by rw [he]; exact lt_irrefl _), if_neg (by rw [he]; exact lt_irrefl _)]
        simp only [Option.bind_some]
        rw [whileF_done rfl, whileF_done rfl]
        exact ⟨_, rfl, rfl, .inr ⟨j, rfl, j0, j1, he⟩⟩
      · rw [if_neg (not_lt.2 (le_of_lt hg)), if_pos hg]
        simp only [Option.bind_some]
        refine bs_loop h0 hx mono top hx' same f _ ⟨h.nb, h.s0, h.s1, by simp only; omega, by simp only; omega, h.left, fun k k0 k1 => ?_, .inr ⟨j, rfl, j0, j1, .inr ⟨hg, by simp only; omega⟩⟩⟩
          (by simp only; push_cast at hf; omega)
        by_cases hk : k = j
        · rw [hk]; exact hg
        · simp only at k0; exact lt_of_lt_of_le hg (mono j k j0 (by omega) k1)
    · have hcond : bsCond s = false := by unfold bsCond; rw [h.nb]; simpa using hc
      rw [whileF_done (cond := bsCond) hcond, whileF_done (cond := bsCond) hcond]
      exact ⟨s, rfl, rfl, .inl ⟨h, by omega⟩⟩

theorem binarysearch_spec {x : Buf α} {y : α} {lo hi : Int} (h0 : 0 ≤ lo) (hl : lo < hi) (hx : hi ≤ x.size) (mono : ∀ i j, lo ≤ i → i < j → j < hi → x.val i ≤ x.val j)
    (top : y ≤ x.val (hi - 1)) {x' : Buf α} (hx' : hi ≤ x'.size) (same : ∀ k, lo ≤ k → k < hi → x'.val k = x.val k) :
    ∃ r, binarysearch x lo hi y = some r ∧ binarysearch x' lo hi y = some r ∧ lo ≤ r ∧ r < hi ∧ (∀ k, r ≤ k → k < hi → y ≤ x.val k) ∧
      ((∀ k, lo ≤ k → k < r → x.val k < y) ∨ (x.val r = y ∧ ∀ k, lo ≤ k → k < r → x.val k ≤ y)) := by
  obtain ⟨s, e, e', h⟩ := bs_loop h0 hx mono top hx' same (hi - lo + 1).toNat ⟨lo, hi, none, false⟩
    ⟨rfl, le_refl _, hl, le_refl _, by simp only; omega, fun k k0 k1 => by simp only at k1; omega, fun k k0 k1 => by simp only at k0; omega, .inl ⟨rfl, le_of_lt hl⟩⟩ (by simp only; omega)
  unfold binarysearch
  rw [e, e', Option.bind_some]
  rcases h with ⟨h, hse⟩ | ⟨jj, ej, j0, j1, hj⟩
  · have hse' := h.se
    have hs0 := h.s0
    have hs1 := h.s1
    refine ⟨s.start, ?_⟩
    have fin : lo ≤ s.start ∧ s.start < hi ∧ (∀ k, s.start ≤ k → k < hi → y ≤ x.val k) ∧
      ((∀ k, lo ≤ k → k < s.start → x.val k < y) ∨ (x.val s.start = y ∧ ∀ k, lo ≤ k → k < s.start → x.val k ≤ y)) :=
      ⟨hs0, hs1, fun k k0 k1 => le_of_lt (h.right k (by omega) k1), .inl h.left⟩
    rcases h.probe with ⟨_, hn⟩ | ⟨jj, ej, j0, j1, ⟨hv, hj⟩ | ⟨hv, hj⟩⟩
    · omega
    · simp only [ej, Option.bind_some]
      rw [Buf.rd_of (b := x) (by omega) (by omega), Buf.rd_of (b := x') (by omega) (by omega), same jj j0 j1]
      simp only [Option.map_some, if_pos hv]
      exact ⟨by congr 1; omega, by congr 1; omega, fin⟩
    · simp only [ej, Option.bind_some]
      rw [Buf.rd_of (b := x) (by omega) (by omega), Buf.rd_of (b := x') (by omega) (by omega), same jj j0 j1]
      simp only [Option.map_some, if_neg (not_lt.2 (le_of_lt hv))]
      exact ⟨by congr 1; omega, by congr 1; omega, fin⟩
  · refine ⟨jj, ?_⟩
    simp only [ej, Option.bind_some]
    rw [Buf.rd_of (b := x) (by omega) (by omega), Buf.rd_of (b := x') (by omega) (by omega), same jj j0 j1, hj]
    simp only [Option.map_some, if_neg (lt_irrefl y)]
    refine ⟨trivial, trivial, j0, j1, fun k k0 k1 => ?_, .inr ⟨trivial, fun k k0 k1 => ?_⟩⟩
    · by_cases hk : k = jj
      · rw [hk, hj]
      · rw [← hj]; exact mono jj k j0 (by omega) k1
    · rw [← hj]; exact mono k jj k0 k1 j1

end FT
