import Verif.Lemmas.LegChebBuild
import Mathlib.Data.Rat.Cast.CharZero

/-! # The tables of the Chebyshev basis for 18 points -/

namespace FT.Props.Lc
open FT FT.Model.Lc
variable {K : Type*} [Field K] [CharZero K] [DecidableEq K]

/-- A row of the table, with zeros beyond the diagonal. -/
def tabRow (k j : Int) : ℚ := if 0 ≤ j ∧ j ≤ k then BMe.getD (tri k + j).toNat 0 else 0

theorem tabRow_rec : ∀ k ∈ Finset.range 16, ∀ j ∈ Finset.range 19, tabRow (k + 2 : ℕ) j = xmul (tabRow (k + 1 : ℕ)) j - tabRow (k + 1 : ℕ) j - tabRow k j := by decide +kernel

theorem tabRow_start : ∀ j ∈ Finset.range 19, tabRow (0 : ℕ) j = cH 0 j ∧ tabRow (1 : ℕ) j = cH 1 j := by decide +kernel

theorem tabT_eq : ∀ i ∈ Finset.range 18, ∀ d ∈ Finset.range 18, i + d < 18 → BMeT.getD (trU 18 i + d).toNat 0 = BMe.getD (tri (i + d) + i).toNat 0 := by decide +kernel

theorem cH_neg (k : ℕ) {j : Int} (h : j < 0) : cH (K := K) k j = 0 := by
  have main : ∀ k : ℕ, cH (K := K) k j = 0 ∧ cH (K := K) (k + 1) j = 0 := by
    intro k
    induction k with
    | zero => exact ⟨if_neg (by omega), by unfold cH; rw [if_neg (by omega), if_neg (by omega)]⟩
    | succ k ih =>
      refine ⟨ih.2, ?_⟩
      unfold cH xmul
      rw [if_pos h, ih.1, ih.2]; ring
  exact (main k).1

theorem tabRow_eq (k : ℕ) (hk : k < 18) (j : Int) : tabRow k j = cH k j := by
  have out : ∀ (k : ℕ) (j : Int), ¬ (0 ≤ j ∧ j ≤ k) → tabRow k j = cH k j := fun k j h => by
    unfold tabRow
    rw [if_neg h]
    by_cases c : j < 0
    · rw [cH_neg k c]
    · rw [cH_out (by omega)]
  have main : ∀ k : ℕ, k < 17 → tabRow k = cH k ∧ tabRow (k + 1 : ℕ) = cH (k + 1) := by
    intro k hk
    induction k with
    | zero =>
      constructor <;> ext j <;> by_cases c : 0 ≤ j ∧ j ≤ 18
      · obtain ⟨n, rfl⟩ := Int.eq_ofNat_of_zero_le c.1; exact (tabRow_start n (Finset.mem_range.2 (by omega))).1
      · exact out _ _ (by push_cast; omega)
      · obtain ⟨n, rfl⟩ := Int.eq_ofNat_of_zero_le c.1; exact (tabRow_start n (Finset.mem_range.2 (by omega))).2
      · exact out _ _ (by push_cast; omega)
    | succ k ih =>
      obtain ⟨a, b⟩ := ih (by omega)
      refine ⟨b, ?_⟩
      ext j
      by_cases c : 0 ≤ j ∧ j ≤ 18
      · obtain ⟨n, rfl⟩ := Int.eq_ofNat_of_zero_le c.1
        have := tabRow_rec k (Finset.mem_range.2 (by omega)) n (Finset.mem_range.2 (by omega))
        show tabRow ((k + 1 + 1 : ℕ) : Int) ((n : ℕ) : Int) = _
        rw [this, a, b]
        rfl
      · exact out _ _ (by push_cast; omega)
  rcases Nat.lt_or_ge k 17 with h | h
  · rw [(main k h).1]
  · obtain rfl : k = 16 + 1 := by omega
    rw [(main 16 (by omega)).2]

omit [DecidableEq K] in
theorem cH_cast (k : ℕ) : ∀ j, ((cH (K := ℚ) k j : ℚ) : K) = cH k j := by
  have main : ∀ k : ℕ, (∀ j, ((cH (K := ℚ) k j : ℚ) : K) = cH k j) ∧ ∀ j, ((cH (K := ℚ) (k + 1) j : ℚ) : K) = cH (k + 1) j := by
    intro k
    induction k with
    | zero =>
      constructor <;> intro j <;> unfold cH
      · split_ifs <;> simp
      · split_ifs <;> push_cast <;> rfl
    | succ k ih =>
      refine ⟨ih.2, fun j => ?_⟩
      unfold cH xmul
      rw [← ih.1 j, ← ih.2 j, ← ih.2 1, ← ih.2 0, ← ih.2 (j - 1), ← ih.2 (j + 1)]
      split_ifs <;> push_cast <;> rfl
  exact (main k).1

omit [DecidableEq K] in
theorem tabB_spec {k j : Int} (j0 : 0 ≤ j) (j1 : j ≤ k) (k1 : k < 18) : (tabB (K := K)).val (tri k + j) = cH k.toNat j := by
  obtain ⟨k, rfl⟩ := Int.eq_ofNat_of_zero_le (show 0 ≤ k by omega)
  have := tabRow_eq k (by omega) j
  unfold tabRow at this
  rw [if_pos ⟨j0, j1⟩] at this
  show ((BMe.getD (tri k + j).toNat 0 : ℚ) : K) = cH k j
  rw [this, cH_cast]

omit [DecidableEq K] in
theorem tabBT_spec {i d : Int} (i0 : 0 ≤ i) (d0 : 0 ≤ d) (h : i + d < 18) : (tabBT (K := K)).val (trU 18 i + d) = cH (i + d).toNat i := by
  obtain ⟨i, rfl⟩ := Int.eq_ofNat_of_zero_le i0
  obtain ⟨d, rfl⟩ := Int.eq_ofNat_of_zero_le d0
  have := tabT_eq i (Finset.mem_range.2 (by omega)) d (Finset.mem_range.2 (by omega)) (by omega)
  rw [← tabB_spec (k := (i : Int) + d) i0 (by omega) h]
  show ((BMeT.getD (trU 18 i + d).toNat 0 : ℚ) : K) = ((BMe.getD (tri (i + d) + i).toNat 0 : ℚ) : K)
  rw [this]

theorem createBB_cheb {X : Nodes K} {M : Int} (hX : NodesOk X M) (M1 : 1 ≤ M) {fftw : Bool} (hf : fftw = false → M = 18) (junk : Int → K) :
    ∃ B BT, createBB X junk false fftw M = some (B, BT) ∧ (B.size : Int) = tri M ∧ (BT.size : Int) = tri M ∧ (∀ k j, 0 ≤ j → j ≤ k → k < M → B.val (tri k + j) = cH k.toNat j) ∧
      ∀ i d, 0 ≤ i → 0 ≤ d → i + d < M → BT.val (trU M i + d) = cH (i + d).toNat i := by
  unfold createBB
  rw [if_neg (by simp)]
  cases fftw with
  | true => rw [if_pos rfl]; exact createB_spec hX M1 junk
  | false =>
    obtain rfl := hf rfl
    exact ⟨_, _, rfl, rfl, rfl, fun k j j0 j1 k1 => tabB_spec j0 j1 k1, fun i d i0 d0 h => tabBT_spec i0 d0 h⟩

end FT.Props.Lc
