import Verif.Model.EigVec
import Verif.Lemmas.BlockTri

/-! # Back-substitution loops -/

set_option linter.unusedSectionVars false

namespace FT
variable {K : Type*}

theorem ij_lt {i j n s : Int} (i0 : 0 ≤ i) (i1 : i < n) (j0 : 0 ≤ j) (j1 : j < n) (h : n * n ≤ s) : 0 ≤ i + j * n ∧ i + j * n < s := by
  have h1 : 0 ≤ j * n := Int.mul_nonneg j0 (by omega)
  have h2 : (j + 1) * n ≤ n * n := Int.mul_le_mul_of_nonneg_right (by omega) (by omega)
  have h3 : (j + 1) * n = j * n + n := by ring
  omega

theorem ij_inj {i j i' j' n : Int} (i0 : 0 ≤ i) (i1 : i < n) (i0' : 0 ≤ i') (i1' : i' < n) (h : i + j * n = i' + j' * n) : i = i' ∧ j = j' := by
  have hn : 0 < n := by omega
  have h1 : (i + j * n) / n = j := by rw [Int.add_mul_ediv_right _ _ (by omega), Int.ediv_eq_zero_of_lt i0 i1, zero_add]
  have h2 : (i' + j' * n) / n = j' := by rw [Int.add_mul_ediv_right _ _ (by omega), Int.ediv_eq_zero_of_lt i0' i1', zero_add]
  have : j = j' := by rw [← h1, ← h2, h]
  subst this
  exact ⟨by omega, rfl⟩

/-- The new entries `(i, j)`, `i < j`, are those computed from the final column; all others are unchanged. -/
theorem backSub_spec {n : Int} {lam : Int → Option K} {row : K → Int → Int → Buf K → Option K} {l : Int → K} {g : Int → Int → (Int → K) → K} {V : Buf K} (hn : n * n ≤ V.size)
    (hl : ∀ j, 0 ≤ j → j < n → lam j = some (l j))
    (hrow : ∀ i j (W : Buf K), 0 ≤ i → i < j → j < n → W.size = V.size → (∀ i', j < i' → i' < n → W.val (i' + j * n) = V.val (i' + j * n)) → W.val (j + j * n) = V.val (j + j * n) →
      row (l j) i j W = some (g i j fun k => W.val (k + j * n)))
    (hg : ∀ i j (v w : Int → K), (∀ k, i < k → k < n → v k = w k) → g i j v = g i j w) :
    ∃ V', backSub n lam row V = some V' ∧ V'.size = V.size ∧ (∀ q, (∀ i j, 0 ≤ i → i < j → j < n → q ≠ i + j * n) → V'.val q = V.val q) ∧
      ∀ i j, 0 ≤ i → i < j → j < n → V'.val (i + j * n) = g i j fun k => V'.val (k + j * n) := by
  unfold backSub
  obtain ⟨V', e, p1, p2, p3⟩ := forUp_spec (lo := 1) (hi := n) (s := V)
    (body := fun j V => (lam j).bind fun l => forDown (j - 1) 0 (fun i V => (row l i j V).bind fun v => V.wr (i + j * n) v) V)
    (fun J W => W.size = V.size ∧ (∀ q, (∀ i j, 0 ≤ i → i < j → j < n → j < J → q ≠ i + j * n) → W.val q = V.val q) ∧
      ∀ i j, 0 ≤ i → i < j → j < n → j < J → W.val (i + j * n) = g i j fun k => W.val (k + j * n))
    ⟨rfl, fun _ _ => rfl, fun i j i0 i1 _ j1 => by omega⟩
    (fun j j0 j1 W hW => by
      obtain ⟨q1, q2, q3⟩ := hW
      rw [hl j (by omega) j1, Option.bind_some]
      have keep : ∀ i', j ≤ i' → i' < n → W.val (i' + j * n) = V.val (i' + j * n) := fun i' h1 h2 => q2 _ fun i j' a1 a2 a3 a4 h => by
        obtain ⟨b1, b2⟩ := ij_inj (by omega) h2 a1 (by omega) h; omega
      obtain ⟨X, e, r1, r2, r3⟩ := forDown_spec (lo := 0) (hi := j - 1) (s := W) (body := fun i V => (row (l j) i j V).bind fun v => V.wr (i + j * n) v)
        (fun I X => X.size = V.size ∧ (∀ q, (∀ i, I < i → i < j → q ≠ i + j * n) → X.val q = W.val q) ∧
          ∀ i, I < i → 0 ≤ i → i < j → X.val (i + j * n) = g i j fun k => X.val (k + j * n))
        ⟨q1, fun _ _ => rfl, fun i h1 _ h2 => by omega⟩
        (fun i i0 i1 X hX => by
          obtain ⟨r1, r2, r3⟩ := hX
          have keepX : ∀ i', j ≤ i' → i' < n → X.val (i' + j * n) = V.val (i' + j * n) := fun i' h1 h2 => by
            rw [r2 _ fun i'' a1 a2 h => by omega, keep i' h1 h2]
          obtain ⟨b1, b2⟩ := ij_lt i0 (show i < n by omega) (show 0 ≤ j by omega) j1 hn
          rw [hrow i j X i0 (by omega) j1 r1 (fun i' h1 h2 => keepX i' (by omega) h2) (keepX j le_rfl j1), Option.bind_some]
          refine ⟨_, Buf.wr_of b1 (by omega), r1, fun q hq => ?_, fun i' h1 h2 h3 => ?_⟩
          · dsimp only
            rw [Function.update_of_ne (hq i (by omega) (by omega))]
            exact r2 q fun i' a1 a2 => hq i' (by omega) a2
          · dsimp only
            by_cases hi : i' = i
            · subst hi
              rw [Function.update_self]
              refine hg _ _ _ _ fun k k0 k1 => ?_
              rw [Function.update_of_ne (by omega)]
            · rw [Function.update_of_ne (by omega), r3 i' (by omega) h2 h3]
              refine hg _ _ _ _ fun k k0 k1 => ?_
              rw [Function.update_of_ne (by omega)])
      refine ⟨X, e, r1, fun q hq => ?_, fun i j' h1 h2 h3 h4 => ?_⟩
      · rw [r2 q fun i a1 a2 => hq i j (by omega) a2 j1 (by omega)]
        exact q2 q fun i j' a1 a2 a3 a4 => hq i j' a1 a2 a3 (by omega)
      · by_cases hj : j' = j
        · subst hj; exact r3 i (by omega) h1 h2
        · have hX : ∀ k, 0 ≤ k → k < n → X.val (k + j' * n) = W.val (k + j' * n) := fun k k0 k1 => r2 _ fun i' a1 a2 h => by
            obtain ⟨b1, b2⟩ := ij_inj k0 k1 (by omega) (by omega) h; omega
          rw [hX i h1 (by omega), q3 i j' h1 h2 h3 (by omega)]
          exact hg _ _ _ _ fun k k0 k1 => (hX k (by omega) k1).symm)
  exact ⟨V', e, p1, fun q hq => p2 q fun i j a1 a2 a3 _ => hq i j a1 a2 a3, fun i j a1 a2 a3 => p3 i j a1 a2 a3 (by omega)⟩

end FT
