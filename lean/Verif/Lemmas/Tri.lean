import Verif.Model.Tri
import Verif.Lemmas.Accum
import Mathlib.Tactic.FieldSimp
import Mathlib.Tactic.LinearCombination

/-!
# Triangular sweeps

Every multiply equals the dense sum; every solve returns the solution, whenever there is one, and there is one when the diagonal has no zero.
-/

namespace FT
variable {K : Type*}

/-- The rows `0..n-1` of the system with coefficients `c`: `Σ_k c i k y_k = x_i`. -/
def Solves [CommRing K] (n : Int) (c : Int → Int → K) (y x : Int → K) : Prop := ∀ i, 0 ≤ i → i < n → ∑ k ∈ Finset.Ico 0 n, c i k * y k = x i

section mul
variable [CommRing K] {n : Int} {co : Int → Int → Option K} {c : Int → Int → K} {x : Buf K}

theorem sum_upper {i h : Int} (i0 : 0 ≤ i) (hn : h ≤ n) (hl : ∀ k, 0 ≤ k → k < i → c i k = 0) (hz : ∀ k, h ≤ k → k < n → c i k = 0) (y : Int → K) :
    ∑ k ∈ Finset.Ico 0 n, c i k * y k = ∑ k ∈ Finset.Ico i h, c i k * y k :=
  sum_Ico_shrink (fun k k0 k1 hk => by rcases lt_or_ge k i with h | h <;> [rw [hl k k0 h]; rw [hz k (by omega) k1]] <;> ring) i0 hn

theorem sum_lower {i l : Int} (l0 : 0 ≤ l) (hin : i < n) (hu : ∀ k, i < k → k < n → c i k = 0) (hz : ∀ k, 0 ≤ k → k < l → c i k = 0) (y : Int → K) :
    ∑ k ∈ Finset.Ico 0 n, c i k * y k = ∑ k ∈ Finset.Ico l (i + 1), c i k * y k :=
  sum_Ico_shrink (fun k k0 k1 hk => by rcases lt_or_ge k l with h | h <;> [rw [hz k k0 h]; rw [hu k (by omega) k1]] <;> ring) l0 (by omega)

theorem mulUpper_eq {hi : Int → Int} (hn : n ≤ x.size) (hh : ∀ i, 0 ≤ i → i < n → hi i ≤ n)
    (hco : ∀ i k, 0 ≤ i → i < n → i ≤ k → k < hi i → co i k = some (c i k)) (hl : ∀ i k, 0 ≤ i → i < n → 0 ≤ k → k < i → c i k = 0)
    (hz : ∀ i k, 0 ≤ i → i < n → hi i ≤ k → k < n → c i k = 0) :
    mulUpper n hi co x = some (mix x 0 n fun i => ∑ k ∈ Finset.Ico 0 n, c i k * x.val k) := by
  refine sweepUp_eq _ (le_refl _) hn fun i i0 i1 => ?_
  rw [accUp_eq (g := fun k => c i k * x.val k), zero_add, sum_upper i0 (hh i i0 i1) (fun k => hl i k i0 i1) (fun k => hz i k i0 i1)]
  intro k k0 k1
  rw [hco i k i0 i1 k0 k1, Option.bind_some, Buf.rd_of (by omega) (by have := hh i i0 i1; rw [mix_size]; omega), mix_val_out (by omega)]; rfl

theorem mulLower_eq {lo : Int → Int} (hn : n ≤ x.size) (hh : ∀ i, 0 ≤ i → i < n → 0 ≤ lo i)
    (hco : ∀ i k, 0 ≤ i → i < n → lo i ≤ k → k ≤ i → co i k = some (c i k)) (hu : ∀ i k, 0 ≤ i → i < n → i < k → k < n → c i k = 0)
    (hz : ∀ i k, 0 ≤ i → i < n → 0 ≤ k → k < lo i → c i k = 0) :
    mulLower n lo co x = some (mix x 0 n fun i => ∑ k ∈ Finset.Ico 0 n, c i k * x.val k) := by
  unfold mulLower
  rw [sweepDown_eq (fun i => ∑ k ∈ Finset.Ico 0 n, c i k * x.val k) (le_refl _) (by omega), sub_add_cancel]
  intro i i0 i1
  rw [accUp_eq (g := fun k => c i k * x.val k), zero_add, sum_lower (hh i i0 (by omega)) (by omega) (fun k => hu i k i0 (by omega)) (fun k => hz i k i0 (by omega))]
  intro k k0 k1
  rw [hco i k i0 (by omega) k0 (by omega), Option.bind_some, Buf.rd_of (by have := hh i i0 (by omega); omega) (by rw [mix_size]; omega), mix_val_out (by omega)]; rfl

end mul

section solve
variable [Field K] [DecidableEq K] {n : Int} {co : Int → Int → Option K} {c : Int → Int → K} {x : Buf K}

theorem solveUpper_row {hi : Int → Int} (hn : n ≤ x.size) (hh : ∀ i, 0 ≤ i → i < n → i < hi i ∧ hi i ≤ n)
    (hco : ∀ i k, 0 ≤ i → i < n → i ≤ k → k < hi i → co i k = some (c i k)) (hd : ∀ i, 0 ≤ i → i < n → c i i ≠ 0) {i : Int} (i0 : 0 ≤ i) (i1 : i < n) (y : Int → K) :
    ((accUp (i + 1) (hi i) 0 fun k => (co i k).bind fun a => ((mix x (i + 1) n y).rd k).map fun v => a * v).bind fun t =>
      ((mix x (i + 1) n y).rd i).bind fun v => (co i i).bind fun d => divC (v - t) d) = some ((x.val i - ∑ k ∈ Finset.Ico (i + 1) (hi i), c i k * y k) / c i i) := by
  have h1 := hh i i0 i1
  rw [accUp_eq (g := fun k => c i k * y k), Option.bind_some, Buf.rd_of i0 (by rw [mix_size]; omega), Option.bind_some, hco i i i0 i1 (le_refl _) h1.1, Option.bind_some,
    mix_val_out (by omega), zero_add, divC_of (hd i i0 i1)]
  intro k k0 k1
  rw [hco i k i0 i1 (by omega) k1, Option.bind_some, Buf.rd_of (by omega) (by rw [mix_size]; omega), mix_val_in (by omega) (by omega)]; rfl

theorem solveUpper_of {hi : Int → Int} (hn : n ≤ x.size) (hh : ∀ i, 0 ≤ i → i < n → i < hi i ∧ hi i ≤ n)
    (hco : ∀ i k, 0 ≤ i → i < n → i ≤ k → k < hi i → co i k = some (c i k)) (hd : ∀ i, 0 ≤ i → i < n → c i i ≠ 0)
    (hl : ∀ i k, 0 ≤ i → i < n → 0 ≤ k → k < i → c i k = 0) (hz : ∀ i k, 0 ≤ i → i < n → hi i ≤ k → k < n → c i k = 0) {y : Int → K} (hy : Solves n c y x.val) :
    solveUpper n hi co x = some (mix x 0 n y) := by
  unfold solveUpper
  rw [sweepDown_eq y (le_refl _) (by omega), sub_add_cancel]
  intro i i0 i1
  rw [sub_add_cancel, solveUpper_row hn hh hco hd i0 (by omega) y, ← hy i i0 (by omega),
    sum_upper i0 (hh i i0 (by omega)).2 (fun k => hl i k i0 (by omega)) (fun k => hz i k i0 (by omega)), sum_Ico_pred (hh i i0 (by omega)).1, add_sub_cancel_right,
    mul_div_cancel_left₀ _ (hd i i0 (by omega))]

theorem solveUpper_total {hi : Int → Int} (hn : n ≤ x.size) (hh : ∀ i, 0 ≤ i → i < n → i < hi i ∧ hi i ≤ n)
    (hco : ∀ i k, 0 ≤ i → i < n → i ≤ k → k < hi i → co i k = some (c i k)) (hd : ∀ i, 0 ≤ i → i < n → c i i ≠ 0)
    (hl : ∀ i k, 0 ≤ i → i < n → 0 ≤ k → k < i → c i k = 0) (hz : ∀ i k, 0 ≤ i → i < n → hi i ≤ k → k < n → c i k = 0) :
    ∃ y, solveUpper n hi co x = some (mix x 0 n y) ∧ Solves n c y x.val := by
  unfold solveUpper
  obtain ⟨y, e, hy⟩ := sweepDown_total (lo := 0) (hi := n - 1) (x := x) (f := fun i x => (accUp (i + 1) (hi i) 0 fun k => (co i k).bind fun a => (x.rd k).map fun v => a * v).bind fun t =>
    (x.rd i).bind fun v => (co i i).bind fun d => divC (v - t) d) (le_refl _) (by omega)
    (fun i y i0 i1 => ⟨_, by simp only [sub_add_cancel]; exact solveUpper_row hn hh hco hd i0 (by omega) y⟩)
  rw [sub_add_cancel] at e hy
  refine ⟨y, e, fun i i0 i1 => ?_⟩
  have h := hy i i0 (by omega)
  rw [solveUpper_row hn hh hco hd i0 i1 y] at h
  have h := Option.some.inj h
  rw [div_eq_iff (hd i i0 i1)] at h
  rw [sum_upper i0 (hh i i0 (by omega)).2 (fun k => hl i k i0 (by omega)) (fun k => hz i k i0 (by omega)), sum_Ico_pred (hh i i0 (by omega)).1]
  linear_combination -h

theorem solveLower_row {lo : Int → Int} (hn : n ≤ x.size) (hh : ∀ i, 0 ≤ i → i < n → 0 ≤ lo i ∧ lo i ≤ i)
    (hco : ∀ i k, 0 ≤ i → i < n → lo i ≤ k → k ≤ i → co i k = some (c i k)) (hd : ∀ i, 0 ≤ i → i < n → c i i ≠ 0) {i : Int} (i0 : 0 ≤ i) (i1 : i < n) (y : Int → K) :
    ((accUp (lo i) i 0 fun k => (co i k).bind fun a => ((mix x 0 i y).rd k).map fun v => a * v).bind fun t =>
      ((mix x 0 i y).rd i).bind fun v => (co i i).bind fun d => divC (v - t) d) = some ((x.val i - ∑ k ∈ Finset.Ico (lo i) i, c i k * y k) / c i i) := by
  have h1 := hh i i0 i1
  rw [accUp_eq (g := fun k => c i k * y k), Option.bind_some, Buf.rd_of i0 (by rw [mix_size]; omega), Option.bind_some, hco i i i0 i1 h1.2 (le_refl _), Option.bind_some,
    mix_val_out (by omega), zero_add, divC_of (hd i i0 i1)]
  intro k k0 k1
  rw [hco i k i0 i1 (by omega) (by omega), Option.bind_some, Buf.rd_of (by omega) (by rw [mix_size]; omega), mix_val_in (by omega) (by omega)]; rfl

theorem solveLower_of {lo : Int → Int} (hn : n ≤ x.size) (hh : ∀ i, 0 ≤ i → i < n → 0 ≤ lo i ∧ lo i ≤ i)
    (hco : ∀ i k, 0 ≤ i → i < n → lo i ≤ k → k ≤ i → co i k = some (c i k)) (hd : ∀ i, 0 ≤ i → i < n → c i i ≠ 0)
    (hu : ∀ i k, 0 ≤ i → i < n → i < k → k < n → c i k = 0) (hz : ∀ i k, 0 ≤ i → i < n → 0 ≤ k → k < lo i → c i k = 0) {y : Int → K} (hy : Solves n c y x.val) :
    solveLower n lo co x = some (mix x 0 n y) := by
  refine sweepUp_eq y (le_refl _) hn fun i i0 i1 => ?_
  rw [solveLower_row hn hh hco hd i0 i1 y, ← hy i i0 (by omega),
    sum_lower (hh i i0 i1).1 i1 (fun k => hu i k i0 i1) (fun k => hz i k i0 i1), sum_Ico_succ (hh i i0 (by omega)).2, add_sub_cancel_left,
    mul_div_cancel_left₀ _ (hd i i0 (by omega))]

theorem solveLower_total {lo : Int → Int} (hn : n ≤ x.size) (hh : ∀ i, 0 ≤ i → i < n → 0 ≤ lo i ∧ lo i ≤ i)
    (hco : ∀ i k, 0 ≤ i → i < n → lo i ≤ k → k ≤ i → co i k = some (c i k)) (hd : ∀ i, 0 ≤ i → i < n → c i i ≠ 0)
    (hu : ∀ i k, 0 ≤ i → i < n → i < k → k < n → c i k = 0) (hz : ∀ i k, 0 ≤ i → i < n → 0 ≤ k → k < lo i → c i k = 0) :
    ∃ y, solveLower n lo co x = some (mix x 0 n y) ∧ Solves n c y x.val := by
  unfold solveLower
  obtain ⟨y, e, hy⟩ := sweepUp_total (lo := 0) (hi := n) (x := x) (f := fun i x => (accUp (lo i) i 0 fun k => (co i k).bind fun a => (x.rd k).map fun v => a * v).bind fun t =>
    (x.rd i).bind fun v => (co i i).bind fun d => divC (v - t) d) (le_refl _) hn
    (fun i y i0 i1 => ⟨_, solveLower_row hn hh hco hd i0 i1 y⟩)
  refine ⟨y, e, fun i i0 i1 => ?_⟩
  have h := hy i i0 i1
  rw [solveLower_row hn hh hco hd i0 i1 y] at h
  have h := Option.some.inj h
  rw [div_eq_iff (hd i i0 i1)] at h
  rw [sum_lower (hh i i0 i1).1 i1 (fun k => hu i k i0 i1) (fun k => hz i k i0 i1), sum_Ico_succ (hh i i0 (by omega)).2]
  linear_combination -h

end solve
end FT
