import Verif.Model.BlockTri
import Verif.Lemmas.TriDense
import Mathlib.Tactic.LinearCombination

/-! # Loops over 2 by 2 blocks -/

set_option linter.unusedSectionVars false

namespace FT
variable {K : Type*}

theorem sum_pairs [AddCommMonoid K] (n : Int) (f : Int → K) : ∑ j ∈ Finset.Ico 0 (2 * n), f j = ∑ k ∈ Finset.Ico 0 n, (f (2 * k) + f (2 * k + 1)) := by
  rcases le_total n 0 with h | h
  · rw [Finset.Ico_eq_empty (by omega), Finset.Ico_eq_empty (by omega)]; rfl
  · obtain ⟨m, rfl⟩ := Int.eq_ofNat_of_zero_le h
    clear h
    induction m with
    | zero => simp
    | succ m ih =>
      rw [show (2 : Int) * ((m + 1 : Nat) : Int) = 2 * (m : Int) + 1 + 1 by push_cast; ring, sum_Ico_succ (by omega), sum_Ico_succ (by omega), ih,
        show ((m + 1 : Nat) : Int) = (m : Int) + 1 by push_cast; rfl, sum_Ico_succ (by omega), add_assoc]

theorem sum_flip [AddCommMonoid K] (n : Int) (f : Int → K) : ∑ k ∈ Finset.Ico 0 n, f (n - 1 - k) = ∑ k ∈ Finset.Ico 0 n, f k :=
  Finset.sum_bij' (fun k _ => n - 1 - k) (fun k _ => n - 1 - k) (fun k hk => by rw [Finset.mem_Ico] at *; omega) (fun k hk => by rw [Finset.mem_Ico] at *; omega)
    (fun k _ => by omega) (fun k _ => by omega) (fun k _ => rfl)

theorem rdPair_of {x : Buf K} {k : Int} (h0 : 0 ≤ k) (h1 : 2 * k + 1 < x.size) : rdPair x k = some (x.val (2 * k), x.val (2 * k + 1)) := by
  unfold rdPair; rw [Buf.rd_of (by omega) (by omega), Buf.rd_of (by omega) h1]; rfl

theorem wrPair_of {x : Buf K} {k : Int} (h0 : 0 ≤ k) (h1 : 2 * k + 1 < x.size) (v : K × K) :
    wrPair x k v = some ⟨x.size, Function.update (Function.update x.val (2 * k) v.1) (2 * k + 1) v.2⟩ := by
  unfold wrPair; rw [Buf.wr_of (by omega) (by omega), Option.bind_some, Buf.wr_of (b := ⟨x.size, Function.update x.val (2 * k) v.1⟩) (by omega) h1]

theorem wrPair_up {x : Buf K} {i : Int} {y : Int → K} (h0 : 0 ≤ i) (h1 : 2 * i + 1 < x.size) :
    wrPair (mix x 0 (2 * i) y) i (y (2 * i), y (2 * i + 1)) = some (mix x 0 (2 * (i + 1)) y) := by
  unfold wrPair
  rw [show 2 * (i + 1) = 2 * i + 1 + 1 by ring, mix_wr_up (by omega) (by omega) (by omega), Option.bind_some, mix_wr_up (by omega) h1 (by omega)]

theorem wrPair_down {x : Buf K} {i n : Int} {y : Int → K} (h0 : 0 ≤ i) (h1 : 2 * i + 1 < x.size) (h : i < n) :
    wrPair (mix x (2 * (i + 1)) (2 * n) y) i (y (2 * i), y (2 * i + 1)) = some (mix x (2 * i) (2 * n) y) := by
  rw [wrPair_of h0 (by rw [mix_size]; exact h1)]
  congr 1
  refine Buf.ext' rfl fun j => ?_
  show Function.update (Function.update _ _ _) _ _ j = _
  by_cases h2 : j = 2 * i + 1
  · subst h2; rw [Function.update_self, mix_val_in (by omega) (by omega)]
  · rw [Function.update_of_ne h2]
    by_cases h3 : j = 2 * i
    · subst h3; rw [Function.update_self, mix_val_in (by omega) (by omega)]
    · rw [Function.update_of_ne h3]
      by_cases h4 : 2 * (i + 1) ≤ j ∧ j < 2 * n
      · rw [mix_val_in h4.1 h4.2, mix_val_in (by omega) h4.2]
      · rw [mix_val_out h4, mix_val_out (by omega)]

theorem pairUp_eq {n : Int} {f : Int → Buf K → Option (K × K)} {x : Buf K} (y : Int → K) (h1 : 2 * n ≤ x.size)
    (hf : ∀ i, 0 ≤ i → i < n → f i (mix x 0 (2 * i) y) = some (y (2 * i), y (2 * i + 1))) : pairUp 0 n f x = some (mix x 0 (2 * n) y) := by
  obtain ⟨s, e, p⟩ := forUp_spec (body := fun i x => (f i x).bind (wrPair x i)) (lo := 0) (hi := n) (s := x)
    (fun i s => s = mix x 0 (2 * i) y) (mix_empty x (by omega) y).symm
    (fun i l h s p => ⟨mix x 0 (2 * (i + 1)) y, by subst p; simp only [hf i l h, Option.bind_some]; exact wrPair_up l (by omega), rfl⟩)
  unfold pairUp
  rw [e, p]
  rcases le_total 0 n with h | h
  · rw [max_eq_right h]
  · rw [max_eq_left h, mix_empty x (by omega), mix_empty x (by omega)]

theorem pairDown_eq {n : Int} {f : Int → Buf K → Option (K × K)} {x : Buf K} (y : Int → K) (h1 : 2 * n ≤ x.size)
    (hf : ∀ i, 0 ≤ i → i < n → f i (mix x (2 * (i + 1)) (2 * n) y) = some (y (2 * i), y (2 * i + 1))) : pairDown (n - 1) 0 f x = some (mix x 0 (2 * n) y) := by
  obtain ⟨s, e, p⟩ := forDown_spec (body := fun i x => (f i x).bind (wrPair x i)) (lo := 0) (hi := n - 1) (s := x)
    (fun i s => s = mix x (2 * (i + 1)) (2 * n) y) (mix_empty x (by omega) y).symm
    (fun i l h s p => ⟨mix x (2 * i) (2 * n) y, by subst p; simp only [hf i l (by omega), Option.bind_some]; exact wrPair_down l (by omega) (by omega), by rw [sub_add_cancel]⟩)
  unfold pairDown
  rw [e, p]
  rcases le_total 0 n with h | h
  · rw [min_eq_right (by omega)]; rfl
  · rw [min_eq_left (by omega), mix_empty x (by omega), mix_empty x (by omega)]

section ring
variable [CommRing K]

/-- Block `(i, k)` of the matrix `c`. -/
def blkOf (c : Int → Int → K) (i k : Int) : M2 K := ⟨c (2 * i) (2 * k), c (2 * i) (2 * k + 1), c (2 * i + 1) (2 * k), c (2 * i + 1) (2 * k + 1)⟩

/-- The four entries of block `(i, k)` vanish. -/
def BZ (c : Int → Int → K) (i k : Int) : Prop := c (2 * i) (2 * k) = 0 ∧ c (2 * i) (2 * k + 1) = 0 ∧ c (2 * i + 1) (2 * k) = 0 ∧ c (2 * i + 1) (2 * k + 1) = 0

/-- The contribution of block column `k` to row `r`. -/
def trm (c : Int → Int → K) (z : Int → K) (r k : Int) : K := c r (2 * k) * z (2 * k) + c r (2 * k + 1) * z (2 * k + 1)

theorem row_pairs (c : Int → Int → K) (z : Int → K) (r n : Int) : ∑ k ∈ Finset.Ico 0 (2 * n), c r k * z k = ∑ k ∈ Finset.Ico 0 n, trm c z r k := sum_pairs n _

theorem accPair_eq {lo hi : Int} {f : Int → Option (K × K)} {g h : Int → K} (hf : ∀ k, lo ≤ k → k < hi → f k = some (g k, h k)) :
    accPair lo hi f = some (∑ k ∈ Finset.Ico lo hi, g k, ∑ k ∈ Finset.Ico lo hi, h k) := by
  obtain ⟨s, e, p⟩ := forUp_spec (body := fun k (t : K × K) => (f k).bind fun v => some (t.1 + v.1, t.2 + v.2)) (lo := lo) (hi := hi) (s := ((0, 0) : K × K))
    (fun i t => t = (∑ k ∈ Finset.Ico lo i, g k, ∑ k ∈ Finset.Ico lo i, h k)) (by simp)
    (fun i h0 h1 s p => ⟨(s.1 + g i, s.2 + h i), by rw [hf i h0 h1]; rfl, by rw [sum_Ico_succ h0, sum_Ico_succ h0, p]⟩)
  unfold accPair
  rw [e, p]
  rcases le_total lo hi with h | h
  · rw [max_eq_right h]
  · rw [max_eq_left h, Finset.Ico_eq_empty (by omega), Finset.Ico_eq_empty (by omega)]

theorem termPair_of {co : Option (M2 K)} {c : Int → Int → K} {i k : Int} {x : Buf K} (h : co = some (blkOf c i k)) (h0 : 0 ≤ k) (h1 : 2 * k + 1 < x.size) :
    termPair co x k = some (trm c x.val (2 * i) k, trm c x.val (2 * i + 1) k) := by
  unfold termPair; rw [h, Option.bind_some, rdPair_of h0 h1]; rfl

theorem trm_congr {c : Int → Int → K} {z w : Int → K} {k : Int} (h0 : z (2 * k) = w (2 * k)) (h1 : z (2 * k + 1) = w (2 * k + 1)) (r : Int) : trm c z r k = trm c w r k := by
  unfold trm; rw [h0, h1]

theorem trm_zero {c : Int → Int → K} {z : Int → K} {i k : Int} (h : BZ c i k) : trm c z (2 * i) k = 0 ∧ trm c z (2 * i + 1) k = 0 := by
  unfold trm; obtain ⟨h1, h2, h3, h4⟩ := h; rw [h1, h2, h3, h4]; simp

theorem row_shrink {c : Int → Int → K} {z : Int → K} {n lo hi i : Int} (h0 : 0 ≤ lo) (h1 : hi ≤ n) (hz : ∀ k, 0 ≤ k → k < n → ¬ (lo ≤ k ∧ k < hi) → BZ c i k) :
    ∑ k ∈ Finset.Ico 0 (2 * n), c (2 * i) k * z k = ∑ k ∈ Finset.Ico lo hi, trm c z (2 * i) k ∧
    ∑ k ∈ Finset.Ico 0 (2 * n), c (2 * i + 1) k * z k = ∑ k ∈ Finset.Ico lo hi, trm c z (2 * i + 1) k := by
  rw [row_pairs, row_pairs]
  exact ⟨sum_Ico_shrink (fun k k0 k1 hk => (trm_zero (hz k k0 k1 hk)).1) h0 h1, sum_Ico_shrink (fun k k0 k1 hk => (trm_zero (hz k k0 k1 hk)).2) h0 h1⟩

theorem bmulUpper_eq {n : Int} {hi : Int → Int} {co : Int → Int → Option (M2 K)} {c : Int → Int → K} {x : Buf K} (hx : 2 * n ≤ x.size) (hh : ∀ i, hi i ≤ n)
    (hco : ∀ i k, 0 ≤ i → i ≤ k → k < hi i → co i k = some (blkOf c i k)) (hz : ∀ i k, 0 ≤ i → i < n → 0 ≤ k → k < n → ¬ (i ≤ k ∧ k < hi i) → BZ c i k) :
    pairUp 0 n (fun i x => accPair i (hi i) fun k => termPair (co i k) x k) x = some (mix x 0 (2 * n) fun r => ∑ k ∈ Finset.Ico 0 (2 * n), c r k * x.val k) := by
  refine pairUp_eq _ hx fun i i0 i1 => ?_
  obtain ⟨e1, e2⟩ := row_shrink (z := x.val) i0 (hh i) (hz i · i0 i1)
  rw [e1, e2]
  refine accPair_eq fun k k0 k1 => ?_
  have := hh i
  rw [termPair_of (hco i k i0 k0 k1) (by omega) (by rw [mix_size]; omega), trm_congr (w := x.val) (mix_val_out (by omega)) (mix_val_out (by omega)),
    trm_congr (w := x.val) (mix_val_out (by omega)) (mix_val_out (by omega))]

theorem bmulLower_eq {n : Int} {lo : Int → Int} {co : Int → Int → Option (M2 K)} {c : Int → Int → K} {x : Buf K} (hx : 2 * n ≤ x.size) (hh : ∀ i, 0 ≤ lo i)
    (hco : ∀ i k, i < n → lo i ≤ k → k ≤ i → co i k = some (blkOf c i k)) (hz : ∀ i k, 0 ≤ i → i < n → 0 ≤ k → k < n → ¬ (lo i ≤ k ∧ k ≤ i) → BZ c i k) :
    pairDown (n - 1) 0 (fun i x => accPair (lo i) (i + 1) fun k => termPair (co i k) x k) x = some (mix x 0 (2 * n) fun r => ∑ k ∈ Finset.Ico 0 (2 * n), c r k * x.val k) := by
  refine pairDown_eq _ hx fun i i0 i1 => ?_
  obtain ⟨e1, e2⟩ := row_shrink (z := x.val) (hh i) (show i + 1 ≤ n by omega) (fun k k0 k1 hk => hz i k i0 i1 k0 k1 (by omega))
  rw [e1, e2]
  refine accPair_eq fun k k0 k1 => ?_
  have := hh i
  rw [termPair_of (hco i k i1 k0 (by omega)) (by omega) (by rw [mix_size]; omega), trm_congr (w := x.val) (mix_val_out (by omega)) (mix_val_out (by omega)),
    trm_congr (w := x.val) (mix_val_out (by omega)) (mix_val_out (by omega))]

end ring

section field
variable [Field K] [DecidableEq K]

/-- The determinant of the block. -/
def M2.det (A : M2 K) : K := A.a * A.d - A.b * A.c

theorem M2.inv_of {A : M2 K} (h : A.det ≠ 0) : A.inv = some ⟨A.d / A.det, -A.b / A.det, -A.c / A.det, A.a / A.det⟩ := by
  unfold M2.det at *
  unfold M2.inv
  simp only [divC_of h, Option.bind_some, Option.map_some]

/-- `D` is the inverse of `A`. -/
def M2.Inv (D A : M2 K) : Prop := ∀ u v, D.app (A.app u v).1 (A.app u v).2 = (u, v)

theorem M2.inv_inv {A : M2 K} (h : A.det ≠ 0) : ∃ D, A.inv = some D ∧ D.Inv A := by
  refine ⟨_, M2.inv_of h, fun u v => ?_⟩
  have h' := mul_inv_cancel₀ h
  simp only [M2.app, Prod.mk.injEq, div_eq_mul_inv]
  generalize A.det⁻¹ = e at h'
  unfold M2.det at h'
  constructor
  · linear_combination u * h'
  · linear_combination v * h'

theorem M2.inv_tr {A : M2 K} (h : A.det ≠ 0) : ∃ D, A.inv.map M2.tr = some D ∧ D.Inv A.tr := by
  refine ⟨_, by rw [M2.inv_of h]; rfl, fun u v => ?_⟩
  have h' := mul_inv_cancel₀ h
  simp only [M2.app, M2.tr, Prod.mk.injEq, div_eq_mul_inv]
  generalize A.det⁻¹ = e at h'
  unfold M2.det at h'
  constructor
  · linear_combination u * h'
  · linear_combination v * h'

theorem bsolve_step {c : Int → Int → K} {y : Int → K} {i : Int} {D : M2 K} (hD : D.Inv (blkOf c i i)) {u v s t : K}
    (h1 : s + trm c y (2 * i) i = u) (h2 : t + trm c y (2 * i + 1) i = v) : D.app (u - s) (v - t) = (y (2 * i), y (2 * i + 1)) := by
  rw [← h1, ← h2, add_sub_cancel_left, add_sub_cancel_left]
  exact hD _ _

theorem bsolveUpper_of {n : Int} {hi : Int → Int} {co : Int → Int → Option (M2 K)} {di : Int → Option (M2 K)} {c : Int → Int → K} {x : Buf K} {y : Int → K}
    (hx : 2 * n ≤ x.size) (hh : ∀ i, hi i ≤ n)
    (hco : ∀ i k, 0 ≤ i → i < k → k < hi i → co i k = some (blkOf c i k)) (hz : ∀ i k, 0 ≤ i → i < n → 0 ≤ k → k < n → k ≠ i → ¬ (i < k ∧ k < hi i) → BZ c i k)
    (hdi : ∀ i, 0 ≤ i → i < n → ∃ D, di i = some D ∧ D.Inv (blkOf c i i)) (hy : Solves (2 * n) c y x.val) :
    pairDown (n - 1) 0 (fun i x => (accPair (i + 1) (hi i) fun k => termPair (co i k) x k).bind fun t =>
      (di i).bind fun d => (rdPair x i).map fun v => d.app (v.1 - t.1) (v.2 - t.2)) x = some (mix x 0 (2 * n) y) := by
  refine pairDown_eq _ hx fun i i0 i1 => ?_
  have hhi := hh i
  rw [accPair_eq (g := trm c y (2 * i)) (h := trm c y (2 * i + 1)) fun k k0 k1 => by
    rw [termPair_of (hco i k i0 (by omega) k1) (by omega) (by rw [mix_size]; omega), trm_congr (w := y) (mix_val_in (by omega) (by omega)) (mix_val_in (by omega) (by omega)),
      trm_congr (w := y) (mix_val_in (by omega) (by omega)) (mix_val_in (by omega) (by omega))]]
  obtain ⟨D, e, hD⟩ := hdi i i0 i1
  rw [Option.bind_some, e, Option.bind_some, rdPair_of i0 (by rw [mix_size]; omega), Option.map_some, mix_val_out (by omega), mix_val_out (by omega)]
  congr 1
  obtain ⟨e1, e2⟩ := row_shrink (z := y) (c := c) (i := i) i0 (show max (i + 1) (hi i) ≤ n by omega)
    fun k k0 k1 hk => hz i k i0 i1 k0 k1 (by omega) (by omega)
  have f : ∀ r, ∑ k ∈ Finset.Ico i (max (i + 1) (hi i)), trm c y r k = ∑ k ∈ Finset.Ico (i + 1) (hi i), trm c y r k + trm c y r i := fun r => by
    rw [sum_Ico_pred (by omega), add_comm]
    congr 1
    rcases le_total (i + 1) (hi i) with h | h
    · rw [max_eq_right h]
    · rw [max_eq_left h, Finset.Ico_eq_empty (by omega), Finset.Ico_eq_empty (by omega)]
  exact bsolve_step hD (by rw [← f, ← e1, hy _ (by omega) (by omega)]) (by rw [← f, ← e2, hy _ (by omega) (by omega)])

theorem bsolveLower_of {n : Int} {lo : Int → Int} {co : Int → Int → Option (M2 K)} {di : Int → Option (M2 K)} {c : Int → Int → K} {x : Buf K} {y : Int → K}
    (hx : 2 * n ≤ x.size) (hh : ∀ i, 0 ≤ lo i)
    (hco : ∀ i k, i < n → lo i ≤ k → k < i → co i k = some (blkOf c i k)) (hz : ∀ i k, 0 ≤ i → i < n → 0 ≤ k → k < n → k ≠ i → ¬ (lo i ≤ k ∧ k < i) → BZ c i k)
    (hdi : ∀ i, 0 ≤ i → i < n → ∃ D, di i = some D ∧ D.Inv (blkOf c i i)) (hy : Solves (2 * n) c y x.val) :
    pairUp 0 n (fun i x => (accPair (lo i) i fun k => termPair (co i k) x k).bind fun t =>
      (di i).bind fun d => (rdPair x i).map fun v => d.app (v.1 - t.1) (v.2 - t.2)) x = some (mix x 0 (2 * n) y) := by
  refine pairUp_eq _ hx fun i i0 i1 => ?_
  have hlo := hh i
  rw [accPair_eq (g := trm c y (2 * i)) (h := trm c y (2 * i + 1)) fun k k0 k1 => by
    rw [termPair_of (hco i k i1 k0 k1) (by omega) (by rw [mix_size]; omega), trm_congr (w := y) (mix_val_in (by omega) (by omega)) (mix_val_in (by omega) (by omega)),
      trm_congr (w := y) (mix_val_in (by omega) (by omega)) (mix_val_in (by omega) (by omega))]]
  obtain ⟨D, e, hD⟩ := hdi i i0 i1
  rw [Option.bind_some, e, Option.bind_some, rdPair_of i0 (by rw [mix_size]; omega), Option.map_some, mix_val_out (by omega), mix_val_out (by omega)]
  congr 1
  obtain ⟨e1, e2⟩ := row_shrink (z := y) (c := c) (i := i) (show 0 ≤ min (lo i) i by omega) (show i + 1 ≤ n by omega)
    fun k k0 k1 hk => hz i k i0 i1 k0 k1 (by omega) (by omega)
  have f : ∀ r, ∑ k ∈ Finset.Ico (min (lo i) i) (i + 1), trm c y r k = ∑ k ∈ Finset.Ico (lo i) i, trm c y r k + trm c y r i := fun r => by
    rw [sum_Ico_succ (by omega)]
    congr 1
    rcases le_total (lo i) i with h | h
    · rw [min_eq_left h]
    · rw [min_eq_right h, Finset.Ico_eq_empty (by omega), Finset.Ico_eq_empty (by omega)]
  exact bsolve_step hD (by rw [← f, ← e1, hy _ (by omega) (by omega)]) (by rw [← f, ← e2, hy _ (by omega) (by omega)])

/-- A block upper triangular system with invertible diagonal blocks has a solution. -/
theorem btri_exists {n : Int} {c : Int → Int → K} (x : Int → K) (hd : ∀ i, 0 ≤ i → i < n → (blkOf c i i).det ≠ 0) (hz : ∀ i k, 0 ≤ k → k < i → i < n → BZ c i k) :
    ∃ y, Solves (2 * n) c y x := by
  have key : ∀ m : Nat, ∃ y : Int → K, ∀ i, 0 ≤ i → i < n → n - m ≤ i →
      ∑ k ∈ Finset.Ico 0 n, trm c y (2 * i) k = x (2 * i) ∧ ∑ k ∈ Finset.Ico 0 n, trm c y (2 * i + 1) k = x (2 * i + 1) := by
    intro m
    induction m with
    | zero => exact ⟨fun _ => 0, fun i _ h1 h2 => by omega⟩
    | succ m ih =>
      obtain ⟨y, hy⟩ := ih
      by_cases hm : 0 ≤ n - (m + 1)
      swap
      · exact ⟨y, fun i h0 h1 h2 => hy i h0 h1 (by omega)⟩
      generalize hp : n - (m + 1 : Int) = p at hm
      have hdp := hd p hm (by omega)
      have hdp' : (c (2 * p) (2 * p) * c (2 * p + 1) (2 * p + 1) - c (2 * p) (2 * p + 1) * c (2 * p + 1) (2 * p)) * (blkOf c p p).det⁻¹ = 1 := mul_inv_cancel₀ hdp
      let s := fun r => x r - ∑ k ∈ Finset.Ico (p + 1) n, trm c y r k
      let u := (c (2 * p + 1) (2 * p + 1) * s (2 * p) - c (2 * p) (2 * p + 1) * s (2 * p + 1)) / (blkOf c p p).det
      let v := (c (2 * p) (2 * p) * s (2 * p + 1) - c (2 * p + 1) (2 * p) * s (2 * p)) / (blkOf c p p).det
      let w := Function.update (Function.update y (2 * p) u) (2 * p + 1) v
      have w0 : w (2 * p) = u := by show Function.update _ _ _ _ = _; rw [Function.update_of_ne (by omega), Function.update_self]
      have w1 : w (2 * p + 1) = v := Function.update_self ..
      have w2 : ∀ r k, k ≠ p → trm c w r k = trm c y r k := fun r k hk => trm_congr
        (by show Function.update _ _ _ _ = _; rw [Function.update_of_ne (by omega), Function.update_of_ne (by omega)])
        (by show Function.update _ _ _ _ = _; rw [Function.update_of_ne (by omega), Function.update_of_ne (by omega)]) r
      refine ⟨w, fun i i0 i1 i2 => ?_⟩
      by_cases hip : i = p
      · subst hip
        rw [sum_Ico_shrink (lo' := i) (hi' := n) (fun k k0 k1 hk => (trm_zero (hz i k k0 (by omega) i1)).1) i0 le_rfl,
          sum_Ico_shrink (lo' := i) (hi' := n) (fun k k0 k1 hk => (trm_zero (hz i k k0 (by omega) i1)).2) i0 le_rfl,
          sum_Ico_pred i1, sum_Ico_pred i1, sum_Ico_congr fun k k0 k1 => w2 _ k (by omega), sum_Ico_congr (f := trm c w (2 * i + 1)) fun k k0 k1 => w2 _ k (by omega)]
        have e0 : trm c w (2 * i) i = s (2 * i) := by
          unfold trm; rw [w0, w1]; show _ * (_ / M2.det _) + _ * (_ / M2.det _) = _; rw [div_eq_mul_inv, div_eq_mul_inv]; linear_combination s (2 * i) * hdp'
        have e1 : trm c w (2 * i + 1) i = s (2 * i + 1) := by
          unfold trm; rw [w0, w1]; show _ * (_ / M2.det _) + _ * (_ / M2.det _) = _; rw [div_eq_mul_inv, div_eq_mul_inv]; linear_combination s (2 * i + 1) * hdp'
        rw [e0, e1]
        exact ⟨sub_add_cancel _ _, sub_add_cancel _ _⟩
      · obtain ⟨h1, h2⟩ := hy i i0 i1 (by omega)
        have e : ∀ k, 0 ≤ k → k < n → trm c w (2 * i) k = trm c y (2 * i) k ∧ trm c w (2 * i + 1) k = trm c y (2 * i + 1) k := fun k k0 k1 => by
          by_cases hk : k = p
          · obtain ⟨f1, f2⟩ := trm_zero (z := w) (hz i k k0 (by omega) i1)
            obtain ⟨g1, g2⟩ := trm_zero (z := y) (hz i k k0 (by omega) i1)
            rw [f1, f2, g1, g2]; exact ⟨rfl, rfl⟩
          · exact ⟨w2 _ k hk, w2 _ k hk⟩
        rw [sum_Ico_congr fun k k0 k1 => (e k k0 k1).1, sum_Ico_congr (f := trm c w (2 * i + 1)) fun k k0 k1 => (e k k0 k1).2]
        exact ⟨h1, h2⟩
  obtain ⟨y, hy⟩ := key n.toNat
  refine ⟨y, fun r r0 r1 => ?_⟩
  obtain ⟨h1, h2⟩ := hy (r / 2) (by omega) (by omega) (by omega)
  rw [row_pairs]
  rcases Int.emod_two_eq_zero_or_one r with h | h
  · rw [show 2 * (r / 2) = r by omega] at h1; exact h1
  · rw [show 2 * (r / 2) + 1 = r by omega] at h2; exact h2

/-- The same for block lower triangular systems. -/
theorem btri_exists_lower {n : Int} {c : Int → Int → K} (x : Int → K) (hd : ∀ i, 0 ≤ i → i < n → (blkOf c i i).det ≠ 0) (hz : ∀ i k, 0 ≤ i → i < k → k < n → BZ c i k) :
    ∃ y, Solves (2 * n) c y x := by
  obtain ⟨y, hy⟩ := btri_exists (n := n) (c := fun i k => c (2 * n - 1 - i) (2 * n - 1 - k)) (fun r => x (2 * n - 1 - r))
    (fun i i0 i1 => by
      have h := hd (n - 1 - i) (by omega) (by omega)
      unfold M2.det blkOf at *
      dsimp only at *
      rw [show 2 * n - 1 - 2 * i = 2 * (n - 1 - i) + 1 by ring, show 2 * n - 1 - (2 * i + 1) = 2 * (n - 1 - i) by ring]
      intro h'
      apply h
      linear_combination h')
    (fun i k k0 h i1 => by
      obtain ⟨h1, h2, h3, h4⟩ := hz (n - 1 - i) (n - 1 - k) (by omega) (by omega) (by omega)
      unfold BZ
      dsimp only
      rw [show 2 * n - 1 - 2 * i = 2 * (n - 1 - i) + 1 by ring, show 2 * n - 1 - (2 * i + 1) = 2 * (n - 1 - i) by ring,
        show 2 * n - 1 - 2 * k = 2 * (n - 1 - k) + 1 by ring, show 2 * n - 1 - (2 * k + 1) = 2 * (n - 1 - k) by ring]
      exact ⟨h4, h3, h2, h1⟩)
  refine ⟨fun r => y (2 * n - 1 - r), fun r r0 r1 => ?_⟩
  have h := hy (2 * n - 1 - r) (by omega) (by omega)
  dsimp only at h
  rw [sub_sub_cancel] at h
  rw [← h, ← sum_flip (2 * n)]
  exact sum_Ico_congr fun k k0 k1 => by dsimp only; rw [sub_sub_cancel]

end field

end FT
