import Verif.Model.Accum
import Verif.Lemmas.Ranges
import Mathlib.Algebra.BigOperators.Group.Finset.Basic
import Mathlib.Algebra.BigOperators.Ring.Finset
import Mathlib.Data.Int.Interval
import Mathlib.Tactic.Ring
import Mathlib.Tactic.Linarith
import Mathlib.Tactic.FieldSimp

/-! # Lemmas on loops over integer ranges, accumulators and in-place sweeps -/

namespace FT
variable {K σ : Type*}

theorem forUp_spec {body : Int → σ → Option σ} {lo hi : Int} {s : σ} (P : Int → σ → Prop) (h0 : P lo s)
    (hstep : ∀ i, lo ≤ i → i < hi → ∀ s, P i s → ∃ s', body i s = some s' ∧ P (i + 1) s') :
    ∃ s', forUp lo hi body s = some s' ∧ P (max lo hi) s' := by
  obtain ⟨s', e, p⟩ := loop_spec (body := fun k => body (lo + k)) (n := (hi - lo).toNat) (s := s) (fun k s => P (lo + k) s) (by simpa using h0)
    (fun k hk s p => by
      obtain ⟨s', e, p'⟩ := hstep (lo + k) (by omega) (by omega) s p
      exact ⟨s', e, by rw [Nat.cast_add, Nat.cast_one, ← add_assoc]; exact p'⟩)
  refine ⟨s', e, ?_⟩
  rwa [show max lo hi = lo + ((hi - lo).toNat : Int) by omega]

theorem forDown_spec {body : Int → σ → Option σ} {lo hi : Int} {s : σ} (P : Int → σ → Prop) (h0 : P hi s)
    (hstep : ∀ i, lo ≤ i → i ≤ hi → ∀ s, P i s → ∃ s', body i s = some s' ∧ P (i - 1) s') :
    ∃ s', forDown hi lo body s = some s' ∧ P (min hi (lo - 1)) s' := by
  obtain ⟨s', e, p⟩ := loop_spec (body := fun k => body (hi - k)) (n := (hi - lo + 1).toNat) (s := s) (fun k s => P (hi - k) s) (by simpa using h0)
    (fun k hk s p => by
      obtain ⟨s', e, p'⟩ := hstep (hi - k) (by omega) (by omega) s p
      exact ⟨s', e, by rw [Nat.cast_add, Nat.cast_one, ← sub_sub]; exact p'⟩)
  refine ⟨s', e, ?_⟩
  rwa [show min hi (lo - 1) = hi - ((hi - lo + 1).toNat : Int) by omega]

theorem Ico_succ {lo i : Int} (h : lo ≤ i) : Finset.Ico lo (i + 1) = insert i (Finset.Ico lo i) := by
  ext x; simp only [Finset.mem_Ico, Finset.mem_insert]; omega

theorem Ico_pred {lo hi : Int} (h : lo < hi) : Finset.Ico lo hi = insert lo (Finset.Ico (lo + 1) hi) := by
  ext x; simp only [Finset.mem_Ico, Finset.mem_insert]; omega

theorem sum_Ico_succ [AddCommMonoid K] {lo i : Int} (h : lo ≤ i) (f : Int → K) : ∑ k ∈ Finset.Ico lo (i + 1), f k = (∑ k ∈ Finset.Ico lo i, f k) + f i := by
  rw [Ico_succ h, Finset.sum_insert (by simp), add_comm]

theorem sum_Ico_pred [AddCommMonoid K] {lo hi : Int} (h : lo < hi) (f : Int → K) : ∑ k ∈ Finset.Ico lo hi, f k = f lo + ∑ k ∈ Finset.Ico (lo + 1) hi, f k := by
  rw [Ico_pred h, Finset.sum_insert (by simp)]

/-- Terms that vanish outside the smaller range can be dropped. -/
theorem sum_Ico_shrink [AddCommMonoid K] {lo hi lo' hi' : Int} {f : Int → K} (hz : ∀ k, lo ≤ k → k < hi → ¬ (lo' ≤ k ∧ k < hi') → f k = 0)
    (h1 : lo ≤ lo') (h2 : hi' ≤ hi) : ∑ k ∈ Finset.Ico lo hi, f k = ∑ k ∈ Finset.Ico lo' hi', f k := by
  symm
  apply Finset.sum_subset
  · intro k hk; rw [Finset.mem_Ico] at *; omega
  · intro k hk hk'; rw [Finset.mem_Ico] at *; exact hz k hk.1 hk.2 hk'

theorem sum_Ico_congr [AddCommMonoid K] {lo hi : Int} {f g : Int → K} (h : ∀ k, lo ≤ k → k < hi → f k = g k) :
    ∑ k ∈ Finset.Ico lo hi, f k = ∑ k ∈ Finset.Ico lo hi, g k :=
  Finset.sum_congr rfl fun k hk => h k (Finset.mem_Ico.1 hk).1 (Finset.mem_Ico.1 hk).2

theorem sum_Ico_delta [AddCommMonoid K] {lo hi i : Int} (h0 : lo ≤ i) (h1 : i < hi) (f : Int → K) :
    ∑ k ∈ Finset.Ico lo hi, (if k = i then f k else 0) = f i := by
  rw [Finset.sum_ite_eq' (Finset.Ico lo hi) i f, if_pos (Finset.mem_Ico.2 ⟨h0, h1⟩)]

theorem accUp_eq [AddCommMonoid K] {lo hi : Int} {t0 : K} {f : Int → Option K} {g : Int → K} (h : ∀ k, lo ≤ k → k < hi → f k = some (g k)) :
    accUp lo hi t0 f = some (t0 + ∑ k ∈ Finset.Ico lo hi, g k) := by
  obtain ⟨s, e, p⟩ := forUp_spec (body := fun k t => (f k).bind fun v => some (t + v)) (lo := lo) (hi := hi) (s := t0)
    (fun i t => t = t0 + ∑ k ∈ Finset.Ico lo i, g k) (by simp)
    (fun i h0 h1 s p => ⟨s + g i, by rw [h i h0 h1]; rfl, by rw [sum_Ico_succ h0, p, add_assoc]⟩)
  unfold accUp
  rw [e, p]
  rcases le_total lo hi with hl | hl
  · rw [max_eq_right hl]
  · rw [max_eq_left hl, Finset.Ico_self, Finset.Ico_eq_empty (by omega)]

/-- The buffer `x` with the entries in `[lo, hi)` replaced by `y`. -/
def mix (x : Buf K) (lo hi : Int) (y : Int → K) : Buf K := ⟨x.size, fun j => if lo ≤ j ∧ j < hi then y j else x.val j⟩

theorem mix_empty (x : Buf K) {lo hi : Int} (h : hi ≤ lo) (y : Int → K) : mix x lo hi y = x :=
  Buf.ext' rfl fun j => if_neg (by omega)

theorem mix_wr_up {x : Buf K} {lo i : Int} {y : Int → K} (h0 : 0 ≤ i) (h1 : i < x.size) (h : lo ≤ i) : (mix x lo i y).wr i (y i) = some (mix x lo (i + 1) y) := by
  rw [Buf.wr_of (b := mix x lo i y) h0 h1]
  congr 1
  refine Buf.ext' rfl fun j => ?_
  show Function.update (mix x lo i y).val i (y i) j = (mix x lo (i + 1) y).val j
  by_cases hj : j = i
  · subst hj; rw [Function.update_self]; exact (if_pos (by omega)).symm
  · rw [Function.update_of_ne hj]; unfold mix; simp only; split_ifs <;> first | rfl | omega

theorem mix_wr_down {x : Buf K} {hi i : Int} {y : Int → K} (h0 : 0 ≤ i) (h1 : i < x.size) (h : i < hi) : (mix x (i + 1) hi y).wr i (y i) = some (mix x i hi y) := by
  rw [Buf.wr_of (b := mix x (i + 1) hi y) h0 h1]
  congr 1
  refine Buf.ext' rfl fun j => ?_
  show Function.update (mix x (i + 1) hi y).val i (y i) j = (mix x i hi y).val j
  by_cases hj : j = i
  · subst hj; rw [Function.update_self]; exact (if_pos (by omega)).symm
  · rw [Function.update_of_ne hj]; unfold mix; simp only; split_ifs <;> first | rfl | omega

/-- An ascending in-place sweep whose results are known. -/
theorem sweepUp_eq {lo hi : Int} {f : Int → Buf K → Option K} {x : Buf K} (y : Int → K) (h0 : 0 ≤ lo) (h1 : hi ≤ x.size)
    (hf : ∀ i, lo ≤ i → i < hi → f i (mix x lo i y) = some (y i)) : sweepUp lo hi f x = some (mix x lo hi y) := by
  obtain ⟨s, e, p⟩ := forUp_spec (body := fun i x => (f i x).bind (x.wr i)) (lo := lo) (hi := hi) (s := x)
    (fun i s => s = mix x lo i y) (mix_empty x (le_refl _) y).symm
    (fun i l h s p => ⟨mix x lo (i + 1) y, by subst p; simp only [hf i l h, Option.bind_some]; exact mix_wr_up (by omega) (by omega) l, rfl⟩)
  unfold sweepUp
  rw [e, p]
  rcases le_total lo hi with hl | hl
  · rw [max_eq_right hl]
  · rw [max_eq_left hl, mix_empty x (le_refl _), mix_empty x hl]

/-- A descending in-place sweep whose results are known. -/
theorem sweepDown_eq {lo hi : Int} {f : Int → Buf K → Option K} {x : Buf K} (y : Int → K) (h0 : 0 ≤ lo) (h1 : hi < x.size)
    (hf : ∀ i, lo ≤ i → i ≤ hi → f i (mix x (i + 1) (hi + 1) y) = some (y i)) : sweepDown hi lo f x = some (mix x lo (hi + 1) y) := by
  obtain ⟨s, e, p⟩ := forDown_spec (body := fun i x => (f i x).bind (x.wr i)) (lo := lo) (hi := hi) (s := x)
    (fun i s => s = mix x (i + 1) (hi + 1) y) (mix_empty x (le_refl _) y).symm
    (fun i l h s p => ⟨mix x i (hi + 1) y, by subst p; simp only [hf i l h, Option.bind_some]; exact mix_wr_down (by omega) (by omega) (by omega), by rw [sub_add_cancel]⟩)
  unfold sweepDown
  rw [e, p]
  rcases le_total lo (hi + 1) with hl | hl
  · rw [min_eq_right (by omega), sub_add_cancel]
  · rw [min_eq_left (by omega), mix_empty x (le_refl _), mix_empty x hl]

theorem mix_succ_congr {x : Buf K} {lo i : Int} {y z : Int → K} (h : ∀ j, lo ≤ j → j < i → y j = z j) : mix x lo i y = mix x lo i z :=
  Buf.ext' rfl fun j => by
    unfold mix; simp only; split_ifs with hj
    · exact h j hj.1 hj.2
    · rfl

/-- An ascending in-place sweep that never fails: it ends, and every entry is what the step computed from the earlier new entries and the later
old ones. -/
theorem sweepUp_total {lo hi : Int} {f : Int → Buf K → Option K} {x : Buf K} (h0 : 0 ≤ lo) (h1 : hi ≤ x.size)
    (hf : ∀ i y, lo ≤ i → i < hi → ∃ v, f i (mix x lo i y) = some v) :
    ∃ y : Int → K, sweepUp lo hi f x = some (mix x lo hi y) ∧ ∀ i, lo ≤ i → i < hi → f i (mix x lo i y) = some (y i) := by
  suffices h : ∃ y : Int → K, ∀ i, lo ≤ i → i < hi → f i (mix x lo i y) = some (y i) by
    obtain ⟨y, hy⟩ := h
    exact ⟨y, sweepUp_eq y h0 h1 hy, hy⟩
  have key : ∀ n : Nat, ∃ y : Int → K, ∀ i, lo ≤ i → i < hi → i < lo + n → f i (mix x lo i y) = some (y i) := by
    intro n
    induction n with
    | zero => exact ⟨x.val, fun i a _ c => by omega⟩
    | succ n ih =>
      obtain ⟨y, hy⟩ := ih
      by_cases hn : lo + n < hi
      · obtain ⟨v, hv⟩ := hf (lo + n) y (by omega) hn
        refine ⟨Function.update y (lo + n) v, fun i a b c => ?_⟩
        by_cases hi' : i = lo + n
        · subst hi'
          rw [Function.update_self, ← hv]
          congr 1
          exact mix_succ_congr fun j _ hj => Function.update_of_ne (by omega) _ _
        · rw [Function.update_of_ne hi', ← hy i a b (by push_cast at c; omega)]
          congr 1
          exact mix_succ_congr fun j _ hj => Function.update_of_ne (by push_cast at c; omega) _ _
      · exact ⟨y, fun i a b c => hy i a b (by omega)⟩
  obtain ⟨y, hy⟩ := key (hi - lo).toNat
  exact ⟨y, fun i a b => hy i a b (by omega)⟩

/-- A descending in-place sweep that never fails. -/
theorem sweepDown_total {lo hi : Int} {f : Int → Buf K → Option K} {x : Buf K} (h0 : 0 ≤ lo) (h1 : hi < x.size)
    (hf : ∀ i y, lo ≤ i → i ≤ hi → ∃ v, f i (mix x (i + 1) (hi + 1) y) = some v) :
    ∃ y : Int → K, sweepDown hi lo f x = some (mix x lo (hi + 1) y) ∧ ∀ i, lo ≤ i → i ≤ hi → f i (mix x (i + 1) (hi + 1) y) = some (y i) := by
  suffices h : ∃ y : Int → K, ∀ i, lo ≤ i → i ≤ hi → f i (mix x (i + 1) (hi + 1) y) = some (y i) by
    obtain ⟨y, hy⟩ := h
    exact ⟨y, sweepDown_eq y h0 h1 hy, hy⟩
  have key : ∀ n : Nat, ∃ y : Int → K, ∀ i, lo ≤ i → i ≤ hi → hi - n < i → f i (mix x (i + 1) (hi + 1) y) = some (y i) := by
    intro n
    induction n with
    | zero => exact ⟨x.val, fun i a _ c => by omega⟩
    | succ n ih =>
      obtain ⟨y, hy⟩ := ih
      by_cases hn : lo ≤ hi - n
      · obtain ⟨v, hv⟩ := hf (hi - n) y hn (by omega)
        refine ⟨Function.update y (hi - n) v, fun i a b c => ?_⟩
        by_cases hi' : i = hi - n
        · subst hi'
          rw [Function.update_self, ← hv]
          congr 1
          exact mix_succ_congr fun j hj _ => Function.update_of_ne (by omega) _ _
        · rw [Function.update_of_ne hi', ← hy i a b (by push_cast at c; omega)]
          congr 1
          exact mix_succ_congr fun j hj _ => Function.update_of_ne (by push_cast at c; omega) _ _
      · exact ⟨y, fun i a b c => hy i a b (by omega)⟩
  obtain ⟨y, hy⟩ := key (hi - lo + 1).toNat
  exact ⟨y, fun i a b => hy i a b (by omega)⟩

/-- `y[i] += g(j)` for `j = lo, …, hi-1`. -/
theorem accAt {lo hi i : Int} [AddCommMonoid K] {body : Int → Buf K → Option (Buf K)} {g : Int → K} {Y : Buf K}
    (hb : ∀ j Z, lo ≤ j → j < hi → Z.size = Y.size → body j Z = some ⟨Z.size, Function.update Z.val i (Z.val i + g j)⟩) :
    forUp lo hi body Y = some ⟨Y.size, Function.update Y.val i (Y.val i + ∑ j ∈ Finset.Ico lo hi, g j)⟩ := by
  obtain ⟨Z, e, p⟩ := forUp_spec (body := body) (lo := lo) (hi := hi) (s := Y)
    (fun J Z => Z = ⟨Y.size, Function.update Y.val i (Y.val i + ∑ j ∈ Finset.Ico lo J, g j)⟩) (by simp)
    (fun j j0 j1 Z hZ => by
      subst hZ
      refine ⟨_, hb j _ j0 j1 rfl, ?_⟩
      simp only [Function.update_self, Function.update_idem, sum_Ico_succ j0, add_assoc])
  rw [e, p]
  rcases le_total lo hi with hl | hl
  · rw [max_eq_right hl]
  · rw [max_eq_left hl, Finset.Ico_self, Finset.Ico_eq_empty (by omega)]

theorem forUp_congr {lo hi : Int} {b1 b2 : Int → σ → Option σ} {s : σ} (h : ∀ i, lo ≤ i → i < hi → ∀ s, b1 i s = b2 i s) : forUp lo hi b1 s = forUp lo hi b2 s :=
  loop_congr fun k hk s => h _ (by omega) (by omega) s

theorem divC_of [Field K] [DecidableEq K] {a b : K} (h : b ≠ 0) : divC a b = some (a / b) := if_neg h

theorem mix_val_in {x : Buf K} {lo hi j : Int} {y : Int → K} (h0 : lo ≤ j) (h1 : j < hi) : (mix x lo hi y).val j = y j := if_pos ⟨h0, h1⟩
theorem mix_val_out {x : Buf K} {lo hi j : Int} {y : Int → K} (h : ¬ (lo ≤ j ∧ j < hi)) : (mix x lo hi y).val j = x.val j := if_neg h
theorem mix_size {x : Buf K} {lo hi : Int} {y : Int → K} : (mix x lo hi y).size = x.size := rfl

end FT
