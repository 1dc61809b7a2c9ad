import Verif.Props.Dpr1EigSpec
import Mathlib.Topology.Order.IntermediateValue
import Mathlib.Topology.Algebra.Order.Field
import Mathlib.Topology.Algebra.Monoid
import Mathlib.Topology.Instances.Real.Lemmas
import Mathlib.Algebra.BigOperators.Field

/-! # Lemmas on the roots of the secular functions and the routines that compute them -/

namespace FT
open FT.Props

/-! ## Existence -/

section Exist
variable {ι : Type*} [DecidableEq ι]

theorem pole_cont {S : Finset ι} {w p : ι → ℝ} {c : ℝ} {I : Set ℝ} (h : ∀ k ∈ S, ∀ t ∈ I, p k ≠ t) : ContinuousOn (fun t => c + ∑ k ∈ S, w k / (p k - t)) I := by
  refine continuousOn_const.add (continuousOn_finset_sum S fun k hk => ?_)
  exact continuousOn_const.div (continuousOn_const.sub continuousOn_id) fun t ht => sub_ne_zero.2 (h k hk t ht)

theorem mid_root {S : Finset ι} {w p : ι → ℝ} {c : ℝ} {a b : ι} (ha : a ∈ S) (hb : b ∈ S) (hab : p a < p b) (wa : 0 < w a) (wb : 0 < w b)
    (hsep : ∀ k ∈ S, k ≠ a → k ≠ b → p k < p a ∨ p b < p k) : ∃ t, p a < t ∧ t < p b ∧ c + ∑ k ∈ S, w k / (p k - t) = 0 := by
  have hne : a ≠ b := fun e => by rw [e] at hab; exact lt_irrefl _ hab
  have hb' : b ∈ S.erase a := Finset.mem_erase.2 ⟨hne.symm, hb⟩
  let T := (S.erase a).erase b
  let P := fun t => (p a - t) * (p b - t) * (c + ∑ k ∈ T, w k / (p k - t)) + (w a * (p b - t) + w b * (p a - t))
  have hc : ContinuousOn P (Set.Icc (p a) (p b)) := by
    refine ContinuousOn.add (ContinuousOn.mul ?_ (pole_cont fun k hk t ht => ?_)) ?_
    · exact ((continuous_const.sub continuous_id).mul (continuous_const.sub continuous_id)).continuousOn
    · simp only [T, Finset.mem_erase] at hk
      rcases hsep k hk.2.2 hk.2.1 hk.1 with h | h
      · exact fun e => by linarith [ht.1]
      · exact fun e => by linarith [ht.2]
    · exact ((continuous_const.mul (continuous_const.sub continuous_id)).add (continuous_const.mul (continuous_const.sub continuous_id))).continuousOn
  have h0 : P (p a) = w a * (p b - p a) := by simp only [P, sub_self]; ring
  have h1 : P (p b) = w b * (p a - p b) := by simp only [P, sub_self]; ring
  obtain ⟨t, ht, e⟩ := intermediate_value_Ioo' (le_of_lt hab) hc (show (0 : ℝ) ∈ Set.Ioo (P (p b)) (P (p a)) from
    ⟨by rw [h1]; exact mul_neg_of_pos_of_neg wb (by linarith), by rw [h0]; exact mul_pos wa (by linarith)⟩)
  refine ⟨t, ht.1, ht.2, ?_⟩
  have n0 : p a - t ≠ 0 := ne_of_lt (by linarith [ht.1])
  have n1 : p b - t ≠ 0 := ne_of_gt (by linarith [ht.2])
  rw [← Finset.add_sum_erase S _ ha, ← Finset.add_sum_erase (S.erase a) _ hb']
  have e' : (p a - t) * (p b - t) * (c + ∑ k ∈ T, w k / (p k - t)) + (w a * (p b - t) + w b * (p a - t)) = 0 := e
  have : (p a - t) * (p b - t) * (c + (w a / (p a - t) + (w b / (p b - t) + ∑ k ∈ T, w k / (p k - t)))) = 0 := by
    rw [← e']; field_simp; ring
  exact (mul_eq_zero.1 this).resolve_left (mul_ne_zero n0 n1)

theorem last_root {S : Finset ι} {w p : ι → ℝ} {c : ℝ} {a : ι} (ha : a ∈ S) (hw : ∀ k ∈ S, 0 ≤ w k) (wa : 0 < w a) (hc : 0 < c)
    (hsep : ∀ k ∈ S, k ≠ a → p k < p a) : ∃ t, p a < t ∧ c + ∑ k ∈ S, w k / (p k - t) = 0 := by
  let T := S.erase a
  let P := fun t => (p a - t) * (c + ∑ k ∈ T, w k / (p k - t)) + w a
  let W := ∑ k ∈ S, w k
  have hW : 0 ≤ W := Finset.sum_nonneg hw
  let b := p a + (W + 1) / c
  have hab : p a < b := by have : 0 < (W + 1) / c := div_pos (by linarith) hc; show p a < p a + (W + 1) / c; linarith
  have hcn : ContinuousOn P (Set.Icc (p a) b) := by
    refine ContinuousOn.add (ContinuousOn.mul (continuous_const.sub continuous_id).continuousOn (pole_cont fun k hk t ht => ?_)) continuousOn_const
    simp only [T, Finset.mem_erase] at hk
    exact fun e => by linarith [ht.1, hsep k hk.2 hk.1]
  have back : ∀ t, p a < t → P t = (p a - t) * (c + ∑ k ∈ S, w k / (p k - t)) := fun t ht => by
    have n0 : p a - t ≠ 0 := ne_of_lt (by linarith)
    rw [← Finset.add_sum_erase S _ ha]
    show (p a - t) * (c + ∑ k ∈ T, w k / (p k - t)) + w a = (p a - t) * (c + (w a / (p a - t) + ∑ k ∈ T, w k / (p k - t)))
    field_simp; ring
  have h0 : P (p a) = w a := by simp only [P, sub_self]; ring
  have h1 : P b < 0 := by
    rw [back b hab]
    refine mul_neg_of_neg_of_pos (by linarith) ?_
    have hq : b - p a = (W + 1) / c := by show p a + (W + 1) / c - p a = _; ring
    have hq0 : 0 < b - p a := by linarith
    have : ∑ k ∈ S, w k / (p k - b) ≥ ∑ k ∈ S, -(w k / (b - p a)) := Finset.sum_le_sum fun k hk => by
      have hk' : p k ≤ p a := by
        by_cases e : k = a
        · rw [e]
        · exact le_of_lt (hsep k hk e)
      rw [← neg_sub b (p k), div_neg]
      exact neg_le_neg (div_le_div_of_nonneg_left (hw k hk) hq0 (by linarith))
    rw [Finset.sum_neg_distrib, ← Finset.sum_div] at this
    have : W / (b - p a) < c := by rw [hq, div_lt_iff₀ (by rw [← hq]; exact hq0)]; field_simp; linarith
    show 0 < c + _
    linarith
  obtain ⟨t, ht, e⟩ := intermediate_value_Ioo' (le_of_lt hab) hcn (show (0 : ℝ) ∈ Set.Ioo (P b) (P (p a)) from ⟨h1, by rw [h0]; exact wa⟩)
  refine ⟨t, ht.1, ?_⟩
  rw [back t ht.1] at e
  exact (mul_eq_zero.1 e).resolve_left (ne_of_lt (by linarith [ht.1]))

theorem first_root {S : Finset ι} {w p : ι → ℝ} {c : ℝ} {a : ι} (ha : a ∈ S) (hw : ∀ k ∈ S, 0 ≤ w k) (wa : 0 < w a) (hc : c < 0)
    (hsep : ∀ k ∈ S, k ≠ a → p a < p k) : ∃ t, t < p a ∧ c + ∑ k ∈ S, w k / (p k - t) = 0 := by
  obtain ⟨t, h1, h2⟩ := last_root (S := S) (w := w) (p := fun k => -p k) (c := -c) ha hw wa (by linarith) fun k hk e => neg_lt_neg (hsep k hk e)
  refine ⟨-t, by linarith, ?_⟩
  have : ∀ k, w k / (-p k - t) = -(w k / (p k - -t)) := fun k => by rw [← div_neg]; congr 1; ring
  simp only [this, Finset.sum_neg_distrib] at h2
  linarith

end Exist

/-! ## The routines -/

theorem putLoop {a b : Int} {body : Int → Buf ℝ × Buf ℝ → Option (Buf ℝ × Buf ℝ)} {L H : Buf ℝ} (r : Int → ℝ × ℝ) (hb : ∀ j s, a ≤ j → j < b → body j s = putRoot s j (r j)) (h0 : 0 ≤ a)
    (hL : b ≤ L.size) (hH : b ≤ H.size) : forUp a b body (L, H) = some (mix L a b (fun j => (r j).1), mix H a b (fun j => (r j).2)) := by
  obtain ⟨s, e, h⟩ := forUp_spec (lo := a) (hi := b) (body := body) (s := (L, H)) (fun i s => s = (mix L a i (fun j => (r j).1), mix H a i (fun j => (r j).2)))
    (by rw [mix_empty _ (le_refl _), mix_empty _ (le_refl _)]) (fun i i0 i1 s hs => by
      rw [hs, hb i _ i0 i1]
      unfold putRoot
      rw [mix_wr_up (y := fun j => (r j).1) (by omega) (by omega) i0, Option.bind_some, mix_wr_up (y := fun j => (r j).2) (by omega) (by omega) i0]
      exact ⟨_, rfl, rfl⟩)
  rw [e, h]
  rcases le_total a b with h | h
  · rw [max_eq_right h]
  · rw [max_eq_left h, mix_empty _ (le_refl _), mix_empty _ (le_refl _), mix_empty _ h, mix_empty _ h]

/-- What the eigenvalue routines deliver: `hi + lo` are roots of the secular function, in ascending order, and `hi` is a pole. -/
structure IsRoots (A : Dpr1 ℝ) (sigma : ℝ) (lo hi : Buf ℝ) : Prop where
  sl : (lo.size : Int) = A.n
  sh : (hi.size : Int) = A.n
  np : ∀ j, 0 ≤ j → j < A.n → NoPole A.n A.d.val (hi.val j + lo.val j)
  nt : ∀ j, 0 ≤ j → j < A.n → A.rho - sigma * (hi.val j + lo.val j) ≠ 0
  root : ∀ j, 0 ≤ j → j < A.n → secularGF A.n A.d.val A.z.val A.rho sigma (hi.val j + lo.val j) = 0
  near : ∀ j, 0 ≤ j → j < A.n → (∃ i, 0 ≤ i ∧ i < A.n ∧ hi.val j = A.d.val i) ∨ (sigma ≠ 0 ∧ hi.val j = A.rho / sigma)
  lt : ∀ j k, 0 ≤ j → j < k → k < A.n → hi.val j + lo.val j < hi.val k + lo.val k

theorem secularGF_zero {n : Int} {d z : Int → ℝ} {rho t : ℝ} : secularGF n d z rho 0 t = 1 / rho + ∑ i ∈ Finset.Ico 0 n, z i * z i / (d i - t) := by
  unfold secularGF; rw [zero_mul, sub_zero]

theorem midRoot_spec {R : RootFinder ℝ} (hR : Finds R) {A : Dpr1 ℝ} {sigma : ℝ} {f : ℝ → Option ℝ} {up : Bool} {x0 x1 s : ℝ} (hf : f ((x0 + x1) / 2) = some s)
    (ex : ∃ t, x0 < t ∧ t < x1 ∧ secularGF A.n A.d.val A.z.val A.rho sigma t = 0) :
    ∃ r, midRoot R A sigma f up x0 x1 = some r ∧ (r.2 = x0 ∨ r.2 = x1) ∧ x0 < r.2 + r.1 ∧ r.2 + r.1 < x1 ∧ secularGF A.n A.d.val A.z.val A.rho sigma (r.2 + r.1) = 0 := by
  unfold midRoot
  simp only [hf, Option.bind_some]
  generalize hh : (if up then (if s > 0 then x0 else x1) else (if s < 0 then x0 else x1)) = h
  obtain ⟨t, e, h1, h2, h3⟩ := hR.mid A sigma x0 x1 ((x0 + x1) / 2 - h) h ex
  refine ⟨(t, h), by rw [e]; rfl, ?_, h1, h2, h3⟩
  rw [← hh]
  split_ifs <;> simp

section Vals
variable {R : RootFinder ℝ} {A : Dpr1 ℝ} {L H : Buf ℝ}

theorem mid_poles (hs : ∀ i j, 0 ≤ i → i < j → j < A.n → A.d.val i < A.d.val j) {a : Int} (a0 : 0 ≤ a) (a1 : a + 1 < A.n) {t : ℝ} (h0 : A.d.val a < t) (h1 : t < A.d.val (a + 1)) :
    NoPole A.n A.d.val t := fun i i0 i1 e => by
  rcases lt_trichotomy i a with h | h | h
  · linarith [hs i a i0 h (by omega)]
  · rw [h] at e; linarith
  · rcases eq_or_lt_of_le (show a + 1 ≤ i by omega) with h' | h'
    · rw [← h'] at e; linarith
    · linarith [hs (a + 1) i (by omega) h' i1]

theorem mid_exists (hs : ∀ i j, 0 ≤ i → i < j → j < A.n → A.d.val i < A.d.val j) (hz : ∀ i, 0 ≤ i → i < A.n → A.z.val i ≠ 0) {a : Int} (a0 : 0 ≤ a) (a1 : a + 1 < A.n) :
    ∃ t, A.d.val a < t ∧ t < A.d.val (a + 1) ∧ secularGF A.n A.d.val A.z.val A.rho 0 t = 0 := by
  obtain ⟨t, h1, h2, h3⟩ := mid_root (S := Finset.Ico 0 A.n) (w := fun i => A.z.val i * A.z.val i) (p := A.d.val) (c := 1 / A.rho) (a := a) (b := a + 1) (Finset.mem_Ico.2 ⟨a0, by omega⟩)
    (Finset.mem_Ico.2 ⟨by omega, a1⟩) (hs _ _ a0 (by omega) a1) (mul_self_pos.2 (hz a a0 (by omega))) (mul_self_pos.2 (hz _ (by omega) a1)) (fun k hk ka kb => by
      rw [Finset.mem_Ico] at hk
      rcases lt_or_gt_of_ne ka with h | h
      · exact Or.inl (hs _ _ hk.1 h (by omega))
      · exact Or.inr (hs _ _ (by omega) (by omega) hk.2))
  exact ⟨t, h1, h2, by rw [secularGF_zero]; exact h3⟩

theorem mid_run (hR : Finds R) (hs : ∀ i j, 0 ≤ i → i < j → j < A.n → A.d.val i < A.d.val j) (hz : ∀ i, 0 ≤ i → i < A.n → A.z.val i ≠ 0) (hds : A.n ≤ A.d.size) (hzs : A.n ≤ A.z.size)
    (hr : A.rho ≠ 0) (up : Bool) {a : Int} (a0 : 0 ≤ a) (a1 : a + 1 < A.n) :
    ∃ r, midRoot R A 0 (secular A 0) up (A.d.val a) (A.d.val (a + 1)) = some r ∧ (r.2 = A.d.val a ∨ r.2 = A.d.val (a + 1)) ∧ A.d.val a < r.2 + r.1 ∧ r.2 + r.1 < A.d.val (a + 1) ∧
      secularGF A.n A.d.val A.z.val A.rho 0 (r.2 + r.1) = 0 := by
  have hlt := hs a (a + 1) a0 (by omega) a1
  exact midRoot_spec hR (C35_secular hds hzs hr (by rw [add_zero]; exact mid_poles hs a0 a1 (by linarith) (by linarith))) (mid_exists hs hz a0 a1)

theorem isRoots_mk {sigma : ℝ} (hL : (L.size : Int) = A.n) (hH : (H.size : Int) = A.n) (r : Int → ℝ × ℝ)
    (h : ∀ j, 0 ≤ j → j < A.n → NoPole A.n A.d.val ((r j).2 + (r j).1) ∧ A.rho - sigma * ((r j).2 + (r j).1) ≠ 0 ∧ secularGF A.n A.d.val A.z.val A.rho sigma ((r j).2 + (r j).1) = 0 ∧
      ((∃ i, 0 ≤ i ∧ i < A.n ∧ (r j).2 = A.d.val i) ∨ (sigma ≠ 0 ∧ (r j).2 = A.rho / sigma)))
    (lt : ∀ j k, 0 ≤ j → j < k → k < A.n → (r j).2 + (r j).1 < (r k).2 + (r k).1) :
    IsRoots A sigma (mix L 0 A.n fun j => (r j).1) (mix H 0 A.n fun j => (r j).2) where
  sl := hL
  sh := hH
  np j j0 j1 := by rw [mix_val_in j0 j1, mix_val_in j0 j1]; exact (h j j0 j1).1
  nt j j0 j1 := by rw [mix_val_in j0 j1, mix_val_in j0 j1]; exact (h j j0 j1).2.1
  root j j0 j1 := by rw [mix_val_in j0 j1, mix_val_in j0 j1]; exact (h j j0 j1).2.2.1
  near j j0 j1 := by rw [mix_val_in j0 j1]; exact (h j j0 j1).2.2.2
  lt j k j0 jk k1 := by rw [mix_val_in j0 (by omega), mix_val_in j0 (by omega), mix_val_in (by omega) k1, mix_val_in (by omega) k1]; exact lt j k j0 jk k1

theorem eigvals_spec (hR : Finds R) (hn : 0 < A.n) (hs : ∀ i j, 0 ≤ i → i < j → j < A.n → A.d.val i < A.d.val j) (hz : ∀ i, 0 ≤ i → i < A.n → A.z.val i ≠ 0) (hds : A.n ≤ A.d.size)
    (hzs : A.n ≤ A.z.size) (hr : A.rho ≠ 0) (hL : (L.size : Int) = A.n) (hH : (H.size : Int) = A.n) : ∃ lo hi, eigvals R A L H = some (lo, hi) ∧ IsRoots A 0 lo hi := by
  have hsl : ∀ i j, 0 ≤ i → i ≤ j → j < A.n → A.d.val i ≤ A.d.val j := fun i j i0 ij j1 => by
    rcases eq_or_lt_of_le ij with h | h
    · rw [h]
    · exact le_of_lt (hs i j i0 h j1)
  have hw : ∀ k ∈ Finset.Ico 0 A.n, 0 ≤ A.z.val k * A.z.val k := fun k _ => mul_self_nonneg _
  unfold eigvals
  rw [accUp_eq (g := fun i => A.z.val i * A.z.val i) (fun i i0 i1 => by rw [Buf.rd_of i0 (by omega)]; rfl), Option.bind_some, if_neg hr]
  by_cases hp : A.rho > 0
  · rw [if_pos hp]
    have hex : ∀ j, ∃ r : ℝ × ℝ, 0 ≤ j → j + 1 < A.n → midRoot R A 0 (secular A 0) true (A.d.val j) (A.d.val (j + 1)) = some r ∧ (r.2 = A.d.val j ∨ r.2 = A.d.val (j + 1)) ∧
        A.d.val j < r.2 + r.1 ∧ r.2 + r.1 < A.d.val (j + 1) ∧ secularGF A.n A.d.val A.z.val A.rho 0 (r.2 + r.1) = 0 := fun j => by
      by_cases h : 0 ≤ j ∧ j + 1 < A.n
      · obtain ⟨r, hr⟩ := mid_run hR hs hz hds hzs hr true h.1 h.2
        exact ⟨r, fun _ _ => hr⟩
      · exact ⟨(0, 0), fun a b => absurd ⟨a, b⟩ h⟩
    choose r0 hrr using hex
    obtain ⟨t0, ht1, ht2⟩ := last_root (S := Finset.Ico 0 A.n) (w := fun i => A.z.val i * A.z.val i) (p := A.d.val) (c := 1 / A.rho) (a := A.n - 1) (Finset.mem_Ico.2 ⟨by omega, by omega⟩) hw
      (mul_self_pos.2 (hz _ (by omega) (by omega))) (by positivity) (fun k hk ke => by rw [Finset.mem_Ico] at hk; exact hs _ _ hk.1 (by omega) (by omega))
    obtain ⟨t, e, h1, h2⟩ := hR.last A (A.d.val (A.n - 1) + A.rho * (0 + ∑ i ∈ Finset.Ico 0 A.n, A.z.val i * A.z.val i) - A.d.val (A.n - 1)) (A.d.val (A.n - 1)) ⟨t0, ht1, by rw [secularGF_zero]; exact ht2⟩
    let r : Int → ℝ × ℝ := fun j => if j = A.n - 1 then (t, A.d.val (A.n - 1)) else r0 j
    have rl : r (A.n - 1) = (t, A.d.val (A.n - 1)) := if_pos rfl
    have rm : ∀ j, j < A.n - 1 → r j = r0 j := fun j h => if_neg (by omega)
    rw [putLoop r (fun j s j0 j1 => by rw [Buf.rd_of j0 (by omega), Option.bind_some, Buf.rd_of (by omega) (by omega), Option.bind_some, (hrr j j0 (by omega)).1, Option.bind_some, rm j j1]) (le_refl _)
      (by omega) (by omega), Option.bind_some, Buf.rd_of (by omega) (by omega), Option.bind_some, e, Option.bind_some, ← rl]
    unfold putRoot
    rw [mix_wr_up (y := fun j => (r j).1) (by omega) (by omega) (by omega), Option.bind_some, mix_wr_up (y := fun j => (r j).2) (by omega) (by omega) (by omega), Int.sub_add_cancel]
    have low : ∀ j, 0 ≤ j → j < A.n → A.d.val j < (r j).2 + (r j).1 := fun j j0 j1 => by
      by_cases hj : j = A.n - 1
      · rw [hj, rl]; exact h1
      · rw [rm j (by omega)]; exact (hrr j j0 (by omega)).2.2.1
    refine ⟨_, _, rfl, isRoots_mk hL hH r (fun j j0 j1 => ?_) fun j k j0 jk k1 => ?_⟩
    · rw [zero_mul, sub_zero]
      by_cases hj : j = A.n - 1
      · rw [hj, rl]
        exact ⟨fun i i0 i1 => ne_of_lt (lt_of_le_of_lt (hsl i (A.n - 1) i0 (by omega) (by omega)) h1), hr, h2, Or.inl ⟨A.n - 1, by omega, by omega, rfl⟩⟩
      · rw [rm j (by omega)]
        obtain ⟨_, a, b, c, d⟩ := hrr j j0 (by omega)
        refine ⟨mid_poles hs j0 (by omega) b c, hr, d, Or.inl ?_⟩
        rcases a with a | a
        · exact ⟨j, j0, j1, a⟩
        · exact ⟨j + 1, by omega, by omega, a⟩
    · have := low k (by omega) k1
      rw [rm j (by omega)]
      have h3 := (hrr j j0 (by omega)).2.2.2.1
      linarith [hsl (j + 1) k (by omega) (by omega) k1]
  · rw [if_neg hp]
    have hneg : A.rho < 0 := lt_of_le_of_ne (not_lt.1 hp) hr
    have hex : ∀ j, ∃ r : ℝ × ℝ, 1 ≤ j → j < A.n → midRoot R A 0 (secular A 0) false (A.d.val (j - 1)) (A.d.val j) = some r ∧ (r.2 = A.d.val (j - 1) ∨ r.2 = A.d.val j) ∧
        A.d.val (j - 1) < r.2 + r.1 ∧ r.2 + r.1 < A.d.val j ∧ secularGF A.n A.d.val A.z.val A.rho 0 (r.2 + r.1) = 0 := fun j => by
      by_cases h : 1 ≤ j ∧ j < A.n
      · obtain ⟨r, hr⟩ := mid_run hR hs hz hds hzs hr false (a := j - 1) (by omega) (by omega)
        rw [Int.sub_add_cancel] at hr
        exact ⟨r, fun _ _ => hr⟩
      · exact ⟨(0, 0), fun a b => absurd ⟨a, b⟩ h⟩
    choose r0 hrr using hex
    obtain ⟨t0, ht1, ht2⟩ := first_root (S := Finset.Ico 0 A.n) (w := fun i => A.z.val i * A.z.val i) (p := A.d.val) (c := 1 / A.rho) (a := 0) (Finset.mem_Ico.2 ⟨by omega, by omega⟩) hw
      (mul_self_pos.2 (hz _ (by omega) (by omega))) (one_div_neg.2 hneg) (fun k hk ke => by rw [Finset.mem_Ico] at hk; exact hs _ _ (by omega) (by omega) (by omega))
    obtain ⟨t, e, h1, h2⟩ := hR.first A (A.d.val 0 + A.rho * (0 + ∑ i ∈ Finset.Ico 0 A.n, A.z.val i * A.z.val i) - A.d.val 0) (A.d.val 0) ⟨t0, ht1, by rw [secularGF_zero]; exact ht2⟩
    let r : Int → ℝ × ℝ := fun j => if j = 0 then (t, A.d.val 0) else r0 j
    have rl : r 0 = (t, A.d.val 0) := if_pos rfl
    have rm : ∀ j, 0 < j → r j = r0 j := fun j h => if_neg (by omega)
    have w0 : putRoot (L, H) 0 (r 0) = some (mix L 0 1 fun j => (r j).1, mix H 0 1 fun j => (r j).2) := by
      unfold putRoot
      have a1 := mix_wr_up (x := L) (lo := 0) (i := 0) (y := fun j => (r j).1) (by omega) (by omega) (by omega)
      have a2 := mix_wr_up (x := H) (lo := 0) (i := 0) (y := fun j => (r j).2) (by omega) (by omega) (by omega)
      rw [mix_empty _ (le_refl _)] at a1 a2
      simp only [a1, a2, Option.bind_some, Option.map_some, Int.zero_add]
    rw [Buf.rd_of (by omega) (by omega), Option.bind_some, e, Option.bind_some, ← rl, w0, Option.bind_some,
      putLoop r (fun j s j0 j1 => by rw [Buf.rd_of (by omega) (by omega), Option.bind_some, Buf.rd_of (by omega) (by omega), Option.bind_some, (hrr j j0 (by omega)).1, Option.bind_some, rm j (by omega)])
      (by omega) (by show _ ≤ (L.size : Int); omega) (by show _ ≤ (H.size : Int); omega), mix_append (by omega) (by omega), mix_append (by omega) (by omega)]
    have high : ∀ j, 0 ≤ j → j < A.n → (r j).2 + (r j).1 < A.d.val j := fun j j0 j1 => by
      by_cases hj : j = 0
      · rw [hj, rl]; exact h1
      · rw [rm j (by omega)]; exact (hrr j (by omega) (by omega)).2.2.2.1
    refine ⟨_, _, rfl, isRoots_mk hL hH r (fun j j0 j1 => ?_) fun j k j0 jk k1 => ?_⟩
    · rw [zero_mul, sub_zero]
      by_cases hj : j = 0
      · rw [hj, rl]
        exact ⟨fun i i0 i1 => ne_of_gt (lt_of_lt_of_le h1 (hsl 0 i (by omega) (by omega) (by omega))), hr, h2, Or.inl ⟨0, by omega, by omega, rfl⟩⟩
      · rw [rm j (by omega)]
        obtain ⟨_, a, b, c, d⟩ := hrr j (by omega) (by omega)
        refine ⟨mid_poles hs (a := j - 1) (by omega) (by omega) b (by rw [Int.sub_add_cancel]; exact c), hr, d, Or.inl ?_⟩
        rcases a with a | a
        · exact ⟨j - 1, by omega, by omega, a⟩
        · exact ⟨j, by omega, by omega, a⟩
    · have := high j j0 (by omega)
      rw [rm k (by omega)]
      have h3 := (hrr k (by omega) (by omega)).2.2.1
      linarith [hsl j (k - 1) (by omega) (by omega) (by omega)]

theorem eigvalsDef_spec (hR : Finds R) (hn : 0 ≤ A.n) {sigma : ℝ} (hsg : 0 < sigma) (hs : ∀ i j, 0 ≤ i → i < j → j < A.n → A.d.val i < A.d.val j) (hz : ∀ i, 0 ≤ i → i < A.n → A.z.val i ≠ 0)
    (hds : A.n ≤ A.d.size) (hzs : A.n ≤ A.z.size) (ht : NoPole A.n A.d.val (A.rho / sigma)) (hL : (L.size : Int) = A.n) (hH : (H.size : Int) = A.n) :
    ∃ lo hi, eigvalsDef R A sigma L H = some (lo, hi) ∧ IsRoots A sigma lo hi := by
  have hsl : ∀ i j, 0 ≤ i → i ≤ j → j < A.n → A.d.val i ≤ A.d.val j := fun i j i0 ij j1 => by
    rcases eq_or_lt_of_le ij with h | h
    · rw [h]
    · exact le_of_lt (hs i j i0 h j1)
  unfold eigvalsDef
  simp only [if_neg (ne_of_gt hsg), if_pos hsg]
  generalize hτ : A.rho / sigma = τ at *
  obtain ⟨i, e, i0, i1, below, at_⟩ := firstIdx_spec (n := A.n) (c := fun i => (A.d.rd i).map fun di => decide (di > τ)) (b := fun i => decide (A.d.val i > τ)) hn
    (fun i i0 i1 => by rw [Buf.rd_of i0 (by omega)]; rfl)
  simp only [decide_eq_false_iff_not, decide_eq_true_eq, gt_iff_lt, not_lt] at below at_
  rw [e, Option.bind_some]
  have dl : ∀ k, 0 ≤ k → k < i → A.d.val k < τ := fun k k0 k1 => lt_of_le_of_ne (below k k0 k1) (ht k k0 (by omega))
  have dg : ∀ k, i ≤ k → k < A.n → τ < A.d.val k := fun k k0 k1 => lt_of_lt_of_le (at_ (by omega)) (hsl i k i0 k0 k1)
  have frac : ∀ t, 1 / (A.rho - sigma * t) = 1 / sigma / (τ - t) := fun t => by
    rw [← hτ, div_div]; congr 1; field_simp
  let w : Int → ℝ := fun k => if k = -1 then 1 / sigma else A.z.val k * A.z.val k
  let p : Int → ℝ := fun k => if k = -1 then τ else A.d.val k
  have wp : ∀ k ∈ Finset.Ico (-1) A.n, 0 < w k := fun k hk => by
    rw [Finset.mem_Ico] at hk
    show 0 < if k = -1 then 1 / sigma else A.z.val k * A.z.val k
    split_ifs with h
    · positivity
    · exact mul_self_pos.2 (hz k (by omega) hk.2)
  have gf : ∀ t, secularGF A.n A.d.val A.z.val A.rho sigma t = 0 + ∑ k ∈ Finset.Ico (-1) A.n, w k / (p k - t) := fun t => by
    unfold secularGF
    rw [ico_split (lo := -1) (a := 0) (by omega) hn, show Finset.Ico (-1 : Int) 0 = {-1} by decide, Finset.sum_singleton, frac, zero_add]
    congr 1
    exact sum_Ico_congr fun k k0 k1 => by simp only [w, p, if_neg (show k ≠ -1 by omega)]
  have pm1 : p (-1) = τ := if_pos rfl
  have pk : ∀ k, 0 ≤ k → p k = A.d.val k := fun k k0 => if_neg (by omega)
  -- the ends of the interval of root `j`
  let a : Int → Int := fun j => if j < i then j else if j = i then -1 else j - 1
  let b : Int → Int := fun j => if j < i - 1 then j + 1 else if j = i - 1 then -1 else j
  have cases4 : ∀ j, (j < i - 1 ∧ a j = j ∧ b j = j + 1) ∨ (j = i - 1 ∧ a j = j ∧ b j = -1) ∨ (j = i ∧ a j = -1 ∧ b j = j) ∨ (i < j ∧ a j = j - 1 ∧ b j = j) := fun j => by
    simp only [a, b]
    split_ifs <;> omega
  have slot : ∀ j, 0 ≤ j → j < A.n → rootSlot A τ (i - 1) j = some (p (a j), p (b j)) := fun j j0 j1 => by
    unfold rootSlot
    rcases cases4 j with ⟨c, ha, hb⟩ | ⟨c, ha, hb⟩ | ⟨c, ha, hb⟩ | ⟨c, ha, hb⟩ <;> rw [ha, hb]
    · rw [if_pos c, pk j j0, pk _ (by omega), Buf.rd_of j0 (by omega), Option.bind_some, Buf.rd_of (by omega) (by omega)]; rfl
    · rw [if_neg (by omega), if_pos c, pk j j0, pm1, Buf.rd_of j0 (by omega)]; rfl
    · rw [if_neg (by omega), if_neg (by omega), if_pos (by omega), pm1, pk j j0, Buf.rd_of j0 (by omega)]; rfl
    · rw [if_neg (by omega), if_neg (by omega), if_neg (by omega), pk _ (by omega), pk j j0, Buf.rd_of (by omega) (by omega), Option.bind_some, Buf.rd_of (by omega) (by omega)]; rfl
  have rng : ∀ j, 0 ≤ j → j < A.n → a j ∈ Finset.Ico (-1) A.n ∧ b j ∈ Finset.Ico (-1) A.n := fun j j0 j1 => by
    simp only [Finset.mem_Ico]
    rcases cases4 j with ⟨c, ha, hb⟩ | ⟨c, ha, hb⟩ | ⟨c, ha, hb⟩ | ⟨c, ha, hb⟩ <;> rw [ha, hb] <;> omega
  have ab : ∀ j, 0 ≤ j → j < A.n → p (a j) < p (b j) := fun j j0 j1 => by
    rcases cases4 j with ⟨c, ha, hb⟩ | ⟨c, ha, hb⟩ | ⟨c, ha, hb⟩ | ⟨c, ha, hb⟩ <;> rw [ha, hb]
    · rw [pk j j0, pk _ (by omega)]; exact hs _ _ j0 (by omega) (by omega)
    · rw [pk j j0, pm1]; exact dl j j0 (by omega)
    · rw [pk j j0, pm1]; exact dg j (by omega) j1
    · rw [pk j j0, pk _ (by omega)]; exact hs _ _ (by omega) (by omega) j1
  have sep : ∀ j, 0 ≤ j → j < A.n → ∀ k ∈ Finset.Ico (-1) A.n, k ≠ a j → k ≠ b j → p k < p (a j) ∨ p (b j) < p k := fun j j0 j1 k hk ka kb => by
    rw [Finset.mem_Ico] at hk
    rcases cases4 j with ⟨c, ha, hb⟩ | ⟨c, ha, hb⟩ | ⟨c, ha, hb⟩ | ⟨c, ha, hb⟩ <;> rw [ha] at ka ⊢ <;> rw [hb] at kb ⊢
    · rw [pk j j0, pk (j + 1) (by omega)]
      by_cases hk1 : k = -1
      · rw [hk1, pm1]; exact Or.inr (dl _ (by omega) (by omega))
      · rw [pk k (by omega)]
        rcases lt_or_ge k j with h | h
        · exact Or.inl (hs _ _ (by omega) h j1)
        · exact Or.inr (hs _ _ (by omega) (by omega) hk.2)
    · rw [pk j j0, pm1, pk k (by omega)]
      rcases lt_or_ge k j with h | h
      · exact Or.inl (hs _ _ (by omega) h j1)
      · exact Or.inr (dg k (by omega) hk.2)
    · rw [pk j j0, pm1, pk k (by omega)]
      rcases lt_or_ge k j with h | h
      · exact Or.inl (dl k (by omega) (by omega))
      · exact Or.inr (hs _ _ (by omega) (by omega) hk.2)
    · rw [pk j j0, pk (j - 1) (by omega)]
      by_cases hk1 : k = -1
      · rw [hk1, pm1]; exact Or.inl (dg _ (by omega) (by omega))
      · rw [pk k (by omega)]
        rcases lt_or_ge k j with h | h
        · exact Or.inl (hs _ _ (by omega) (by omega) (by omega))
        · exact Or.inr (hs _ _ (by omega) (by omega) hk.2)
  have free : ∀ j, 0 ≤ j → j < A.n → ∀ t, p (a j) < t → t < p (b j) → ∀ k ∈ Finset.Ico (-1) A.n, p k ≠ t := fun j j0 j1 t h0 h1 k hk e => by
    by_cases ka : k = a j
    · rw [ka] at e; linarith
    · by_cases kb : k = b j
      · rw [kb] at e; linarith
      · rcases sep j j0 j1 k hk ka kb with h | h <;> linarith
  have next : ∀ j k, 0 ≤ j → j < k → k < A.n → p (b j) ≤ p (a k) := fun j k j0 jk k1 => by
    have hb := (rng j j0 (by omega)).2
    have hka := (rng k (by omega) k1).1
    rw [Finset.mem_Ico] at hb hka
    rcases cases4 j with ⟨c, _, e⟩ | ⟨c, _, e⟩ | ⟨c, _, e⟩ | ⟨c, _, e⟩ <;> rcases cases4 k with ⟨c', e', _⟩ | ⟨c', e', _⟩ | ⟨c', e', _⟩ | ⟨c', e', _⟩ <;> rw [e, e'] <;>
      first
      | omega
      | (rw [pm1]; done)
      | (rw [pk _ (by omega), pk _ (by omega)]; exact hsl _ _ (by omega) (by omega) (by omega))
      | (rw [pm1, pk _ (by omega)]; exact le_of_lt (dl _ (by omega) (by omega)))
      | (rw [pm1, pk _ (by omega)]; exact le_of_lt (dg _ (by omega) (by omega)))
      | exact le_refl _
  have np : ∀ t, (∀ k ∈ Finset.Ico (-1) A.n, p k ≠ t) → NoPole A.n A.d.val t ∧ A.rho - sigma * t ≠ 0 := fun t h => by
    refine ⟨fun k k0 k1 e => h k (Finset.mem_Ico.2 ⟨by omega, k1⟩) (by rw [pk k k0, e]), fun e => h (-1) (Finset.mem_Ico.2 ⟨by omega, by omega⟩) ?_⟩
    rw [pm1, ← hτ]
    rw [div_eq_iff (ne_of_gt hsg)]
    linarith
  have hex : ∀ j, ∃ r : ℝ × ℝ, 0 ≤ j → j < A.n → midRoot R A sigma (secularG A sigma 0) true (p (a j)) (p (b j)) = some r ∧ (r.2 = p (a j) ∨ r.2 = p (b j)) ∧
      p (a j) < r.2 + r.1 ∧ r.2 + r.1 < p (b j) ∧ secularGF A.n A.d.val A.z.val A.rho sigma (r.2 + r.1) = 0 := fun j => by
    by_cases h : 0 ≤ j ∧ j < A.n
    · have hlt := ab j h.1 h.2
      obtain ⟨t, h1, h2, h3⟩ := mid_root (c := 0) (rng j h.1 h.2).1 (rng j h.1 h.2).2 hlt (wp _ (rng j h.1 h.2).1) (wp _ (rng j h.1 h.2).2) (sep j h.1 h.2)
      obtain ⟨n1, n2⟩ := np ((p (a j) + p (b j)) / 2) (free j h.1 h.2 _ (by linarith) (by linarith))
      obtain ⟨r, hr⟩ := midRoot_spec hR (A := A) (sigma := sigma) (up := true) (x0 := p (a j)) (x1 := p (b j)) (f := secularG A sigma 0)
        (C35_secular_generalised hds hzs (ne_of_gt hsg) (by rw [add_zero]; exact n2) (by rw [add_zero]; exact n1)) ⟨t, h1, h2, by rw [gf]; exact h3⟩
      exact ⟨r, fun _ _ => hr⟩
    · exact ⟨(0, 0), fun a b => absurd ⟨a, b⟩ h⟩
  choose r hr using hex
  rw [putLoop r (fun j s j0 j1 => by
    have := ab j j0 j1
    rw [slot j j0 j1, Option.bind_some]
    rw [if_neg (by simp only [not_or]; exact ⟨fun e => by linarith, fun e => by linarith⟩), (hr j j0 j1).1, Option.bind_some]) (le_refl _) (by omega) (by omega)]
  refine ⟨_, _, rfl, isRoots_mk hL hH r (fun j j0 j1 => ?_) fun j k j0 jk k1 => ?_⟩
  · obtain ⟨_, h1, h2, h3, h4⟩ := hr j j0 j1
    obtain ⟨n1, n2⟩ := np _ (free j j0 j1 _ h2 h3)
    have fin : ∀ k ∈ Finset.Ico (-1) A.n, (r j).2 = p k → (∃ i, 0 ≤ i ∧ i < A.n ∧ (r j).2 = A.d.val i) ∨ (sigma ≠ 0 ∧ (r j).2 = A.rho / sigma) := fun k hk e => by
      rw [Finset.mem_Ico] at hk
      by_cases hk1 : k = -1
      · rw [hk1, pm1] at e; exact Or.inr ⟨ne_of_gt hsg, by rw [e, hτ]⟩
      · rw [pk k (by omega)] at e; exact Or.inl ⟨k, by omega, hk.2, e⟩
    exact ⟨n1, n2, h4, h1.elim (fin _ (rng j j0 j1).1) (fin _ (rng j j0 j1).2)⟩
  · have h1 := (hr j j0 (by omega)).2.2.2.1
    have h2 := (hr k (by omega) k1).2.2.1
    linarith [next j k j0 jk k1]

end Vals

end FT
