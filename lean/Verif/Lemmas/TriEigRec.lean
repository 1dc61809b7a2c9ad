import Verif.Model.TriEig
import Mathlib.Tactic.Ring
import Mathlib.Tactic.LinearCombination
import Mathlib.Tactic.FieldSimp

/-! # Lemmas for C68: what one QL sweep does to the recurrences -/

namespace FT
variable {K : Type*} [Field K] [LinearOrder K]

/-- The columns `a`, `a + 1` rotated. -/
def rotC (c s : K) (a : Int) (u : Int → K) (j : Int) : K := if j = a then c * u a - s * u (a + 1) else if j = a + 1 then s * u a + c * u (a + 1) else u j

theorem rotC_l {c s : K} {a : Int} {u : Int → K} : rotC c s a u a = c * u a - s * u (a + 1) := if_pos rfl
theorem rotC_r {c s : K} {a : Int} {u : Int → K} : rotC c s a u (a + 1) = s * u a + c * u (a + 1) := by
  unfold rotC; rw [if_neg (by omega), if_pos rfl]
theorem rotC_o {c s : K} {a j : Int} {u : Int → K} (h1 : j ≠ a) (h2 : j ≠ a + 1) : rotC c s a u j = u j := by
  unfold rotC; rw [if_neg h1, if_neg h2]

/-- Row `j` of a tridiagonal matrix that starts at `l`. -/
def triRow (d e : Int → K) (l : Int) (u : Int → K) (j : Int) : K := (if l < j then e (j - 1) * u (j - 1) else 0) + d j * u j + e j * u (j + 1)

/-- `w = u B` with `B` diagonal above `l` and tridiagonal (plus `f`) from there. -/
structure R0 (n l : Int) (d e : Int → K) (f : K) (w u : Int → K) : Prop where
  fin : ∀ j, 0 ≤ j → j < l → w j = d j * u j
  low : ∀ j, l ≤ j → j < n → w j = f * u j + triRow d e l u j

/-- The same in the middle of a sweep, when the rotations down to `i` were made. -/
structure R1 (n l i : Int) (d e : Int → K) (f c s p : K) (w u : Int → K) : Prop where
  fin : ∀ j, 0 ≤ j → j < l → w j = d j * u j
  low : ∀ j, l ≤ j → j < i - 1 → w j = f * u j + triRow d e l u j
  nxt : l ≤ i - 1 → w (i - 1) = f * u (i - 1) + (if l < i - 1 then e (i - 2) * u (i - 2) else 0) + d (i - 1) * u (i - 1) + e (i - 1) * (c * u i + s * u (i + 1))
  cur : w i = f * u i + (if l < i then c * e (i - 1) * u (i - 1) else 0) + p * (c * u i + s * u (i + 1))
  top : i + 1 < n → w (i + 1) = f * u (i + 1) + (if l < i then s * e (i - 1) * u (i - 1) else 0) + s * p * u i + d (i + 1) * u (i + 1) + e (i + 1) * u (i + 2)
  high : ∀ j, i + 2 ≤ j → j < n → w j = f * u j + triRow d e l u j

/-- Before the sweep. -/
theorem r1_start {n l m : Int} (h1 : l < m) (h2 : m < n) {d e : Int → K} {f : K} {w u : Int → K} (h : R0 n l d (Function.update e m 0) f w u) : R1 n l m d e f 1 0 (d m) w u := by
  have hm : Function.update e m 0 m = 0 := Function.update_self _ _ _
  have ho : ∀ j, j ≠ m → Function.update e m 0 j = e j := fun j hj => Function.update_of_ne hj _ _
  refine ⟨h.fin, fun j j0 j1 => ?_, fun hl => ?_, ?_, fun hn => ?_, fun j j0 j1 => ?_⟩
  · rw [h.low j j0 (by omega)]
    unfold triRow
    rw [ho _ (by omega), ho _ (by omega)]
  · rw [h.low _ hl (by omega)]
    unfold triRow
    rw [ho _ (by omega), ho _ (by omega), show m - 1 - 1 = m - 2 by omega, show m - 1 + 1 = m by omega]
    ring
  · rw [h.low _ (by omega) h2]
    unfold triRow
    rw [ho _ (by omega), hm, if_pos h1, if_pos h1]
    ring
  · rw [h.low _ (by omega) hn]
    unfold triRow
    rw [ho (m + 1) (by omega), if_pos (by omega), if_pos h1, show m + 1 - 1 = m by omega, hm, show m + 1 + 1 = m + 2 by omega]
    ring
  · rw [h.low j (by omega) j1]
    unfold triRow
    rw [ho _ (by omega), ho _ (by omega)]

/-- One rotation. -/
theorem r1_step {n l a : Int} (h1 : l ≤ a) {d e : Int → K} {f c s p c' s' r : K} {w u : Int → K} (h : R1 n l (a + 1) d e f c s p w u) (he : e a = s' * r) (hp : p = c' * r)
    (hcs : c' * c' + s' * s' = 1) :
    R1 n l a (Function.update d (a + 1) (c * p + s' * (c' * (c * e a) + s' * d a))) (Function.update e (a + 1) (s * r)) f c' s' (c' * d a - s' * (c * e a)) (rotC c' s' a w) (rotC c' s' a u) := by
  have hd : ∀ j, j ≠ a + 1 → Function.update d (a + 1) (c * p + s' * (c' * (c * e a) + s' * d a)) j = d j := fun j hj => Function.update_of_ne hj _ _
  have hE : ∀ j, j ≠ a + 1 → Function.update e (a + 1) (s * r) j = e j := fun j hj => Function.update_of_ne hj _ _
  have hd1 : Function.update d (a + 1) (c * p + s' * (c' * (c * e a) + s' * d a)) (a + 1) = c * p + s' * (c' * (c * e a) + s' * d a) := Function.update_self _ _ _
  have hE1 : Function.update e (a + 1) (s * r) (a + 1) = s * r := Function.update_self _ _ _
  have nxt := h.nxt (by omega)
  have cur := h.cur
  rw [show a + 1 - 1 = a by omega, show a + 1 - 2 = a - 1 by omega, show a + 1 + 1 = a + 2 by omega] at nxt
  rw [show a + 1 - 1 = a by omega, show a + 1 + 1 = a + 2 by omega, if_pos (by omega)] at cur
  refine ⟨fun j j0 j1 => ?_, fun j j0 j1 => ?_, fun hl => ?_, ?_, fun hn => ?_, fun j j0 j1 => ?_⟩
  · rw [rotC_o (by omega) (by omega), rotC_o (by omega) (by omega), hd _ (by omega), h.fin j j0 j1]
  · rw [rotC_o (by omega) (by omega), h.low j j0 (by omega)]
    unfold triRow
    rw [hd _ (by omega), hE _ (by omega), hE _ (by omega), rotC_o (by omega) (by omega), rotC_o (by omega) (by omega), rotC_o (by omega) (by omega)]
  · rw [rotC_o (by omega) (by omega), rotC_o (by omega) (by omega), rotC_o (by omega) (by omega), rotC_l, rotC_r, h.low (a - 1) hl (by omega), hd _ (by omega), hE _ (by omega), hE _ (by omega)]
    unfold triRow
    rw [show a - 1 - 1 = a - 2 by omega, show a - 1 + 1 = a by omega]
    linear_combination (-(e (a - 1) * u a)) * hcs
  · rw [rotC_l, rotC_l, rotC_r, nxt, cur, hE _ (by omega), he, hp]
    by_cases hl : l < a
    · rw [if_pos hl, if_pos hl, rotC_o (by omega) (by omega)]
      linear_combination (-(c' * d a - s' * c * s' * r) * u a) * hcs
    · rw [if_neg hl, if_neg hl]
      linear_combination (-(c' * d a - s' * c * s' * r) * u a) * hcs
  · rw [rotC_r, rotC_r, rotC_l, nxt, cur, hE _ (by omega), hd1, hE1, rotC_o (j := a + 2) (by omega) (by omega), he, hp]
    by_cases hl : l < a
    · rw [if_pos hl, if_pos hl, rotC_o (by omega) (by omega)]
      linear_combination (-s' * d a * u a - c * r * s' * s' * u (a + 1) + s * r * u (a + 2)) * hcs
    · rw [if_neg hl, if_neg hl]
      linear_combination (-s' * d a * u a - c * r * s' * s' * u (a + 1) + s * r * u (a + 2)) * hcs
  · rw [rotC_o (by omega) (by omega)]
    by_cases hj : j = a + 2
    · subst hj
      have top := h.top (by omega)
      rw [show a + 1 + 1 = a + 2 by omega, show a + 1 - 1 = a by omega, show a + 1 + 2 = a + 3 by omega, if_pos (by omega)] at top
      rw [top]
      unfold triRow
      rw [if_pos (by omega), show a + 2 - 1 = a + 1 by omega, hE1, hd _ (by omega), hE _ (by omega), rotC_r, rotC_o (by omega) (by omega), rotC_o (by omega) (by omega), he, hp,
        show a + 2 + 1 = a + 3 by omega]
      ring
    · rw [h.high j (by omega) j1]
      unfold triRow
      rw [hd _ (by omega), hE _ (by omega), hE _ (by omega), rotC_o (by omega) (by omega), rotC_o (by omega) (by omega), rotC_o (by omega) (by omega)]

/-- After the sweep. -/
theorem r1_end {n l : Int} {d e : Int → K} {f c s p : K} {w u : Int → K} (h : R1 n l l d e f c s p w u) (hl : l + 1 < n) :
    R0 n l (Function.update d l (c * p)) (Function.update e l (s * p)) f w u := by
  have hd : ∀ j, j ≠ l → Function.update d l (c * p) j = d j := fun j hj => Function.update_of_ne hj _ _
  have hE : ∀ j, j ≠ l → Function.update e l (s * p) j = e j := fun j hj => Function.update_of_ne hj _ _
  have hd1 : Function.update d l (c * p) l = c * p := Function.update_self _ _ _
  have hE1 : Function.update e l (s * p) l = s * p := Function.update_self _ _ _
  refine ⟨fun j j0 j1 => by rw [hd _ (by omega)]; exact h.fin j j0 j1, fun j j0 j1 => ?_⟩
  by_cases h0 : j = l
  · subst h0
    rw [h.cur, if_neg (by omega)]
    unfold triRow
    rw [if_neg (by omega), hd1, hE1]
    ring
  · by_cases h2 : j = l + 1
    · subst h2
      rw [h.top hl, if_neg (by omega)]
      unfold triRow
      rw [if_pos (by omega), show l + 1 - 1 = l by omega, hE1, hd _ (by omega), hE _ (by omega), show l + 1 + 1 = l + 2 by omega]
      ring
    · rw [h.high j (by omega) j1]
      unfold triRow
      rw [hd _ (by omega), hE _ (by omega), hE _ (by omega)]

/-- The shift. -/
theorem r0_shift {n l : Int} {d d' e : Int → K} {f g : K} {w u : Int → K} (h : R0 n l d e f w u) (h1 : ∀ j, 0 ≤ j → j < l → d' j = d j) (h2 : ∀ j, l ≤ j → j < n → d' j = d j - g) :
    R0 n l d' e (f + g) w u := by
  refine ⟨fun j j0 j1 => by rw [h1 j j0 j1]; exact h.fin j j0 j1, fun j j0 j1 => ?_⟩
  rw [h.low j j0 j1]
  unfold triRow
  rw [h2 j j0 j1]
  ring

/-- The entry `e_l` is gone: one more eigenvalue. -/
theorem r0_next {n l : Int} (hn : l < n) {d e : Int → K} {f : K} {w u : Int → K} (h : R0 n l d (Function.update e l 0) f w u) : R0 n (l + 1) (Function.update d l (d l + f)) e f w u := by
  have hm : Function.update e l 0 l = 0 := Function.update_self _ _ _
  have ho : ∀ j, j ≠ l → Function.update e l 0 j = e j := fun j hj => Function.update_of_ne hj _ _
  refine ⟨fun j j0 j1 => ?_, fun j j0 j1 => ?_⟩
  · by_cases h0 : j = l
    · subst h0
      rw [h.low j (le_refl _) hn, Function.update_self]
      unfold triRow
      rw [if_neg (by omega), hm]
      ring
    · rw [Function.update_of_ne h0, h.fin j j0 (by omega)]
  · rw [h.low j (by omega) j1]
    unfold triRow
    rw [Function.update_of_ne (f := d) (show j ≠ l by omega), ho j (by omega)]
    by_cases h0 : j = l + 1
    · subst h0
      rw [if_pos (by omega), if_neg (by omega), show l + 1 - 1 = l by omega, hm, zero_mul]
    · rw [if_pos (by omega), if_pos (by omega), ho _ (by omega)]

end FT
