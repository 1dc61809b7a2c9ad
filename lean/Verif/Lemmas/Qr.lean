import Verif.Lemmas.Factor
import Verif.Lemmas.RankOne
import Mathlib.Algebra.BigOperators.Intervals

/-! # Lemmas on Householder reflections of banded matrices -/

namespace FT
variable {K : Type*}

section Ring
variable [CommRing K]

/-- The reflection `x ↦ x - t w (w·x)` of the rows `[p, q)`. -/
noncomputable def hh (p q : Int) (w : Int → K) (t : K) (x : Int → K) (r : Int) : K :=
  if p ≤ r ∧ r < q then x r - w r * (t * ∑ i ∈ Finset.Ico p q, w i * x i) else x r

/-- The vector of a reflector: one at the pivot. -/
def unitAt (j : Int) (v : Int → K) (r : Int) : K := if r = j then 1 else v r

theorem hh_out {p q : Int} {w : Int → K} {t : K} {x : Int → K} {r : Int} (h : ¬ (p ≤ r ∧ r < q)) : hh p q w t x r = x r := if_neg h

theorem hh_congr {p q : Int} {w w' : Int → K} {t : K} {x y : Int → K} (hw : ∀ r, p ≤ r → r < q → w r = w' r) (h : ∀ r, p ≤ r → r < q → x r = y r) {r : Int} (hr : x r = y r) :
    hh p q w t x r = hh p q w' t y r := by
  unfold hh
  rw [sum_Ico_congr (f := fun i => w i * x i) (g := fun i => w' i * y i) fun k k0 k1 => by rw [hw k k0 k1, h k k0 k1], hr]
  by_cases h' : p ≤ r ∧ r < q
  · rw [if_pos h', if_pos h', hw r h'.1 h'.2]
  · rw [if_neg h', if_neg h']

theorem hh_zero {p q : Int} {w : Int → K} {t : K} {x : Int → K} (h : ∀ r, p ≤ r → r < q → x r = 0) (r : Int) : hh p q w t x r = x r := by
  unfold hh
  rw [Finset.sum_eq_zero fun k hk => by rw [Finset.mem_Ico] at hk; rw [h k hk.1 hk.2, mul_zero], mul_zero, mul_zero, sub_zero, ite_self]

theorem hh_shift {p q d : Int} {w : Int → K} {t : K} {x : Int → K} (r : Int) : hh (p + d) (q + d) w t x (r + d) = hh p q (fun i => w (i + d)) t (fun i => x (i + d)) r := by
  unfold hh
  rw [← Finset.sum_Ico_add' (fun i => w i * x i) p q d]
  exact if_congr (by omega) rfl rfl

theorem hh_hh {p q : Int} {w : Int → K} {t : K} (hu : t * (t * (∑ i ∈ Finset.Ico p q, w i * w i) - 2) = 0) (x : Int → K) (r : Int) : hh p q w t (hh p q w t x) r = x r := by
  have e : ∑ i ∈ Finset.Ico p q, w i * hh p q w t x i = (∑ i ∈ Finset.Ico p q, w i * x i) - (∑ i ∈ Finset.Ico p q, w i * w i) * (t * ∑ i ∈ Finset.Ico p q, w i * x i) := by
    rw [Finset.sum_mul, ← Finset.sum_sub_distrib]
    refine sum_Ico_congr fun k k0 k1 => ?_
    unfold hh; rw [if_pos ⟨k0, k1⟩]; ring
  by_cases h : p ≤ r ∧ r < q
  · have : hh p q w t (hh p q w t x) r = hh p q w t x r - w r * (t * ∑ i ∈ Finset.Ico p q, w i * hh p q w t x i) := if_pos h
    rw [this, e, show hh p q w t x r = x r - w r * (t * ∑ i ∈ Finset.Ico p q, w i * x i) from if_pos h]
    linear_combination (w r * ∑ i ∈ Finset.Ico p q, w i * x i) * hu
  · rw [hh_out h, hh_out h]

theorem hh_dot {p q a b : Int} (ha : a ≤ p) (hb : q ≤ b) (w : Int → K) (t : K) (x y : Int → K) :
    ∑ r ∈ Finset.Ico a b, hh p q w t x r * y r = ∑ r ∈ Finset.Ico a b, x r * y r - t * (∑ i ∈ Finset.Ico p q, w i * x i) * ∑ i ∈ Finset.Ico p q, w i * y i := by
  have e : ∀ r, hh p q w t x r * y r = x r * y r - if p ≤ r ∧ r < q then t * (∑ i ∈ Finset.Ico p q, w i * x i) * (w r * y r) else 0 := fun r => by
    unfold hh; split_ifs <;> ring
  rw [Finset.sum_congr rfl fun r _ => e r, Finset.sum_sub_distrib, sum_Ico_shrink (lo := a) (hi := b) (lo' := p) (hi' := q) (fun k _ _ h => if_neg h) ha hb, Finset.mul_sum _ (fun i => w i * y i)]
  congr 1
  exact sum_Ico_congr fun k k0 k1 => if_pos ⟨k0, k1⟩

/-- Reflections are symmetric. -/
theorem hh_symm {p q a b : Int} (ha : a ≤ p) (hb : q ≤ b) (w : Int → K) (t : K) (x y : Int → K) :
    ∑ r ∈ Finset.Ico a b, hh p q w t x r * y r = ∑ r ∈ Finset.Ico a b, x r * hh p q w t y r := by
  rw [hh_dot ha hb, Finset.sum_congr rfl fun r _ => mul_comm (x r) (hh p q w t y r), hh_dot ha hb, Finset.sum_congr rfl fun r _ => mul_comm (x r) (y r)]
  ring

/-- Reflections preserve inner products. -/
theorem hh_isom {p q a b : Int} (ha : a ≤ p) (hb : q ≤ b) {w : Int → K} {t : K} (hu : t * (t * (∑ i ∈ Finset.Ico p q, w i * w i) - 2) = 0) (x y : Int → K) :
    ∑ r ∈ Finset.Ico a b, hh p q w t x r * hh p q w t y r = ∑ r ∈ Finset.Ico a b, x r * y r := by
  rw [hh_symm ha hb]
  exact Finset.sum_congr rfl fun r _ => by rw [hh_hh hu]

/-- `t` and `x'` (the scaled vector, with the new entry at the pivot `j`) are a reflector for the column `x`. -/
structure ReflOf (p q j : Int) (x : Int → K) (t : K) (x' : Int → K) : Prop where
  unit : t * (t * (∑ i ∈ Finset.Ico p q, unitAt j x' i * unitAt j x' i) - 2) = 0
  maps : ∀ r, p ≤ r → r < q → hh p q (unitAt j x') t x r = if r = j then x' j else 0

theorem unitAt_congr {j : Int} {v v' : Int → K} {r : Int} (h : v r = v' r) : unitAt j v r = unitAt j v' r := by unfold unitAt; rw [h]

theorem ReflOf.congr {p q j : Int} {x x' y y' : Int → K} {t : K} (h : ReflOf p q j x t x') (hj : p ≤ j ∧ j < q) (e : ∀ r, p ≤ r → r < q → x r = y r) (e' : ∀ r, p ≤ r → r < q → x' r = y' r) : ReflOf p q j y t y' := by
  refine ⟨?_, fun r r0 r1 => ?_⟩
  · rw [← h.unit, sum_Ico_congr (f := fun i => unitAt j y' i * unitAt j y' i) (g := fun i => unitAt j x' i * unitAt j x' i) fun k k0 k1 => by rw [unitAt_congr (e' k k0 k1)]]
  · rw [← hh_congr (w := unitAt j x') (fun r r0 r1 => unitAt_congr (e' r r0 r1)) e (e r r0 r1), h.maps r r0 r1, e' j hj.1 hj.2]

theorem ReflOf.shift {p q j d : Int} {x x' : Int → K} {t : K} (h : ReflOf (p + d) (q + d) (j + d) x t x') : ReflOf p q j (fun i => x (i + d)) t (fun i => x' (i + d)) := by
  have hu : ∀ i, unitAt (j + d) x' (i + d) = unitAt j (fun i => x' (i + d)) i := fun i => by unfold unitAt; exact if_congr (by omega) rfl rfl
  refine ⟨?_, fun r r0 r1 => ?_⟩
  · have := h.unit
    rw [← Finset.sum_Ico_add' (fun i => unitAt (j + d) x' i * unitAt (j + d) x' i) p q d] at this
    simpa only [hu] using this
  · have := h.maps (r + d) (by omega) (by omega)
    rw [hh_shift] at this
    simp only [hu] at this
    rw [this]
    exact if_congr (by omega) rfl rfl

end Ring

section Field
variable [Field K] [LinearOrder K]

theorem applyReflector_eq' {len o p : Int} {V X : Buf K} {t : K} (h1 : 1 ≤ len) (o0 : 0 ≤ o) (o1 : o + len ≤ V.size) (p0 : 0 ≤ p) (p1 : p + len ≤ X.size) :
    applyReflector len V o t p X = some ⟨X.size, hh p (p + len) (fun s => unitAt o V.val (s - p + o)) t X.val⟩ := by
  unfold applyReflector
  have hsum : X.val p + ∑ i ∈ Finset.Ico 1 len, V.val (o + i) * X.val (p + i) = ∑ i ∈ Finset.Ico p (p + len), unitAt o V.val (i - p + o) * X.val i := by
    rw [show p + len = len + p by ring, show Finset.Ico p (len + p) = Finset.Ico (0 + p) (len + p) by rw [zero_add], ← Finset.sum_Ico_add' (fun i => unitAt o V.val (i - p + o) * X.val i) 0 len p,
      sum_Ico_pred (show (0 : Int) < len by omega)]
    congr 1
    · unfold unitAt; rw [if_pos (by ring), one_mul, zero_add]
    · refine sum_Ico_congr fun k k0 k1 => ?_
      unfold unitAt; rw [if_neg (by omega), add_sub_cancel_right, add_comm k o, add_comm k p]
  rw [if_neg (by omega), Buf.rd_of p0 (by omega), Option.bind_some, accUp_eq (g := fun i => V.val (o + i) * X.val (p + i)) fun k k0 k1 => by
    rw [Buf.rd_of (b := V) (by omega) (by omega), Option.bind_some, Buf.rd_of (b := X) (by omega) (by omega), Option.map_some], Option.bind_some, hsum, Buf.wr_of p0 (by omega), Option.bind_some]
  generalize hS : ∑ i ∈ Finset.Ico p (p + len), unitAt o V.val (i - p + o) * X.val i = S
  rw [sweepOff_eq (fun i => X.val (p + i) - V.val (o + i) * (S * t)) (by omega) (by show p + len ≤ (X.size : Int); omega)]
  · congr 1
    refine Buf.ext' rfl fun s => ?_
    show (if p + 1 ≤ s ∧ s < p + len then X.val (p + (s - p)) - V.val (o + (s - p)) * (S * t) else Function.update X.val p (X.val p - S * t) s) = if p ≤ s ∧ s < p + len then X.val s - unitAt o V.val (s - p + o) * (t * _) else X.val s
    rw [hS, Function.update_apply]
    unfold unitAt
    by_cases h : s = p
    · subst h
      rw [if_neg (by omega), if_pos rfl, if_pos (by omega), if_pos (by omega)]; ring
    · by_cases h' : p + 1 ≤ s ∧ s < p + len
      · rw [if_pos h', if_pos (by omega), if_neg (by omega), show p + (s - p) = s by ring, show o + (s - p) = s - p + o by ring]; ring
      · rw [if_neg h', if_neg h, if_neg (by omega)]
  · intro i i0 i1
    rw [Buf.rd_of (b := mix _ _ _ _) (by omega) (by show p + i < (X.size : Int); omega), Option.bind_some, Buf.rd_of (b := V) (by omega) (by omega), Option.map_some, mix_val_out (by omega)]
    show some (Function.update X.val p _ (p + i) - _) = _
    rw [Function.update_of_ne (by omega)]

theorem applyQlReflector_eq {len o p : Int} {V X : Buf K} {t : K} (h1 : 1 ≤ len) (o0 : 0 ≤ o) (o1 : o + len ≤ V.size) (p0 : 0 ≤ p) (p1 : p + len ≤ X.size) :
    applyQlReflector len V o t p X = some ⟨X.size, hh p (p + len) (fun s => unitAt (o + (len - 1)) V.val (s - p + o)) t X.val⟩ := by
  unfold applyQlReflector
  have hsum : X.val (p + (len - 1)) + ∑ i ∈ Finset.Ico 0 (len - 1), V.val (o + i) * X.val (p + i) = ∑ i ∈ Finset.Ico p (p + len), unitAt (o + (len - 1)) V.val (i - p + o) * X.val i := by
    rw [show p + len = len + p by ring, show Finset.Ico p (len + p) = Finset.Ico (0 + p) (len + p) by rw [zero_add],
      ← Finset.sum_Ico_add' (fun i => unitAt (o + (len - 1)) V.val (i - p + o) * X.val i) 0 len p, show Finset.Ico 0 len = Finset.Ico 0 (len - 1 + 1) by rw [sub_add_cancel],
      sum_Ico_succ (show (0 : Int) ≤ len - 1 by omega), add_comm]
    congr 1
    · refine sum_Ico_congr fun k k0 k1 => ?_
      unfold unitAt; rw [if_neg (by omega), add_sub_cancel_right, add_comm k o, add_comm k p]
    · unfold unitAt; rw [if_pos (by ring), one_mul, add_comm p]
  rw [if_neg (by omega), Buf.rd_of (by omega) (by omega), Option.bind_some, accUp_eq (g := fun i => V.val (o + i) * X.val (p + i)) fun k k0 k1 => by
    rw [Buf.rd_of (b := V) (by omega) (by omega), Option.bind_some, Buf.rd_of (b := X) (by omega) (by omega), Option.map_some], Option.bind_some, hsum, Buf.wr_of (by omega) (by omega), Option.bind_some]
  generalize hS : ∑ i ∈ Finset.Ico p (p + len), unitAt (o + (len - 1)) V.val (i - p + o) * X.val i = S
  rw [sweepOff_eq (fun i => X.val (p + i) - V.val (o + i) * (S * t)) (by omega) (by show p + (len - 1) ≤ (X.size : Int); omega)]
  · congr 1
    refine Buf.ext' rfl fun s => ?_
    show (if p + 0 ≤ s ∧ s < p + (len - 1) then X.val (p + (s - p)) - V.val (o + (s - p)) * (S * t) else Function.update X.val (p + (len - 1)) (X.val (p + (len - 1)) - S * t) s) =
      if p ≤ s ∧ s < p + len then X.val s - unitAt (o + (len - 1)) V.val (s - p + o) * (t * _) else X.val s
    rw [hS, Function.update_apply]
    unfold unitAt
    by_cases h : s = p + (len - 1)
    · subst h
      rw [if_neg (by omega), if_pos rfl, if_pos (by omega), if_pos (by omega)]; ring
    · by_cases h' : p + 0 ≤ s ∧ s < p + (len - 1)
      · rw [if_pos h', if_pos (by omega), if_neg (by omega), show p + (s - p) = s by ring, show o + (s - p) = s - p + o by ring]; ring
      · rw [if_neg h', if_neg h, if_neg (by omega)]
  · intro i i0 i1
    rw [Buf.rd_of (b := mix _ _ _ _) (by omega) (by show p + i < (X.size : Int); omega), Option.bind_some, Buf.rd_of (b := V) (by omega) (by omega), Option.map_some, mix_val_out (by omega)]
    show some (Function.update X.val _ _ (p + i) - _) = _
    rw [Function.update_of_ne (by omega)]

variable [IsStrictOrderedRing K]

/-- The zero column. -/
theorem reflOf_zero {p q j : Int} {x : Int → K} (h : ∑ i ∈ Finset.Ico p q, x i * x i = 0) : ReflOf p q j x 0 x := by
  refine ⟨by rw [zero_mul], fun r r0 r1 => ?_⟩
  have hz := (Finset.sum_eq_zero_iff_of_nonneg (fun i _ => mul_self_nonneg (x i))).1 h
  unfold hh
  rw [if_pos ⟨r0, r1⟩, zero_mul, mul_zero, sub_zero]
  split_ifs with e
  · rw [e]
  · exact mul_self_eq_zero.1 (hz r (Finset.mem_Ico.2 ⟨r0, r1⟩))

/-- A nonzero column. -/
theorem reflOf_nonzero {p q j : Int} {x x' : Int → K} {ν : K} (hj : p ≤ j ∧ j < q) (hν : ν * ν = ∑ i ∈ Finset.Ico p q, x i * x i) (h0 : ν ≠ 0) (h1 : x j + ν ≠ 0)
    (hx : ∀ r, p ≤ r → r < q → x' r = if r = j then -ν else x r / (x j + ν)) : ReflOf p q j x ((x j + ν) / ν) x' := by
  have hu : ∀ r, p ≤ r → r < q → unitAt j x' r = if r = j then 1 else x r / (x j + ν) := fun r r0 r1 => by
    unfold unitAt; rw [hx r r0 r1]; split_ifs <;> rfl
  have s1 : ∑ i ∈ Finset.Ico p q, unitAt j x' i * unitAt j x' i = 2 * ν / (x j + ν) := by
    rw [sum_Ico_congr (g := fun r => x r * x r * (1 / (x j + ν) ^ 2) + if r = j then 1 - x j * x j / (x j + ν) ^ 2 else 0) fun r r0 r1 => by
      rw [hu r r0 r1]
      by_cases e : r = j
      · rw [if_pos e, if_pos e, e]; field_simp; ring
      · rw [if_neg e, if_neg e]; field_simp; ring, Finset.sum_add_distrib, ← Finset.sum_mul, ← hν, sum_Ico_delta hj.1 hj.2 fun _ => 1 - x j * x j / (x j + ν) ^ 2]
    field_simp
    ring
  have s2 : ∑ i ∈ Finset.Ico p q, unitAt j x' i * x i = ν := by
    rw [sum_Ico_congr (g := fun r => x r * x r * (1 / (x j + ν)) + if r = j then x j - x j * x j / (x j + ν) else 0) fun r r0 r1 => by
      rw [hu r r0 r1]
      by_cases e : r = j
      · rw [if_pos e, if_pos e, e]; field_simp; ring
      · rw [if_neg e, if_neg e]; field_simp; ring, Finset.sum_add_distrib, ← Finset.sum_mul, ← hν, sum_Ico_delta hj.1 hj.2 fun _ => x j - x j * x j / (x j + ν)]
    field_simp
    ring
  refine ⟨?_, fun r r0 r1 => ?_⟩
  · rw [s1]; field_simp; ring
  · unfold hh
    rw [if_pos ⟨r0, r1⟩, s2, hu r r0 r1]
    by_cases e : r = j
    · subst e
      rw [if_pos rfl, if_pos rfl, hx r r0 r1, if_pos rfl]; field_simp; ring
    · rw [if_neg e, if_neg e]; field_simp; ring

theorem reflOf_copysign {sqrt : K → K} (hs : IsSqrt sqrt) {S x : K} (h : 0 < S) : copysignK (sqrt S) x * copysignK (sqrt S) x = S ∧ copysignK (sqrt S) x ≠ 0 ∧ x + copysignK (sqrt S) x ≠ 0 := by
  have hp := sqrt_pos hs h
  refine ⟨by rw [copysignK_sq]; exact (hs S (le_of_lt h)).2, ?_, ?_⟩ <;> unfold copysignK <;> rw [abs_of_pos hp] <;> split_ifs with hx
  · exact neg_ne_zero.2 (ne_of_gt hp)
  · exact ne_of_gt hp
  · exact ne_of_lt (by linarith)
  · exact ne_of_gt (by linarith [not_lt.1 hx])

theorem computeReflector_eq {sqrt : K → K} (hs : IsSqrt sqrt) {len o : Int} {D : Buf K} (h1 : 1 ≤ len) (o0 : 0 ≤ o) (o1 : o + len ≤ D.size) :
    ∃ t D', computeReflector sqrt len o D = some (t, D') ∧ D'.size = D.size ∧ ReflOf o (o + len) o D.val t D'.val ∧ ∀ s, ¬ (o ≤ s ∧ s < o + len) → D'.val s = D.val s := by
  unfold computeReflector
  rw [if_neg (by omega), Buf.rd_of o0 (by omega), Option.bind_some, accUp_eq (g := fun i => D.val (o + i) * D.val (o + i)) fun k k0 k1 => by
    rw [Buf.rd_of (b := D) (by omega) (by omega), Option.map_some], Option.bind_some, zero_add]
  have hS : ∑ i ∈ Finset.Ico 0 len, D.val (o + i) * D.val (o + i) = ∑ i ∈ Finset.Ico o (o + len), D.val i * D.val i := by
    rw [show o + len = len + o by ring, show Finset.Ico o (len + o) = Finset.Ico (0 + o) (len + o) by rw [zero_add], ← Finset.sum_Ico_add' (fun i => D.val i * D.val i) 0 len o]
    exact sum_Ico_congr fun k _ _ => by rw [add_comm]
  rw [hS]
  generalize hS' : ∑ i ∈ Finset.Ico o (o + len), D.val i * D.val i = S
  have Snn : 0 ≤ S := by rw [← hS']; exact Finset.sum_nonneg fun i _ => mul_self_nonneg _
  by_cases hz : S = 0
  · rw [if_pos hz]
    exact ⟨0, D, rfl, rfl, reflOf_zero (hS'.trans hz), fun _ _ => rfl⟩
  · rw [if_neg hz, show sqrtC sqrt S = some (sqrt S) from if_neg (not_lt.2 Snn), Option.bind_some]
    obtain ⟨c1, c2, c3⟩ := reflOf_copysign hs (x := D.val o) (lt_of_le_of_ne Snn (Ne.symm hz))
    simp only
    generalize copysignK (sqrt S) (D.val o) = ν at c1 c2 c3
    rw [Buf.wr_of o0 (by omega), Option.bind_some, sweepOff_eq (fun i => D.val (o + i) / (D.val o + ν)) (by omega) (by show o + len ≤ (D.size : Int); omega), Option.bind_some, divC_of c2, Option.map_some]
    · have hv : ∀ s, (mix (⟨D.size, Function.update D.val o (-ν)⟩ : Buf K) (o + 1) (o + len) fun k => D.val (o + (k - o)) / (D.val o + ν)).val s =
          if o ≤ s ∧ s < o + len then (if s = o then -ν else D.val s / (D.val o + ν)) else D.val s := fun s => by
        show (if o + 1 ≤ s ∧ s < o + len then D.val (o + (s - o)) / (D.val o + ν) else Function.update D.val o (-ν) s) = _
        rw [Function.update_apply, show o + (s - o) = s by ring]
        split_ifs <;> first | rfl | omega
      refine ⟨_, _, rfl, rfl, reflOf_nonzero (by omega) (by rw [c1, hS']) c2 c3 (fun r r0 r1 => by rw [hv r, if_pos ⟨r0, r1⟩]), fun s hs => by rw [hv s, if_neg hs]⟩
    · intro i i0 i1
      rw [Buf.rd_of (b := mix _ _ _ _) (by omega) (by show o + i < (D.size : Int); omega), Option.bind_some, mix_val_out (by omega), divC_of c3]
      show some (Function.update D.val o _ (o + i) / _) = _
      rw [Function.update_of_ne (by omega)]

theorem computeQlReflector_eq {sqrt : K → K} (hs : IsSqrt sqrt) {len o : Int} {D : Buf K} (h1 : 1 ≤ len) (o0 : 0 ≤ o) (o1 : o + len ≤ D.size) :
    ∃ t D', computeQlReflector sqrt len o D = some (t, D') ∧ D'.size = D.size ∧ ReflOf o (o + len) (o + (len - 1)) D.val t D'.val ∧ ∀ s, ¬ (o ≤ s ∧ s < o + len) → D'.val s = D.val s := by
  unfold computeQlReflector
  rw [if_neg (by omega), Buf.rd_of (by omega) (by omega), Option.bind_some, accUp_eq (g := fun i => D.val (o + i) * D.val (o + i)) fun k k0 k1 => by
    rw [Buf.rd_of (b := D) (by omega) (by omega), Option.map_some], Option.bind_some, zero_add]
  have hS : ∑ i ∈ Finset.Ico 0 len, D.val (o + i) * D.val (o + i) = ∑ i ∈ Finset.Ico o (o + len), D.val i * D.val i := by
    rw [show o + len = len + o by ring, show Finset.Ico o (len + o) = Finset.Ico (0 + o) (len + o) by rw [zero_add], ← Finset.sum_Ico_add' (fun i => D.val i * D.val i) 0 len o]
    exact sum_Ico_congr fun k _ _ => by rw [add_comm]
  rw [hS]
  generalize hS' : ∑ i ∈ Finset.Ico o (o + len), D.val i * D.val i = S
  have Snn : 0 ≤ S := by rw [← hS']; exact Finset.sum_nonneg fun i _ => mul_self_nonneg _
  by_cases hz : S = 0
  · rw [if_pos hz]
    exact ⟨0, D, rfl, rfl, reflOf_zero (hS'.trans hz), fun _ _ => rfl⟩
  · rw [if_neg hz, show sqrtC sqrt S = some (sqrt S) from if_neg (not_lt.2 Snn), Option.bind_some]
    obtain ⟨c1, c2, c3⟩ := reflOf_copysign hs (x := D.val (o + (len - 1))) (lt_of_le_of_ne Snn (Ne.symm hz))
    simp only
    generalize copysignK (sqrt S) (D.val (o + (len - 1))) = ν at c1 c2 c3
    generalize hj : o + (len - 1) = j at c3 ⊢
    rw [Buf.wr_of (by omega) (by omega), Option.bind_some, sweepOff_eq (fun i => D.val (o + i) / (D.val j + ν)) (by omega) (by show o + (len - 1) ≤ (D.size : Int); omega), Option.bind_some, divC_of c2, Option.map_some]
    · have hv : ∀ s, (mix (⟨D.size, Function.update D.val j (-ν)⟩ : Buf K) (o + 0) (o + (len - 1)) fun k => D.val (o + (k - o)) / (D.val j + ν)).val s =
          if o ≤ s ∧ s < o + len then (if s = j then -ν else D.val s / (D.val j + ν)) else D.val s := fun s => by
        show (if o + 0 ≤ s ∧ s < o + (len - 1) then D.val (o + (s - o)) / (D.val j + ν) else Function.update D.val j (-ν) s) = _
        rw [Function.update_apply, show o + (s - o) = s by ring]
        split_ifs <;> first | rfl | omega
      refine ⟨_, _, rfl, rfl, reflOf_nonzero (by omega) (by rw [c1, hS']) c2 c3 (fun r r0 r1 => by rw [hv r, if_pos ⟨r0, r1⟩]), fun s hs => by rw [hv s, if_neg hs]⟩
    · intro i i0 i1
      rw [Buf.rd_of (b := mix _ _ _ _) (by omega) (by show o + i < (D.size : Int); omega), Option.bind_some, mix_val_out (by omega), divC_of c3]
      show some (Function.update D.val j _ (o + i) / _) = _
      rw [Function.update_of_ne (by omega)]

omit [LinearOrder K] [IsStrictOrderedRing K] in
theorem bval_in {l u : Int} {D : Buf K} {r c : Int} (h : -u ≤ r - c ∧ r - c ≤ l) : bval l u D r c = D.val (r + (u - c + c * (l + u + 1))) := by
  unfold bval sl; rw [if_pos h]; congr 1; ring

omit [LinearOrder K] [IsStrictOrderedRing K] in
/-- Applying the reflector stored in column `j` to the rows `[p, q)` of the columns `cc 1`, ..., `cc kmax`. -/
theorem reflCols_eq {n l u j p q kmax w : Int} {cc : Int → Int} {t : K} {D1 : Buf K} {body : Int → Buf K → Option (Buf K)} (hw : l + u + 1 = w) (hjn : 0 ≤ j ∧ j < n) (hs : n * w ≤ D1.size)
    (hp : j - u ≤ p ∧ p ≤ j ∧ j < q ∧ q ≤ j + l + 1) (hcc : ∀ k k', 1 ≤ k → 1 ≤ k' → cc k = cc k' → k = k') (hj : ∀ k, 1 ≤ k → cc k ≠ j)
    (hcn : ∀ k, 1 ≤ k → k ≤ kmax → 0 ≤ cc k ∧ cc k < n) (hb : ∀ k, 1 ≤ k → k ≤ kmax → cc k - u ≤ p ∧ q ≤ cc k + l + 1) (hk : 0 ≤ kmax)
    (hbody : ∀ k D, 1 ≤ k → k ≤ kmax → n * w ≤ D.size →
      body k D = some ⟨D.size, hh (p + (u - cc k + cc k * w)) (q + (u - cc k + cc k * w)) (fun s => unitAt (j + (u - j + j * w)) D.val (s - (p + (u - cc k + cc k * w)) + (p + (u - j + j * w)))) t D.val⟩) :
    ∃ D', forUp 1 (kmax + 1) body D1 = some D' ∧ D'.size = D1.size ∧
      (∀ k r, 1 ≤ k → k ≤ kmax → bval l u D' r (cc k) = hh p q (unitAt j fun i => bval l u D1 i j) t (fun i => bval l u D1 i (cc k)) r) ∧
      ∀ r c, 0 ≤ c → c < n → (∀ k, 1 ≤ k → k ≤ kmax → c ≠ cc k) → bval l u D' r c = bval l u D1 r c := by
  obtain ⟨D', e, s, h1, h2⟩ := cols_eq (w := w) (n := n) (j := j) (kmax := kmax) (cc := cc) (D1 := D1) (body := body)
    (G := fun s c => hh p q (unitAt j fun i => bval l u D1 i j) t (fun i => D1.val (i + (u - c + c * w))) (s - u + c)) hcc hj
    (fun k D k0 k1 hs' hcj hck => by
      refine ⟨_, hbody k D k0 k1 (by omega), rfl, fun s s0 sw => ?_, fun s c s0 sw c0 cn hc => ?_⟩
      · unfold sl
        simp only
        have hr := hb k k0 k1
        rw [show s + cc k * w = (s - u + cc k) + (u - cc k + cc k * w) by ring, hh_shift]
        refine hh_congr (fun i i0 i1 => ?_) (fun i i0 i1 => ?_) ?_
        · have := hcj (i + u - j) (by omega) (by omega)
          unfold sl at this
          rw [show i + u - j + j * w = i + (u - j + j * w) by ring] at this
          rw [show i + (u - cc k + cc k * w) - (p + (u - cc k + cc k * w)) + (p + (u - j + j * w)) = i + (u - j + j * w) by ring]
          unfold unitAt
          simp only
          rw [bval_in (r := i) (c := j) (by omega), hw, this]
          exact if_congr (by omega) rfl rfl
        · have := hck (i + u - cc k) (by omega) (by omega)
          unfold sl at this
          rw [show i + u - cc k + cc k * w = i + (u - cc k + cc k * w) by ring] at this
          exact this
        · have := hck s s0 sw
          unfold sl at this
          rw [show s + cc k * w = s - u + cc k + (u - cc k + cc k * w) by ring] at this
          exact this
      · have hr := hb k k0 k1
        unfold sl
        simp only
        refine hh_out fun h => hc ?_
        rw [show p + (u - cc k + cc k * w) = (p + u - cc k) + cc k * w by ring, show q + (u - cc k + cc k * w) = (q + u - cc k) + cc k * w by ring] at h
        exact ((slot_range (by omega) (by omega) s0 sw).1 h).1)
    hjn hcn hk
  refine ⟨D', e, s, fun k r k0 k1 => ?_, fun r c c0 cn hc => ?_⟩
  · have hr := hb k k0 k1
    by_cases hi : -u ≤ r - cc k ∧ r - cc k ≤ l
    · have := h1 k (u + r - cc k) k0 k1 (by omega) (by omega)
      rw [show bval l u D' r (cc k) = sl (l + u + 1) D' (u + r - cc k) (cc k) from if_pos hi, hw, this]
      simp only [show u + r - cc k - u + cc k = r by ring]
      refine hh_congr (fun _ _ _ => rfl) (fun i i0 i1 => ?_) ?_ <;> rw [bval_in (by omega), hw]
    · rw [hh_out (by omega)]
      unfold bval; rw [if_neg hi, if_neg hi]
  · unfold bval
    rw [hw]
    by_cases hi : -u ≤ r - c ∧ r - c ≤ l
    · rw [if_pos hi, if_pos hi, h2 _ c (by omega) (by omega) c0 cn hc]
    · rw [if_neg hi, if_neg hi]

omit [LinearOrder K] [IsStrictOrderedRing K] in
/-- The reflector computed in column `j`, in terms of the matrix. -/
theorem reflCol_bval {n l u j p q w o piv len : Int} {t : K} {D D1 : Buf K} (hw : l + u + 1 = w) (hp : j - u ≤ p ∧ p ≤ j ∧ j < q ∧ q ≤ j + l + 1) (ho : o = p + (u - j + j * w)) (hlen : o + len = q + (u - j + j * w))
    (hpiv : piv = j + (u - j + j * w)) (h : ReflOf o (o + len) piv D.val t D1.val) (hout : ∀ s, ¬ (o ≤ s ∧ s < o + len) → D1.val s = D.val s) :
    ReflOf p q j (fun r => bval l u D r j) t (fun r => bval l u D1 r j) ∧ ∀ r c, 0 ≤ c → c < n → ¬ (c = j ∧ p ≤ r ∧ r < q) → bval l u D1 r c = bval l u D r c := by
  rw [hlen, ho, hpiv] at h
  refine ⟨h.shift.congr (by omega) (fun r r0 r1 => ?_) (fun r r0 r1 => ?_), fun r c c0 cn hc => ?_⟩
  · rw [bval_in (by omega), hw]
  · rw [bval_in (by omega), hw]
  · by_cases hi : -u ≤ r - c ∧ r - c ≤ l
    · rw [bval_in hi, bval_in hi, hw]
      refine hout _ fun h' => hc ?_
      rw [hlen, ho, show p + (u - j + j * w) = (p + u - j) + j * w by ring, show q + (u - j + j * w) = (q + u - j) + j * w by ring, show r + (u - c + c * w) = (r + u - c) + c * w by ring] at h'
      have := (slot_range (by omega) (by omega) (by omega) (by omega)).1 h'
      omega
    · unfold bval; rw [if_neg hi, if_neg hi]

/-- What a step of the QR or QL factorisation does: the reflector of column `j` is computed from the rows `[p, q)` and applied to the columns on one side. -/
structure StepSpec (l u n j p q : Int) (after : Int → Prop) (D : Buf K) (t : K) (D' : Buf K) : Prop where
  size : D'.size = D.size
  refl : ReflOf p q j (fun r => bval l u D r j) t (fun r => bval l u D' r j)
  col : ∀ r, ¬ (p ≤ r ∧ r < q) → bval l u D' r j = bval l u D r j
  later : ∀ r c, 0 ≤ c → c < n → after c → bval l u D' r c = hh p q (unitAt j fun i => bval l u D' i j) t (fun i => bval l u D i c) r
  earlier : ∀ r c, 0 ≤ c → c < n → c ≠ j → ¬ after c → bval l u D' r c = bval l u D r c

omit [LinearOrder K] [IsStrictOrderedRing K] in
theorem stepSpec_mk {n l u j p q kmax : Int} {cc : Int → Int} {after : Int → Prop} {t : K} {D D1 D' : Buf K} (hjn : 0 ≤ j ∧ j < n) (hj : ∀ k, 1 ≤ k → cc k ≠ j) (haj : ¬ after j)
    (s1 : D1.size = D.size) (r1 : ReflOf p q j (fun r => bval l u D r j) t (fun r => bval l u D1 r j)) (o1 : ∀ r c, 0 ≤ c → c < n → ¬ (c = j ∧ p ≤ r ∧ r < q) → bval l u D1 r c = bval l u D r c)
    (s2 : D'.size = D1.size) (h1 : ∀ k r, 1 ≤ k → k ≤ kmax → bval l u D' r (cc k) = hh p q (unitAt j fun i => bval l u D1 i j) t (fun i => bval l u D1 i (cc k)) r)
    (h2 : ∀ r c, 0 ≤ c → c < n → (∀ k, 1 ≤ k → k ≤ kmax → c ≠ cc k) → bval l u D' r c = bval l u D1 r c) (ha : ∀ k, 1 ≤ k → k ≤ kmax → after (cc k))
    (hz : ∀ c, 0 ≤ c → c < n → after c → (∀ k, 1 ≤ k → k ≤ kmax → c ≠ cc k) → ∀ r, p ≤ r → r < q → bval l u D r c = 0) : StepSpec l u n j p q after D t D' := by
  have ej : ∀ r, bval l u D' r j = bval l u D1 r j := fun r => h2 r j hjn.1 hjn.2 fun k k0 _ => (hj k k0).symm
  refine ⟨s2.trans s1, by simpa only [ej] using r1, fun r hr => by rw [ej]; exact o1 r j hjn.1 hjn.2 fun h => hr h.2, fun r c c0 cn hc => ?_, fun r c c0 cn hc hc' => ?_⟩
  · have hcj : c ≠ j := fun h => haj (h ▸ hc)
    have eD : ∀ i, bval l u D1 i c = bval l u D i c := fun i => o1 i c c0 cn fun h => hcj h.1
    simp only [ej]
    by_cases hk : ∃ k, 1 ≤ k ∧ k ≤ kmax ∧ c = cc k
    · obtain ⟨k, k0, k1, rfl⟩ := hk
      rw [h1 k r k0 k1]
      simp only [eD]
    · have hk' : ∀ k, 1 ≤ k → k ≤ kmax → c ≠ cc k := fun k k0 k1 e => hk ⟨k, k0, k1, e⟩
      rw [h2 r c c0 cn hk', eD, hh_zero (hz c c0 cn hc hk')]
  · rw [h2 r c c0 cn fun k k0 k1 e => hc' (e ▸ ha k k0 k1), o1 r c c0 cn fun h => hc h.1]

theorem qrStep_eq {sqrt : K → K} (hsq : IsSqrt sqrt) {m n l u j : Int} {D tau : Buf K} (hl : 0 ≤ l) (hu : 0 ≤ u) (j0 : 0 ≤ j) (jm : j < m) (jn : j < n) (hs : n * (l + u + 1) ≤ D.size) (ht : j < tau.size)
    (hz : ∀ r c, j ≤ r → r < m → r ≤ j + l → j + u < c → c < n → bval l u D r c = 0) :
    ∃ D' t, qrStep sqrt m n l u j (D, tau) = some (D', ⟨tau.size, Function.update tau.val j t⟩) ∧ StepSpec l u n j j (min (j + l + 1) m) (fun c => j < c) D t D' := by
  unfold qrStep
  generalize hw : l + u + 1 = w at *
  have g1 := slot_lt (n := n) (w := w) (q := u) (j := j) hu (by omega) j0 jn
  have g2 := slot_lt (n := n) (w := w) (q := u + l) (j := j) (by omega) (by omega) j0 jn
  obtain ⟨t, D1, e1, s1, r1, o1⟩ := computeReflector_eq hsq (len := min (l + 1) (m - j)) (o := u + j * w) (D := D) (by omega) (by omega) (by omega)
  obtain ⟨r1, o1⟩ := reflCol_bval (n := n) (p := j) (q := min (j + l + 1) m) (j := j) hw (by omega) (by ring) (by omega) (by ring) r1 o1
  rw [show (j : Int) = j from rfl] at r1
  obtain ⟨D', e, s2, h1, h2⟩ := reflCols_eq (n := n) (j := j) (p := j) (q := min (j + l + 1) m) (kmax := min u (n - j - 1)) (w := w) (cc := fun k => j + k) (t := t) (D1 := D1)
    (body := fun k D => (Buf.rd (⟨tau.size, Function.update tau.val j t⟩ : Buf K) j).bind fun t => applyReflector (min (l + 1) (m - j)) D (u + j * w) t (u - k + (j + k) * w) D)
    hw ⟨j0, jn⟩ (by omega) (by omega) (fun k k' _ _ h => by omega) (fun k _ => by omega) (fun k k0 k1 => by omega) (fun k k0 k1 => by omega) (by omega)
    (fun k D k0 k1 hs => by
      have g3 := slot_lt (n := n) (w := w) (q := u - k) (j := j + k) (by omega) (by omega) (by omega) (by omega)
      have g4 := slot_lt (n := n) (w := w) (q := u - k + l) (j := j + k) (by omega) (by omega) (by omega) (by omega)
      rw [Buf.rd_of j0 (by exact ht), Option.bind_some, applyReflector_eq' (by omega) (by omega) (by omega) (by omega) (by omega)]
      simp only
      rw [Function.update_self, show j + (u - (j + k) + (j + k) * w) = u - k + (j + k) * w by ring, show j + (u - j + j * w) = u + j * w by ring,
        show min (j + l + 1) m + (u - (j + k) + (j + k) * w) = u - k + (j + k) * w + min (l + 1) (m - j) by omega])
  rw [e1, Option.bind_some, Buf.wr_of j0 (by exact ht), Option.bind_some, e]
  refine ⟨D', t, rfl, stepSpec_mk (cc := fun k => j + k) (kmax := min u (n - j - 1)) ⟨j0, jn⟩ (fun k _ => by omega) (by omega) s1 r1 o1 s2 h1 h2 (fun k k0 _ => by omega) fun c c0 cn hc hk r r0 r1 => ?_⟩
  refine hz r c r0 (by omega) (by omega) ?_ cn
  by_contra h
  exact hk (c - j) (by omega) (by omega) (by omega)

theorem qlStep_eq {sqrt : K → K} (hsq : IsSqrt sqrt) {n l u j : Int} {D tau : Buf K} (hl : 0 ≤ l) (hu : 0 ≤ u) (j0 : 0 ≤ j) (jn : j < n) (hs : n * (l + u + 1) ≤ D.size) (ht : j < tau.size)
    (hz : ∀ r c, 0 ≤ r → r ≤ j → j - u ≤ r → c < j - l → 0 ≤ c → bval l u D r c = 0) :
    ∃ D' t, qlStep sqrt l u j (D, tau) = some (D', ⟨tau.size, Function.update tau.val j t⟩) ∧ StepSpec l u n j (max (j - u) 0) (j + 1) (fun c => c < j) D t D' := by
  unfold qlStep
  generalize hw : l + u + 1 = w at *
  have g1 := slot_lt (n := n) (w := w) (q := u) (j := j) hu (by omega) j0 jn
  have g2 := slot_lt (n := n) (w := w) (q := 0) (j := j) (by omega) (by omega) j0 jn
  generalize hlh : min (u + 1) (j + 1) = lh
  obtain ⟨t, D1, e1, s1, r1, o1⟩ := computeQlReflector_eq hsq (len := lh) (o := u + 1 - lh + j * w) (D := D) (by omega) (by omega) (by omega)
  obtain ⟨r1, o1⟩ := reflCol_bval (n := n) (p := max (j - u) 0) (q := j + 1) (j := j) hw (by omega) (by omega) (by omega) (by omega) r1 o1
  obtain ⟨D', e, s2, h1, h2⟩ := reflCols_eq (n := n) (j := j) (p := max (j - u) 0) (q := j + 1) (kmax := min l j) (w := w) (cc := fun k => j - k) (t := t) (D1 := D1)
    (body := fun k D => (Buf.rd (⟨tau.size, Function.update tau.val j t⟩ : Buf K) j).bind fun t => applyQlReflector lh D (u + 1 - lh + j * w) t (u + 1 - lh + k + (j - k) * w) D)
    hw ⟨j0, jn⟩ (by omega) (by omega) (fun k k' _ _ h => by omega) (fun k _ => by omega) (fun k k0 k1 => by omega) (fun k k0 k1 => by omega) (by omega)
    (fun k D k0 k1 hs => by
      have g3 := slot_lt (n := n) (w := w) (q := u + k) (j := j - k) (by omega) (by omega) (by omega) (by omega)
      have g4 := slot_lt (n := n) (w := w) (q := u + 1 - lh + k) (j := j - k) (by omega) (by omega) (by omega) (by omega)
      rw [Buf.rd_of j0 (by exact ht), Option.bind_some, applyQlReflector_eq (by omega) (by omega) (by omega) (by omega) (by omega)]
      simp only
      rw [Function.update_self, show max (j - u) 0 + (u - (j - k) + (j - k) * w) = u + 1 - lh + k + (j - k) * w by omega, show j + (u - j + j * w) = u + 1 - lh + j * w + (lh - 1) by ring,
        show j + 1 + (u - (j - k) + (j - k) * w) = u + 1 - lh + k + (j - k) * w + lh by ring, show max (j - u) 0 + (u - j + j * w) = u + 1 - lh + j * w by omega])
  simp only
  rw [e1, Option.bind_some, Buf.wr_of j0 (by exact ht), Option.bind_some, e]
  refine ⟨D', t, rfl, stepSpec_mk (cc := fun k => j - k) (kmax := min l j) ⟨j0, jn⟩ (fun k _ => by omega) (by omega) s1 r1 o1 s2 h1 h2 (fun k k0 _ => by omega) fun c c0 cn hc hk r r0 r1 => ?_⟩
  refine hz r c (by omega) (by omega) (by omega) ?_ c0
  by_contra h
  exact hk (j - c) (by omega) (by omega) (by omega)

end Field
end FT
