import Verif.Lemmas.Scalar
import Mathlib.Analysis.Real.Sqrt
import Mathlib.Algebra.BigOperators.Group.Finset.Basic

/-! # Properties of small scalar routines: C37 (reflections), C43 (quadratics), C45 (arithmetic-geometric mean) -/

namespace FT.Props
open FT
variable {K : Type*}

/-! ## C37: reflections -/

section Refl
variable [Field K] [LinearOrder K] [IsStrictOrderedRing K]

/-- Inner product of the columns of `P` and `Q` (column-major 3×3) at offsets `o` and `o'`. -/
def colDot (P : Int → K) (o : Int) (Q : Int → K) (o' : Int) : K := P o * Q o' + P (o + 1) * Q (o' + 1) + P (o + 2) * Q (o' + 2)

/-- `w` as a column. -/
def wCol (w0 w1 w2 : K) : Int → K := fun i => if i = 0 then w0 else if i = 1 then w1 else w2

omit [IsStrictOrderedRing K] [LinearOrder K] in
theorem dot_wCol {w0 w1 w2 : K} {q : Int → K} {o : Int} : colDot (wCol w0 w1 w2) 0 q o = w0 * q o + w1 * q (o + 1) + w2 * q (o + 2) := by
  simp [colDot, wCol]

theorem normal_ne {w0 w1 w2 : K} (hw : w0 ≠ 0 ∨ w1 ≠ 0 ∨ w2 ≠ 0) : w0 * w0 + w1 * w1 + w2 * w2 ≠ 0 := by
  have h0 := mul_self_nonneg w0
  have h1 := mul_self_nonneg w1
  have h2 := mul_self_nonneg w2
  intro e
  have e0 : w0 * w0 = 0 := by linarith
  have e1 : w1 * w1 = 0 := by linarith
  have e2 : w2 * w2 = 0 := by linarith
  rcases hw with h | h | h
  · exact h (mul_self_eq_zero.1 e0)
  · exact h (mul_self_eq_zero.1 e1)
  · exact h (mul_self_eq_zero.1 e2)

/-- **C37.** For every nonzero normal `w` the routine is total and replaces every column `x` of the 3×3 matrix by `x - 2 (w·x)/(w·w) w`, leaving
anything beyond the nine entries alone. -/
theorem C37_reflection {w0 w1 w2 : K} (hw : w0 ≠ 0 ∨ w1 ≠ 0 ∨ w2 ≠ 0) {Q : Buf K} (h : 9 ≤ Q.size) :
    ∃ R, applyReflection w0 w1 w2 Q = some R ∧ R.size = Q.size ∧
      (∀ c e, 0 ≤ c → c < 3 → 0 ≤ e → e < 3 →
        R.val (3 * c + e) = Q.val (3 * c + e) - 2 * colDot (wCol w0 w1 w2) 0 Q.val (3 * c) / colDot (wCol w0 w1 w2) 0 (wCol w0 w1 w2) 0 * wCol w0 w1 w2 e) ∧
      ∀ i, ¬ (0 ≤ i ∧ i < 9) → R.val i = Q.val i := by
  refine ⟨_, applyReflection_eq (normal_ne hw) h, rfl, fun c e c0 c3 e0 e3 => ?_, fun i hi => mix_val_out hi⟩
  rw [mix_val_in (by omega) (by omega)]
  unfold reflV
  rw [show (3 * c + e) / 3 * 3 = 3 * c by omega, show 3 * c + e - 3 * c = e by omega, dot_wCol, dot_wCol]
  show _ - _ * wCol w0 w1 w2 e = _
  have : wCol w0 w1 w2 0 = w0 ∧ wCol w0 w1 w2 (0 + 1) = w1 ∧ wCol w0 w1 w2 (0 + 2) = w2 := ⟨by simp [wCol], by simp [wCol], by simp [wCol]⟩
  rw [this.1, this.2.1, this.2.2]
  ring

/-- **C37.** Reflecting twice restores the matrix. -/
theorem C37_involution {w0 w1 w2 : K} (hw : w0 ≠ 0 ∨ w1 ≠ 0 ∨ w2 ≠ 0) {Q : Buf K} (h : 9 ≤ Q.size) :
    (applyReflection w0 w1 w2 Q).bind (applyReflection w0 w1 w2) = some Q := by
  have hn := normal_ne hw
  rw [applyReflection_eq hn h, Option.bind_some, applyReflection_eq hn (by exact h)]
  refine congrArg some (Buf.ext' rfl fun i => ?_)
  by_cases h9 : 0 ≤ i ∧ i < 9
  · rw [mix_val_in h9.1 h9.2]
    obtain ⟨c, e, hc0, hc3, he0, he3, rfl⟩ : ∃ c e, 0 ≤ c ∧ c < 3 ∧ 0 ≤ e ∧ e < 3 ∧ i = 3 * c + e := ⟨i / 3, i % 3, by omega, by omega, by omega, by omega, by omega⟩
    unfold reflV
    rw [mix_val_in h9.1 h9.2, mix_val_in (by omega) (by omega), mix_val_in (by omega) (by omega), mix_val_in (by omega) (by omega)]
    rw [show (3 * c + e) / 3 * 3 = 3 * c by omega, show 3 * c / 3 * 3 = 3 * c by omega, show (3 * c + 1) / 3 * 3 = 3 * c by omega, show (3 * c + 2) / 3 * 3 = 3 * c by omega,
      show 3 * c - 3 * c = 0 by omega, show 3 * c + 1 - 3 * c = 1 by omega, show 3 * c + 2 - 3 * c = 2 by omega, show 3 * c + e - 3 * c = e by omega]
    have e0 : vec3 w0 w1 w2 0 = w0 := by simp [vec3]
    have e1 : vec3 w0 w1 w2 1 = w1 := by simp [vec3]
    have e2 : vec3 w0 w1 w2 2 = w2 := by simp [vec3]
    rw [e0, e1, e2]
    generalize vec3 w0 w1 w2 e = W
    generalize Q.val (3 * c) = x
    generalize Q.val (3 * c + 1) = y
    generalize Q.val (3 * c + 2) = z
    have hg : 2 / (w0 * w0 + w1 * w1 + w2 * w2) * (w0 * w0 + w1 * w1 + w2 * w2) = 2 := div_mul_cancel₀ _ hn
    generalize 2 / (w0 * w0 + w1 * w1 + w2 * w2) = g at hg ⊢
    linear_combination g * (w0 * x + w1 * y + w2 * z) * W * hg
  · rw [mix_val_out h9, mix_val_out h9]

/-- **C37.** Inner products (hence norms and angles) of columns are preserved, the normal is negated and vectors orthogonal to it are fixed. -/
theorem C37_isometry {w0 w1 w2 : K} (hw : w0 ≠ 0 ∨ w1 ≠ 0 ∨ w2 ≠ 0) {Q R : Buf K} (h : 9 ≤ Q.size) (hR : applyReflection w0 w1 w2 Q = some R) :
    (∀ c c', 0 ≤ c → c < 3 → 0 ≤ c' → c' < 3 → colDot R.val (3 * c) R.val (3 * c') = colDot Q.val (3 * c) Q.val (3 * c')) ∧
    (∀ c t, 0 ≤ c → c < 3 → (∀ e, 0 ≤ e → e < 3 → Q.val (3 * c + e) = t * wCol w0 w1 w2 e) → ∀ e, 0 ≤ e → e < 3 → R.val (3 * c + e) = -Q.val (3 * c + e)) ∧
    ∀ c, 0 ≤ c → c < 3 → colDot (wCol w0 w1 w2) 0 Q.val (3 * c) = 0 → ∀ e, 0 ≤ e → e < 3 → R.val (3 * c + e) = Q.val (3 * c + e) := by
  obtain ⟨R', h1, h2, h3, h4⟩ := C37_reflection hw h
  rw [hR] at h1
  cases h1
  have hn := normal_ne hw
  have hww : colDot (wCol w0 w1 w2) 0 (wCol w0 w1 w2) 0 = w0 * w0 + w1 * w1 + w2 * w2 := by rw [dot_wCol]; simp [wCol]
  have v0 : wCol w0 w1 w2 0 = w0 := by simp [wCol]
  have v1 : wCol w0 w1 w2 1 = w1 := by simp [wCol]
  have v2 : wCol w0 w1 w2 2 = w2 := by simp [wCol]
  refine ⟨fun c c' c0 c3 c0' c3' => ?_, fun c t c0 c3 hq e e0 e3 => ?_, fun c c0 c3 hz e e0 e3 => ?_⟩
  · have a0 := h3 c 0 c0 c3 (by omega) (by omega)
    have a1 := h3 c 1 c0 c3 (by omega) (by omega)
    have a2 := h3 c 2 c0 c3 (by omega) (by omega)
    have b0 := h3 c' 0 c0' c3' (by omega) (by omega)
    have b1 := h3 c' 1 c0' c3' (by omega) (by omega)
    have b2 := h3 c' 2 c0' c3' (by omega) (by omega)
    rw [add_zero] at a0 b0
    rw [hww, dot_wCol] at a0 a1 a2 b0 b1 b2
    rw [v0] at a0 b0; rw [v1] at a1 b1; rw [v2] at a2 b2
    unfold colDot
    rw [a0, a1, a2, b0, b1, b2]
    generalize Q.val (3 * c) = x
    generalize Q.val (3 * c + 1) = y
    generalize Q.val (3 * c + 2) = z
    generalize Q.val (3 * c') = x'
    generalize Q.val (3 * c' + 1) = y'
    generalize Q.val (3 * c' + 2) = z'
    simp only [mul_div_right_comm]
    have hg : 2 / (w0 * w0 + w1 * w1 + w2 * w2) * (w0 * w0 + w1 * w1 + w2 * w2) = 2 := div_mul_cancel₀ _ hn
    generalize 2 / (w0 * w0 + w1 * w1 + w2 * w2) = g at hg ⊢
    linear_combination g * (w0 * x + w1 * y + w2 * z) * (w0 * x' + w1 * y' + w2 * z') * hg
  · rw [h3 c e c0 c3 e0 e3, dot_wCol, hww]
    have q0 := hq 0 (by omega) (by omega)
    have q1 := hq 1 (by omega) (by omega)
    have q2 := hq 2 (by omega) (by omega)
    rw [add_zero] at q0
    rw [q0, q1, q2, hq e e0 e3, v0, v1, v2]
    have hg : 2 / (w0 * w0 + w1 * w1 + w2 * w2) * (w0 * w0 + w1 * w1 + w2 * w2) = 2 := div_mul_cancel₀ _ hn
    rw [mul_div_right_comm]
    generalize 2 / (w0 * w0 + w1 * w1 + w2 * w2) = g at hg ⊢
    linear_combination -(t * wCol w0 w1 w2 e) * hg
  · rw [h3 c e c0 c3 e0 e3, hz]; simp

example : ∃ R : Buf ℚ, applyReflection 1 2 2 ⟨9, fun i => (i : ℚ) * i⟩ = some R := by
  obtain ⟨R, h, _⟩ := C37_reflection (K := ℚ) (w0 := 1) (w1 := 2) (w2 := 2) (Or.inl one_ne_zero) (Q := ⟨9, fun i => (i : ℚ) * i⟩) (le_refl _)
  exact ⟨R, h⟩

end Refl

/-! ## C43: quadratics -/

section Quad
variable [Field K] [LinearOrder K] [IsStrictOrderedRing K]

theorem quad_num {a b c d : K} (ha : a ≠ 0) (hd : d * d = b * b - 4 * a * c) (h : b + d ≠ 0) : -2 * c / (b + d) = (d - b) / (2 * a) := by
  rw [div_eq_div_iff h (by simpa using ha)]
  linear_combination -hd

theorem quad_num' {a b c d : K} (ha : a ≠ 0) (hd : d * d = b * b - 4 * a * c) (h : d - b ≠ 0) : 2 * c / (d - b) = -(b + d) / (2 * a) := by
  rw [div_eq_div_iff h (by simpa using ha)]
  linear_combination hd

theorem quad_factor {a b c d : K} (ha : a ≠ 0) (hd : d * d = b * b - 4 * a * c) (x : K) : a * x * x + b * x + c = a * (x - -(b + d) / (2 * a)) * (x - (d - b) / (2 * a)) := by
  field_simp
  linear_combination hd

/-- **C43 (partial: a double root at zero is excluded).** For a nonzero leading coefficient and a nonnegative discriminant the routine returns the two
roots, in nondecreasing order: the quadratic factors through them.  Missing for the full claim: the case `b = c = 0`, where the routine divides zero by
zero (`C43_double_root_defect`). -/
theorem C43_roots_partial {sqrt : K → K} (hsq : IsSqrt sqrt) {a b c : K} (ha : a ≠ 0) (hD : 0 ≤ b * b - 4 * a * c) (hz : ¬ (b = 0 ∧ c = 0)) :
    ∃ x0 x1, realQuadratic sqrt a b c = .ok x0 x1 ∧ x0 ≤ x1 ∧ ∀ x, a * x * x + b * x + c = a * (x - x0) * (x - x1) := by
  obtain ⟨h0, h1⟩ := hsq _ hD
  unfold realQuadratic
  simp only [not_lt.2 hD, if_false]
  generalize sqrt (b * b - 4 * a * c) = d at h0 h1
  have h2a : 2 * a ≠ 0 := by simpa using ha
  have hfac := fun x => quad_factor ha h1 x
  have hfac' : ∀ x, a * x * x + b * x + c = a * (x - (d - b) / (2 * a)) * (x - -(b + d) / (2 * a)) := fun x => by rw [hfac x]; ring
  have hdb : ¬ b > 0 → d - b ≠ 0 := fun hb e => by
    have hd0 : d = 0 := by linarith
    have hb0 : b = 0 := by linarith
    refine hz ⟨hb0, ?_⟩
    rw [hd0, hb0] at h1
    have : a * c = 0 := by linarith
    exact (mul_eq_zero.1 this).resolve_left ha
  have hpd : b > 0 → b + d ≠ 0 := fun hb => by linarith
  rcases lt_or_gt_of_ne ha with hneg | hpos
  · rw [if_neg (by linarith), if_pos hneg]
    have hle : (d - b) / (2 * a) ≤ -(b + d) / (2 * a) := by
      rw [div_le_div_right_of_neg (by linarith)]; linarith
    split_ifs with hb
    · rw [divC_of (hpd hb), divC_of h2a, quad_num ha h1 (hpd hb)]
      exact ⟨_, _, rfl, hle, hfac'⟩
    · rw [divC_of h2a, divC_of (hdb hb), quad_num' ha h1 (hdb hb)]
      exact ⟨_, _, rfl, hle, hfac'⟩
  · rw [if_pos hpos]
    have hle : -(b + d) / (2 * a) ≤ (d - b) / (2 * a) := by
      rw [div_le_div_iff_of_pos_right (by linarith)]; linarith
    split_ifs with hb
    · rw [divC_of h2a, divC_of (hpd hb), quad_num ha h1 (hpd hb)]
      exact ⟨_, _, rfl, hle, hfac⟩
    · rw [divC_of (hdb hb), divC_of h2a, quad_num' ha h1 (hdb hb)]
      exact ⟨_, _, rfl, hle, hfac⟩

/-- **C43, refuted in one case:** `a x² = 0` has the double root 0, but the routine produces 0/0, whatever `a ≠ 0`. -/
theorem C43_double_root_defect {sqrt : K → K} (hsq : IsSqrt sqrt) {a : K} (ha : a ≠ 0) : realQuadratic sqrt a 0 0 = .nan := by
  have h : sqrt 0 = 0 := sqrt_unique hsq (le_refl 0) (le_refl 0) (mul_zero 0)
  unfold realQuadratic
  simp only [mul_zero, sub_zero, lt_irrefl, if_false, gt_iff_lt, h]
  rcases lt_or_gt_of_ne ha with hneg | hpos
  · rw [if_neg (not_lt.2 hneg.le), if_pos hneg]
    simp [divC, QuadRes.ofPair, ha]
  · rw [if_pos hpos]
    simp [divC, QuadRes.ofPair]

omit [IsStrictOrderedRing K] in
/-- **C43.** The program is ended exactly when the discriminant is negative or the quadratic degenerate. -/
theorem C43_exit {sqrt : K → K} {a b c : K} : realQuadratic sqrt a b c = .exit ↔ b * b - 4 * a * c < 0 ∨ a = 0 := by
  have hp : ∀ x y : Option K, QuadRes.ofPair x y ≠ .exit := fun x y => by cases x <;> cases y <;> simp [QuadRes.ofPair]
  unfold realQuadratic
  simp only
  split_ifs with h1 h2 h3 h4 h5
  · simp [h1]
  · simp only [hp, false_iff]; push Not; exact ⟨not_lt.1 h1, ne_of_gt h2⟩
  · simp only [hp, false_iff]; push Not; exact ⟨not_lt.1 h1, ne_of_gt h2⟩
  · simp only [hp, false_iff]; push Not; exact ⟨not_lt.1 h1, ne_of_lt h4⟩
  · simp only [hp, false_iff]; push Not; exact ⟨not_lt.1 h1, ne_of_lt h4⟩
  · simp only [true_iff]; right; exact le_antisymm (not_lt.1 h2) (not_lt.1 h4)

theorem real_isSqrt : IsSqrt Real.sqrt := fun x h => ⟨Real.sqrt_nonneg x, Real.mul_self_sqrt h⟩

example : ∃ x0 x1, realQuadratic Real.sqrt 1 (-3) 2 = .ok x0 x1 ∧ x0 ≤ x1 ∧ ∀ x, 1 * x * x + -3 * x + 2 = 1 * (x - x0) * (x - x1) :=
  C43_roots_partial real_isSqrt one_ne_zero (by norm_num) (by norm_num)

end Quad

/-! ## C45: the arithmetic-geometric mean -/

section Agm
variable [Field K] [LinearOrder K] [IsStrictOrderedRing K]

/-- **C45.** Along the iteration from `a ≥ b > 0`: the loop body never fails; after `k` rounds the variables are the `k`-th arithmetic and geometric
means, `a ≥ b > 0`, `c ≥ 0` with `c² = a² - b²`, and each round at least halves the gap, lowers `a` and raises `b`. -/
theorem C45_invariant {sqrt : K → K} (hsq : IsSqrt sqrt) {a b : K} (hab : b ≤ a) (hb : 0 < b) (k : Nat) :
    ∃ s s', loop (fun _ => agmBody sqrt) k (agmInit sqrt a b) = some s ∧ agmBody sqrt s = some s' ∧ s.b ≤ s.a ∧ 0 < s.b ∧ 0 ≤ s.c ∧ s.c * s.c = s.a * s.a - s.b * s.b ∧
      s'.a - s'.b ≤ (s.a - s.b) / 2 ∧ s'.a = (s.a + s.b) / 2 ∧ s'.b * s'.b = s.a * s.b ∧ s'.a ≤ s.a ∧ s.b ≤ s'.b := by
  have ha : 0 < a := by linarith
  have hl : ∀ k, loop (fun _ => agmBody sqrt) k (agmInit sqrt a b) = some (agmSt sqrt a b k) := fun k => by
    induction k with
    | zero => rfl
    | succ k ih => rw [loop_succ, ih, Option.bind_some, agmBody_st hsq ha hb.le]
  obtain ⟨h1, _⟩ := agmSeq_pos hsq ha hb.le k
  have h2 := agmSeq_pos2 hsq ha hb k
  have hle : (agmSeq sqrt a b k).2 ≤ (agmSeq sqrt a b k).1 := by
    cases k with
    | zero => exact hab
    | succ k => exact agmSeq_le hsq ha hb.le k
  have hc := agmSt_c_sq hsq a b k
  rw [abs_of_nonneg (mul_nonneg (by linarith) (by linarith))] at hc
  obtain ⟨e1, e2⟩ := hsq ((agmSeq sqrt a b k).1 * (agmSeq sqrt a b k).2) (mul_nonneg h1.le h2.le)
  have hbb : (agmSeq sqrt a b k).2 ≤ sqrt ((agmSeq sqrt a b k).1 * (agmSeq sqrt a b k).2) := by
    rw [mul_self_le_mul_self_iff h2.le e1, e2]
    exact mul_le_mul_of_nonneg_right hle h2.le
  refine ⟨_, _, hl k, agmBody_st hsq ha hb.le k, hle, h2, agmSt_c_nonneg hsq a b k, ?_, ?_, rfl, e2, ?_, hbb⟩
  · show _ = (agmSeq sqrt a b k).1 * (agmSeq sqrt a b k).1 - (agmSeq sqrt a b k).2 * (agmSeq sqrt a b k).2
    rw [hc]; ring
  · show ((agmSeq sqrt a b k).1 + (agmSeq sqrt a b k).2) / 2 - sqrt _ ≤ ((agmSeq sqrt a b k).1 - (agmSeq sqrt a b k).2) / 2
    linarith
  · show ((agmSeq sqrt a b k).1 + (agmSeq sqrt a b k).2) / 2 ≤ (agmSeq sqrt a b k).1
    linarith

/-- A number is *the* arithmetic-geometric mean of `a ≥ b` if it lies between all geometric and arithmetic means of the iteration. -/
def IsAgm (sqrt : K → K) (a b M : K) : Prop := ∀ k, (agmSeq sqrt a b k).2 ≤ M ∧ M ≤ (agmSeq sqrt a b k).1

theorem agm_loop_ends [Archimedean K] {sqrt : K → K} (hsq : IsSqrt sqrt) {a b eps : K} (ha : 0 < a) (hb : 0 < b) (he : 0 < eps) : ∃ k, agmCond eps (agmSt sqrt a b k) = false := by
  have hm : 0 < min a b := lt_min ha hb
  obtain ⟨k, hk⟩ := exists_small (f := fun k => (agmSt sqrt a b k).c) (d := 2 * min a b * eps) (by positivity) fun k => agmSt_c_pow hsq ha hb.le k
  refine ⟨k, ?_⟩
  unfold agmCond
  rw [decide_eq_false_iff_not, not_lt]
  refine le_trans hk ?_
  have h1 := (agmSeq_lower hsq ha hb k).1
  have h2 : min a b ≤ max |(agmSt sqrt a b k).a| |(agmSt sqrt a b k).b| := le_trans (le_trans h1 (le_abs_self _)) (le_max_left _ _)
  exact mul_le_mul_of_nonneg_right (by linarith) he.le

/-- **C45.** The routine ends for all positive starting values and every positive tolerance. -/
theorem C45_terminates [Archimedean K] {sqrt : K → K} (hsq : IsSqrt sqrt) {a b eps : K} (ha : 0 < a) (hb : 0 < b) (he : 0 < eps) :
    ∃ N m, ∀ fuel, N ≤ fuel → agm sqrt eps fuel a b = some m := by
  obtain ⟨N, _, _, h⟩ := whileF_seq (cond := agmCond eps) (fun k => agmBody_st hsq ha hb.le k) (agm_loop_ends hsq ha hb he)
  exact ⟨N, (agmSt sqrt a b N).a, fun fuel hf => by
    unfold agm
    rw [show agmInit sqrt a b = agmSt sqrt a b 0 from rfl, h fuel hf]; rfl⟩

/-- **C45.** The value returned from `a ≥ b > 0` is the arithmetic-geometric mean up to a relative error `4 ε²`, from above. -/
theorem C45_accuracy [Archimedean K] {sqrt : K → K} (hsq : IsSqrt sqrt) {a b eps M : K} (hab : b ≤ a) (hb : 0 < b) (he : 0 < eps) (hM : IsAgm sqrt a b M) :
    ∃ N m, (∀ fuel, N ≤ fuel → agm sqrt eps fuel a b = some m) ∧ M ≤ m ∧ m ≤ M + 4 * eps * eps * m := by
  have ha : 0 < a := by linarith
  obtain ⟨N, _, hN, h⟩ := whileF_seq (cond := agmCond eps) (fun k => agmBody_st hsq ha hb.le k) (agm_loop_ends hsq ha hb he)
  refine ⟨N, (agmSt sqrt a b N).a, fun fuel hf => by unfold agm; rw [show agmInit sqrt a b = agmSt sqrt a b 0 from rfl, h fuel hf]; rfl, (hM N).2, ?_⟩
  have h1 := (agmSeq_pos hsq ha hb.le N).1
  have h2 := agmSeq_pos2 hsq ha hb N
  have hle : (agmSeq sqrt a b N).2 ≤ (agmSeq sqrt a b N).1 := by
    cases N with
    | zero => exact hab
    | succ N => exact agmSeq_le hsq ha hb.le N
  unfold agmCond at hN
  rw [decide_eq_false_iff_not, not_lt] at hN
  have hmax : max |(agmSt sqrt a b N).a| |(agmSt sqrt a b N).b| = (agmSeq sqrt a b N).1 := by
    show max |(agmSeq sqrt a b N).1| |(agmSeq sqrt a b N).2| = _
    rw [abs_of_pos h1, abs_of_pos h2, max_eq_left hle]
  rw [hmax] at hN
  have hc := agmSt_c_sq hsq a b N
  have hc0 := agmSt_c_nonneg hsq a b N
  rw [abs_of_nonneg (mul_nonneg (by linarith) (by linarith))] at hc
  have hsq' := mul_self_le_mul_self hc0 hN
  rw [hc] at hsq'
  have hMb := (hM N).1
  show (agmSeq sqrt a b N).1 ≤ M + 4 * eps * eps * (agmSeq sqrt a b N).1
  generalize (agmSeq sqrt a b N).1 = x at *
  generalize (agmSeq sqrt a b N).2 = y at *
  have h5 : (x - y) * x ≤ 4 * eps * eps * x * x := by
    have : 0 ≤ (x - y) * y := mul_nonneg (by linarith) h2.le
    nlinarith
  have h6 : x - y ≤ 4 * eps * eps * x := le_of_mul_le_mul_right h5 h1
  linarith

/-- **C45.** With `b = 0` and a tolerance below one half the routine never ends; so positivity of `b` is needed, and the guard in the elliptic integrals
is what establishes it. -/
theorem C45_zero_never_ends {sqrt : K → K} (hsq : IsSqrt sqrt) {a eps : K} (ha : 0 < a) (he : eps < 1 / 2) (fuel : Nat) : agm sqrt eps fuel a 0 = none := by
  have hb : ∀ k, (agmSeq sqrt a 0 k).2 = 0 := fun k => by
    cases k with
    | zero => rfl
    | succ k =>
      have : ∀ k, (agmSeq sqrt a 0 k).2 = 0 := fun k => by
        induction k with
        | zero => rfl
        | succ k ih =>
          show sqrt (_ * (agmSeq sqrt a 0 k).2) = 0
          rw [ih, mul_zero]; exact sqrt_unique hsq (le_refl 0) (le_refl 0) (mul_zero 0)
      exact this _
  have hc : ∀ k, agmCond eps (agmSt sqrt a 0 k) = true := fun k => by
    have h1 := (agmSeq_pos hsq ha (le_refl 0) k).1
    have hcc := agmSt_c_sq hsq a 0 k
    have hc0 := agmSt_c_nonneg hsq a 0 k
    rw [hb k, sub_zero, add_zero, abs_of_pos (mul_pos h1 h1)] at hcc
    have hce : (agmSt sqrt a 0 k).c = (agmSeq sqrt a 0 k).1 := by
      rcases mul_self_eq_mul_self_iff.1 hcc with h | h <;> linarith
    unfold agmCond
    rw [decide_eq_true_iff, hce]
    show 2 * max |(agmSeq sqrt a 0 k).1| |(agmSeq sqrt a 0 k).2| * eps < _
    rw [hb k, abs_zero, abs_of_pos h1, max_eq_left h1.le]
    have := mul_lt_mul_of_pos_left he h1
    linarith
  unfold agm
  rw [show agmInit sqrt a 0 = agmSt sqrt a 0 0 from rfl, whileF_never (st := agmSt sqrt a 0) (fun k => agmBody_st hsq ha (le_refl 0) k) hc]
  rfl

/-- **C45.** The routine with accumulator returns the same mean, and `*s = a₀² - Σ_{k ≤ n} 2^{k-1} (a_k² - b_k²)` over the `n` rounds made. -/
theorem C45_accumulator [Archimedean K] {sqrt : K → K} (hsq : IsSqrt sqrt) {a b eps : K} (hab : b ≤ a) (hb : 0 < b) (he : 0 < eps) :
    ∃ N, (∀ fuel, N ≤ fuel → agm sqrt eps fuel a b = some (agmSeq sqrt a b N).1) ∧
      ∀ fuel, N ≤ fuel → agmAcc sqrt eps fuel a b = some ((agmSeq sqrt a b N).1,
        a * a - ∑ k ∈ Finset.range (N + 1), 2 ^ k / 2 * ((agmSeq sqrt a b k).1 * (agmSeq sqrt a b k).1 - (agmSeq sqrt a b k).2 * (agmSeq sqrt a b k).2)) := by
  have ha : 0 < a := by linarith
  obtain ⟨N, hlt, hN, h⟩ := whileF_seq (cond := agmCond eps) (fun k => agmBody_st hsq ha hb.le k) (agm_loop_ends hsq ha hb he)
  refine ⟨N, fun fuel hf => by unfold agm; rw [show agmInit sqrt a b = agmSt sqrt a b 0 from rfl, h fuel hf]; rfl, fun fuel hf => ?_⟩
  have hcc : ∀ k, (agmSt sqrt a b k).c * (agmSt sqrt a b k).c = (agmSeq sqrt a b k).1 * (agmSeq sqrt a b k).1 - (agmSeq sqrt a b k).2 * (agmSeq sqrt a b k).2 := fun k => by
    have hle : (agmSeq sqrt a b k).2 ≤ (agmSeq sqrt a b k).1 := by
      cases k with
      | zero => exact hab
      | succ k => exact agmSeq_le hsq ha hb.le k
    have hp := agmSeq_pos hsq ha hb.le k
    rw [agmSt_c_sq hsq a b k, abs_of_nonneg (mul_nonneg (by linarith) (by linarith [hp.1, hp.2]))]
    ring
  let acc : Nat → AgmAcc K := fun k => ⟨agmSt sqrt a b k, 2 ^ k / 2,
    a * a - ∑ k ∈ Finset.range (k + 1), 2 ^ k / 2 * ((agmSeq sqrt a b k).1 * (agmSeq sqrt a b k).1 - (agmSeq sqrt a b k).2 * (agmSeq sqrt a b k).2)⟩
  have hbody : ∀ k, agmAccBody sqrt (acc k) = some (acc (k + 1)) := fun k => by
    unfold agmAccBody
    rw [show (acc k).it = agmSt sqrt a b k from rfl, agmBody_st hsq ha hb.le, Option.bind_some]
    have e1 : (acc k).pow2 * 2 = 2 ^ (k + 1) / 2 := by show 2 ^ k / 2 * 2 = _; rw [pow_succ]; ring
    simp only [e1]
    congr 1
    show AgmAcc.mk _ _ _ = AgmAcc.mk _ _ _
    congr 1
    rw [mul_assoc, hcc (k + 1), Finset.sum_range_succ _ (k + 1), ← sub_sub]
  have hw := whileF_from (cond := agmAccCond eps) hbody (K := N) N 0 (by omega) (fun k _ hk => hlt k hk) hN fuel hf
  unfold agmAcc
  have h0 : (⟨⟨a, b, sqrt |(a - b) * (a + b)|⟩, 1 / 2, a * a - sqrt |(a - b) * (a + b)| * sqrt |(a - b) * (a + b)| / 2⟩ : AgmAcc K) = acc 0 := by
    show _ = AgmAcc.mk _ _ _
    have := hcc 0
    congr 1
    · rw [pow_zero]
    · rw [zero_add, Finset.sum_range_one, ← hcc 0, pow_zero, one_div, inv_mul_eq_div]; rfl
  simp only [h0, hw]
  rfl

/-- **C45.** The complete elliptic integrals return (no NaN, no endless loop) for every modulus `|k| ≤ 1` and every positive tolerance. -/
theorem C45_elliptic_total [Archimedean K] {sqrt : K → K} (hsq : IsSqrt sqrt) {eps atan1 : K} (he : 0 < eps) (kind : Char) {k : K} (hk : |k| ≤ 1) :
    ∃ N r, ∀ fuel, N ≤ fuel → completeElliptic sqrt eps atan1 fuel kind k = some r := by
  obtain ⟨k1, k2⟩ := abs_le.1 hk
  have hnn : 0 ≤ (1 - k) * (1 + k) := mul_nonneg (by linarith) (by linarith)
  obtain ⟨s0, s1⟩ := hsq _ hnn
  have hkp1 : sqrt ((1 - k) * (1 + k)) ≤ 1 := by
    have : sqrt ((1 - k) * (1 + k)) * sqrt ((1 - k) * (1 + k)) ≤ 1 * 1 := by rw [s1]; nlinarith [mul_self_nonneg k]
    exact (mul_self_le_mul_self_iff s0 zero_le_one).2 this
  have hpos : ¬ |sqrt ((1 - k) * (1 + k))| < 2 * |k| * eps → 0 < sqrt ((1 - k) * (1 + k)) := fun h => by
    rcases lt_or_eq_of_le s0 with h' | h'
    · exact h'
    · exfalso
      rw [← h', zero_mul] at s1
      rw [← h', abs_zero] at h
      have hkk : k = 1 ∨ k = -1 := by
        rcases mul_eq_zero.1 s1.symm with h | h
        · left; linarith
        · right; linarith
      have : |k| = 1 := by rcases hkk with h | h <;> simp [h]
      rw [this] at h
      exact h (by linarith)
  unfold completeElliptic
  simp only [sqrtC, not_lt.2 hnn, if_false, Option.bind_some]
  split_ifs with h1 h2 h3 h4
  · exact ⟨0, _, fun _ _ => rfl⟩
  · obtain ⟨N, hN, _⟩ := C45_accumulator hsq hkp1 (hpos h2) he
    exact ⟨N, _, fun fuel hf => by rw [hN fuel hf, Option.bind_some, divC_of (ne_of_gt (agmSeq_pos hsq one_pos s0 N).1), Option.map_some]⟩
  · exact ⟨0, _, fun _ _ => rfl⟩
  · obtain ⟨N, _, hN⟩ := C45_accumulator hsq hkp1 (hpos h4) he
    exact ⟨N, _, fun fuel hf => by rw [hN fuel hf, Option.bind_some, divC_of (ne_of_gt (agmSeq_pos hsq one_pos s0 N).1), Option.map_some]⟩
  · exact ⟨0, _, fun _ _ => rfl⟩

/-- **C45.** The elliptic functions return for every modulus `0 ≤ k ≤ 1`; the descending loop undoes the ascending one exactly (it ends at `a = 1`,
`c = k`), and `sn² + cn² = 1`, `dn² + k² sn² = 1`, `dn ≥ 0` for any `sin`, `cos` with `sin² + cos² = 1`. -/
theorem C45_jacobi [Archimedean K] {sqrt sin cos asin : K → K} (hsq : IsSqrt sqrt) (htrig : ∀ x, sin x * sin x + cos x * cos x = 1) {eps x k : K} (he : 0 < eps) (hk0 : 0 ≤ k) (hk1 : k ≤ 1) :
    ∃ N sn cn dn, (∀ fuel, N ≤ fuel → jacobian sqrt sin cos asin eps fuel x k = some ((sn, cn, dn), (1, k))) ∧ sn * sn + cn * cn = 1 ∧ dn * dn + k * k * (sn * sn) = 1 ∧ 0 ≤ dn := by
  have hnn : 0 ≤ (1 - k) * (1 + k) := mul_nonneg (by linarith) (by linarith)
  obtain ⟨s0, s1⟩ := hsq _ hnn
  unfold jacobian
  simp only [sqrtC, not_lt.2 hnn, if_false, Option.bind_some]
  generalize hkp : sqrt ((1 - k) * (1 + k)) = kp at s0 s1
  have hc0 : (agmSt sqrt 1 kp 0).c = k := by
    refine sqrt_unique hsq (abs_nonneg _) hk0 ?_
    show k * k = |(1 - kp) * (1 + kp)|
    rw [abs_of_nonneg (by nlinarith [mul_nonneg hk0 hk0])]
    linear_combination s1
  have hstart : (⟨1, kp, k⟩ : Agm K) = agmSt sqrt 1 kp 0 := by rw [← hc0]; rfl
  have hend : ∃ n, landenCond eps (agmSt sqrt 1 kp n, n) = false := by
    obtain ⟨n, hn⟩ := exists_small (f := fun n => (agmSt sqrt 1 kp n).c) (d := 2 * eps) (by linarith) fun n => agmSt_c_pow hsq one_pos s0 n
    exact ⟨n, by unfold landenCond; rw [decide_eq_false_iff_not, not_lt]; exact hn⟩
  obtain ⟨N, _, _, hw⟩ := whileF_seq (cond := landenCond eps) (body := landenBody sqrt) (st := fun n => (agmSt sqrt 1 kp n, n))
    (fun n => by unfold landenBody; rw [agmBody_st hsq one_pos s0]; rfl) hend
  have hle : ∀ n, (agmSeq sqrt 1 kp n).2 ≤ (agmSeq sqrt 1 kp n).1 := fun n => by
    cases n with
    | zero => show kp ≤ 1; by_contra h; nlinarith
    | succ n => exact agmSeq_le hsq one_pos s0 n
  have hcs : ∀ n, (agmSt sqrt 1 kp (n + 1)).c = ((agmSeq sqrt 1 kp n).1 - (agmSeq sqrt 1 kp n).2) / 2 := fun n => by
    rw [agmSt_c hsq one_pos s0 n, abs_of_nonneg (by linarith [hle n])]
  have hback : ∀ (n : Nat) (phi : K), ∃ phi', forDown ((n : Int) - 1) 0 (landenBack sqrt sin asin) (phi, (agmSt sqrt 1 kp n).a, (agmSt sqrt 1 kp n).c) = some (phi', 1, k) := fun n phi => by
    obtain ⟨y, e, h⟩ := forDown_spec (body := landenBack sqrt sin asin) (hi := (n : Int) - 1) (lo := 0) (s := (phi, (agmSt sqrt 1 kp n).a, (agmSt sqrt 1 kp n).c))
      (fun i y => y.2 = ((agmSt sqrt 1 kp (i + 1).toNat).a, (agmSt sqrt 1 kp (i + 1).toNat).c)) (by simp)
      (fun i i0 i1 y hy => by
        obtain ⟨m, rfl⟩ : ∃ m : Nat, i = m := ⟨i.toNat, by omega⟩
        rw [show ((m : Int) + 1).toNat = m + 1 by omega] at hy
        have hp := agmSeq_pos hsq one_pos s0 (m + 1)
        have hpm := agmSeq_pos hsq one_pos s0 m
        have hcn := agmSt_c_nonneg hsq 1 kp (m + 1)
        unfold landenBack
        rw [hy]
        simp only
        rw [divC_of (show (agmSt sqrt 1 kp (m + 1)).a ≠ 0 from ne_of_gt hp.1), Option.bind_some, sqrtC, if_neg (show ¬ (agmSt sqrt 1 kp (m + 1)).a * (agmSt sqrt 1 kp (m + 1)).c < 0 from not_lt.2 (mul_nonneg hp.1.le hcn)), Option.bind_some]
        refine ⟨_, rfl, ?_⟩
        rw [show ((m : Int) - 1 + 1).toNat = m by omega]
        refine Prod.ext ?_ ?_
        · show (agmSt sqrt 1 kp (m + 1)).a + (agmSt sqrt 1 kp (m + 1)).c = (agmSeq sqrt 1 kp m).1
          rw [hcs m]
          show ((agmSeq sqrt 1 kp m).1 + (agmSeq sqrt 1 kp m).2) / 2 + _ = _
          ring
        · show 2 * sqrt ((agmSt sqrt 1 kp (m + 1)).a * (agmSt sqrt 1 kp (m + 1)).c) = (agmSt sqrt 1 kp m).c
          have : sqrt ((agmSt sqrt 1 kp (m + 1)).a * (agmSt sqrt 1 kp (m + 1)).c) = (agmSt sqrt 1 kp m).c / 2 := by
            refine sqrt_unique hsq (mul_nonneg hp.1.le hcn) (by linarith [agmSt_c_nonneg hsq 1 kp m]) ?_
            rw [hcs m]
            show _ = ((agmSeq sqrt 1 kp m).1 + (agmSeq sqrt 1 kp m).2) / 2 * _
            have h2 := agmSt_c_sq hsq 1 kp m
            rw [abs_of_nonneg (mul_nonneg (by linarith [hle m]) (by linarith [hpm.1, hpm.2]))] at h2
            linear_combination h2 / 4
          rw [this]; ring)
    refine ⟨y.1, ?_⟩
    rw [e]
    have hmin : (min ((n : Int) - 1) (0 - 1) + 1).toNat = 0 := by omega
    rw [hmin] at h
    congr 1
    refine Prod.ext rfl ?_
    rw [h, hc0]; rfl
  obtain ⟨phi, hphi⟩ := hback N (2 ^ N * (agmSt sqrt 1 kp N).a * x)
  have hs1 : sin phi * sin phi ≤ 1 := by linarith [htrig phi, mul_self_nonneg (cos phi)]
  have hdn : 0 ≤ (1 - k * sin phi) * (1 + k * sin phi) := by nlinarith [mul_self_nonneg (sin phi), mul_nonneg hk0 hk0, mul_le_one₀ hk1 hk0 hk1]
  obtain ⟨d0, d1⟩ := hsq _ hdn
  refine ⟨N, sin phi, cos phi, sqrt ((1 - k * sin phi) * (1 + k * sin phi)), fun fuel hf => ?_, htrig phi, ?_, d0⟩
  · rw [hstart, hw fuel hf, Option.bind_some]
    simp only [hphi, Option.bind_some, not_lt.2 hdn, if_false]
  · rw [d1]; ring

example : ∃ N m, ∀ fuel, N ≤ fuel → agm Real.sqrt (1 / 1000) fuel 2 1 = some m := C45_terminates real_isSqrt (by norm_num) (by norm_num) (by norm_num)

/-- **C45.** Over the reals the arithmetic-geometric mean exists and is unique. -/
theorem C45_mean_exists {a b : ℝ} (hab : b ≤ a) (hb : 0 < b) : ∃! M, IsAgm Real.sqrt a b M := by
  have ha : 0 < a := by linarith
  have hsq := real_isSqrt
  have hle : ∀ n, (agmSeq Real.sqrt a b n).2 ≤ (agmSeq Real.sqrt a b n).1 := fun n => by
    cases n with
    | zero => exact hab
    | succ n => exact agmSeq_le hsq ha hb.le n
  have hstep : ∀ n, (agmSeq Real.sqrt a b (n + 1)).1 ≤ (agmSeq Real.sqrt a b n).1 ∧ (agmSeq Real.sqrt a b n).2 ≤ (agmSeq Real.sqrt a b (n + 1)).2 := fun n => by
    obtain ⟨h1, _⟩ := agmSeq_pos hsq ha hb.le n
    have h2 := agmSeq_pos2 hsq ha hb n
    obtain ⟨e1, e2⟩ := hsq ((agmSeq Real.sqrt a b n).1 * (agmSeq Real.sqrt a b n).2) (mul_nonneg h1.le h2.le)
    refine ⟨by show (_ + _) / 2 ≤ _; linarith [hle n], ?_⟩
    show _ ≤ Real.sqrt _
    rw [mul_self_le_mul_self_iff h2.le e1, e2]
    exact mul_le_mul_of_nonneg_right (hle n) h2.le
  have hanti : ∀ m n, m ≤ n → (agmSeq Real.sqrt a b n).1 ≤ (agmSeq Real.sqrt a b m).1 ∧ (agmSeq Real.sqrt a b m).2 ≤ (agmSeq Real.sqrt a b n).2 := fun m n hmn => by
    induction n, hmn using Nat.le_induction with
    | base => exact ⟨le_refl _, le_refl _⟩
    | succ n _ ih => exact ⟨le_trans (hstep n).1 ih.1, le_trans ih.2 (hstep n).2⟩
  have hcross : ∀ m n, (agmSeq Real.sqrt a b m).2 ≤ (agmSeq Real.sqrt a b n).1 := fun m n =>
    le_trans (hanti m (max m n) (le_max_left _ _)).2 (le_trans (hle _) (hanti n (max m n) (le_max_right _ _)).1)
  refine ⟨⨆ n, (agmSeq Real.sqrt a b n).2, fun k => ⟨?_, ?_⟩, fun M hM => ?_⟩
  · exact le_ciSup (f := fun n => (agmSeq Real.sqrt a b n).2) ⟨(agmSeq Real.sqrt a b 0).1, by rintro _ ⟨n, rfl⟩; exact hcross n 0⟩ k
  · exact ciSup_le fun n => hcross n k
  · refine le_antisymm ?_ (ciSup_le fun n => (hM n).1)
    by_contra hlt
    push Not at hlt
    obtain ⟨k, hk⟩ := exists_small (f := fun k => (agmSt Real.sqrt a b k).c) (d := (M - ⨆ n, (agmSeq Real.sqrt a b n).2) / 2) (by linarith) fun k => agmSt_c_pow hsq ha hb.le k
    have h1 := gap_le_c hsq ha hb.le k
    rw [abs_of_nonneg (by linarith [hle k])] at h1
    have h2 := (hM k).2
    have h3 := le_ciSup (f := fun n => (agmSeq Real.sqrt a b n).2) ⟨(agmSeq Real.sqrt a b 0).1, by rintro _ ⟨n, rfl⟩; exact hcross n 0⟩ k
    linarith

end Agm

end FT.Props
