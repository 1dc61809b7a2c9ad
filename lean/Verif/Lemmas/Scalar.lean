import Verif.Model.Scalar
import Verif.Lemmas.RankOne
import Verif.Lemmas.Loop
import Mathlib.Algebra.Order.Archimedean.Basic
import Mathlib.Tactic.FieldSimp
import Mathlib.Tactic.LinearCombination
import Mathlib.Tactic.Linarith

/-! # Lemmas for reflections, quadratics and the arithmetic-geometric mean -/

namespace FT
variable {K : Type*}

/-! ## Loops that follow a sequence of states -/

section While
variable {σ : Type*} {cond : σ → Bool} {body : σ → Option σ} {st : Nat → σ}

theorem whileF_from (h : ∀ k, body (st k) = some (st (k + 1))) {K : Nat} : ∀ (n i : Nat), i + n = K → (∀ k, i ≤ k → k < K → cond (st k) = true) → cond (st K) = false →
    ∀ fuel, n ≤ fuel → whileF cond body fuel (st i) = some (st K)
  | 0, i, e, _, hK, fuel, _ => by
    have : i = K := by omega
    subst this
    exact whileF_done hK
  | n + 1, i, e, hc, hK, fuel, hf => by
    obtain ⟨f, rfl⟩ : ∃ f, fuel = f + 1 := ⟨fuel - 1, by omega⟩
    rw [whileF_step (hc i (le_refl i) (by omega)), h, Option.bind_some]
    exact whileF_from h n (i + 1) (by omega) (fun k hk => hc k (by omega)) hK f (by omega)

/-- A while loop whose body walks along `st` ends at the first state at which the condition fails. -/
theorem whileF_seq (h : ∀ k, body (st k) = some (st (k + 1))) (hex : ∃ k, cond (st k) = false) :
    ∃ K, (∀ k, k < K → cond (st k) = true) ∧ cond (st K) = false ∧ ∀ fuel, K ≤ fuel → whileF cond body fuel (st 0) = some (st K) := by
  classical
  refine ⟨Nat.find hex, fun k hk => ?_, Nat.find_spec hex, whileF_from h _ 0 (by omega) (fun k _ hk => ?_) (Nat.find_spec hex)⟩
  · exact Bool.eq_true_of_not_eq_false (Nat.find_min hex hk)
  · exact Bool.eq_true_of_not_eq_false (Nat.find_min hex hk)

/-- A while loop whose condition holds all along `st` never ends. -/
theorem whileF_never (h : ∀ k, body (st k) = some (st (k + 1))) (hc : ∀ k, cond (st k) = true) : ∀ fuel i, whileF cond body fuel (st i) = none
  | 0, i => by unfold whileF; rw [hc i]; rfl
  | fuel + 1, i => by rw [whileF_step (hc i), h, Option.bind_some]; exact whileF_never h hc fuel (i + 1)

end While

/-! ## Reflections -/

section Refl
variable [Field K] [DecidableEq K]

/-- Component of a three-vector. -/
def vec3 (w0 w1 w2 : K) (e : Int) : K := if e = 0 then w0 else if e = 1 then w1 else w2

theorem reflCol_eq {w0 w1 w2 gamma : K} {o : Int} {Q : Buf K} (h0 : 0 ≤ o) (h1 : o + 3 ≤ Q.size) :
    reflCol w0 w1 w2 gamma o Q = some (mix Q o (o + 3) fun i => Q.val i - gamma * (w0 * Q.val o + w1 * Q.val (o + 1) + w2 * Q.val (o + 2)) * vec3 w0 w1 w2 (i - o)) := by
  unfold reflCol
  rw [Buf.rd_of h0 (by omega), Buf.rd_of (by omega) (by omega), Buf.rd_of (by omega) (by omega)]
  simp only [Option.bind_some]
  rw [Buf.wr_of h0 (by omega), Option.bind_some, Buf.wr_of (by omega) (by show o + 1 < (Q.size : Int); omega), Option.bind_some, Buf.wr_of (by omega) (by show o + 2 < (Q.size : Int); omega)]
  refine congrArg some (Buf.ext' rfl fun i => ?_)
  show Function.update (Function.update (Function.update Q.val o _) (o + 1) _) (o + 2) _ i = if o ≤ i ∧ i < o + 3 then _ else _
  simp only [Function.update_apply]
  by_cases e0 : i = o
  · rw [if_neg (by omega), if_neg (by omega), if_pos e0, if_pos (by omega), e0]; simp [vec3]
  by_cases e1 : i = o + 1
  · rw [if_neg (by omega), if_pos e1, if_pos (by omega), e1]; simp [vec3]
  by_cases e2 : i = o + 2
  · rw [if_pos e2, if_pos (by omega), e2]; simp [vec3]
  · rw [if_neg e2, if_neg e1, if_neg e0, if_neg (by omega)]

/-- The reflected matrix, entry `i` of its column-major storage. -/
def reflV (w0 w1 w2 gamma : K) (q : Int → K) (i : Int) : K :=
  q i - gamma * (w0 * q (i / 3 * 3) + w1 * q (i / 3 * 3 + 1) + w2 * q (i / 3 * 3 + 2)) * vec3 w0 w1 w2 (i - i / 3 * 3)

theorem applyReflection_eq {w0 w1 w2 : K} {Q : Buf K} (hw : w0 * w0 + w1 * w1 + w2 * w2 ≠ 0) (h : 9 ≤ Q.size) :
    applyReflection w0 w1 w2 Q = some (mix Q 0 9 (reflV w0 w1 w2 (2 / (w0 * w0 + w1 * w1 + w2 * w2)) Q.val)) := by
  unfold applyReflection
  rw [divC_of hw, Option.bind_some, reflCol_eq (by omega) (by omega), Option.bind_some, reflCol_eq (by omega) (by rw [mix_size]; omega), Option.bind_some,
    reflCol_eq (by omega) (by rw [mix_size, mix_size]; omega)]
  refine congrArg some (Buf.ext' rfl fun i => ?_)
  generalize (2 : K) / _ = g
  by_cases h9 : 0 ≤ i ∧ i < 9
  · rw [mix_val_in h9.1 h9.2]
    by_cases h6 : 6 ≤ i
    · rw [mix_val_in h6 (by omega)]
      simp only [mix_val_out (lo := 3) (hi := 3 + 3) (show ¬ ((3 : Int) ≤ 6 ∧ (6 : Int) < 3 + 3) by omega), mix_val_out (lo := 3) (hi := 3 + 3) (show ¬ ((3 : Int) ≤ 6 + 1 ∧ (6 : Int) + 1 < 3 + 3) by omega),
        mix_val_out (lo := 3) (hi := 3 + 3) (show ¬ ((3 : Int) ≤ 6 + 2 ∧ (6 : Int) + 2 < 3 + 3) by omega), mix_val_out (lo := 3) (hi := 3 + 3) (show ¬ ((3 : Int) ≤ i ∧ i < 3 + 3) by omega),
        mix_val_out (lo := 0) (hi := 0 + 3) (show ¬ ((0 : Int) ≤ 6 ∧ (6 : Int) < 0 + 3) by omega), mix_val_out (lo := 0) (hi := 0 + 3) (show ¬ ((0 : Int) ≤ 6 + 1 ∧ (6 : Int) + 1 < 0 + 3) by omega),
        mix_val_out (lo := 0) (hi := 0 + 3) (show ¬ ((0 : Int) ≤ 6 + 2 ∧ (6 : Int) + 2 < 0 + 3) by omega), mix_val_out (lo := 0) (hi := 0 + 3) (show ¬ ((0 : Int) ≤ i ∧ i < 0 + 3) by omega)]
      unfold reflV
      rw [show i / 3 * 3 = 6 by omega]
    by_cases h3 : 3 ≤ i
    · rw [mix_val_out (by omega), mix_val_in h3 (by omega)]
      simp only [mix_val_out (lo := 0) (hi := 0 + 3) (show ¬ ((0 : Int) ≤ 3 ∧ (3 : Int) < 0 + 3) by omega), mix_val_out (lo := 0) (hi := 0 + 3) (show ¬ ((0 : Int) ≤ 3 + 1 ∧ (3 : Int) + 1 < 0 + 3) by omega),
        mix_val_out (lo := 0) (hi := 0 + 3) (show ¬ ((0 : Int) ≤ 3 + 2 ∧ (3 : Int) + 2 < 0 + 3) by omega), mix_val_out (lo := 0) (hi := 0 + 3) (show ¬ ((0 : Int) ≤ i ∧ i < 0 + 3) by omega)]
      unfold reflV
      rw [show i / 3 * 3 = 3 by omega]
    · rw [mix_val_out (by omega), mix_val_out (by omega), mix_val_in h9.1 (by omega)]
      unfold reflV
      rw [show i / 3 * 3 = 0 by omega]
  · rw [mix_val_out (by omega), mix_val_out (by omega), mix_val_out (by omega), mix_val_out h9]

end Refl

/-! ## The arithmetic-geometric mean -/

section Agm
variable [Field K] [LinearOrder K]

/-- The mathematical iteration `(a, b) ↦ ((a+b)/2, √(ab))`. -/
def agmSeq (sqrt : K → K) (a b : K) : Nat → K × K
  | 0 => (a, b)
  | k + 1 => let p := agmSeq sqrt a b k; ((p.1 + p.2) / 2, sqrt (p.1 * p.2))

/-- The state of the loop after `k` iterations. -/
def agmSt (sqrt : K → K) (a b : K) (k : Nat) : Agm K := let p := agmSeq sqrt a b k; ⟨p.1, p.2, sqrt |(p.1 - p.2) * (p.1 + p.2)|⟩

variable [IsStrictOrderedRing K]

theorem agm_ineq {sqrt : K → K} (hsq : IsSqrt sqrt) {a b : K} (ha : 0 < a) (hb : 0 ≤ b) : sqrt (a * b) ≤ (a + b) / 2 := by
  obtain ⟨h0, h1⟩ := hsq (a * b) (mul_nonneg ha.le hb)
  have h2 : (2 * sqrt (a * b)) * (2 * sqrt (a * b)) ≤ (a + b) * (a + b) := by nlinarith [mul_self_nonneg (a - b)]
  have := abs_le_of_sq_le_sq' (by simpa [pow_two] using h2) (by linarith : 0 ≤ a + b)
  linarith [this.2]

theorem agmSeq_pos {sqrt : K → K} (hsq : IsSqrt sqrt) {a b : K} (ha : 0 < a) (hb : 0 ≤ b) (k : Nat) : 0 < (agmSeq sqrt a b k).1 ∧ 0 ≤ (agmSeq sqrt a b k).2 := by
  induction k with
  | zero => exact ⟨ha, hb⟩
  | succ k ih =>
    obtain ⟨h1, h2⟩ := ih
    exact ⟨by show 0 < (_ + _) / 2; linarith, (hsq _ (mul_nonneg h1.le h2)).1⟩

theorem agmSeq_pos2 {sqrt : K → K} (hsq : IsSqrt sqrt) {a b : K} (ha : 0 < a) (hb : 0 < b) (k : Nat) : 0 < (agmSeq sqrt a b k).2 := by
  induction k with
  | zero => exact hb
  | succ k ih => exact sqrt_pos hsq (mul_pos (agmSeq_pos hsq ha hb.le k).1 ih)

theorem agmSeq_le {sqrt : K → K} (hsq : IsSqrt sqrt) {a b : K} (ha : 0 < a) (hb : 0 ≤ b) (k : Nat) : (agmSeq sqrt a b (k + 1)).2 ≤ (agmSeq sqrt a b (k + 1)).1 :=
  agm_ineq hsq (agmSeq_pos hsq ha hb k).1 (agmSeq_pos hsq ha hb k).2

/-- `c² = a² - b²` and `c_{k+1} = |a_k - b_k|/2`. -/
theorem agmSt_c {sqrt : K → K} (hsq : IsSqrt sqrt) {a b : K} (ha : 0 < a) (hb : 0 ≤ b) (k : Nat) :
    (agmSt sqrt a b (k + 1)).c = |(agmSeq sqrt a b k).1 - (agmSeq sqrt a b k).2| / 2 := by
  obtain ⟨h1, h2⟩ := agmSeq_pos hsq ha hb k
  have h3 := agmSeq_le hsq ha hb k
  obtain ⟨h4, h5⟩ := agmSeq_pos hsq ha hb (k + 1)
  refine sqrt_unique hsq (abs_nonneg _) (by positivity) ?_
  rw [abs_of_nonneg (mul_nonneg (sub_nonneg.2 h3) (add_nonneg h4.le h5))]
  have e := (hsq _ (mul_nonneg h1.le h2)).2
  show _ = ((_ + _) / 2 - sqrt _) * ((_ + _) / 2 + sqrt _)
  rw [div_mul_div_comm, abs_mul_abs_self]
  linear_combination e

theorem agmBody_st {sqrt : K → K} (hsq : IsSqrt sqrt) {a b : K} (ha : 0 < a) (hb : 0 ≤ b) (k : Nat) : agmBody sqrt (agmSt sqrt a b k) = some (agmSt sqrt a b (k + 1)) := by
  have hc := agmSt_c hsq ha hb k
  obtain ⟨h1, h2⟩ := agmSeq_pos hsq ha hb k
  unfold agmBody
  have hsum : 0 < (agmSt sqrt a b k).a + (agmSt sqrt a b k).b := by show 0 < (agmSeq sqrt a b k).1 + (agmSeq sqrt a b k).2; linarith
  have hn : ¬ (agmSt sqrt a b k).a * (agmSt sqrt a b k).b < 0 := not_lt.2 (mul_nonneg h1.le h2)
  simp only [sqrtC, hn, if_false, Option.bind_some]
  rw [divC_of (by intro e; linarith), Option.bind_some]
  congr 1
  rw [show agmSt sqrt a b (k + 1) = ⟨(agmSt sqrt a b (k + 1)).a, (agmSt sqrt a b (k + 1)).b, (agmSt sqrt a b (k + 1)).c⟩ from rfl, hc]
  congr 1
  obtain ⟨_, e⟩ := hsq |((agmSeq sqrt a b k).1 - (agmSeq sqrt a b k).2) * ((agmSeq sqrt a b k).1 + (agmSeq sqrt a b k).2)| (abs_nonneg _)
  rw [abs_mul, abs_of_pos (by linarith : 0 < (agmSeq sqrt a b k).1 + (agmSeq sqrt a b k).2)] at e
  have hsum' : (agmSeq sqrt a b k).1 + (agmSeq sqrt a b k).2 ≠ 0 := ne_of_gt (by linarith)
  show sqrt |((agmSeq sqrt a b k).1 - (agmSeq sqrt a b k).2) * ((agmSeq sqrt a b k).1 + (agmSeq sqrt a b k).2)| *
    (sqrt |((agmSeq sqrt a b k).1 - (agmSeq sqrt a b k).2) * ((agmSeq sqrt a b k).1 + (agmSeq sqrt a b k).2)| / (4 * (((agmSeq sqrt a b k).1 + (agmSeq sqrt a b k).2) / 2))) = _
  rw [← mul_div_assoc, abs_mul, abs_of_pos (by linarith : 0 < (agmSeq sqrt a b k).1 + (agmSeq sqrt a b k).2), e]
  field_simp
  norm_num

theorem agmSt_c_nonneg {sqrt : K → K} (hsq : IsSqrt sqrt) (a b : K) (k : Nat) : 0 ≤ (agmSt sqrt a b k).c := (hsq _ (abs_nonneg _)).1

theorem agmSt_c_sq {sqrt : K → K} (hsq : IsSqrt sqrt) (a b : K) (k : Nat) :
    (agmSt sqrt a b k).c * (agmSt sqrt a b k).c = |((agmSeq sqrt a b k).1 - (agmSeq sqrt a b k).2) * ((agmSeq sqrt a b k).1 + (agmSeq sqrt a b k).2)| := (hsq _ (abs_nonneg _)).2

/-- The gap is at most `c`. -/
theorem gap_le_c {sqrt : K → K} (hsq : IsSqrt sqrt) {a b : K} (ha : 0 < a) (hb : 0 ≤ b) (k : Nat) : |(agmSeq sqrt a b k).1 - (agmSeq sqrt a b k).2| ≤ (agmSt sqrt a b k).c := by
  obtain ⟨h1, h2⟩ := agmSeq_pos hsq ha hb k
  have hc := agmSt_c_sq hsq a b k
  have h3 : |(agmSeq sqrt a b k).1 - (agmSeq sqrt a b k).2| ≤ (agmSeq sqrt a b k).1 + (agmSeq sqrt a b k).2 := by rw [abs_le]; constructor <;> linarith
  rw [abs_mul, abs_of_pos (by linarith : 0 < (agmSeq sqrt a b k).1 + (agmSeq sqrt a b k).2)] at hc
  have h4 := mul_le_mul_of_nonneg_left h3 (abs_nonneg ((agmSeq sqrt a b k).1 - (agmSeq sqrt a b k).2))
  rw [← hc] at h4
  exact (mul_self_le_mul_self_iff (abs_nonneg _) (agmSt_c_nonneg hsq a b k)).2 h4

theorem agmSt_c_half {sqrt : K → K} (hsq : IsSqrt sqrt) {a b : K} (ha : 0 < a) (hb : 0 ≤ b) (k : Nat) : (agmSt sqrt a b (k + 1)).c ≤ (agmSt sqrt a b k).c / 2 := by
  rw [agmSt_c hsq ha hb k]
  have := gap_le_c hsq ha hb k
  linarith

theorem agmSt_c_pow {sqrt : K → K} (hsq : IsSqrt sqrt) {a b : K} (ha : 0 < a) (hb : 0 ≤ b) (k : Nat) : (agmSt sqrt a b k).c * 2 ^ k ≤ (agmSt sqrt a b 0).c := by
  induction k with
  | zero => simp
  | succ k ih =>
    have h := agmSt_c_half hsq ha hb k
    have h2 : (0 : K) < 2 ^ k := by positivity
    have := mul_le_mul_of_nonneg_right h h2.le
    rw [pow_succ]
    linarith

/-- The geometric means increase from the first step on, and are at least the smaller starting value. -/
theorem agmSeq_lower {sqrt : K → K} (hsq : IsSqrt sqrt) {a b : K} (ha : 0 < a) (hb : 0 < b) (k : Nat) : min a b ≤ (agmSeq sqrt a b k).1 ∧ min a b ≤ (agmSeq sqrt a b k).2 := by
  induction k with
  | zero => exact ⟨min_le_left _ _, min_le_right _ _⟩
  | succ k ih =>
    obtain ⟨h1, h2⟩ := ih
    have hm : 0 < min a b := lt_min ha hb
    refine ⟨by show _ ≤ (_ + _) / 2; linarith, ?_⟩
    show _ ≤ sqrt _
    obtain ⟨e1, e2⟩ := hsq ((agmSeq sqrt a b k).1 * (agmSeq sqrt a b k).2) (mul_nonneg (by linarith) (by linarith))
    rw [mul_self_le_mul_self_iff hm.le e1, e2]
    exact mul_le_mul h1 h2 hm.le (by linarith)

theorem exists_small [Archimedean K] {c d : K} (hd : 0 < d) {f : Nat → K} (hf : ∀ k, f k * 2 ^ k ≤ c) : ∃ k, f k ≤ d := by
  obtain ⟨k, hk⟩ := pow_unbounded_of_one_lt (c / d) (by norm_num : (1 : K) < 2)
  refine ⟨k, ?_⟩
  rw [div_lt_iff₀ hd] at hk
  have h2 : (0 : K) < 2 ^ k := by positivity
  by_contra hlt
  have := mul_lt_mul_of_pos_right (not_le.1 hlt) h2
  have := hf k
  linarith [mul_comm d (2 ^ k)]

end Agm

end FT
