import Verif.Props.PolySpec
import Mathlib.Tactic.LinearCombination
import Mathlib.Tactic.FieldSimp
import Mathlib.Tactic.Ring
import Mathlib.Algebra.Order.Field.Basic
import Mathlib.Tactic.Linarith
import Mathlib.Tactic.Positivity

/-!
# Relations between families of monic orthogonal polynomials

Raising, differentiation and lowering, for recurrence coefficients that satisfy the scalar identities which the induction needs, and those identities for the classical families.
-/

set_option linter.unusedSectionVars false
set_option linter.unusedVariables false

namespace FT.Poly
open Polynomial
variable {K : Type*} [Field K]

theorem monic_neg {a b : Int → K} {n : Int} (h : n < 0) : monic a b n = 0 := if_pos h
theorem monic_zero {a b : Int → K} : monic a b 0 = 1 := rfl
theorem monic_one {a b : Int → K} : monic a b 1 = X - C (a 0) := rfl

theorem monic_succ {a b : Int → K} {n : Int} (h : 0 ≤ n) : monic a b (n + 1) = (X - C (a n)) * monic a b n - C (b n) * monic a b (n - 1) := by
  obtain ⟨k, rfl⟩ := Int.eq_ofNat_of_zero_le h
  cases k with
  | zero => rw [show ((0 : ℕ) : Int) = 0 by rfl, zero_add, monic_one, monic_zero, monic_neg (by omega)]; ring
  | succ k =>
    unfold monic
    rw [if_neg (by omega), if_neg (by omega), if_neg (by omega), show ((k + 1 : ℕ) + 1 : Int).toNat = k + 2 by omega, show ((k + 1 : ℕ) : Int).toNat = k + 1 by omega,
      show ((k + 1 : ℕ) - 1 : Int).toNat = k by omega]
    rw [monicN]
    push_cast
    rfl

/-- `x p_n` in terms of the neighbours. -/
theorem monic_mul {a b : Int → K} {n : Int} (h : 0 ≤ n) : X * monic a b n = monic a b (n + 1) + C (a n) * monic a b n + C (b n) * monic a b (n - 1) := by
  rw [monic_succ h]; ring

/-- Induction on integers with two predecessors. -/
theorem two_step {P : Int → Prop} (h0 : P 0) (hs : ∀ n, 0 ≤ n → P n → (1 ≤ n → P (n - 1)) → P (n + 1)) {n : Int} (hn : 0 ≤ n) : P n := by
  suffices H : ∀ k : ℕ, P k ∧ (1 ≤ k → P (k - 1 : Int)) by
    obtain ⟨k, rfl⟩ := Int.eq_ofNat_of_zero_le hn; exact (H k).1
  intro k
  induction k with
  | zero => exact ⟨h0, fun h => by omega⟩
  | succ k ih =>
    refine ⟨?_, fun _ => ?_⟩
    · have := hs k (by omega) ih.1 (fun h => ih.2 (by omega)); push_cast; exact this
    · push_cast; rw [add_sub_cancel_right]; exact ih.1

section general
variable {a b a' b' : Int → K}

/-- `p_n = q_n + r_n q_{n-1} + t_n q_{n-2}`. -/
theorem monic_raise {r t : Int → K} (r0 : r 0 = 0) (t0 : t 0 = 0) (t1 : t 1 = 0) (e1 : ∀ n, 0 ≤ n → r (n + 1) = a' n - a n + r n)
    (e2 : ∀ n, 1 ≤ n → t (n + 1) = b' n + r n * (a' (n - 1) - a n) + t n - b n)
    (e3 : ∀ n, 2 ≤ n → r n * b' (n - 1) + t n * (a' (n - 2) - a n) = b n * r (n - 1)) (e4 : ∀ n, 3 ≤ n → t n * b' (n - 2) = b n * t (n - 1)) {n : Int} (hn : 0 ≤ n) :
    monic a b n = monic a' b' n + C (r n) * monic a' b' (n - 1) + C (t n) * monic a' b' (n - 2) := by
  refine two_step (P := fun n => monic a b n = monic a' b' n + C (r n) * monic a' b' (n - 1) + C (t n) * monic a' b' (n - 2)) ?_ (fun n n0 ih ih' => ?_) hn
  · rw [r0, t0, map_zero, monic_zero, monic_zero]; ring
  · rw [monic_succ n0, ih]
    have x0 := monic_mul (a := a') (b := b') n0
    rw [show n + 1 - 1 = n by ring, show n + 1 - 2 = n - 1 by ring, e1 n n0]
    rcases eq_or_lt_of_le n0 with h | h
    · subst h
      rw [r0, t0, zero_add, t1]
      simp only [map_add, map_sub, map_zero, monic_neg (show (0 : Int) - 1 < 0 by omega), monic_zero, monic_one]; ring
    · have h1 : 1 ≤ n := h
      have y0 := ih' h1
      have x1 := monic_mul (a := a') (b := b') (show 0 ≤ n - 1 by omega)
      rw [sub_add_cancel, show n - 1 - 1 = n - 2 by ring] at x1
      rw [show n - 1 - 1 = n - 2 by ring, show n - 1 - 2 = n - 3 by ring] at y0
      rw [y0, e2 n h1]
      by_cases h2 : n = 1
      · subst h2
        rw [t1, monic_neg (show (1 : Int) - 3 < 0 by omega), map_zero]
        rw [monic_neg (show (1 : Int) - 2 < 0 by omega)] at x1 ⊢
        simp only [map_add, map_sub, map_mul, map_zero]
        linear_combination x0 + C (r 1) * x1
      · have x2 := monic_mul (a := a') (b := b') (show 0 ≤ n - 2 by omega)
        rw [show n - 2 + 1 = n - 1 by ring, show n - 2 - 1 = n - 3 by ring] at x2
        have f3 := congrArg C (e3 n (by omega))
        simp only [map_add, map_sub, map_mul] at f3 ⊢
        by_cases h3 : n = 2
        · subst h3
          rw [monic_neg (show (2 : Int) - 3 < 0 by omega)] at x2 ⊢
          linear_combination x0 + C (r 2) * x1 + C (t 2) * x2 + f3 * monic a' b' (2 - 2)
        · have f4 := congrArg C (e4 n (by omega))
          simp only [map_mul] at f4
          linear_combination x0 + C (r n) * x1 + C (t n) * x2 + f3 * monic a' b' (n - 2) + f4 * monic a' b' (n - 3)

/-- `p_n' = n q_{n-1}`, from the raising relation. -/
theorem monic_derivative {r t : Int → K} (hr : ∀ n, 0 ≤ n → monic a b n = monic a' b' n + C (r n) * monic a' b' (n - 1) + C (t n) * monic a' b' (n - 2))
    (e1 : ∀ n, 1 ≤ n → r n + n * (a' (n - 1) - a n) = 0) (e2 : ∀ n, 2 ≤ n → t n + n * b' (n - 1) - (n - 1) * b n = 0) {n : Int} (hn : 0 ≤ n) :
    derivative (monic a b n) = C (n : K) * monic a' b' (n - 1) := by
  refine two_step (P := fun n => derivative (monic a b n) = C (n : K) * monic a' b' (n - 1)) ?_ (fun n n0 ih ih' => ?_) hn
  · rw [monic_zero, derivative_one, Int.cast_zero, map_zero, zero_mul]
  · rw [monic_succ n0, derivative_sub, derivative_mul, derivative_mul, derivative_C, derivative_sub, derivative_X, derivative_C, ih, hr n n0]
    rw [show n + 1 - 1 = n by ring]
    push_cast
    rcases eq_or_lt_of_le n0 with h | h
    · subst h
      simp [monic_neg (show (-1 : Int) < 0 by omega), monic_neg (show (-2 : Int) < 0 by omega), monic_zero]
    · have h1 : 1 ≤ n := h
      have y0 := ih' h1
      rw [show n - 1 - 1 = n - 2 by ring] at y0
      rw [y0]
      have x1 := monic_mul (a := a') (b := b') (show 0 ≤ n - 1 by omega)
      rw [sub_add_cancel, show n - 1 - 1 = n - 2 by ring] at x1
      have f1 := congrArg C (e1 n h1)
      push_cast at y0 ⊢
      simp only [map_add, map_sub, map_mul, map_zero, map_one] at f1 ⊢
      by_cases h2 : n = 1
      · subst h2
        rw [monic_neg (show (1 : Int) - 2 < 0 by omega)] at x1 ⊢
        simp only [Int.cast_one, map_one] at f1 ⊢
        linear_combination x1 + f1 * monic a' b' (1 - 1)
      · have f2 := congrArg C (e2 n (by omega))
        simp only [map_add, map_sub, map_mul, map_zero, map_one] at f2
        linear_combination C (n : K) * x1 + f1 * monic a' b' (n - 1) + f2 * monic a' b' (n - 2)

/-- `(1 - x²) q_n = -p_{n+2} + e_n p_{n+1} + f_n p_n`. -/
theorem monic_lower {e f : Int → K} (h0 : (1 - X ^ 2 : K[X]) = -monic a b 2 + C (e 0) * monic a b 1 + C (f 0)) (e1 : ∀ n, 0 ≤ n → e (n + 1) = e n - a (n + 2) + a' n)
    (e2 : ∀ n, 0 ≤ n → f (n + 1) = (if n = 0 then 0 else b' n) - b (n + 2) + e n * (a (n + 1) - a' n) + f n)
    (e3 : ∀ n, 0 ≤ n → e n * b (n + 1) + f n * (a n - a' n) = if n = 0 then 0 else b' n * e (n - 1)) (e4 : ∀ n, 1 ≤ n → f n * b n = b' n * f (n - 1)) {n : Int} (hn : 0 ≤ n) :
    (1 - X ^ 2) * monic a' b' n = -monic a b (n + 2) + C (e n) * monic a b (n + 1) + C (f n) * monic a b n := by
  refine two_step (P := fun n => (1 - X ^ 2) * monic a' b' n = -monic a b (n + 2) + C (e n) * monic a b (n + 1) + C (f n) * monic a b n) ?_ (fun n n0 ih ih' => ?_) hn
  · rw [monic_zero, mul_one, h0, zero_add, zero_add, monic_zero, mul_one]
  · have x2 := monic_mul (a := a) (b := b) (show 0 ≤ n + 2 by omega)
    have x1 := monic_mul (a := a) (b := b) (show 0 ≤ n + 1 by omega)
    have x0 := monic_mul (a := a) (b := b) n0
    rw [show n + 2 + 1 = n + 1 + 2 by ring, show n + 2 - 1 = n + 1 by ring] at x2
    rw [show n + 1 + 1 = n + 2 by ring, show n + 1 - 1 = n by ring] at x1
    rw [monic_succ n0, show n + 1 + 1 = n + 2 by ring, e1 n n0, e2 n n0]
    have f3 := congrArg C (e3 n n0)
    by_cases h : n = 0
    · subst h
      rw [if_pos rfl] at f3 ⊢
      rw [monic_neg (show (0 : Int) - 1 < 0 by omega)] at x0 ⊢
      simp only [map_add, map_sub, map_mul, map_zero] at f3 ⊢
      linear_combination (X - C (a' 0)) * ih - x2 + C (e 0) * x1 + C (f 0) * x0 + f3 * monic a b 0
    · have h1 : 1 ≤ n := by omega
      rw [if_neg h] at f3 ⊢
      have y0 := ih' h1
      rw [show n - 1 + 2 = n + 1 by ring, sub_add_cancel] at y0
      have f4 := congrArg C (e4 n h1)
      simp only [map_add, map_sub, map_mul] at f3 f4 ⊢
      linear_combination (X - C (a' n)) * ih - C (b' n) * y0 - x2 + C (e n) * x1 + C (f n) * x0 + f3 * monic a b n + f4 * monic a b (n - 1)

end general

/-! ## Jacobi, with `m = 2n+s`, `s = α+β`, `d = α-β` -/

def gA (s d m : K) : K := -(d * s) / (m * (m + 2))
def gB (s d m : K) : K := ((m - s) * (m + s) * (m - d) * (m + d)) / (4 * m * m * (m - 1) * (m + 1))
def gR (s d m : K) : K := (d * (m - s)) / (m * (m + 2))
def gT (s d m : K) : K := -((m - s) * (m - s - 2) * (m - d) * (m + d)) / (4 * m * m * (m - 1) * (m + 1))
def gE (s d m : K) : K := (d * (m + s + 4)) / ((m + 2) * (m + 4))
def gF (s d m : K) : K := ((m + 2 - d) * (m + 2 + d) * (m + s + 2) * (m + s + 4)) / (4 * (m + 2) * (m + 2) * (m + 1) * (m + 3))

section identities
variable [CharZero K] {s d m : K}

theorem gR_e1 (h0 : m ≠ 0) (h2 : m + 2 ≠ 0) (h4 : m + 4 ≠ 0) : gR s d (m + 2) = gA (s + 2) d (m + 2) - gA s d m + gR s d m := by
  unfold gA gR; rw [show m + 2 + 2 = m + 4 by ring]; field_simp; ring

theorem gR_e2 (h0 : m ≠ 0) (g1 : m - 1 ≠ 0) (h1 : m + 1 ≠ 0) (h2 : m + 2 ≠ 0) (h3 : m + 3 ≠ 0) :
    gT s d (m + 2) = gB (s + 2) d (m + 2) + gR s d m * (gA (s + 2) d m - gA s d m) + gT s d m - gB s d m := by
  unfold gA gR gT gB; rw [show m + 2 - 1 = m + 1 by ring, show m + 2 + 1 = m + 3 by ring]; field_simp; ring

theorem gR_e3 (g2 : m - 2 ≠ 0) (h0 : m ≠ 0) (g1 : m - 1 ≠ 0) (h1 : m + 1 ≠ 0) (h2 : m + 2 ≠ 0) :
    gR s d m * gB (s + 2) d m + gT s d m * (gA (s + 2) d (m - 2) - gA s d m) = gB s d m * gR s d (m - 2) := by
  unfold gA gR gT gB; rw [show m - 2 + 2 = m by ring]; field_simp; ring

theorem gR_e4 (g2 : m - 2 ≠ 0) (g3 : m - 3 ≠ 0) (h0 : m ≠ 0) (g1 : m - 1 ≠ 0) (h1 : m + 1 ≠ 0) : gT s d m * gB (s + 2) d (m - 2) = gB s d m * gT s d (m - 2) := by
  unfold gT gB; rw [show m - 2 - 1 = m - 3 by ring, show m - 2 + 1 = m - 1 by ring]; field_simp; ring

theorem gD_e1 (h0 : m ≠ 0) (h2 : m + 2 ≠ 0) : gR s d m + (m - s) / 2 * (gA (s + 2) d m - gA s d m) = 0 := by
  unfold gA gR; field_simp; ring

theorem gD_e2 (h0 : m ≠ 0) (g1 : m - 1 ≠ 0) (h1 : m + 1 ≠ 0) : gT s d m + (m - s) / 2 * gB (s + 2) d m - ((m - s) / 2 - 1) * gB s d m = 0 := by
  unfold gT gB; field_simp; ring

theorem gL_e1 (h2 : m + 2 ≠ 0) (h4 : m + 4 ≠ 0) (h6 : m + 6 ≠ 0) : gE s d (m + 2) = gE s d m - gA s d (m + 4) + gA (s + 2) d (m + 2) := by
  unfold gA gE; rw [show m + 2 + 2 = m + 4 by ring, show m + 2 + 4 = m + 6 by ring, show m + 4 + 2 = m + 6 by ring]; field_simp; ring

theorem gL_e2 (h1 : m + 1 ≠ 0) (h2 : m + 2 ≠ 0) (h3 : m + 3 ≠ 0) (h4 : m + 4 ≠ 0) (h5 : m + 5 ≠ 0) :
    gF s d (m + 2) = gB (s + 2) d (m + 2) - gB s d (m + 4) + gE s d m * (gA s d (m + 2) - gA (s + 2) d (m + 2)) + gF s d m := by
  unfold gA gB gE gF
  rw [show m + 2 - 1 = m + 1 by ring, show m + 2 + 1 = m + 3 by ring, show m + 2 + 2 = m + 4 by ring, show m + 2 + 3 = m + 5 by ring, show m + 4 - 1 = m + 3 by ring, show m + 4 + 1 = m + 5 by ring]
  field_simp; ring

theorem gL_e3 (h0 : m ≠ 0) (h1 : m + 1 ≠ 0) (h2 : m + 2 ≠ 0) (h3 : m + 3 ≠ 0) (h4 : m + 4 ≠ 0) :
    gE s d m * gB s d (m + 2) + gF s d m * (gA s d m - gA (s + 2) d (m + 2)) = gB (s + 2) d (m + 2) * gE s d (m - 2) := by
  unfold gA gB gE gF
  rw [show m + 2 - 1 = m + 1 by ring, show m + 2 + 1 = m + 3 by ring, show m + 2 + 2 = m + 4 by ring, show m - 2 + 2 = m by ring, show m - 2 + 4 = m + 2 by ring]
  field_simp; ring

theorem gL_e4 (h0 : m ≠ 0) (g1 : m - 1 ≠ 0) (h1 : m + 1 ≠ 0) (h2 : m + 2 ≠ 0) (h3 : m + 3 ≠ 0) : gF s d m * gB s d m = gB (s + 2) d (m + 2) * gF s d (m - 2) := by
  unfold gB gF
  rw [show m + 2 - 1 = m + 1 by ring, show m + 2 + 1 = m + 3 by ring, show m - 2 + 1 = m - 1 by ring, show m - 2 + 2 = m by ring, show m - 2 + 3 = m + 1 by ring]
  field_simp; ring

end identities

section jacobi
variable [LinearOrder K] [IsStrictOrderedRing K] {α β : K}

theorem jacA_eq {n : Int} (h : n ≠ 0 ∨ α + β ≠ 0 ∧ α + β + 2 ≠ 0) : jacA α β n = gA (α + β) (α - β) (2 * n + (α + β)) := by
  unfold jacA gA
  by_cases hn : n = 0
  · obtain ⟨h1, h2⟩ := h.resolve_left (not_not.2 hn)
    rw [if_pos hn, hn, Int.cast_zero, mul_zero, zero_add]
    field_simp
    ring
  · rw [if_neg hn, show (2 * n + α + β : K) = 2 * n + (α + β) by ring]
    congr 1; ring

theorem jacB_eq {n : Int} (h : n ≠ 1 ∨ (α + β + 1 ≠ 0 ∧ α + β + 2 ≠ 0 ∧ α + β + 3 ≠ 0)) : jacB α β n = gB (α + β) (α - β) (2 * n + (α + β)) := by
  unfold jacB gB
  by_cases hn : n = 1
  · obtain ⟨h1, h2, h3⟩ := h.resolve_left (not_not.2 hn)
    rw [if_pos hn, hn, Int.cast_one, mul_one, show 2 + (α + β) - 1 = α + β + 1 by ring, show 2 + (α + β) + 1 = α + β + 3 by ring, show 2 + (α + β) = α + β + 2 by ring]
    field_simp
    ring
  · rw [if_neg hn, show (2 * n + α + β : K) = 2 * n + (α + β) by ring,
      show (4 * n * (n + α) * (n + β) * (n + α + β) : K) = ((2 * n + (α + β) - (α + β)) * (2 * n + (α + β) + (α + β)) * (2 * n + (α + β) - (α - β)) * (2 * n + (α + β) + (α - β))) / 4 by ring, div_div]
    congr 1; ring

/-- The raised family has no exceptional coefficients. -/
theorem jacA_up (hα : -1 < α) (hβ : -1 < β) (n : Int) : jacA (α + 1) (β + 1) n = gA (α + β + 2) (α - β) (2 * n + (α + β) + 2) := by
  rw [jacA_eq (.inr ⟨by linarith, by linarith⟩)]
  congr 1 <;> ring

theorem jacB_up (hα : -1 < α) (hβ : -1 < β) (n : Int) : jacB (α + 1) (β + 1) n = gB (α + β + 2) (α - β) (2 * n + (α + β) + 2) := by
  rw [jacB_eq (.inr ⟨by linarith, by linarith, by linarith⟩)]
  congr 1 <;> ring

/-- Coefficients of the raising and lowering relations between monic Jacobi polynomials. -/
def jacRa (α β : K) (n : Int) : K := gR (α + β) (α - β) (2 * n + (α + β))
def jacRb (α β : K) (n : Int) : K := gT (α + β) (α - β) (2 * n + (α + β))
def jacLa (α β : K) (n : Int) : K := gE (α + β) (α - β) (2 * n + (α + β))
def jacLb (α β : K) (n : Int) : K := if n = 0 then 4 * (α + 1) * (β + 1) / ((α + β + 2) * (α + β + 3)) else gF (α + β) (α - β) (2 * n + (α + β))

theorem m_pos (hα : -1 < α) (hβ : -1 < β) {n : Int} (hn : 1 ≤ n) : 0 < 2 * (n : K) + (α + β) := by
  have : (1 : K) ≤ n := by exact_mod_cast hn
  linarith

theorem m_pos2 (hα : -1 < α) (hβ : -1 < β) {n : Int} (hn : 2 ≤ n) : 2 < 2 * (n : K) + (α + β) := by
  have : (2 : K) ≤ n := by exact_mod_cast hn
  linarith

theorem m_pos3 (hα : -1 < α) (hβ : -1 < β) {n : Int} (hn : 3 ≤ n) : 4 < 2 * (n : K) + (α + β) := by
  have : (3 : K) ≤ n := by exact_mod_cast hn
  linarith

theorem jacobi_raise (hα : -1 < α) (hβ : -1 < β) {n : Int} (hn : 0 ≤ n) :
    jacobi α β n = jacobi (α + 1) (β + 1) n + C (jacRa α β n) * jacobi (α + 1) (β + 1) (n - 1) + C (jacRb α β n) * jacobi (α + 1) (β + 1) (n - 2) := by
  refine monic_raise (r := jacRa α β) (t := jacRb α β) ?_ ?_ ?_ (fun n hn => ?_) (fun n hn => ?_) (fun n hn => ?_) (fun n hn => ?_) hn
  · unfold jacRa gR; simp
  · unfold jacRb gT; simp
  · unfold jacRb gT; rw [show (2 * ((1 : Int) : K) + (α + β) - (α + β) - 2) = 0 by push_cast; ring]; simp
  · rw [jacA_up hα hβ]
    unfold jacRa
    rw [show 2 * ((n + 1 : Int) : K) + (α + β) = 2 * n + (α + β) + 2 by push_cast; ring]
    by_cases h : n = 0
    · subst h
      have h2 : α + β + 2 ≠ 0 := by linarith
      have h4 : α + β + 4 ≠ 0 := by linarith
      unfold jacA gR gA
      rw [if_pos rfl, Int.cast_zero, mul_zero, zero_add, show α + β + 2 + 2 = α + β + 4 by ring, sub_self, mul_zero, zero_div]
      field_simp
      ring
    · have := m_pos hα hβ (show 1 ≤ n by omega)
      rw [jacA_eq (.inl h)]
      exact gR_e1 (by linarith) (by linarith) (by linarith)
  · have hm := m_pos hα hβ hn
    rw [jacA_up hα hβ, jacB_up hα hβ, jacA_eq (.inl (by omega))]
    unfold jacRa jacRb
    rw [show 2 * ((n + 1 : Int) : K) + (α + β) = 2 * n + (α + β) + 2 by push_cast; ring, show 2 * ((n - 1 : Int) : K) + (α + β) + 2 = 2 * n + (α + β) by push_cast; ring]
    by_cases h : n = 1
    · subst h
      have h2 : α + β + 2 ≠ 0 := by linarith
      have h3 : α + β + 3 ≠ 0 := by linarith
      have h4 : α + β + 4 ≠ 0 := by linarith
      have h5 : α + β + 5 ≠ 0 := by linarith
      unfold jacB gA gB gT gR
      rw [if_pos rfl, Int.cast_one, mul_one, show 2 + (α + β) - (α + β) - 2 = 0 by ring, mul_zero, zero_mul, zero_mul, neg_zero, zero_div]
      rw [show 2 + (α + β) + 2 - 1 = α + β + 3 by ring, show 2 + (α + β) + 2 + 1 = α + β + 5 by ring, show 2 + (α + β) + 2 = α + β + 4 by ring, show 2 + (α + β) = α + β + 2 by ring]
      field_simp
      ring
    · have := m_pos2 hα hβ (show 2 ≤ n by omega)
      rw [jacB_eq (.inl h)]
      exact gR_e2 (by linarith) (by linarith) (by linarith) (by linarith) (by linarith)
  · have := m_pos2 hα hβ hn
    rw [jacA_up hα hβ, jacB_up hα hβ, jacA_eq (.inl (by omega)), jacB_eq (.inl (by omega))]
    unfold jacRa jacRb
    rw [show 2 * ((n - 1 : Int) : K) + (α + β) + 2 = 2 * n + (α + β) by push_cast; ring, show 2 * ((n - 2 : Int) : K) + (α + β) + 2 = 2 * n + (α + β) - 2 by push_cast; ring,
      show 2 * ((n - 1 : Int) : K) + (α + β) = 2 * n + (α + β) - 2 by push_cast; ring]
    exact gR_e3 (by linarith) (by linarith) (by linarith) (by linarith) (by linarith)
  · have := m_pos3 hα hβ hn
    rw [jacB_up hα hβ, jacB_eq (.inl (by omega))]
    unfold jacRb
    rw [show 2 * ((n - 2 : Int) : K) + (α + β) + 2 = 2 * n + (α + β) - 2 by push_cast; ring, show 2 * ((n - 1 : Int) : K) + (α + β) = 2 * n + (α + β) - 2 by push_cast; ring]
    exact gR_e4 (by linarith) (by linarith) (by linarith) (by linarith) (by linarith)

theorem jacobi_derivative (hα : -1 < α) (hβ : -1 < β) {n : Int} (hn : 0 ≤ n) : derivative (jacobi α β n) = C (n : K) * jacobi (α + 1) (β + 1) (n - 1) := by
  refine monic_derivative (fun n hn => jacobi_raise hα hβ hn) (fun n hn => ?_) (fun n hn => ?_) hn
  · have := m_pos hα hβ hn
    have e := gD_e1 (s := α + β) (d := α - β) (m := 2 * n + (α + β)) (by linarith) (by linarith)
    rw [jacA_up hα hβ, jacA_eq (.inl (by omega))]
    unfold jacRa
    rw [show 2 * ((n - 1 : Int) : K) + (α + β) + 2 = 2 * n + (α + β) by push_cast; ring]
    rw [show (2 * (n : K) + (α + β) - (α + β)) / 2 = n by ring] at e
    exact e
  · have := m_pos2 hα hβ hn
    have e := gD_e2 (s := α + β) (d := α - β) (m := 2 * n + (α + β)) (by linarith) (by linarith) (by linarith)
    rw [jacB_up hα hβ, jacB_eq (.inl (by omega))]
    unfold jacRb
    rw [show 2 * ((n - 1 : Int) : K) + (α + β) + 2 = 2 * n + (α + β) by push_cast; ring]
    rw [show (2 * (n : K) + (α + β) - (α + β)) / 2 = n by ring] at e
    exact e

/-- The quotient of the squared norms of the raised family and of the family obeys this recurrence. -/
theorem jacLb_mul (hα : -1 < α) (hβ : -1 < β) {n : Int} (hn : 1 ≤ n) : jacLb α β n * jacB α β n = jacB (α + 1) (β + 1) n * jacLb α β (n - 1) := by
  have h2 : α + β + 2 ≠ 0 := by linarith
  have h3 : α + β + 3 ≠ 0 := by linarith
  have h4 : α + β + 4 ≠ 0 := by linarith
  have h5 : α + β + 5 ≠ 0 := by linarith
  have := m_pos hα hβ hn
  rw [jacB_up hα hβ]
  unfold jacLb
  rw [if_neg (by omega : ¬ n = 0), show 2 * ((n - 1 : Int) : K) + (α + β) = 2 * n + (α + β) - 2 by push_cast; ring]
  by_cases h : n = 1
  · subst h
    unfold gF gB jacB
    rw [if_pos rfl, if_pos (by omega), Int.cast_one, mul_one]
    rw [show 2 + (α + β) + 2 - 1 = α + β + 3 by ring, show 2 + (α + β) + 2 + 1 = α + β + 5 by ring, show 2 + (α + β) + 1 = α + β + 3 by ring, show 2 + (α + β) + 3 = α + β + 5 by ring,
      show 2 + (α + β) + 2 = α + β + 4 by ring]
    field_simp; ring
  · have := m_pos2 hα hβ (show 2 ≤ n by omega)
    rw [if_neg (by omega : ¬ n - 1 = 0), jacB_eq (.inl h)]
    exact gL_e4 (by linarith) (by linarith) (by linarith) (by linarith) (by linarith)

theorem jacobi_lower (hα : -1 < α) (hβ : -1 < β) {n : Int} (hn : 0 ≤ n) :
    (1 - X ^ 2) * jacobi (α + 1) (β + 1) n = -jacobi α β (n + 2) + C (jacLa α β n) * jacobi α β (n + 1) + C (jacLb α β n) * jacobi α β n := by
  have h2 : α + β + 2 ≠ 0 := by linarith
  have h3 : α + β + 3 ≠ 0 := by linarith
  have h4 : α + β + 4 ≠ 0 := by linarith
  have h5 : α + β + 5 ≠ 0 := by linarith
  refine monic_lower (e := jacLa α β) (f := jacLb α β) ?_ (fun n hn => ?_) (fun n hn => ?_) (fun n hn => ?_) (fun n hn => ?_) hn
  · have e : monic (jacA α β) (jacB α β) 2 = (X - C (jacA α β 1)) * (X - C (jacA α β 0)) - C (jacB α β 1) := by
      rw [show (2 : Int) = 1 + 1 by rfl, monic_succ (by omega), sub_self, monic_zero, monic_one, mul_one]
    rw [e, monic_one]
    have f1 : jacLa α β 0 = -(jacA α β 1 + jacA α β 0) := by
      unfold jacLa gE jacA
      rw [if_neg (by omega), if_pos rfl]
      push_cast
      rw [mul_zero, zero_add, mul_one, show 2 + α + β + 2 = α + β + 4 by ring, show 2 + α + β = α + β + 2 by ring]
      field_simp; ring
    have f2 : jacLb α β 0 = 1 + jacA α β 1 * jacA α β 0 + jacLa α β 0 * jacA α β 0 - jacB α β 1 := by
      rw [f1]
      unfold jacLb jacA jacB
      rw [if_pos rfl, if_pos rfl, if_neg (by omega), if_pos rfl]
      push_cast
      rw [mul_one, show 2 + α + β + 2 = α + β + 4 by ring, show 2 + α + β = α + β + 2 by ring]
      field_simp; ring
    have f1' := congrArg (C : K → K[X]) f1
    have f2' := congrArg (C : K → K[X]) f2
    simp only [map_add, map_sub, map_mul, map_neg, map_one] at f1' f2'
    linear_combination -X * f1' - f2'
  · have hm : -2 < 2 * (n : K) + (α + β) := by have : (0 : K) ≤ n := by exact_mod_cast hn
                                               linarith
    rw [jacA_up hα hβ, jacA_eq (.inl (by omega))]
    unfold jacLa
    rw [show 2 * ((n + 1 : Int) : K) + (α + β) = 2 * n + (α + β) + 2 by push_cast; ring, show 2 * ((n + 2 : Int) : K) + (α + β) = 2 * n + (α + β) + 4 by push_cast; ring]
    exact gL_e1 (by linarith) (by linarith) (by linarith)
  · rw [jacA_up hα hβ, jacB_up hα hβ, jacA_eq (.inl (by omega)), jacB_eq (.inl (by omega))]
    unfold jacLa jacLb
    rw [if_neg (by omega : ¬ n + 1 = 0), show 2 * ((n + 1 : Int) : K) + (α + β) = 2 * n + (α + β) + 2 by push_cast; ring, show 2 * ((n + 2 : Int) : K) + (α + β) = 2 * n + (α + β) + 4 by push_cast; ring]
    by_cases h : n = 0
    · subst h
      unfold gF gB gE gA
      rw [if_pos rfl, if_pos rfl, Int.cast_zero, mul_zero, zero_add]
      rw [show α + β + 2 + 1 = α + β + 3 by ring, show α + β + 2 + 3 = α + β + 5 by ring, show α + β + 4 - 1 = α + β + 3 by ring, show α + β + 4 + 1 = α + β + 5 by ring, show α + β + 2 + 2 = α + β + 4 by ring]
      field_simp; ring
    · have := m_pos hα hβ (show 1 ≤ n by omega)
      rw [if_neg h, if_neg h]
      exact gL_e2 (by linarith) (by linarith) (by linarith) (by linarith) (by linarith)
  · rw [jacA_up hα hβ, jacB_up hα hβ]
    unfold jacLa jacLb
    rw [show 2 * ((n - 1 : Int) : K) + (α + β) = 2 * n + (α + β) - 2 by push_cast; ring]
    by_cases h : n = 0
    · subst h
      unfold gE gA jacA jacB
      rw [if_pos rfl, if_pos rfl, if_pos rfl, if_pos (by omega), Int.cast_zero, mul_zero, zero_add, show α + β + 2 + 2 = α + β + 4 by ring]
      field_simp; ring
    · have := m_pos hα hβ (show 1 ≤ n by omega)
      rw [if_neg h, if_neg h, jacB_eq (.inl (by omega)), jacA_eq (.inl h), show 2 * ((n + 1 : Int) : K) + (α + β) = 2 * n + (α + β) + 2 by push_cast; ring]
      exact gL_e3 (by linarith) (by linarith) (by linarith) (by linarith) (by linarith)
  · exact jacLb_mul hα hβ hn

end jacobi

/-! ## Laguerre and Hermite -/

section laguerre
variable {α : K}

theorem laguerre_raise {n : Int} (hn : 0 ≤ n) : laguerre α n = laguerre (α + 1) n + C (n : K) * laguerre (α + 1) (n - 1) := by
  have := monic_raise (a := lagA α) (b := lagB α) (a' := lagA (α + 1)) (b' := lagB (α + 1)) (r := fun n => (n : K)) (t := fun _ => 0) (by simp) rfl rfl
    (fun n _ => by unfold lagA; push_cast; ring) (fun n _ => by unfold lagA lagB; push_cast; ring) (fun n _ => by unfold lagA lagB; push_cast; ring) (fun n _ => by simp) hn
  rw [map_zero, zero_mul, add_zero] at this
  exact this

theorem laguerre_derivative {n : Int} (hn : 0 ≤ n) : derivative (laguerre α n) = C (n : K) * laguerre (α + 1) (n - 1) := by
  refine monic_derivative (r := fun n => (n : K)) (t := fun _ => 0) (fun n hn => by rw [map_zero, zero_mul, add_zero]; exact laguerre_raise hn) (fun n _ => ?_) (fun n _ => ?_) hn
  · unfold lagA; push_cast; ring
  · unfold lagB; push_cast; ring

/-- `x q_n = p_{n+1} + (n+α+1) p_n`. -/
theorem laguerre_lower {n : Int} (hn : 0 ≤ n) : X * laguerre (α + 1) n = laguerre α (n + 1) + C (n + α + 1 : K) * laguerre α n := by
  unfold laguerre
  refine two_step (P := fun n => X * monic (lagA (α + 1)) (lagB (α + 1)) n = monic (lagA α) (lagB α) (n + 1) + C (n + α + 1 : K) * monic (lagA α) (lagB α) n) ?_ (fun n n0 ih ih' => ?_) hn
  · rw [monic_zero, zero_add, monic_one, monic_zero]; unfold lagA; push_cast; simp
  · have x1 := monic_mul (a := lagA α) (b := lagB α) (show 0 ≤ n + 1 by omega)
    have x0 := monic_mul (a := lagA α) (b := lagB α) n0
    rw [add_sub_cancel_right] at x1
    rw [monic_succ n0]
    by_cases h : n = 0
    · subst h
      rw [monic_neg (show (0 : Int) - 1 < 0 by omega)] at x0 ⊢
      unfold lagA lagB at *
      push_cast at *
      simp only [map_add, map_mul, map_one, map_zero, map_ofNat] at *
      linear_combination (X - (2 * 0 + (C α + 1) + 1)) * ih + x1 + (0 + C α + 1) * x0
    · have y0 := ih' (by omega)
      rw [sub_add_cancel] at y0
      unfold lagA lagB at *
      push_cast at *
      simp only [map_add, map_sub, map_mul, map_one, map_zero, map_ofNat] at *
      linear_combination (X - (2 * C (n : K) + (C α + 1) + 1)) * ih - C (n : K) * (C (n : K) + (C α + 1)) * y0 + x1 + (C (n : K) + C α + 1) * x0

end laguerre

theorem hermite_derivative [CharZero K] {n : Int} (hn : 0 ≤ n) : derivative (hermite (K := K) n) = C (n : K) * hermite (n - 1) := by
  refine monic_derivative (r := fun _ => 0) (t := fun _ => 0) (fun n hn => by rw [map_zero, zero_mul, zero_mul, add_zero, add_zero]) (fun n _ => ?_) (fun n _ => ?_) hn
  · unfold herA; ring
  · unfold herB; push_cast; ring

end FT.Poly
