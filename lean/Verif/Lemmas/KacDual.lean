import Verif.Lemmas.YzPlan
import Mathlib.Data.Nat.Choose.Basic
import Mathlib.Data.Nat.Cast.Order.Ring

/-! # Self-duality and signs of the coefficients of `(1+x)^a (1-x)^c` -/

namespace FT.Kac
open Polynomial
variable {K : Type*} [Field K]

/-- Difference equation in the exponents. -/
theorem co_diff (a c : Nat) (k : Int) : (a : K) * co K (a - 1) (c + 1) k + c * co K (a + 1) (c - 1) k = ((a : K) + c - 2 * k) * co K a c k := by
  rcases lt_or_ge k 0 with h | h
  · rw [co_neg _ _ h, co_neg _ _ h, co_neg _ _ h]; ring
  obtain ⟨n, rfl⟩ := Int.eq_ofNat_of_zero_le h
  have h1 : (1 + X) * derivative ((1 + X : K[X]) ^ a) = C (a : K) * (1 + X) ^ a ∧ derivative ((1 + X : K[X]) ^ a) = C (a : K) * (1 + X) ^ (a - 1) := by
    cases a with
    | zero => simp
    | succ a => rw [derivative_pow_succ]; refine ⟨?_, ?_⟩ <;> simp; ring
  have h2 : (1 - X) * derivative ((1 - X : K[X]) ^ c) = -C (c : K) * (1 - X) ^ c ∧ derivative ((1 - X : K[X]) ^ c) = -C (c : K) * (1 - X) ^ (c - 1) := by
    cases c with
    | zero => simp
    | succ c => rw [derivative_pow_succ]; refine ⟨?_, ?_⟩ <;> simp <;> ring
  have e : C (a : K) * poly K (a - 1) (c + 1) + C (c : K) * poly K (a + 1) (c - 1) = C ((a : K) + c) * poly K a c - C 2 * (X * derivative (poly K a c)) := by
    unfold poly
    rw [derivative_mul, map_add, pow_succ, pow_succ]
    have t1 : C (2 : K) = (2 : K[X]) := map_ofNat C 2
    rw [t1]
    linear_combination (1 - X) ^ c * h1.1 - (1 + X) ^ a * h2.1 - (1 - X) ^ c * (1 - X) * h1.2 + (1 + X) ^ a * (1 + X) * h2.2
  have e' := congrArg (fun p : K[X] => p.coeff n) e
  simp only [coeff_add, coeff_sub, coeff_C_mul] at e'
  rw [co_nat, co_nat, co_nat, e']
  cases n with
  | zero => simp
  | succ n => rw [coeff_X_mul, coeff_derivative]; push_cast; ring

/-- Signed binomial coefficient. -/
def wt (K : Type*) [Field K] (N i : Nat) : K := (-1) ^ i * (N.choose i : K)

theorem wt_succ (N i : Nat) : ((i : K) + 1) * wt K N (i + 1) = -((N : K) - i) * wt K N i := by
  unfold wt
  rcases le_or_gt i N with h | h
  · have := Nat.choose_succ_right_eq N i
    have e : ((N.choose (i + 1) : Nat) : K) * ((i : K) + 1) = (N.choose i : K) * ((N : K) - i) := by
      rw [← Nat.cast_sub h]; exact_mod_cast congrArg (Nat.cast : ℕ → K) this
    rw [pow_succ]
    linear_combination -(-1) ^ i * e
  · rw [Nat.choose_eq_zero_of_lt (by omega), Nat.choose_eq_zero_of_lt h]; simp

theorem wt_ne [CharZero K] {N i : Nat} (h : i ≤ N) : wt K N i ≠ 0 :=
  mul_ne_zero (pow_ne_zero _ (by simp)) (by exact_mod_cast (Nat.choose_pos h).ne')

/-- `(1-x)^N`. -/
theorem co_base [CharZero K] (N k : Nat) : co K 0 N k = wt K N k := by
  induction k with
  | zero => rw [Nat.cast_zero, co_zero]; simp [wt]
  | succ k ih =>
    have hz : ((k : K) + 1) ≠ 0 := by exact_mod_cast Nat.succ_ne_zero k
    apply mul_left_cancel₀ hz
    rw [wt_succ, ← ih]
    have d := co_diff (K := K) 0 N k
    have e : (1 - X) * derivative (poly K 0 N) = -C (N : K) * poly K 0 N := by
      unfold poly
      cases N with
      | zero => simp
      | succ c => rw [pow_zero, one_mul, derivative_pow_succ]; simp; ring
    have e' := congrArg (fun p : K[X] => p.coeff k) e
    rw [show (1 - X) * derivative (poly K 0 N) = derivative (poly K 0 N) - X * derivative (poly K 0 N) by ring, ← map_neg C, coeff_sub, coeff_C_mul, coeff_derivative] at e'
    rw [show ((k + 1 : Nat) : Int) = ((k + 1 : Nat) : Int) from rfl, co_nat, co_nat]
    have : (X * derivative (poly K 0 N)).coeff k = (k : K) * (poly K 0 N).coeff k := by
      cases k with
      | zero => simp
      | succ k => rw [coeff_X_mul, coeff_derivative]; push_cast; ring
    rw [this] at e'
    linear_combination e'

/-- Self-duality. -/
theorem co_dual [CharZero K] {N k : Nat} (hk : k ≤ N) : ∀ i : Nat, i ≤ N → wt K N k * co K k (N - k) i = wt K N i * co K i (N - i) k := by
  suffices H : ∀ i : Nat, i + 1 ≤ N → wt K N k * co K k (N - k) i = wt K N i * co K i (N - i) k ∧
      wt K N k * co K k (N - k) (i + 1 : Nat) = wt K N (i + 1) * co K (i + 1) (N - (i + 1)) k by
    intro i hi
    rcases Nat.eq_zero_or_pos N with h | h
    · subst h
      obtain rfl : i = 0 := by omega
      obtain rfl : k = 0 := by omega
      rfl
    · rcases Nat.eq_zero_or_pos i with h0 | h0
      · subst h0; exact (H 0 (by omega)).1
      · have := (H (i - 1) (by omega)).2
        rwa [show i - 1 + 1 = i by omega] at this
  have hkc : (k : K) + ((N - k : Nat) : K) = N := by rw [Nat.cast_sub hk]; ring
  have hkd : (k : K) - ((N - k : Nat) : K) = 2 * k - N := by rw [Nat.cast_sub hk]; ring
  intro i
  induction i with
  | zero =>
    intro hi
    have b0 : wt K N 0 = 1 := by simp [wt]
    refine ⟨by rw [Nat.cast_zero, co_zero, b0, Nat.sub_zero, co_base]; ring, ?_⟩
    have d := co_diff (K := K) 0 N k
    have r := co_rec (K := K) k (N - k) 0
    rw [co_neg _ _ (k := 0 - 1) (by omega), co_zero, hkd] at r
    have s := wt_succ (K := K) N 0
    rw [b0] at s
    rw [co_base N k] at d
    have e : co K k (N - k) (0 + 1 : Int) = 2 * k - N := by simpa using r
    rw [show ((0 + 1 : Nat) : Int) = 0 + 1 by rfl, e]
    rw [show 0 + 1 = 1 by rfl] at *
    push_cast at s d ⊢
    linear_combination d - co K 1 (N - 1) k * s
  | succ i ih =>
    intro hi
    obtain ⟨i1, i2⟩ := ih (by omega)
    refine ⟨i2, ?_⟩
    have d := co_diff (K := K) (i + 1) (N - (i + 1)) k
    rw [show i + 1 - 1 = i by omega, show N - (i + 1) + 1 = N - i by omega, show N - (i + 1) - 1 = N - (i + 1 + 1) by omega] at d
    have r := co_rec (K := K) k (N - k) (i + 1 : Nat)
    rw [show ((i + 1 : Nat) : Int) - 1 = (i : Int) by push_cast; ring, show ((i + 1 : Nat) : Int) + 1 = ((i + 1 + 1 : Nat) : Int) by push_cast; ring, hkd, hkc] at r
    have s1 := wt_succ (K := K) N i
    have s2 := wt_succ (K := K) N (i + 1)
    have hz : (((i + 1 : Nat) : K) + 1) ≠ 0 := by exact_mod_cast Nat.succ_ne_zero (i + 1)
    have hN : ((N - (i + 1) : Nat) : K) = N - (i + 1 : Nat) := by rw [Nat.cast_sub (by omega)]
    rw [hN] at d
    apply mul_left_cancel₀ hz
    push_cast at *
    linear_combination wt K N k * r + (2 * (k : K) - N) * i2 - ((N : K) - i) * i1 - co K i (N - i) k * s1 - co K (i + 1 + 1) (N - (i + 1 + 1)) k * s2 + wt K N (i + 1) * d

end FT.Kac
