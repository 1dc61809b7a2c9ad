import Verif.Props.LegChebSpec
import Verif.Lemmas.Accum
import Verif.Lemmas.Monic

/-! # Connection coefficients between Legendre and Chebyshev polynomials -/

namespace FT.Props.Lc
open Polynomial FT FT.Poly
variable {K : Type*} [Field K] [CharZero K]

/-- `Λ(k) / √π`, zero for negative arguments. -/
noncomputable def cN : ℕ → K
  | 0 => 1
  | k + 1 => cN k * ((2 * k + 1) / (2 * k + 2))

noncomputable def cZ (k : Int) : K := if k < 0 then 0 else cN k.toNat

theorem cZ_zero : cZ (K := K) 0 = 1 := rfl
theorem cZ_neg {k : Int} (h : k < 0) : cZ (K := K) k = 0 := if_pos h
theorem cZ_succ {k : Int} (h : 0 ≤ k) : cZ (K := K) (k + 1) = cZ k * ((2 * k + 1) / (2 * k + 2)) := by
  obtain ⟨m, rfl⟩ := Int.eq_ofNat_of_zero_le h
  unfold cZ
  rw [if_neg (by omega), if_neg (by omega)]
  show cN (m + 1) = _
  rw [cN]; simp

theorem icast_ne {k : Int} (h : k ≠ 0) : (k : K) ≠ 0 := Int.cast_ne_zero.2 h

theorem cZ_pred {k : Int} (h : 1 ≤ k) : cZ (K := K) k = cZ (k - 1) * ((2 * k - 1) / (2 * k)) := by
  have := cZ_succ (K := K) (show 0 ≤ k - 1 by omega)
  rw [sub_add_cancel] at this
  rw [this]; push_cast; congr 2 <;> ring

theorem cZ_ne {k : Int} (h : 0 ≤ k) : cZ (K := K) k ≠ 0 := by
  obtain ⟨m, rfl⟩ := Int.eq_ofNat_of_zero_le h
  induction m with
  | zero => simp [cZ_zero]
  | succ m ih =>
    push_cast
    rw [cZ_succ (by omega)]
    refine mul_ne_zero (ih (by omega)) (div_ne_zero ?_ ?_)
    · have := icast_ne (K := K) (show 2 * (m : Int) + 1 ≠ 0 by omega); push_cast at this; exact_mod_cast this
    · have := icast_ne (K := K) (show 2 * (m : Int) + 2 ≠ 0 by omega); push_cast at this; exact_mod_cast this

noncomputable def leg (n : Int) : K[X] := if n < 0 then 0 else legN n.toNat

theorem leg_zero : leg (K := K) 0 = 1 := rfl
theorem leg_one : leg (K := K) 1 = X := rfl
theorem leg_nat (n : Int) (h : 0 ≤ n) : leg (K := K) n = legN n.toNat := if_neg (by omega)

theorem leg_rec {n : Int} (h : 0 ≤ n) : C (((n + 1 : Int) : K)) * leg (n + 1) = C (((2 * n + 1 : Int) : K)) * X * leg n - C (n : K) * leg (n - 1) := by
  rcases eq_or_lt_of_le h with h | h
  · subst h; simp [leg_zero, leg_one]
  · obtain ⟨m, rfl⟩ : ∃ m : ℕ, n = m + 1 := ⟨(n - 1).toNat, by omega⟩
    rw [leg_nat _ (by omega), leg_nat _ (by omega), leg_nat _ (by omega), show ((m : Int) + 1 + 1).toNat = m + 2 by omega, show ((m : Int) + 1).toNat = m + 1 by omega,
      show ((m : Int) + 1 - 1).toNat = m by omega, legN, ← mul_assoc, ← C_mul]
    have : (((m : Int) + 1 + 1 : Int) : K) * (1 / ((m : K) + 2)) = 1 := by
      have := icast_ne (K := K) (show (m : Int) + 2 ≠ 0 by omega)
      push_cast at this ⊢
      field_simp
      ring
    rw [this, C_1, one_mul]
    push_cast
    congr 3
    ring

theorem X_mul_T (m : Int) : X * Chebyshev.T K m = C (1 / 2) * Chebyshev.T K (m + 1) + C (1 / 2) * Chebyshev.T K (m - 1) := by
  have := Chebyshev.T_add_two K (m - 1)
  rw [show m - 1 + 2 = m + 1 by omega, sub_add_cancel] at this
  have h2 : (C (1 / 2) * 2 : K[X]) = 1 := by
    rw [show (2 : K[X]) = C 2 from rfl, ← C_mul]; norm_num
  linear_combination (-(C (1 / 2) : K[X])) * this - X * Chebyshev.T K m * h2

/-- Reindexing of a sum. -/
theorem sum_shift {A : Type*} [AddCommMonoid A] (lo hi d : Int) (f : Int → A) : ∑ k ∈ Finset.Ico lo hi, f k = ∑ k ∈ Finset.Ico (lo + d) (hi + d), f (k - d) := by
  refine Finset.sum_nbij' (fun k => k + d) (fun k => k - d) ?_ ?_ ?_ ?_ ?_ <;> intros <;> simp_all [Finset.mem_Ico] <;> omega

theorem leg_coef {n k : Int} (hn : 0 ≤ n) : ((n + 2 : Int) : K) * (cZ k * cZ (n + 2 - k)) =
    ((2 * n + 3 : Int) : K) * (1 / 2) * (cZ k * cZ (n + 1 - k) + cZ (k - 1) * cZ (n + 2 - k)) - ((n + 1 : Int) : K) * (cZ (k - 1) * cZ (n + 1 - k)) := by
  by_cases hk : k < 0
  · simp [cZ_neg hk, cZ_neg (show k - 1 < 0 by omega)]
  by_cases hk2 : n + 2 < k
  · simp [cZ_neg (show n + 2 - k < 0 by omega), cZ_neg (show n + 1 - k < 0 by omega)]
  have c2 := icast_ne (K := K) (show n + 2 ≠ 0 by omega)
  push_cast at c2
  rcases eq_or_lt_of_le (show 0 ≤ k by omega) with h | h
  · subst h
    rw [cZ_neg (show (0 : Int) - 1 < 0 by omega), cZ_zero, sub_zero, sub_zero, show n + 2 = n + 1 + 1 by omega, cZ_succ (show 0 ≤ n + 1 by omega)]
    push_cast at *
    have : ((n : K) + 1 + 1) ≠ 0 := by
      have := icast_ne (K := K) (show n + 2 ≠ 0 by omega); push_cast at this; intro h; exact this (by linear_combination h)
    field_simp
    ring
  rcases eq_or_lt_of_le (show k ≤ n + 2 by omega) with h' | h'
  · subst h'
    rw [cZ_neg (show n + 1 - (n + 2) < 0 by omega), sub_self, cZ_zero, show n + 2 - 1 = n + 1 by omega, show n + 2 = n + 1 + 1 by omega, cZ_succ (show 0 ≤ n + 1 by omega)]
    push_cast at *
    have : ((n : K) + 1 + 1) ≠ 0 := by
      have := icast_ne (K := K) (show n + 2 ≠ 0 by omega); push_cast at this; intro h; exact this (by linear_combination h)
    field_simp
    ring
  obtain ⟨m, hm⟩ : ∃ m, m = n + 1 - k := ⟨_, rfl⟩
  obtain rfl : n = m + k - 1 := by omega
  rw [show m + k - 1 + 2 - k = m + 1 by omega, show m + k - 1 + 1 - k = m by omega, cZ_succ (show 0 ≤ m by omega), cZ_pred (show 1 ≤ k by omega)]
  have h1 := icast_ne (K := K) (show m + 1 ≠ 0 by omega)
  have h2 := icast_ne (K := K) (show k ≠ 0 by omega)
  push_cast at *
  field_simp
  ring

/-- Legendre polynomials in terms of `cos`: `P_n = Σ c_k c_{n-k} T_{n-2k}`. -/
theorem leg_full {n : Int} (hn : 0 ≤ n) : leg (K := K) n = ∑ k ∈ Finset.Ico 0 (n + 1), C (cZ k * cZ (n - k)) * Chebyshev.T K (n - 2 * k) := by
  have wide : ∀ n N : Int, 0 ≤ n → n ≤ N → ∑ k ∈ Finset.Ico 0 (N + 1), C (cZ (K := K) k * cZ (n - k)) * Chebyshev.T K (n - 2 * k) = ∑ k ∈ Finset.Ico 0 (n + 1), C (cZ k * cZ (n - k)) * Chebyshev.T K (n - 2 * k) :=
    fun n N h0 h1 => sum_Ico_shrink (fun k k0 k1 hk => by rw [cZ_neg (show n - k < 0 by omega), mul_zero, C_0, zero_mul]) le_rfl (by omega)
  refine two_step (P := fun n => leg (K := K) n = ∑ k ∈ Finset.Ico 0 (n + 1), C (cZ k * cZ (n - k)) * Chebyshev.T K (n - 2 * k)) ?_ (fun n n0 ih ih' => ?_) hn
  · rw [leg_zero, show Finset.Ico (0 : Int) (0 + 1) = {0} by rfl, Finset.sum_singleton]; simp [cZ_zero]
  · rcases eq_or_lt_of_le n0 with h | h
    · subst h
      rw [zero_add, leg_one, show Finset.Ico (0 : Int) (1 + 1) = {0, 1} by rfl, Finset.sum_pair (by decide)]
      have : cZ (K := K) 1 = 1 / 2 := by rw [show (1 : Int) = 0 + 1 from rfl, cZ_succ le_rfl, cZ_zero]; norm_num
      have h2 : (C (1 / 2) * 2 : K[X]) = 1 := by
        rw [show (2 : K[X]) = C 2 from rfl, ← C_mul]; norm_num
      norm_num [cZ_zero, this, Chebyshev.T_neg]
      linear_combination (-X : K[X]) * h2
    · obtain ⟨m, rfl⟩ : ∃ m, n = m + 1 := ⟨n - 1, by omega⟩
      have i1 := ih
      have i0 := ih' (by omega)
      rw [show m + 1 - 1 = m by omega] at i0
      have r := leg_rec (K := K) (n := m + 1) (by omega)
      rw [show m + 1 - 1 = m by omega, i0, i1] at r
      have hc : (C (((m + 1 + 1 : Int) : K)) : K[X]) ≠ 0 := C_ne_zero.2 (icast_ne (by omega))
      refine mul_left_cancel₀ hc ?_
      rw [r, show 2 * (m + 1) + 1 = 2 * m + 3 by omega, mul_assoc, Finset.mul_sum, Finset.mul_sum, Finset.mul_sum, Finset.mul_sum]
      have e1 : ∀ k, X * (C (cZ (K := K) k * cZ (m + 1 - k)) * Chebyshev.T K (m + 1 - 2 * k)) =
          C (cZ k * cZ (m + 1 - k) * (1 / 2)) * Chebyshev.T K (m + 2 - 2 * k) + C (cZ k * cZ (m + 1 - k) * (1 / 2)) * Chebyshev.T K (m - 2 * k) := fun k => by
        have := X_mul_T (K := K) (m + 1 - 2 * k)
        rw [show m + 1 - 2 * k + 1 = m + 2 - 2 * k by omega, show m + 1 - 2 * k - 1 = m - 2 * k by omega] at this
        simp only [C_mul] at this ⊢
        linear_combination C (cZ (K := K) k) * C (cZ (m + 1 - k)) * this
      simp only [e1, mul_add, Finset.sum_add_distrib]
      -- bring everything to sums over `Ico 0 (m+3)` of multiples of `T (m + 2 - 2k)`
      have s1 : ∑ k ∈ Finset.Ico 0 (m + 1 + 1), C (((2 * m + 3 : Int) : K)) * (C (cZ (K := K) k * cZ (m + 1 - k) * (1 / 2)) * Chebyshev.T K (m + 2 - 2 * k)) =
          ∑ k ∈ Finset.Ico 0 (m + 1 + 1 + 1), C (((2 * m + 3 : Int) : K)) * (C (cZ (K := K) k * cZ (m + 1 - k) * (1 / 2)) * Chebyshev.T K (m + 2 - 2 * k)) :=
        (sum_Ico_shrink (fun k k0 k1 hk => by rw [cZ_neg (show m + 1 - k < 0 by omega)]; simp) le_rfl (by omega)).symm
      have s2 : ∑ k ∈ Finset.Ico 0 (m + 1 + 1), C (((2 * m + 3 : Int) : K)) * (C (cZ (K := K) k * cZ (m + 1 - k) * (1 / 2)) * Chebyshev.T K (m - 2 * k)) =
          ∑ k ∈ Finset.Ico 0 (m + 1 + 1 + 1), C (((2 * m + 3 : Int) : K)) * (C (cZ (K := K) (k - 1) * cZ (m + 2 - k) * (1 / 2)) * Chebyshev.T K (m + 2 - 2 * k)) := by
        rw [sum_shift _ _ 1]
        symm
        rw [sum_Ico_shrink (lo' := 0 + 1) (hi' := m + 1 + 1 + 1) (fun k k0 k1 hk => by rw [cZ_neg (show k - 1 < 0 by omega)]; simp) (by omega) le_rfl]
        refine sum_Ico_congr fun k _ _ => ?_
        rw [show m + 1 - (k - 1) = m + 2 - k by omega, show m - 2 * (k - 1) = m + 2 - 2 * k by omega]
      have s3 : ∑ k ∈ Finset.Ico 0 (m + 1), C (((m + 1 : Int) : K)) * (C (cZ (K := K) k * cZ (m - k)) * Chebyshev.T K (m - 2 * k)) =
          ∑ k ∈ Finset.Ico 0 (m + 1 + 1 + 1), C (((m + 1 : Int) : K)) * (C (cZ (K := K) (k - 1) * cZ (m + 1 - k)) * Chebyshev.T K (m + 2 - 2 * k)) := by
        rw [sum_shift _ _ 1]
        symm
        rw [sum_Ico_shrink (lo' := 0 + 1) (hi' := m + 1 + 1) (fun k k0 k1 hk => by
          rcases eq_or_lt_of_le k0 with h | h
          · subst h; rw [cZ_neg (show (0 : Int) - 1 < 0 by omega)]; simp
          · rw [cZ_neg (show m + 1 - k < 0 by omega)]; simp) (by omega) (by omega)]
        refine sum_Ico_congr fun k _ _ => ?_
        rw [show m - (k - 1) = m + 1 - k by omega, show m - 2 * (k - 1) = m + 2 - 2 * k by omega]
      rw [s1, s2, s3, ← Finset.sum_add_distrib, ← Finset.sum_sub_distrib]
      refine sum_Ico_congr fun k _ _ => ?_
      have := leg_coef (K := K) (n := m) (k := k) (by omega)
      rw [show m + 1 + 1 - k = m + 2 - k by omega, show m + 1 + 1 - 2 * k = m + 2 - 2 * k by omega]
      simp only [← mul_assoc, ← C_mul]
      rw [← add_mul, ← sub_mul, ← C_add, ← C_sub]
      congr 2
      push_cast at this ⊢
      linear_combination -this

end FT.Props.Lc
