import Verif.Lemmas.LegChebPoly

/-! # Connection coefficients, continued -/

namespace FT.Props.Lc
open Polynomial FT FT.Poly
variable {K : Type*} [Field K] [CharZero K]

theorem sum_reflect {A : Type*} [AddCommMonoid A] (lo hi c : Int) (f : Int → A) : ∑ k ∈ Finset.Ico lo hi, f k = ∑ k ∈ Finset.Ico (c - hi + 1) (c - lo + 1), f (c - k) := by
  refine Finset.sum_nbij' (fun k => c - k) (fun k => c - k) ?_ ?_ ?_ ?_ ?_ <;> intros <;> simp_all [Finset.mem_Ico] <;> omega

theorem sum_split {A : Type*} [AddCommMonoid A] {lo mid hi : Int} (h1 : lo ≤ mid) (h2 : mid ≤ hi) (f : Int → A) :
    ∑ k ∈ Finset.Ico lo hi, f k = ∑ k ∈ Finset.Ico lo mid, f k + ∑ k ∈ Finset.Ico mid hi, f k := by
  rw [← Finset.sum_union (Finset.disjoint_left.2 fun x hx hy => by rw [Finset.mem_Ico] at *; omega)]
  congr 1
  ext x; simp only [Finset.mem_union, Finset.mem_Ico]; omega

theorem sum_fold {A : Type*} [AddCommMonoid A] {n : Int} (hn : 0 ≤ n) (f : Int → A) (hf : ∀ k, f (n - k) = f k) :
    ∑ k ∈ Finset.Ico 0 (n + 1), f k = ∑ k ∈ Finset.Ico 0 (n / 2 + 1), if n = 2 * k then f k else f k + f k := by
  rw [sum_split (mid := n / 2 + 1) (by omega) (by omega), sum_reflect (n / 2 + 1) (n + 1) n]
  simp only [hf]
  rw [show n - (n + 1) + 1 = 0 by omega, show n - (n / 2 + 1) + 1 = n - n / 2 by omega]
  have : ∑ k ∈ Finset.Ico 0 (n - n / 2), f k = ∑ k ∈ Finset.Ico 0 (n / 2 + 1), if n = 2 * k then 0 else f k := by
    rw [sum_Ico_shrink (lo := 0) (hi := n / 2 + 1) (lo' := 0) (hi' := n - n / 2) (fun k k0 k1 hk => if_pos (by omega)) le_rfl (by omega)]
    exact sum_Ico_congr fun k k0 k1 => (if_neg (by omega)).symm
  rw [this, ← Finset.sum_add_distrib]
  refine sum_Ico_congr fun k _ _ => ?_
  split_ifs <;> simp

/-- **Legendre to Chebyshev**: `P_n = Σ (2 - δ) c_k c_{n-k} T_{n-2k}`. -/
theorem leg_half {n : Int} (hn : 0 ≤ n) :
    leg (K := K) n = ∑ k ∈ Finset.Ico 0 (n / 2 + 1), C ((if n = 2 * k then 1 else 2) * (cZ k * cZ (n - k))) * Chebyshev.T K (n - 2 * k) := by
  rw [leg_full hn, sum_fold hn]
  · refine sum_Ico_congr fun k _ _ => ?_
    split_ifs
    · rw [one_mul]
    · rw [two_mul (cZ k * cZ (n - k)), C_add, add_mul]
  · intro k
    rw [sub_sub_cancel, show n - 2 * (n - k) = -(n - 2 * k) by omega, Chebyshev.T_neg, mul_comm (cZ (n - k))]

/-- Coefficients of Chebyshev polynomials in Legendre polynomials. -/
noncomputable def lc (n k : Int) : K :=
  if n = 0 then if k = 0 then 1 else 0
  else if 0 ≤ k ∧ 2 * k ≤ n then -((n - 2 * k + 1 / 2) * n * cZ k / ((2 * k - 1) * cZ (n - k) * (n - k) * (2 * (n - k) + 1))) else 0

theorem lc_out {n k : Int} (h : ¬ (0 ≤ k ∧ 2 * k ≤ n)) : lc (K := K) n k = 0 := by
  unfold lc
  split_ifs <;> first | rfl | omega

theorem lc_in {n k : Int} (hn : 1 ≤ n) (h0 : 0 ≤ k) (h1 : 2 * k ≤ n) :
    lc (K := K) n k = -((n - 2 * k + 1 / 2) * n * cZ k / ((2 * k - 1) * cZ (n - k) * (n - k) * (2 * (n - k) + 1))) := by
  unfold lc; rw [if_neg (by omega), if_pos ⟨h0, h1⟩]

theorem X_mul_leg {i : Int} (h : 0 ≤ i) : X * leg (K := K) i = C (((i + 1 : Int) : K) / (2 * i + 1 : Int)) * leg (i + 1) + C ((i : K) / (2 * i + 1 : Int)) * leg (i - 1) := by
  have r := leg_rec (K := K) h
  have hc := icast_ne (K := K) (show 2 * i + 1 ≠ 0 by omega)
  refine mul_left_cancel₀ (C_ne_zero.2 hc) ?_
  have e1 : C (((2 * i + 1 : Int) : K)) * C (((i + 1 : Int) : K) / (2 * i + 1 : Int)) = C ((i + 1 : Int) : K) := by rw [← C_mul, mul_div_cancel₀ _ hc]
  have e2 : C (((2 * i + 1 : Int) : K)) * C ((i : K) / (2 * i + 1 : Int)) = C (i : K) := by rw [← C_mul, mul_div_cancel₀ _ hc]
  linear_combination -r - leg (i + 1) * e1 - leg (i - 1) * e2

theorem lc_coef {n k : Int} (hn : 1 ≤ n) : lc (K := K) (n + 2) k =
    2 * (lc (n + 1) k * (((n + 2 - 2 * k : Int) : K) / ((2 * (n + 1 - 2 * k) + 1 : Int) : K))) + 2 * (lc (n + 1) (k - 1) * (((n + 3 - 2 * k : Int) : K) / ((2 * (n + 3 - 2 * k) + 1 : Int) : K))) - lc n (k - 1) := by
  by_cases hk : k < 0
  · rw [lc_out (by omega), lc_out (by omega), lc_out (by omega), lc_out (by omega)]; ring
  by_cases hk2 : n + 3 < 2 * k
  · rw [lc_out (by omega), lc_out (by omega), lc_out (by omega), lc_out (by omega)]; ring
  by_cases hk3 : n + 3 = 2 * k
  · rw [lc_out (by omega), lc_out (n := n + 1) (k := k) (by omega), lc_out (n := n) (by omega), show n + 3 - 2 * k = 0 by omega]; simp
  have g1 := icast_ne (K := K) (show 2 * (n + 1 - 2 * k) + 1 ≠ 0 by omega)
  have g2 := icast_ne (K := K) (show 2 * (n + 3 - 2 * k) + 1 ≠ 0 by omega)
  by_cases h0 : k = 0
  · subst h0
    rw [lc_out (n := n + 1) (k := 0 - 1) (by omega), lc_out (n := n) (by omega), lc_in (by omega) le_rfl (by omega), lc_in (by omega) le_rfl (by omega), sub_zero, sub_zero,
      show n + 2 = n + 1 + 1 by omega, cZ_succ (show 0 ≤ n + 1 by omega), cZ_zero]
    have a1 := cZ_ne (K := K) (show 0 ≤ n + 1 by omega)
    have a2 := icast_ne (K := K) (show n + 1 ≠ 0 by omega)
    have a3 := icast_ne (K := K) (show n + 1 + 1 ≠ 0 by omega)
    have a4 := icast_ne (K := K) (show 2 * (n + 1) + 1 ≠ 0 by omega)
    have a5 := icast_ne (K := K) (show 2 * (n + 1 + 1) + 1 ≠ 0 by omega)
    push_cast at *
    rw [mul_zero, sub_zero, sub_zero, zero_sub]
    have a6 : 2 * ((n : K) + 1) + 2 ≠ 0 := by intro h; apply a3; linear_combination h / 2
    simp only [sub_zero, mul_zero, add_zero] at *
    have a7 : 2 * (n : K) + 3 ≠ 0 := by intro h; apply a4; linear_combination h
    have a8 : 2 * (n : K) + 5 ≠ 0 := by intro h; apply a5; linear_combination h
    rw [show (2 : K) * (n + 1) + 1 = 2 * n + 3 by ring, show (2 : K) * (n + 1 + 1) + 1 = 2 * n + 5 by ring]
    have a9 : (n : K) * 2 + 3 ≠ 0 := by rwa [mul_comm]
    have a10 : (n : K) * 2 + 5 ≠ 0 := by rwa [mul_comm]
    rw [zero_mul, mul_zero, add_zero]
    field_simp
    ring
  obtain ⟨a, ha⟩ : ∃ a, a = n + 1 - k := ⟨_, rfl⟩
  obtain rfl : n = a + k - 1 := by omega
  have b1 := cZ_ne (K := K) (show 0 ≤ a by omega)
  have b2 := icast_ne (K := K) (show a ≠ 0 by omega)
  have b3 := icast_ne (K := K) (show a + 1 ≠ 0 by omega)
  have b4 := icast_ne (K := K) (show 2 * a + 1 ≠ 0 by omega)
  have b5 := icast_ne (K := K) (show 2 * (a + 1) + 1 ≠ 0 by omega)
  have b6 := icast_ne (K := K) (show k ≠ 0 by omega)
  have b7 := icast_ne (K := K) (show 2 * k - 1 ≠ 0 by omega)
  have b8 := icast_ne (K := K) (show 2 * (k - 1) - 1 ≠ 0 by omega)
  have b9 := cZ_ne (K := K) (show 0 ≤ k - 1 by omega)
  have e1 := lc_in (K := K) (n := a + k - 1 + 2) (k := k) (by omega) (by omega) (by omega)
  have e3 := lc_in (K := K) (n := a + k - 1 + 1) (k := k - 1) (by omega) (by omega) (by omega)
  have e4 := lc_in (K := K) (n := a + k - 1) (k := k - 1) (by omega) (by omega) (by omega)
  have e2 : lc (K := K) (a + k - 1 + 1) k * (((a + k - 1 + 2 - 2 * k : Int) : K) / ((2 * (a + k - 1 + 1 - 2 * k) + 1 : Int) : K)) =
      -(((1 : K) / 2) * (a + k : Int) * cZ k / ((2 * k - 1) * cZ a * a * (2 * a + 1))) * ((a + k - 1 + 2 - 2 * k : Int) : K) := by
    by_cases h : 2 * k ≤ a + k - 1 + 1
    · rw [lc_in (by omega) (by omega) h, show a + k - 1 + 1 - k = a by omega]
      push_cast at *
      have : (2 * ((a : K) + k - 1 + 1 - 2 * k) + 1) ≠ 0 := g1
      rw [show ((a : K) + k - 1 + 1 - k) = a by ring, show ((a : K) + k - 1 + 1 - 2 * k + 1 / 2) = (2 * ((a : K) + k - 1 + 1 - 2 * k) + 1) / 2 by ring]
      generalize (2 * ((a : K) + k - 1 + 1 - 2 * k) + 1) = z at *
      field_simp
      ring
    · rw [lc_out (by omega), show a + k - 1 + 2 - 2 * k = 0 by omega]; simp
  rw [e2, e1, e3, e4, show a + k - 1 + 2 - k = a + 1 by omega, show a + k - 1 + 1 - (k - 1) = a + 1 by omega, show a + k - 1 - (k - 1) = a by omega, cZ_succ (show 0 ≤ a by omega),
    cZ_pred (show 1 ≤ k by omega)]
  push_cast at *
  have : (2 * ((a : K) + k - 1 + 3 - 2 * k) + 1) ≠ 0 := g2
  rw [show ((a : K) + k - 1 + 2 - k) = a + 1 by ring, show ((a : K) + k - 1 + 1 - (k - 1)) = a + 1 by ring, show ((a : K) + k - 1 - (k - 1)) = a by ring,
    show ((a : K) + k - 1 + 1 - 2 * (k - 1) + 1 / 2) = (2 * ((a : K) + k - 1 + 3 - 2 * k) + 1) / 2 by ring]
  have e5 : ∀ x y z : K, z ≠ 0 → 2 * (-(z / 2 * x / y) * (((a : K) + k - 1 + 3 - 2 * k) / z)) = -(x / y) * ((a : K) + k - 1 + 3 - 2 * k) := fun x y z hz => by field_simp
  rw [mul_assoc ((2 * ((a : K) + k - 1 + 3 - 2 * k) + 1) / 2), e5 _ _ _ this]
  have b3' : (2 : K) * a + 2 ≠ 0 := by intro h; apply b3; linear_combination h / 2
  have b7' : (2 : K) * k - 1 ≠ 0 := b7
  have b8' : (2 : K) * k - 3 ≠ 0 := by intro h; apply b8; linear_combination h
  have b5' : (2 : K) * a + 3 ≠ 0 := by intro h; apply b5; linear_combination h
  rw [show (2 : K) * (k - 1) - 1 = 2 * k - 3 by ring, show (2 : K) * (a + 1) + 1 = 2 * a + 3 by ring]
  rw [mul_comm] at b4 b5' b7' b8'
  field_simp
  ring

/-- **Chebyshev to Legendre**. -/
theorem cheb_half {n : Int} (hn : 0 ≤ n) : Chebyshev.T K n = ∑ k ∈ Finset.Ico 0 (n + 1), C (lc n k) * leg (n - 2 * k) := by
  refine two_step (P := fun n => Chebyshev.T K n = ∑ k ∈ Finset.Ico 0 (n + 1), C (lc n k) * leg (n - 2 * k)) ?_ (fun n n0 ih ih' => ?_) hn
  · rw [show Finset.Ico (0 : Int) (0 + 1) = {0} by rfl, Finset.sum_singleton]; simp [lc, leg_zero]
  · by_cases h1 : n = 0
    · subst h1
      rw [zero_add, show Finset.Ico (0 : Int) (1 + 1) = {0, 1} by rfl, Finset.sum_pair (by decide), lc_out (n := 1) (k := 1) (by omega), lc_in le_rfl le_rfl (by omega)]
      have : cZ (K := K) 1 = 1 / 2 := by rw [show (1 : Int) = 0 + 1 from rfl, cZ_succ le_rfl, cZ_zero]; norm_num
      norm_num [this, cZ_zero, leg_one]
    by_cases h2 : n = 1
    · subst h2
      have c1 : cZ (K := K) 1 = 1 / 2 := by rw [show (1 : Int) = 0 + 1 from rfl, cZ_succ le_rfl, cZ_zero]; norm_num
      have c2 : cZ (K := K) 2 = 3 / 8 := by rw [show (2 : Int) = 1 + 1 from rfl, cZ_succ (by omega), c1]; norm_num
      have r := leg_rec (K := K) (n := 1) (by omega)
      rw [show (1 : Int) + 1 = 2 from rfl, show Finset.Ico (0 : Int) (2 + 1) = {0, 1, 2} by rfl, Finset.sum_insert (by decide), Finset.sum_pair (by decide), lc_out (n := 2) (k := 2) (by omega),
        lc_in (by omega) le_rfl (by omega), lc_in (by omega) (by omega) (by omega)]
      norm_num [c1, c2, cZ_zero, leg_zero] at r ⊢
      rw [leg_one] at r
      have e0 : (C (4 / 3 : K) : K[X]) = C (2 / 3) * C 2 := by rw [← C_mul]; norm_num
      have e3 : (C (2 / 3 : K) * C 3 : K[X]) = 2 := by rw [← C_mul, show (2 : K[X]) = C 2 from rfl]; norm_num
      have e4 : (C (1 / 3 : K) : K[X]) = 1 - C (2 / 3) := by rw [← C_1, ← C_sub]; norm_num
      rw [Chebyshev.T_two, e0, mul_assoc, r, e4]
      linear_combination -X ^ 2 * e3
    obtain ⟨m, rfl⟩ : ∃ m, n = m + 1 := ⟨n - 1, by omega⟩
    have i0 := ih' (by omega)
    rw [show m + 1 - 1 = m by omega] at i0
    have t := Chebyshev.T_add_two K m
    rw [show m + 1 + 1 = m + 2 by omega, t, ih, i0, mul_assoc, Finset.mul_sum, Finset.mul_sum]
    have e1 : ∀ k, 2 * (X * (C (lc (K := K) (m + 1) k) * leg (m + 1 - 2 * k))) =
        C (2 * (lc (m + 1) k * (((m + 2 - 2 * k : Int) : K) / ((2 * (m + 1 - 2 * k) + 1 : Int) : K)))) * leg (m + 2 - 2 * k) +
        C (2 * (lc (m + 1) k * (((m + 1 - 2 * k : Int) : K) / ((2 * (m + 1 - 2 * k) + 1 : Int) : K)))) * leg (m - 2 * k) := fun k => by
      by_cases hk : 2 * k ≤ m + 1
      · have := X_mul_leg (K := K) (show 0 ≤ m + 1 - 2 * k by omega)
        rw [show m + 1 - 2 * k + 1 = m + 2 - 2 * k by omega, show m + 1 - 2 * k - 1 = m - 2 * k by omega] at this
        simp only [C_mul] at this ⊢
        rw [show (C 2 : K[X]) = 2 from rfl]
        linear_combination 2 * C (lc (K := K) (m + 1) k) * this
      · rw [lc_out (by omega)]; simp
    simp only [e1, Finset.sum_add_distrib]
    have s1 : ∑ k ∈ Finset.Ico 0 (m + 1 + 1), C (2 * (lc (K := K) (m + 1) k * (((m + 2 - 2 * k : Int) : K) / ((2 * (m + 1 - 2 * k) + 1 : Int) : K)))) * leg (m + 2 - 2 * k) =
        ∑ k ∈ Finset.Ico 0 (m + 2 + 1), C (2 * (lc (K := K) (m + 1) k * (((m + 2 - 2 * k : Int) : K) / ((2 * (m + 1 - 2 * k) + 1 : Int) : K)))) * leg (m + 2 - 2 * k) :=
      (sum_Ico_shrink (fun k k0 k1 hk => by rw [lc_out (by omega)]; simp) le_rfl (by omega)).symm
    have s2 : ∑ k ∈ Finset.Ico 0 (m + 1 + 1), C (2 * (lc (K := K) (m + 1) k * (((m + 1 - 2 * k : Int) : K) / ((2 * (m + 1 - 2 * k) + 1 : Int) : K)))) * leg (m - 2 * k) =
        ∑ k ∈ Finset.Ico 0 (m + 2 + 1), C (2 * (lc (K := K) (m + 1) (k - 1) * (((m + 3 - 2 * k : Int) : K) / ((2 * (m + 3 - 2 * k) + 1 : Int) : K)))) * leg (m + 2 - 2 * k) := by
      rw [sum_shift _ _ 1]
      symm
      rw [sum_Ico_shrink (lo' := 0 + 1) (hi' := m + 1 + 1 + 1) (fun k k0 k1 hk => by rw [lc_out (by omega)]; simp) (by omega) (by omega)]
      refine sum_Ico_congr fun k _ _ => ?_
      rw [show m + 1 - 2 * (k - 1) = m + 3 - 2 * k by omega, show m - 2 * (k - 1) = m + 2 - 2 * k by omega]
    have s3 : ∑ k ∈ Finset.Ico 0 (m + 1), C (lc (K := K) m k) * leg (m - 2 * k) = ∑ k ∈ Finset.Ico 0 (m + 2 + 1), C (lc (K := K) m (k - 1)) * leg (m + 2 - 2 * k) := by
      rw [sum_shift _ _ 1]
      symm
      rw [sum_Ico_shrink (lo' := 0 + 1) (hi' := m + 1 + 1) (fun k k0 k1 hk => by rw [lc_out (by omega)]; simp) (by omega) (by omega)]
      refine sum_Ico_congr fun k _ _ => ?_
      rw [show m - 2 * (k - 1) = m + 2 - 2 * k by omega]
    rw [s1, s2, s3, ← Finset.sum_add_distrib, ← Finset.sum_sub_distrib]
    refine sum_Ico_congr fun k _ _ => ?_
    rw [lc_coef (n := m) (by omega), C_sub, C_add]
    ring

end FT.Props.Lc
