import Verif.Lemmas.Diag
import Verif.Lemmas.LagOps

/-!
# Quotients of consecutive leading coefficients
-/

namespace FT.Poly
open FT
variable {K : Type*} [Field K] [LinearOrder K] [IsStrictOrderedRing K] {F : Libm K} {norm : Bool} {lam : K}

/-! ## Legendre and Chebyshev -/

def legStep (F : Libm K) (norm : Bool) (n : Int) : K := if norm then F.sqrt ((2 * n + 3) * (2 * n + 1)) / (n + 1) else (2 * n + 1) / (n + 1)
def cheStep (F : Libm K) (norm : Bool) (n : Int) : K := if n = 0 then if norm then F.sqrt 2 else 1 else 2

theorem legB {n : Int} (hn : 1 ≤ n) : jacB (K := K) 0 0 n = n * n / ((2 * n - 1) * (2 * n + 1)) := by
  have h0 : (1 : K) ≤ n := by exact_mod_cast hn
  unfold jacB
  split_ifs with h
  · subst h; norm_num
  · have h1 : (2 * (n : K) - 1) ≠ 0 := by linarith
    have h2 : (2 * (n : K) + 1) ≠ 0 := by linarith
    have h3 : (n : K) ≠ 0 := by linarith
    rw [show 2 * (n : K) + 0 + 0 = 2 * n by ring]
    simp only [add_zero]
    generalize 2 * (n : K) - 1 = v at *
    generalize 2 * (n : K) + 1 = w at *
    field_simp
    norm_num

theorem legR_pos {n : Int} (hn : 0 ≤ n) : 0 < legR (K := K) n := by
  have h0 : (0 : K) ≤ n := by exact_mod_cast hn
  unfold legR
  positivity

theorem legS_ne (hF : IsLibm F) (n : Int) : legS F norm n ≠ 0 :=
  scale_ne hF.sqrt two_pos (fun _ h => ne_of_gt (legR_pos h)) (fun _ h => jacB_pos (by norm_num) (by norm_num) h) n

theorem legS_zero : legS F norm 0 = if norm then 1 / F.sqrt 2 else 1 := scale_zero

theorem legS_succ (hF : IsLibm F) (n : Int) (hn : 0 ≤ n) : legS F norm (n + 1) = legS F norm n * legStep F norm n := by
  have h0 : (0 : K) ≤ n := by exact_mod_cast hn
  unfold legS
  rw [scale_succ hF.sqrt two_pos (fun _ h => ne_of_gt (legR_pos h)) (fun _ h => jacB_pos (by norm_num) (by norm_num) h) hn]
  congr 1
  unfold legStep
  cases norm
  · rfl
  · rw [step_pos hF.sqrt (legR_pos hn) (jacB_pos (by norm_num) (by norm_num) (by omega)), if_pos rfl, legB (by omega)]
    push_cast
    rw [show 2 * ((n : K) + 1) - 1 = 2 * n + 1 by ring, show 2 * ((n : K) + 1) + 1 = 2 * n + 3 by ring, sqrt_div hF.sqrt (by positivity) (by positivity), sqrt_sq hF.sqrt (by positivity), one_div_div,
      mul_comm (2 * (n : K) + 1)]

theorem legStep_pos (hF : IsLibm F) {n : Int} (hn : 0 ≤ n) : 0 < legStep F norm n := by
  have h0 : (0 : K) ≤ n := by exact_mod_cast hn
  unfold legStep
  split_ifs
  · exact div_pos (sqrt_pos hF.sqrt (by positivity)) (by positivity)
  · positivity

theorem chebR_ne (n : Int) : chebR (K := K) n ≠ 0 := by unfold chebR; split_ifs <;> norm_num

theorem cheS_ne (hF : IsLibm F) (n : Int) : cheS F norm n ≠ 0 :=
  scale_ne hF.sqrt (mul_pos (hF.gamma_pos _ (by norm_num)) (hF.gamma_pos _ (by norm_num))) (fun n _ => chebR_ne n) (fun _ h => jacB_pos (by norm_num) (by norm_num) h) n

theorem cheS_zero (hF : IsLibm F) : cheS F norm 0 = if norm then 1 / F.gamma (1 / 2) else 1 := by
  unfold cheS
  rw [scale_zero, sqrt_sq hF.sqrt (le_of_lt (hF.gamma_pos _ (by norm_num)))]

theorem cheS_succ (hF : IsLibm F) (n : Int) (hn : 0 ≤ n) : cheS F norm (n + 1) = cheS F norm n * cheStep F norm n := by
  unfold cheStep
  cases norm
  · show lead chebR (n + 1) = lead chebR n * _
    rw [lead_succ _ hn]
    rfl
  · have e : chebR (K := K) n = if n = 0 then 1 else 2 := rfl
    rw [cheS_true hF (by omega), cheS_true hF hn, lead_succ _ hn, if_neg (show ¬ n + 1 = 0 by omega), e, if_pos (rfl : true = true)]
    split_ifs <;> ring

theorem cheStep_pos (hF : IsLibm F) (n : Int) : 0 < cheStep F norm n := by
  unfold cheStep
  split_ifs
  · exact sqrt_pos hF.sqrt two_pos
  · exact one_pos
  · exact two_pos

/-! ## Ultraspherical -/

section ult
variable (hF : IsLibm F) (hm : -1 / 2 < lam) (h0 : lam ≠ 0)
include hF hm h0

/-- The square of the quotient of the norms of consecutive standard polynomials. -/
def ultW (lam : K) (i : Int) : K := (i - 1 + lam) * (i - 1 + 2 * lam) / (i * (i + lam))

def ultStep (F : Libm K) (norm : Bool) (lam : K) (n : Int) : K := if norm then ultR lam n / F.sqrt (ultW lam (n + 1)) else ultR lam n

omit hF h0 in
theorem ult_two {i : Int} (hi : 2 ≤ i) : 0 < (i : K) - 1 + lam ∧ 0 < (i : K) - 1 + 2 * lam := by
  have : (2 : K) ≤ i := by exact_mod_cast hi
  constructor <;> linarith

omit hF in
theorem ult_nz {i : Int} (hi : 1 ≤ i) : (i : K) - 1 + lam ≠ 0 ∧ (i : K) - 1 + 2 * lam ≠ 0 ∧ 0 < ((i : K) - 1 + lam) * (i - 1 + 2 * lam) ∧ 0 < (i : K) + lam ∧ 0 < (i : K) := by
  have h1 : (1 : K) ≤ i := by exact_mod_cast hi
  rcases eq_or_lt_of_le hi with h | h
  · subst h
    push_cast
    rw [sub_self, zero_add, zero_add]
    refine ⟨h0, mul_ne_zero two_ne_zero h0, ?_, by linarith, one_pos⟩
    have := mul_self_pos.2 h0
    linarith
  · obtain ⟨a, b⟩ := ult_two (lam := lam) hm (show 2 ≤ i by omega)
    exact ⟨ne_of_gt a, ne_of_gt b, mul_pos a b, by linarith, by linarith⟩

omit hF in
theorem ultW_pos {i : Int} (hi : 1 ≤ i) : 0 < ultW lam i := by
  obtain ⟨-, -, h1, h2, h3⟩ := ult_nz hm h0 hi
  unfold ultW
  positivity

omit hF in
theorem ultR_ne {n : Int} (hn : 0 ≤ n) : ultR lam n ≠ 0 := by
  obtain ⟨h1, -, -, -, h3⟩ := ult_nz hm h0 (show 1 ≤ n + 1 by omega)
  push_cast at h1 h3
  unfold ultR
  refine div_ne_zero (mul_ne_zero two_ne_zero ?_) (ne_of_gt h3)
  intro h
  exact h1 (by rw [← h]; ring)

theorem ultS_ne (n : Int) : ultS F norm lam n ≠ 0 :=
  scale_ne hF.sqrt (ultG_pos hF hm) (fun _ h => ultR_ne hm h0 h) (fun _ h => jacB_pos (by linarith) (by linarith) h) n

theorem ultS_succ (n : Int) (hn : 0 ≤ n) : ultS F norm lam (n + 1) = ultS F norm lam n * ultStep F norm lam n := by
  obtain ⟨h1, -, -, h2, h3⟩ := ult_nz hm h0 (show 1 ≤ n + 1 by omega)
  unfold ultS
  rw [scale_succ hF.sqrt (ultG_pos hF hm) (fun _ h => ultR_ne hm h0 h) (fun _ h => jacB_pos (by linarith) (by linarith) h) hn]
  congr 1
  unfold ultStep step
  cases norm
  · rfl
  · simp only [if_true]
    congr 2
    push_cast at h1 h2 h3
    rw [symB (by linarith) (by omega) (by push_cast; intro h; exact h1 (by rw [← h]; ring))]
    unfold ultR ultW
    push_cast
    rw [show (n : K) + 1 - 1 + lam = n + lam by ring] at *
    rw [show (n : K) + 1 + (lam - 1 / 2) - 1 / 2 = n + lam by ring, show (n : K) + 1 + (lam - 1 / 2) + 1 / 2 = n + 1 + lam by ring,
      show (n : K) + 1 + 2 * (lam - 1 / 2) = n + 2 * lam by ring, show (n : K) + 1 - 1 + 2 * lam = n + 2 * lam by ring]
    have := ne_of_gt h2
    have := ne_of_gt h3
    generalize (n : K) + 1 + lam = a at *
    generalize (n : K) + lam = b at *
    generalize (n : K) + 1 = c at *
    field_simp
    ring

end ult

/-! ## Laguerre -/

theorem lagS_ne (hF : IsLibm F) (hm : -1 < lam) (n : Int) : lagS F norm lam n ≠ 0 :=
  scale_ne hF.sqrt (hF.gamma_pos _ (by linarith)) (fun _ h => ne_of_lt (lagR_neg h)) (fun _ h => lagB_pos hm h) n

end FT.Poly
