import Verif.Lemmas.LambdaErr

/-!
# C65: the ratio of Gamma functions
-/

namespace FT.Props.Lc
open Real FT FT.Model.Lc

/-- `X(Lambda)`: for every argument above -1/2, in exact arithmetic, the value is `Γ(z + 1/2) / Γ(z + 1)` up to a relative error of `2^-52`. -/
theorem C65_lambda (z : ℝ) (hz : -1 / 2 < z) : ∃ N : ℕ, ∀ n, N ≤ n → ∃ v, lambda (√·) n z = some v ∧ |v - gammaRatio z| ≤ 2 ^ (-52 : Int) * gammaRatio z := by
  obtain ⟨k, hk⟩ : ∃ k : ℕ, 10 - z ≤ k := exists_nat_ge _
  induction k generalizing z with
  | zero =>
    refine ⟨1, fun n hn => ?_⟩
    obtain ⟨n, rfl⟩ : ∃ m, n = m + 1 := ⟨n - 1, by omega⟩
    exact lambda_large (by simpa using hk) n
  | succ k ih =>
    by_cases c : z < 10
    · obtain ⟨N, hN⟩ := ih (z + 1) (by linarith) (by push_cast at hk; linarith)
      refine ⟨N + 1, fun n hn => ?_⟩
      obtain ⟨n, rfl⟩ : ∃ m, n = m + 1 := ⟨n - 1, by omega⟩
      obtain ⟨v, ev, hv⟩ := hN n (by omega)
      have p : 0 < z + 1 / 2 := by linarith
      have p1 : 0 < z + 1 := by linarith
      refine ⟨v * (z + 1) / (z + 1 / 2), ?_, ?_⟩
      · show (if z < 10 then _ else _) = _
        rw [if_pos c, ev, Option.bind_some, divC, show z + 0.5 = z + 1 / 2 by norm_num, if_neg p.ne']
      · have e := gr_succ hz
        have e2 : gammaRatio z = gammaRatio (z + 1) * ((z + 1) / (z + 1 / 2)) := by
          rw [← mul_div_assoc, eq_div_iff p.ne']; exact e.symm
        have e1 : v * (z + 1) / (z + 1 / 2) - gammaRatio z = (v - gammaRatio (z + 1)) * ((z + 1) / (z + 1 / 2)) := by
          rw [e2]; ring
        rw [e1, abs_mul, abs_of_pos (div_pos p1 p), e2, ← mul_assoc]
        exact mul_le_mul_of_nonneg_right hv (div_pos p1 p).le
    · refine ⟨1, fun n hn => ?_⟩
      obtain ⟨n, rfl⟩ : ∃ m, n = m + 1 := ⟨n - 1, by omega⟩
      exact lambda_large (not_lt.1 c) n

/-- `X(LambdaI)`: every entry of the table is correct up to a relative error of `2^-53`; beyond the table the function is `X(Lambda)`. -/
theorem C65_lambdaI (z : ℕ) : ∃ N : ℕ, ∀ n, N ≤ n → ∃ v, lambdaI (√·) n z = some v ∧
    |v - gammaRatio z| ≤ (if z ≤ 255 then 2 ^ (-53 : Int) else 2 ^ (-52 : Int)) * gammaRatio z := by
  by_cases c : 255 < z
  · obtain ⟨N, h⟩ := C65_lambda z (by have : (0 : ℝ) ≤ z := Nat.cast_nonneg z; linarith)
    refine ⟨N, fun n hn => ?_⟩
    rw [lambdaI, if_pos c, if_neg (by omega)]
    exact h n hn
  · refine ⟨0, fun n _ => ⟨(lamInt.getD z 0 : ℕ) / 10 ^ 18, ?_, ?_⟩⟩
    · have hl : z < lamInt.length := by have : lamInt.length = 256 := by decide +kernel
                                        omega
      rw [lambdaI, if_neg c, List.getD_eq_getElem?_getD, List.getElem?_eq_getElem hl, Option.map_some, Option.getD_some]
    · rw [if_pos (by omega), gr_nat]
      obtain ⟨h1, h2⟩ := table_check z (by omega)
      generalize lamInt.getD z 0 = t at *
      have o0 : (0 : ℝ) < oddProd z := by exact_mod_cast (prod_pos z).1
      have e0 : (0 : ℝ) < evenProd z := by exact_mod_cast (prod_pos z).2
      obtain ⟨s1, s2⟩ := sqrt_pi_bounds
      have h1' : (t : ℝ) * evenProd z * 2 ^ 53 * 10 ^ 20 ≤ (2 ^ 53 + 1) * 177245385090551602729 * oddProd z * 10 ^ 18 := by exact_mod_cast h1
      have h2' : ((2 ^ 53 - 1 : ℕ) : ℝ) * 1772453850905516028 * oddProd z ≤ t * evenProd z * 2 ^ 53 := by exact_mod_cast h2
      set r : ℝ := oddProd z / evenProd z with hr
      have r0 : 0 < r := div_pos o0 e0
      have er : (oddProd z : ℝ) = r * evenProd z := by rw [hr, div_mul_cancel₀ _ e0.ne']
      rw [er] at h1' h2'
      have k1 : (t : ℝ) * 2 ^ 53 * 10 ^ 20 ≤ (2 ^ 53 + 1) * 177245385090551602729 * r * 10 ^ 18 := by
        refine le_of_mul_le_mul_right ?_ e0; nlinarith [h1']
      have k2 : ((2 ^ 53 - 1 : ℕ) : ℝ) * 1772453850905516028 * r ≤ t * 2 ^ 53 := by
        refine le_of_mul_le_mul_right ?_ e0; nlinarith [h2']
      have m1 : 1.77245385090551602729 * r ≤ √π * r := mul_le_mul_of_nonneg_right s1 r0.le
      have m2 : √π * r ≤ 1.772453850905516028 * r := mul_le_mul_of_nonneg_right s2 r0.le
      norm_num at k1 k2 m1 m2 ⊢
      rw [abs_le]
      constructor <;> linarith

/-- Both functions at small arguments: below zero and in the table. -/
example : (∃ N, ∀ n, N ≤ n → ∃ v, lambda (√·) n (-1 / 4 : ℝ) = some v ∧ |v - gammaRatio (-1 / 4)| ≤ 2 ^ (-52 : Int) * gammaRatio (-1 / 4)) ∧
    lambdaI (K := ℝ) (√·) 0 2 = some (((664670194089568510 : ℕ) : ℝ) / 10 ^ 18) ∧ |(((664670194089568510 : ℕ) : ℝ) / 10 ^ 18) - √π * (3 / 8)| ≤ 2 ^ (-53 : Int) * (√π * (3 / 8)) := by
  have e2 (n : ℕ) : lambdaI (K := ℝ) (√·) n 2 = some (((664670194089568510 : ℕ) : ℝ) / 10 ^ 18) := by
    rw [lambdaI, if_neg (by norm_num)]; rfl
  refine ⟨C65_lambda _ (by norm_num), e2 0, ?_⟩
  obtain ⟨N, h⟩ := C65_lambdaI 2
  obtain ⟨v, e, hv⟩ := h N le_rfl
  obtain rfl : (((664670194089568510 : ℕ) : ℝ) / 10 ^ 18) = v := Option.some.inj ((e2 N).symm.trans e)
  rw [if_pos (by norm_num), gr_nat, show ((oddProd 2 : ℕ) : ℝ) / (evenProd 2 : ℕ) = 3 / 8 by norm_num [oddProd, evenProd]] at hv
  exact hv

/-- The function is not constant: at zero it is the square root of pi, whatever the number of calls above 11. -/
example : ∃ N, ∀ n, N ≤ n → ∃ v, lambda (√·) n (0 : ℝ) = some v ∧ |v - √π| ≤ 2 ^ (-52 : Int) * √π := by
  have := C65_lambda 0 (by norm_num)
  have e : gammaRatio 0 = √π := by have := gr_nat 0; simpa [oddProd, evenProd] using this
  rwa [e] at this

end FT.Props.Lc
