import Verif.Lemmas.PencilFill

/-! # Sums and products of matrices of operators -/

set_option linter.unusedSectionVars false

namespace FT.Poly
open Polynomial FT.Props
variable {K : Type*} [Field K] {p q u : Int → K[X]}

theorem IsMatrix.add {S T : K[X] → K[X]} {M N : Int → Int → K} (h : IsMatrix S p q M) (h' : IsMatrix T p q N) : IsMatrix (fun f => S f + T f) p q fun i j => M i j + N i j := fun j hj =>
  ⟨fun i hi => by simp only [(h j hj).1 i hi, (h' j hj).1 i hi, add_zero], by
    show S (p j) + T (p j) = _
    rw [(h j hj).2, (h' j hj).2, ← Finset.sum_add_distrib]
    exact sum_Ico_congr fun i _ _ => by rw [C_add, add_mul]⟩

theorem IsMatrix.smul {S : K[X] → K[X]} {M : Int → Int → K} (h : IsMatrix S p q M) (c : K) : IsMatrix (fun f => C c * S f) p q fun i j => c * M i j := fun j hj =>
  ⟨fun i hi => by simp only [(h j hj).1 i hi, mul_zero], by
    show C c * S (p j) = _
    rw [(h j hj).2, Finset.mul_sum]
    exact sum_Ico_congr fun i _ _ => by rw [C_mul, mul_assoc]⟩

theorem IsMatrix.op {S T : K[X] → K[X]} {M : Int → Int → K} (h : IsMatrix S p q M) (e : ∀ f, S f = T f) : IsMatrix T p q M := by rwa [show T = S from funext fun f => (e f).symm]

/-- The product with a matrix that has one superdiagonal. -/
def supMul (M : Int → Int → K) (k : Int) (c : Int → K) (i j : Int) : K := if k ≤ j then M i (j - k) * c j else 0

theorem IsMatrix.super {S T : K[X] → K[X]} {M : Int → Int → K} {k : Int} {c : Int → K} (hk : 0 ≤ k) (h : IsMatrix S p q (superM k c)) (h' : IsMatrix T q u M) (hT : ∀ c p, T (C c * p) = C c * T p) :
    IsMatrix (fun f => T (S f)) p u (supMul M k c) := by
  intro j hj
  have hS := (h j hj).2
  unfold supMul
  by_cases hkj : k ≤ j
  · simp only [if_pos hkj]
    have e : S (p j) = C (c j) * q (j - k) := by
      rw [hS, Finset.sum_eq_single (j - k) (fun i _ hi => by rw [superM, if_neg hi, map_zero, zero_mul]) (fun hi => by rw [Finset.mem_Ico] at hi; omega), superM, if_pos rfl]
    obtain ⟨z, f⟩ := h' (j - k) (by omega)
    refine ⟨fun i hi => by rw [z i (by omega), zero_mul], ?_⟩
    show T (S (p j)) = _
    rw [e, hT, f, Finset.mul_sum]
    rw [sum_Ico_congr (f := fun i => C (M i (j - k) * c j) * u i) (g := fun i => C (c j) * (C (M i (j - k)) * u i)) fun i _ _ => by rw [C_mul]; ring]
    exact (sum_Ico_shrink (fun i i0 i1 hi => by rw [z i (by omega), map_zero, zero_mul, mul_zero]) le_rfl (by omega)).symm
  · simp only [if_neg hkj]
    refine ⟨fun i hi => trivial, ?_⟩
    have e : S (p j) = 0 := by
      rw [hS]
      exact Finset.sum_eq_zero fun i hi => by rw [Finset.mem_Ico] at hi; rw [superM, if_neg (by omega), map_zero, zero_mul]
    show T (S (p j)) = _
    rw [e]
    have := hT 0 0
    rw [map_zero, zero_mul, zero_mul] at this
    rw [this, Finset.sum_eq_zero fun i _ => by rw [map_zero, zero_mul]]

theorem super_prod {n k : Int} (hk : 0 ≤ k) (M : Int → Int → K) (c : Int → K) {i j : Int} (hi : 0 ≤ i ∧ i < n) (hj : 0 ≤ j ∧ j < n) :
    ∑ q ∈ Finset.Ico 0 n, cut n n M i q * cut n n (superM k c) q j = supMul M k c i j := by
  unfold supMul
  by_cases hkj : k ≤ j
  · rw [if_pos hkj, Finset.sum_eq_single (j - k) (fun q hq h => by
      rw [Finset.mem_Ico] at hq
      rw [show cut n n (superM k c) q j = superM k c q j from if_pos ⟨hq, hj⟩, superM, if_neg h, mul_zero]) (fun h => by rw [Finset.mem_Ico] at h; omega)]
    rw [show cut n n M i (j - k) = M i (j - k) from if_pos ⟨hi, by omega⟩, show cut n n (superM k c) (j - k) j = superM k c (j - k) j from if_pos ⟨by omega, hj⟩, superM, if_pos rfl]
  · rw [if_neg hkj]
    exact Finset.sum_eq_zero fun q hq => by
      rw [Finset.mem_Ico] at hq
      rw [show cut n n (superM k c) q j = superM k c q j from if_pos ⟨hq, hj⟩, superM, if_neg (by omega), mul_zero]

theorem supMul_band {M : Int → Int → K} {k l w : Int} {c : Int → K} (hM : ∀ i j, ¬ (j - w ≤ i ∧ i ≤ j + l) → M i j = 0) (i j : Int) (h : ¬ (j - k - w ≤ i ∧ i ≤ j - k + l)) : supMul M k c i j = 0 := by
  unfold supMul
  split_ifs
  · rw [hM i (j - k) h, zero_mul]
  · rfl

/-- Two diagonals in storage that is not cleared. -/
theorem biT_fill (junk : Int → K) (n : Int) (w0 w1 : Int → K) :
    ∃ A, forUp 0 n (fun i A => (A.set (w0 i) (i - 1) i).bind fun A => A.set (w1 i) i i) (mallocTB junk n 1) = some A ∧ StoresT A n 1 (cut n n (diags (g2 (-1) 0 w0 w1))) := by
  have h0 := malloc_storesT junk n 1
  obtain ⟨A, e, s⟩ := fillT (lo := 0) (hi := n) (body := fun i A => (A.set (w0 i) (i - 1) i).bind fun A => A.set (w1 i) i i)
    (v := fun p j => if p = j then w1 j else w0 j) h0 (fun j A a' j0 j1 hA hz => sets2T hA fun p hp => by
      unfold band at hp
      split_ifs <;> first | rfl | omega)
  refine ⟨A, e, s.to fun i j => ?_⟩
  unfold cut
  by_cases hb : band n n 0 1 i j
  · rw [if_pos ⟨by unfold band at hb; omega, hb⟩]
    unfold band at hb
    unfold diags FT.Poly.g2
    split_ifs <;> first | rfl | omega
  · rw [if_neg (fun h => hb h.2), show (mallocTB junk n 1).ent i j = 0 from C14_zero_outside_tri h0 hb]
    unfold band at hb
    unfold diags FT.Poly.g2
    split_ifs <;> first | rfl | omega

/-! ## Differential operators -/

theorem jacOp_comm (α β c : K) (p : K[X]) : jacOp α β (C c * p) = C c * jacOp α β p := by
  unfold jacOp
  rw [derivative_C_mul, derivative_C_mul]
  ring

theorem lagOp_comm (α c : K) (p : K[X]) : lagOp α (C c * p) = C c * lagOp α p := by
  unfold lagOp
  rw [derivative_C_mul, derivative_C_mul]
  ring

section lag
variable [LinearOrder K] [IsStrictOrderedRing K]

theorem lag_op (α β : K) {j : Int} (hj : 0 ≤ j) : lagOp α (laguerre β j) = C (j : K) * laguerre (β + 1) j + C (j * (j + β - α)) * laguerre (β + 1) (j - 1) := by
  unfold lagOp
  rw [laguerre_derivative hj, derivative_C_mul]
  rcases eq_or_lt_of_le hj with h | h
  · subst h; simp
  rw [laguerre_derivative (show 0 ≤ j - 1 by omega)]
  have e3 := monic_mul (a := lagA (β + 1)) (b := lagB (β + 1)) (show 0 ≤ j - 1 by omega)
  change X * laguerre (β + 1) (j - 1) = laguerre (β + 1) (j - 1 + 1) + C (lagA (β + 1) (j - 1)) * laguerre (β + 1) (j - 1) + C (lagB (β + 1) (j - 1)) * laguerre (β + 1) (j - 1 - 1) at e3
  rw [sub_add_cancel] at e3
  rcases eq_or_lt_of_le (show 1 ≤ j from h) with h' | h'
  · subst h'
    rw [show laguerre (β + 1) (1 - 1 - 1) = 0 from monic_neg (by norm_num)] at e3
    rw [show laguerre (β + 1 + 1) (1 - 1 - 1) = 0 from monic_neg (by norm_num)]
    unfold lagA at e3
    push_cast at *
    simp only [sub_self, zero_mul, mul_zero, C_0, add_zero, zero_add, C_1, one_mul, C_add, C_sub] at *
    linear_combination e3
  · have e4 := laguerre_lower (α := β + 1) (show 0 ≤ j - 1 - 1 by omega)
    rw [sub_add_cancel] at e4
    unfold lagA lagB at e3
    push_cast at *
    simp only [C_add, C_mul, C_sub, C_1, C_ofNat] at *
    linear_combination (-(C (j : K) * (C (j : K) - 1))) * e4 + C (j : K) * e3

end lag
end FT.Poly
