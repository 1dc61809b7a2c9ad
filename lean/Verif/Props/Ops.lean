import Verif.Lemmas.LagOps
import Mathlib.Analysis.SpecialFunctions.Gamma.Basic

/-!
# C48: banded matrices represent operators on polynomials
-/

set_option linter.unusedSectionVars false

namespace FT.Props.Ops
open Polynomial FT.Poly
variable {K : Type*} [Field K] [LinearOrder K] [IsStrictOrderedRing K] {F : Libm K} {norm : Bool} {α β : K}

/-- `A` is an `m × n` matrix whose column `j` holds the first `m` coefficients of `T p_j` in the family `q`, all of which lie in the band. -/
def Represents (A : Banded K) (m n l u : Int) (T : K[X] → K[X]) (p q : Int → K[X]) : Prop :=
  ∃ M, Stores A m n l u (cut m n M) ∧ (∀ i j, ¬ (j - u ≤ i ∧ i ≤ j + l) → M i j = 0) ∧ IsMatrix T p q M

/-- **C48** What it means for coefficients: multiplying the coefficients of a polynomial in the family `p` by the matrix gives the coefficients of its image in the family `q`, if the matrix has enough rows. -/
theorem C48_apply {A : Banded K} {m n l u : Int} {T : K[X] →ₗ[K] K[X]} {p q : Int → K[X]} (h : Represents A m n l u T p q) (hm : n + l ≤ m) (c : Int → K) :
    ∃ a, Stores A m n l u a ∧ T (∑ j ∈ Finset.Ico 0 n, C (c j) * p j) = ∑ i ∈ Finset.Ico 0 m, C (∑ j ∈ Finset.Ico 0 n, a i j * c j) * q i := by
  obtain ⟨M, s, hb, hM⟩ := h
  refine ⟨_, s, ?_⟩
  simp only [map_sum, ← smul_eq_C_mul, map_smul]
  simp only [smul_eq_C_mul, map_sum, Finset.sum_mul]
  rw [Finset.sum_comm]
  refine sum_Ico_congr fun j j0 j1 => ?_
  rw [(hM j j0).2, Finset.mul_sum]
  have e : ∀ i, 0 ≤ i → i < m → cut m n M i j = M i j := fun i i0 i1 => if_pos ⟨⟨i0, i1⟩, j0, j1⟩
  rw [sum_Ico_congr (f := fun i => C (cut m n M i j * c j) * q i) (g := fun i => C (c j) * (C (M i j) * q i)) fun i i0 i1 => by rw [e i i0 i1, C_mul]; ring]
  rcases le_total m (j + 3) with hmj | hmj
  · exact sum_Ico_shrink (fun k k0 k1 hk => by rw [hb k j (by omega), map_zero, zero_mul, mul_zero]) le_rfl hmj
  · exact (sum_Ico_shrink (fun k k0 k1 hk => by rw [(hM j j0).1 k (by omega), map_zero, zero_mul, mul_zero]) le_rfl hmj).symm

section jacobi
variable (hF : IsLibm F) (hα : -1 < α) (hβ : -1 < β)
include hF hα hβ

/-- **C48** The raising matrix holds the coefficients of the Jacobi polynomials with parameters `α, β` in those with parameters `α + 1, β + 1`. -/
theorem C48_jacobi_raising (m n : Int) : ∃ A, jacobiRaising F norm m n α β = some A ∧ Represents A m n 0 2 id (Jac F norm α β) (Jac F norm (α + 1) (β + 1)) := by
  obtain ⟨A, e, s, hb⟩ := fill3 (m := m) (n := n) (l := 0) (u := 2) (d0 := -2) (d1 := -1) (d2 := 0)
    (fun j => if norm then -2 * F.sqrt (F.div ((j - 1) * j * (j + α) * (j + β)) ((2 * j + α + β - 1) * (2 * j + α + β) * (2 * j + α + β) * (2 * j + α + β + 1)))
      else F.div (-((j + α) * (j + β))) ((2 * j + α + β) * (2 * j + α + β + 1)))
    (fun j => if norm then F.div (2 * (α - β) * F.sqrt (j * (j + α + β + 1))) ((2 * j + α + β) * (2 * j + α + β + 2)) else F.div ((α - β) * (j + α + β + 1)) ((2 * j + α + β) * (2 * j + α + β + 2)))
    (fun j => if norm then if j = 0 then 2 * F.sqrt (F.div ((α + 1) * (β + 1)) ((α + β + 2) * (α + β + 3)))
        else 2 * F.sqrt (F.div ((j + α + 1) * (j + β + 1) * (j + α + β + 1) * (j + α + β + 2)) ((2 * j + α + β + 1) * (2 * j + α + β + 2) * (2 * j + α + β + 2) * (2 * j + α + β + 3)))
      else if j = 0 then 1 else F.div ((j + α + β + 1) * (j + α + β + 2)) ((2 * j + α + β + 1) * (2 * j + α + β + 2)))
    (by omega) (by omega) (by omega) (by omega) (by omega)
  refine ⟨A, ?_, _, s, hb, op3 (jacRb α β) (jacRa α β) (fun _ => 1) (monic_neg' _ _) C_comm_id (fun j hj => ?_) (fun j hj hd => ?_) (fun j hj hd => ?_) fun j hj hd => ?_⟩
  · rw [← e]
    unfold jacobiRaising
    cases norm
    · simp only [add_zero, ← sub_eq_add_neg, Bool.false_eq_true, if_false]; rfl
    · simp only [add_zero, ← sub_eq_add_neg, if_true]; rfl
  · show jacobi α β j = _
    rw [jacobi_raise hα hβ hj]
    unfold g3 jacobi
    norm_num
    ring
  · rw [raise2 hF hα hβ (by omega)]
    have := jacS_2 (norm := norm) hF hα hβ (show 0 ≤ j - 2 by omega)
    rw [sub_add_cancel, show j - 2 + 1 = j - 1 by ring] at this
    rw [this, ← sub_eq_add_neg]
    ring
  · rw [raise1 hF hα hβ (by omega)]
    have := jacS_1 (norm := norm) hF hα hβ (show 0 ≤ j - 1 by omega)
    rw [sub_add_cancel] at this
    rw [this, ← sub_eq_add_neg]
    ring
  · rw [raise0 hF hα hβ hj, jacS_up hF hα hβ hj, add_zero, mul_one]

/-- **C48** The lowering matrix multiplies Jacobi polynomials with parameters `α + 1, β + 1` by `1 - x²`, and gives coefficients for the parameters `α, β`. -/
theorem C48_jacobi_lowering (m n : Int) : ∃ A, jacobiLowering F norm m n α β = some A ∧ Represents A m n 2 0 (fun p => (1 - X ^ 2) * p) (Jac F norm (α + 1) (β + 1)) (Jac F norm α β) := by
  obtain ⟨A, e, s, hb⟩ := fill3 (m := m) (n := n) (l := 2) (u := 0) (d0 := 0) (d1 := 1) (d2 := 2)
    (fun j => if norm then if j = 0 then 2 * F.sqrt (F.div ((α + 1) * (β + 1)) ((α + β + 2) * (α + β + 3)))
        else 2 * F.sqrt (F.div ((j + α + 1) * (j + β + 1) * (j + α + β + 1) * (j + α + β + 2)) ((2 * j + α + β + 1) * (2 * j + α + β + 2) * (2 * j + α + β + 2) * (2 * j + α + β + 3)))
      else F.div (4 * (j + α + 1) * (j + β + 1)) ((2 * j + α + β + 2) * (2 * j + α + β + 3)))
    (fun j => if norm then F.div (2 * (α - β) * F.sqrt ((j + 1) * (j + α + β + 2))) ((2 * j + α + β + 2) * (2 * j + α + β + 4))
      else F.div (4 * (α - β) * (j + 1)) ((2 * j + α + β + 2) * (2 * j + α + β + 4)))
    (fun j => if norm then -2 * F.sqrt (F.div ((j + 1) * (j + 2) * (j + α + 2) * (j + β + 2)) ((2 * j + α + β + 3) * (2 * j + α + β + 4) * (2 * j + α + β + 4) * (2 * j + α + β + 5)))
      else F.div (-(4 * (j + 1) * (j + 2))) ((2 * j + α + β + 3) * (2 * j + α + β + 4)))
    (by omega) (by omega) (by omega) (by omega) (by omega)
  refine ⟨A, ?_, _, s, hb, op3 (jacLb α β) (jacLa α β) (fun _ => -1) (monic_neg' _ _) (C_comm_mul _) (fun j hj => ?_) (fun j hj hd => ?_) (fun j hj hd => ?_) fun j hj hd => ?_⟩
  · rw [← e]
    unfold jacobiLowering
    cases norm
    · simp only [add_zero, Bool.false_eq_true, if_false]; rfl
    · simp only [add_zero, if_true]; rfl
  · show _ * jacobi (α + 1) (β + 1) j = _
    rw [jacobi_lower hα hβ hj]
    unfold g3 jacobi
    norm_num
    ring
  · rw [add_zero, jacS_up hF hα hβ hj, mul_assoc, lower0 hF hα hβ hj]
  · rw [jacS_1 hF hα hβ hj, mul_assoc, lower1 hF hα hβ hj]
  · rw [jacS_2 hF hα hβ hj, mul_assoc, lower2 hF hα hβ hj]

/-- **C48** The multiplication matrix is the multiplication by `x` of Jacobi polynomials. -/
theorem C48_jacobi_multiplication (m n : Int) : ∃ A, jacobiMultiplication F norm m n α β = some A ∧ Represents A m n 1 1 (fun p => X * p) (Jac F norm α β) (Jac F norm α β) := by
  obtain ⟨A, e, s, hb⟩ := fill3 (m := m) (n := n) (l := 1) (u := 1) (d0 := -1) (d1 := 0) (d2 := 1)
    (fun j => if norm then if j = 1 then 2 * F.sqrt (F.div ((α + 1) * (β + 1)) ((α + β + 2) * (α + β + 2) * (α + β + 3)))
        else 2 * F.sqrt (F.div (j * (j + α) * (j + β) * (j + α + β)) ((2 * j + α + β - 1) * (2 * j + α + β) * (2 * j + α + β) * (2 * j + α + β + 1)))
      else F.div (2 * (j + α) * (j + β)) ((2 * j + α + β) * (2 * j + α + β + 1)))
    (fun j => if j = 0 then F.div (β - α) (α + β + 2) else F.div ((β - α) * (α + β)) ((2 * j + α + β) * (2 * j + α + β + 2)))
    (fun j => if norm then if j = 0 then 2 * F.sqrt (F.div ((α + 1) * (β + 1)) ((α + β + 2) * (α + β + 2) * (α + β + 3)))
        else 2 * F.sqrt (F.div ((j + 1) * (j + α + 1) * (j + β + 1) * (j + α + β + 1)) ((2 * j + α + β + 1) * (2 * j + α + β + 2) * (2 * j + α + β + 2) * (2 * j + α + β + 3)))
      else if j = 0 then F.div 2 (α + β + 2) else F.div (2 * (j + 1) * (j + α + β + 1)) ((2 * j + α + β + 1) * (2 * j + α + β + 2)))
    (by omega) (by omega) (by omega) (by omega) (by omega)
  refine ⟨A, ?_, _, s, hb, op3 (jacB α β) (jacA α β) (fun _ => 1) (monic_neg' _ _) (C_comm_mul _) (fun j hj => ?_) (fun j hj hd => ?_) (fun j hj hd => ?_) fun j hj hd => ?_⟩
  · rw [← e]
    unfold jacobiMultiplication
    cases norm
    · rw [if_neg (by decide)]
      refine forUp_congr fun j A j0 j1 => ?_
      simp only [add_zero, ← sub_eq_add_neg, Bool.false_eq_true, if_false]
      by_cases h : j = 0
      · subst h
        simp only [if_true]
        rfl
      · simp only [h, if_false]
        rfl
    · rw [if_pos rfl]
      refine forUp_congr fun j A j0 j1 => ?_
      simp only [add_zero, ← sub_eq_add_neg, if_true]
      by_cases h : j = 0
      · subst h
        simp only [if_true]
        rfl
      · simp only [h, if_false]
        rfl
  · show X * jacobi α β j = _
    unfold jacobi
    rw [monic_mul hj]
    unfold g3
    norm_num
    ring
  · rw [← muldn hF hα hβ (by omega)]
    have := jacS_succ (norm := norm) hF hα hβ (show 0 ≤ j - 1 by omega)
    rw [sub_add_cancel] at this
    rw [this, ← sub_eq_add_neg, mul_assoc]
  · rw [mul0 hF hα hβ hj, add_zero]
  · rw [jacS_succ hF hα hβ hj, mul_assoc, mulup hF hα hβ hj]

/-- There is one superdiagonal. -/
theorem jacobi_super (junk : Int → K) (m n : Int) {order : Int} (ho : 0 ≤ order) :
    ∃ A c, jacobiDerivative F junk norm m n order α β = some A ∧ Stores A m n (-order) order (cut m n (superM order c)) ∧
      IsMatrix derivative^[order.toNat] (Jac F norm α β) (Jac F norm (α + order) (β + order)) (superM order c) := by
  obtain ⟨k, rfl⟩ := Int.eq_ofNat_of_zero_le ho
  rw [Int.toNat_natCast]
  obtain ⟨A, e, s⟩ := super_stores junk m n ho fun j => if norm then F.sqrt (∏ i ∈ Finset.Ico 0 (k : Int), (j - i) * (j + α + β + i + 1)) else ∏ i ∈ Finset.Ico 0 (k : Int), F.div (j + α + β + i + 1) 2
  have hd := fun (j : Int) (hj : 0 ≤ j) => iterate_der (p := fun i => Jac F norm (α + i) (β + i))
    (δ := fun i j => if norm then F.sqrt (j * (j + (α + i) + (β + i) + 1)) else (j + (α + i) + (β + i) + 1) / 2)
    (fun i j hj => by
      have h0 : (0 : K) ≤ i := Nat.cast_nonneg i
      rw [Jac_derivative hF (by linarith) (by linarith) hj, Nat.cast_succ, add_assoc α, add_assoc β])
    (fun i => by unfold Jac scaled jacobi; rw [monic_zero, mul_one, derivative_C])
    (fun i j hj => scaled_neg (monic_neg' _ _) j hj) k hj
  simp only [Nat.cast_zero, add_zero, Int.cast_natCast] at hd
  refine ⟨A, _, ?_, s, super_matrix ho (fun j hj h => ?_) fun j h => ?_⟩
  · rw [← e]
    unfold jacobiDerivative
    cases norm
    · simp only [prodLoop_eq, Bool.false_eq_true, if_false]; rfl
    · simp only [prodLoop_eq, if_true]; rfl
  · rw [hd j hj, show Jac F norm (α + k) (β + k) (j - k) = 0 from scaled_neg (monic_neg' _ _) _ (by omega), mul_zero]
  · rw [hd j (by omega), Int.cast_natCast]
    congr 2
    have hk : (k : K) ≤ j := by exact_mod_cast h
    cases norm
    · simp only [Bool.false_eq_true, if_false]
      rw [prod_Ico_range]
      refine Finset.prod_congr rfl fun i _ => ?_
      rw [hF.div _ _ two_ne_zero]
      push_cast
      ring
    · simp only [if_true]
      rw [prod_Ico_range (fun i => ((j : K) - i) * (j + α + β + i + 1)), ← prod_sqrt hF.sqrt]
      · refine Finset.prod_congr rfl fun i _ => ?_
        congr 1
        push_cast
        ring
      · intro i hi
        have h1 : (i : K) + 1 ≤ k := by exact_mod_cast hi
        have h0 : (0 : K) ≤ i := Nat.cast_nonneg i
        push_cast
        exact mul_nonneg (by linarith) (by linarith)

/-- **C48** The derivative matrix of any order: the coefficients of the derivatives of Jacobi polynomials in the family whose parameters are larger by the order.  The storage
is allocated without being cleared; whatever it contains, every entry of the band is overwritten. -/
theorem C48_jacobi_derivative (junk : Int → K) (m n : Int) {order : Int} (ho : 0 ≤ order) :
    ∃ A, jacobiDerivative F junk norm m n order α β = some A ∧ Represents A m n (-order) order derivative^[order.toNat] (Jac F norm α β) (Jac F norm (α + order) (β + order)) := by
  obtain ⟨A, c, e, s, h⟩ := jacobi_super (norm := norm) hF hα hβ junk m n ho
  exact ⟨A, e, _, s, super_band, h⟩

/-- **C48** The coefficients returned by `rec_A_jacobi`, `rec_B_jacobi` and `rec_C_jacobi` are those of the recurrence `p_{n+1} = (A_n x + B_n) p_n - C_n p_{n-1}` of Jacobi polynomials, for both normalisations. -/
theorem C48_jacobi_recurrence {n : Int} (hn : 0 ≤ n) :
    Jac F norm α β (n + 1) = (C (recAJacobi F norm n α β) * X + C (recBJacobi F norm n α β)) * Jac F norm α β n - C (recCJacobi F norm n α β) * Jac F norm α β (n - 1) :=
  scaled_rec (fun n hn => jacS_succ (norm := norm) hF hα hβ hn) hn (recA_eq hF hα hβ hn) (recB_eq hF hα hβ hn) fun hn => recC_eq hF hα hβ hn

end jacobi

section laguerre
variable (hF : IsLibm F) (hα : -1 < α)
include hF hα

/-- **C48** The raising matrix of Laguerre polynomials. -/
theorem C48_laguerre_raising (m n : Int) : ∃ A, laguerreRaising F norm m n α = some A ∧ Represents A m n 0 1 id (Lag F norm α) (Lag F norm (α + 1)) := by
  obtain ⟨A, e, s, hb⟩ := fill2 (m := m) (n := n) (l := 0) (u := 1) (d0 := -1) (d1 := 0)
    (fun j => if norm then -F.sqrt j else -1) (fun j => if norm then F.sqrt (j + α + 1) else 1) (by omega) (by omega) (by omega) (by omega)
  refine ⟨A, ?_, _, s, hb, op2 (fun j => j) (fun _ => 1) (monic_neg' _ _) C_comm_id (fun j hj => ?_) (fun j hj hd => ?_) fun j hj hd => ?_⟩
  · rw [← e]
    unfold laguerreRaising
    cases norm
    · simp only [add_zero, ← sub_eq_add_neg, Bool.false_eq_true, if_false]; rfl
    · simp only [add_zero, ← sub_eq_add_neg, if_true]; rfl
  · show laguerre α j = _
    rw [laguerre_raise hj]
    unfold g2 laguerre
    norm_num
    ring
  · have := lagS_1 (norm := norm) hF hα (show 0 ≤ j - 1 by omega)
    rw [sub_add_cancel] at this
    rw [this, ← lagDer hF (by omega), ← sub_eq_add_neg]
    ring
  · rw [lagS_up hF hα hj, add_zero, mul_one]
    rfl

/-- **C48** The lowering matrix of Laguerre polynomials is the multiplication by `x`. -/
theorem C48_laguerre_lowering (m n : Int) : ∃ A, laguerreLowering F norm m n α = some A ∧ Represents A m n 1 0 (fun p => X * p) (Lag F norm (α + 1)) (Lag F norm α) := by
  obtain ⟨A, e, s, hb⟩ := fill2 (m := m) (n := n) (l := 1) (u := 0) (d0 := 0) (d1 := 1)
    (fun j => if norm then F.sqrt (j + α + 1) else j + α + 1) (fun j => if norm then -F.sqrt (j + 1) else -(j + 1)) (by omega) (by omega) (by omega) (by omega)
  refine ⟨A, ?_, _, s, hb, op2 (fun j => j + α + 1) (fun _ => 1) (monic_neg' _ _) (C_comm_mul _) (fun j hj => ?_) (fun j hj hd => ?_) fun j hj hd => ?_⟩
  · rw [← e]
    unfold laguerreLowering
    cases norm
    · simp only [add_zero, Bool.false_eq_true, if_false]; rfl
    · simp only [add_zero, if_true]; rfl
  · show X * laguerre (α + 1) j = _
    rw [laguerre_lower hj]
    unfold g2 laguerre
    norm_num
    ring
  · have h0 : (0 : K) ≤ j := by exact_mod_cast hj
    rw [add_zero, lagS_up hF hα hj, mul_assoc]
    congr 1
    unfold lagTau
    split_ifs
    · exact (hF.sqrt _ (by linarith)).2.symm
    · rw [one_mul]
  · have h0 : (0 : K) ≤ j := by exact_mod_cast hj
    rw [lagS_1 hF hα hj, mul_assoc]
    congr 1
    unfold lagST
    split_ifs
    · have := sqrt_pos hF.sqrt (show 0 < (j : K) + 1 by linarith)
      field_simp
    · have : (j : K) + 1 ≠ 0 := by linarith
      field_simp

/-- **C48** The multiplication matrix of Laguerre polynomials. -/
theorem C48_laguerre_multiplication (m n : Int) : ∃ A, laguerreMultiplication F norm m n α = some A ∧ Represents A m n 1 1 (fun p => X * p) (Lag F norm α) (Lag F norm α) := by
  obtain ⟨A, e, s, hb⟩ := fill3 (m := m) (n := n) (l := 1) (u := 1) (d0 := -1) (d1 := 0) (d2 := 1)
    (fun j => if norm then -F.sqrt (j * (j + α)) else -(j + α)) (fun j => 2 * j + α + 1) (fun j => if norm then -F.sqrt ((j + 1) * (j + α + 1)) else -(j + 1))
    (by omega) (by omega) (by omega) (by omega) (by omega)
  refine ⟨A, ?_, _, s, hb, op3 (lagB α) (lagA α) (fun _ => 1) (monic_neg' _ _) (C_comm_mul _) (fun j hj => ?_) (fun j hj hd => ?_) (fun j hj hd => ?_) fun j hj hd => ?_⟩
  · rw [← e]
    unfold laguerreMultiplication
    cases norm
    · simp only [add_zero, ← sub_eq_add_neg, Bool.false_eq_true, if_false]; rfl
    · simp only [add_zero, ← sub_eq_add_neg, if_true]; rfl
  · show X * laguerre α j = _
    unfold laguerre
    rw [monic_mul hj]
    unfold g3
    norm_num
    ring
  · have h1 : (1 : K) ≤ j := by exact_mod_cast (by omega : 1 ≤ j)
    have := lagS_succ (norm := norm) hF hα (show 0 ≤ j - 1 by omega)
    rw [sub_add_cancel] at this
    rw [this, ← sub_eq_add_neg, mul_assoc]
    congr 1
    unfold lagStep lagB
    push_cast
    rw [sub_add_cancel, show (j : K) - 1 + α + 1 = j + α by ring]
    have hp : 0 < (j : K) * (j + α) := mul_pos (by linarith) (by linarith)
    split_ifs
    · have h2 := sqrt_pos hF.sqrt hp
      have h3 := (hF.sqrt _ (le_of_lt hp)).2
      rw [neg_mul, one_div, neg_inj, inv_mul_eq_iff_eq_mul₀ (ne_of_gt h2), h3]
    · have : (j : K) ≠ 0 := by linarith
      field_simp
  · rw [add_zero]
    rfl
  · have h0 : (0 : K) ≤ j := by exact_mod_cast hj
    rw [lagS_succ hF hα hj, mul_assoc]
    congr 1
    unfold lagStep
    split_ifs
    · have := sqrt_pos hF.sqrt (show 0 < ((j : K) + 1) * (j + α + 1) from mul_pos (by linarith) (by linarith))
      field_simp
    · have : (j : K) + 1 ≠ 0 := by linarith
      field_simp

/-- **C48** The derivative matrix of any order of Laguerre polynomials. -/
theorem C48_laguerre_derivative (junk : Int → K) (m n : Int) {order : Int} (ho : 0 ≤ order) :
    ∃ A, laguerreDerivative F junk norm m n order α = some A ∧ Represents A m n (-order) order derivative^[order.toNat] (Lag F norm α) (Lag F norm (α + order)) := by
  obtain ⟨k, rfl⟩ := Int.eq_ofNat_of_zero_le ho
  rw [Int.toNat_natCast]
  obtain ⟨A, e, s⟩ := super_stores junk m n ho fun j => if norm then if (k : Int) % 2 ≠ 0 then -F.sqrt (∏ i ∈ Finset.Ico 0 (k : Int), ((j - i : Int) : K)) else F.sqrt (∏ i ∈ Finset.Ico 0 (k : Int), ((j - i : Int) : K))
    else if (k : Int) % 2 ≠ 0 then -1 else 1
  have hd := fun (j : Int) (hj : 0 ≤ j) => iterate_der (p := fun i => Lag F norm (α + i)) (δ := fun i j => if norm then -F.sqrt j else -1)
    (fun i j hj => by
      have h0 : (0 : K) ≤ i := Nat.cast_nonneg i
      rw [Lag_derivative hF (by linarith) hj, Nat.cast_succ, add_assoc α])
    (fun i => by unfold Lag scaled laguerre; rw [monic_zero, mul_one, derivative_C])
    (fun i j hj => scaled_neg (monic_neg' _ _) j hj) k hj
  simp only [Nat.cast_zero, add_zero] at hd
  have sgn : (-1 : K) ^ k = if (k : Int) % 2 ≠ 0 then -1 else 1 := by
    split_ifs with h
    · exact Odd.neg_one_pow (Nat.odd_iff.2 (by omega))
    · exact Even.neg_one_pow (Nat.even_iff.2 (by omega))
  refine ⟨A, ?_, _, s, super_band, super_matrix ho (fun j hj h => ?_) fun j h => ?_⟩
  · rw [← e]
    unfold laguerreDerivative
    cases norm
    · simp only [Bool.false_eq_true, if_false]
    · simp only [prodLoop_eq, if_true]; rfl
  · rw [hd j hj, show Lag F norm (α + k) (j - k) = 0 from scaled_neg (monic_neg' _ _) _ (by omega), mul_zero]
  · rw [hd j (by omega), Int.cast_natCast]
    congr 2
    cases norm
    · simp only [Bool.false_eq_true, if_false]
      rw [Finset.prod_const, Finset.card_range, sgn]
    · simp only [if_true]
      rw [prod_Ico_range (fun i => ((j - i : Int) : K)), ← prod_sqrt hF.sqrt _ _ fun i hi => by exact_mod_cast (by omega : 0 ≤ j - i)]
      rw [Finset.prod_neg, Finset.card_range, sgn]
      split_ifs
      · rw [neg_one_mul]
      · rw [one_mul]

/-- **C48** The recurrence coefficients of Laguerre polynomials. -/
theorem C48_laguerre_recurrence {n : Int} (hn : 0 ≤ n) :
    Lag F norm α (n + 1) = (C (recALaguerre F norm n α) * X + C (recBLaguerre F norm n α)) * Lag F norm α n - C (recCLaguerre F norm n α) * Lag F norm α (n - 1) := by
  have h0 : (0 : K) ≤ n := by exact_mod_cast hn
  have h1 : (n : K) + 1 ≠ 0 := by linarith
  have hp : 0 < ((n : K) + 1) * (n + α + 1) := mul_pos (by linarith) (by linarith)
  have h2 := sqrt_pos hF.sqrt hp
  refine scaled_rec (σ := lagStep F norm α) (fun n hn => lagS_succ hF hα hn) hn ?_ ?_ fun hn => ?_
  · unfold recALaguerre lagStep
    split_ifs
    · rw [hF.div _ _ (ne_of_gt h2)]; ring
    · rw [hF.div _ _ h1]
  · unfold recBLaguerre lagStep lagA
    split_ifs
    · rw [hF.div _ _ (ne_of_gt h2)]; ring
    · rw [hF.div _ _ h1]; ring
  · have h3 : (1 : K) ≤ n := by exact_mod_cast hn
    have hq : 0 < (n : K) * (n + α) := mul_pos (by linarith) (by linarith)
    unfold recCLaguerre lagStep lagB
    push_cast
    rw [sub_add_cancel, show (n : K) - 1 + α + 1 = n + α by ring]
    split_ifs
    · have h4 := sqrt_pos hF.sqrt hq
      have h5 := (hF.sqrt _ (le_of_lt hp)).2
      have h6 := (hF.sqrt _ (le_of_lt hq)).2
      rw [hF.div _ _ (ne_of_gt hp)]
      refine sqrt_unique hF.sqrt (le_of_lt (div_pos hq hp)) ?_ ?_
      · have : 0 ≤ (n : K) * (n + α) * (1 / F.sqrt ((n + 1) * (n + α + 1))) * (1 / F.sqrt (n * (n + α))) := by positivity
        linarith
      · rw [eq_div_iff (ne_of_gt hp)]
        generalize F.sqrt ((n + 1) * (n + α + 1)) = x at *
        generalize F.sqrt (n * (n + α)) = y at *
        rw [← h5, ← h6]
        field_simp
    · rw [hF.div _ _ h1]
      have : (n : K) ≠ 0 := by linarith
      field_simp

end laguerre

section hermite
variable (hF : IsLibm F)
include hF

/-- **C48** The multiplication matrix of Hermite polynomials. -/
theorem C48_hermite_multiplication (m n : Int) : ∃ A, hermiteMultiplication F norm m n = some A ∧ Represents A m n 1 1 (fun p => X * p) (Her F norm) (Her F norm) := by
  obtain ⟨A, e, s, hb⟩ := fill2 (m := m) (n := n) (l := 1) (u := 1) (d0 := -1) (d1 := 1)
    (fun j => if norm then F.sqrt (F.div j 2) else j) (fun j => if norm then F.sqrt (F.div (j + 1) 2) else 1 / 2)
    (by omega) (by omega) (by omega) (by omega)
  refine ⟨A, ?_, _, s, hb, op2 herB (fun _ => 1) (monic_neg' _ _) (C_comm_mul _) (fun j hj => ?_) (fun j hj hd => ?_) fun j hj hd => ?_⟩
  · rw [← e]
    unfold hermiteMultiplication
    cases norm
    · simp only [← sub_eq_add_neg, Bool.false_eq_true, if_false]; rfl
    · simp only [← sub_eq_add_neg, if_true]; rfl
  · show X * hermite j = _
    unfold hermite
    rw [monic_mul hj]
    unfold g2 herA
    norm_num
    ring
  · have h1 : (1 : K) ≤ j := by exact_mod_cast (by omega : 1 ≤ j)
    have := herS_succ (norm := norm) hF (show 0 ≤ j - 1 by omega)
    rw [sub_add_cancel] at this
    rw [this, ← sub_eq_add_neg, mul_assoc]
    congr 1
    unfold herStep herB
    push_cast
    rw [sub_add_cancel, hF.div _ _ two_ne_zero]
    have hp : 0 < (j : K) / 2 := by linarith
    split_ifs
    · have h2 := sqrt_pos hF.sqrt hp
      have h3 := (hF.sqrt _ (le_of_lt hp)).2
      rw [one_div, inv_mul_eq_iff_eq_mul₀ (ne_of_gt h2), h3]
    · ring
  · have h0 : (0 : K) ≤ j := by exact_mod_cast hj
    rw [herS_succ hF hj, mul_assoc]
    congr 1
    unfold herStep
    rw [hF.div _ _ two_ne_zero]
    split_ifs
    · have := sqrt_pos hF.sqrt (show 0 < ((j : K) + 1) / 2 by linarith)
      field_simp
    · norm_num

/-- **C48** The derivative matrix of any order of Hermite polynomials. -/
theorem C48_hermite_derivative (junk : Int → K) (m n : Int) {order : Int} (ho : 0 ≤ order) :
    ∃ A, hermiteDerivative F junk norm m n order = some A ∧ Represents A m n (-order) order derivative^[order.toNat] (Her F norm) (Her F norm) := by
  obtain ⟨k, rfl⟩ := Int.eq_ofNat_of_zero_le ho
  rw [Int.toNat_natCast]
  obtain ⟨A, e, s⟩ := super_stores junk m n ho fun j => if norm then F.sqrt (∏ i ∈ Finset.Ico 0 (k : Int), 2 * ((j : K) - i)) else ∏ i ∈ Finset.Ico 0 (k : Int), 2 * ((j : K) - i)
  have hd := fun (j : Int) (hj : 0 ≤ j) => iterate_der (p := fun _ => Her F norm) (δ := fun _ j => if norm then F.sqrt (2 * j) else 2 * j)
    (fun i j hj => Her_derivative hF hj)
    (fun i => by unfold Her scaled hermite; rw [monic_zero, mul_one, derivative_C])
    (fun i j hj => scaled_neg (monic_neg' _ _) j hj) k hj
  refine ⟨A, ?_, _, s, super_band, super_matrix ho (fun j hj h => ?_) fun j h => ?_⟩
  · rw [← e]
    unfold hermiteDerivative
    cases norm
    · simp only [prodLoop_eq, Int.cast_mul, Int.cast_sub, Int.cast_ofNat, Bool.false_eq_true, if_false]; rfl
    · simp only [prodLoop_eq, Int.cast_mul, Int.cast_sub, Int.cast_ofNat, if_true]; rfl
  · rw [hd j hj, show Her F norm (j - k) = 0 from scaled_neg (monic_neg' _ _) _ (by omega), mul_zero]
  · rw [hd j (by omega)]
    congr 2
    rw [prod_Ico_range (fun i => 2 * ((j : K) - i))]
    cases norm
    · simp only [Bool.false_eq_true, if_false]
      exact Finset.prod_congr rfl fun i _ => by push_cast; ring
    · simp only [if_true]
      rw [← prod_sqrt hF.sqrt]
      · exact Finset.prod_congr rfl fun i _ => by push_cast; ring_nf
      · intro i hi
        have : (i : K) ≤ j := by exact_mod_cast (by omega : (i : Int) ≤ j)
        push_cast
        linarith

/-- **C48** The recurrence coefficients of Hermite polynomials. -/
theorem C48_hermite_recurrence {n : Int} (hn : 0 ≤ n) :
    Her F norm (n + 1) = (C (recAHermite F norm n) * X + C (recBHermite norm n)) * Her F norm n - C (recCHermite F norm n) * Her F norm (n - 1) := by
  have h0 : (0 : K) ≤ n := by exact_mod_cast hn
  have h1 : (n : K) + 1 ≠ 0 := by linarith
  have hp : 0 < ((n : K) + 1) / 2 := by linarith
  have h2 := sqrt_pos hF.sqrt hp
  have h5 := (hF.sqrt _ (le_of_lt hp)).2
  refine scaled_rec (σ := herStep F norm) (fun n hn => herS_succ hF hn) hn ?_ ?_ fun hn => ?_
  · unfold recAHermite herStep
    rw [hF.div _ _ h1]
    split_ifs
    · refine sqrt_unique hF.sqrt (div_nonneg zero_le_two (by linarith)) (by positivity) ?_
      rw [div_mul_div_comm, h5]
      field_simp
    · rfl
  · unfold recBHermite herA
    rw [zero_mul, neg_zero]
  · have h3 : (1 : K) ≤ n := by exact_mod_cast hn
    have hq : 0 < (n : K) / 2 := by linarith
    unfold recCHermite herStep herB
    push_cast
    rw [sub_add_cancel, hF.div _ _ h1]
    split_ifs
    · have h4 := sqrt_pos hF.sqrt hq
      have h6 := (hF.sqrt _ (le_of_lt hq)).2
      refine sqrt_unique hF.sqrt (div_nonneg (by linarith) (by linarith)) (by positivity) ?_
      have e1 : (n : K) / (n + 1) = (n / 2) / ((n + 1) / 2) := by field_simp
      rw [e1]
      generalize F.sqrt ((n + 1) / 2) = x at *
      generalize F.sqrt (n / 2) = y at *
      rw [← h5, ← h6]
      field_simp
    · ring

end hermite

/-! ## Concrete cases -/

/-- Division and libm on the real numbers. -/
noncomputable def realLibm : Libm ℝ := ⟨fun x y => x / y, Real.sqrt, Real.Gamma, fun x => (2 : ℝ) ^ x⟩

theorem realLibm_ok : IsLibm realLibm where
  div _ _ _ := rfl
  sqrt := fun _ h => ⟨Real.sqrt_nonneg _, Real.mul_self_sqrt h⟩
  gamma_pos _ h := Real.Gamma_pos_of_pos h
  gamma_succ _ h := Real.Gamma_add_one (ne_of_gt h)
  gamma_one := Real.Gamma_one
  pow2_pos _ := Real.rpow_pos_of_pos two_pos _
  pow2_succ x := by show (2 : ℝ) ^ (x + 1) = 2 * 2 ^ x; rw [Real.rpow_add two_pos, Real.rpow_one, mul_comm]
  pow2_zero := Real.rpow_zero _

/-- Multiplication by `x` maps the Laguerre coefficients of a polynomial as the matrix says. -/
example (c : Int → ℝ) : ∃ A a, laguerreMultiplication realLibm true 6 5 (1 / 2) = some A ∧ Stores A 6 5 1 1 a ∧
    X * (∑ j ∈ Finset.Ico 0 5, C (c j) * Lag realLibm true (1 / 2) j) = ∑ i ∈ Finset.Ico 0 6, C (∑ j ∈ Finset.Ico 0 5, a i j * c j) * Lag realLibm true (1 / 2) i := by
  obtain ⟨A, e, h⟩ := C48_laguerre_multiplication (norm := true) (α := 1 / 2) realLibm_ok (by norm_num) 6 5
  obtain ⟨a, s, e'⟩ := C48_apply (T := LinearMap.mulLeft ℝ X) h (by norm_num) c
  exact ⟨A, a, e, s, e'⟩

example : ∃ A, jacobiRaising realLibm true 7 5 (1 / 2) (-1 / 3) = some A ∧ Represents A 7 5 0 2 id (Jac realLibm true (1 / 2) (-1 / 3)) (Jac realLibm true (1 / 2 + 1) (-1 / 3 + 1)) :=
  C48_jacobi_raising realLibm_ok (by norm_num) (by norm_num) 7 5
example : ∃ A, jacobiLowering realLibm false 7 5 (-1 / 2) (-1 / 2) = some A ∧
    Represents A 7 5 2 0 (fun p => (1 - X ^ 2) * p) (Jac realLibm false (-1 / 2 + 1) (-1 / 2 + 1)) (Jac realLibm false (-1 / 2) (-1 / 2)) :=
  C48_jacobi_lowering realLibm_ok (by norm_num) (by norm_num) 7 5
example : ∃ A, jacobiMultiplication realLibm true 6 5 (-1 / 2) (-1 / 2) = some A ∧ Represents A 6 5 1 1 (fun p => X * p) (Jac realLibm true (-1 / 2) (-1 / 2)) (Jac realLibm true (-1 / 2) (-1 / 2)) :=
  C48_jacobi_multiplication realLibm_ok (by norm_num) (by norm_num) 6 5
example : ∃ A, jacobiDerivative realLibm (fun _ => 17) true 5 5 3 (-1 / 2) 0 = some A ∧
    Represents A 5 5 (-3) 3 derivative^[(3 : Int).toNat] (Jac realLibm true (-1 / 2) 0) (Jac realLibm true (-1 / 2 + (3 : Int)) (0 + (3 : Int))) :=
  C48_jacobi_derivative realLibm_ok (by norm_num) (by norm_num) _ 5 5 (by norm_num)
example := C48_jacobi_recurrence (norm := true) (n := 1) (α := -1 / 2) (β := -1 / 2) realLibm_ok (by norm_num) (by norm_num) (by norm_num)
example := C48_laguerre_raising (norm := true) (α := -1 / 2) realLibm_ok (by norm_num) 5 5
example := C48_laguerre_lowering (norm := true) (α := -1 / 2) realLibm_ok (by norm_num) 6 5
example := C48_laguerre_multiplication (norm := true) (α := -1 / 2) realLibm_ok (by norm_num) 6 5
example := C48_laguerre_derivative (norm := true) (α := -1 / 2) realLibm_ok (by norm_num) (fun _ => 17) 5 5 (order := 3) (by norm_num)
example := C48_laguerre_recurrence (norm := true) (α := -1 / 2) realLibm_ok (by norm_num) (n := 3) (by norm_num)
example := C48_hermite_multiplication (norm := true) realLibm_ok 6 5
example := C48_hermite_derivative (norm := true) realLibm_ok (fun _ => 17) 5 5 (order := 2) (by norm_num)
example := C48_hermite_recurrence (norm := true) realLibm_ok (n := 3) (by norm_num)

end FT.Props.Ops
