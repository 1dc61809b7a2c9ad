import Verif.Lemmas.TdcMv
import Mathlib.LinearAlgebra.Matrix.NonsingularInverse

/-! # Lemmas for C67: from the decompositions of the halves and of the rank-one problem to that of the whole -/

namespace FT.Props
open FT
open Matrix

variable {K : Type*}

/-- The matrix of the first `n` rows and columns. -/
def sqm (n : Int) (P : Int → Int → K) : Matrix (Finset.Ico (0 : Int) n) (Finset.Ico (0 : Int) n) K := fun i j => P i j

section
variable [CommRing K]

theorem blk_mul {s n : Int} (h0 : 0 ≤ s) (h1 : s ≤ n) (P1 P2 M1 M2 : Int → Int → K) (i j : Int) :
    ∑ r ∈ Finset.Ico 0 n, blockDiag s P1 P2 i r * blockDiag s M1 M2 r j = blockDiag s (fun i j => rowMul s P1 (fun r => M1 r j) i) (fun i j => rowMul (n - s) P2 (fun r => M2 r j) i) i j := by
  rw [blk_row h0 h1]
  by_cases hi : i < s
  · rw [if_pos hi]
    by_cases hj : j < s
    · rw [show blockDiag s (fun i j => rowMul s P1 (fun r => M1 r j) i) (fun i j => rowMul (n - s) P2 (fun r => M2 r j) i) i j = rowMul s P1 (fun r => M1 r j) i by
        unfold blockDiag; rw [if_pos ⟨hi, hj⟩]]
      refine Finset.sum_congr rfl fun r hr => ?_
      rw [Finset.mem_Ico] at hr
      rw [show blockDiag s M1 M2 r j = M1 r j by unfold blockDiag; rw [if_pos ⟨by omega, hj⟩]]
    · rw [show blockDiag s (fun i j => rowMul s P1 (fun r => M1 r j) i) (fun i j => rowMul (n - s) P2 (fun r => M2 r j) i) i j = 0 by
        unfold blockDiag; rw [if_neg (by omega), if_neg (by omega)]]
      refine Finset.sum_eq_zero fun r hr => ?_
      rw [Finset.mem_Ico] at hr
      rw [show blockDiag s M1 M2 r j = 0 by unfold blockDiag; rw [if_neg (by omega), if_neg (by omega)], mul_zero]
  · rw [if_neg hi]
    by_cases hj : j < s
    · rw [show blockDiag s (fun i j => rowMul s P1 (fun r => M1 r j) i) (fun i j => rowMul (n - s) P2 (fun r => M2 r j) i) i j = 0 by
        unfold blockDiag; rw [if_neg (by omega), if_neg (by omega)]]
      refine Finset.sum_eq_zero fun r hr => ?_
      rw [Finset.mem_Ico] at hr
      rw [show blockDiag s M1 M2 (s + r) j = 0 by unfold blockDiag; rw [if_neg (by omega), if_neg (by omega)], mul_zero]
    · rw [show blockDiag s (fun i j => rowMul s P1 (fun r => M1 r j) i) (fun i j => rowMul (n - s) P2 (fun r => M2 r j) i) i j = rowMul (n - s) P2 (fun r => M2 r (j - s)) (i - s) by
        unfold blockDiag; rw [if_neg (by omega), if_pos (by omega)]]
      refine Finset.sum_congr rfl fun r hr => ?_
      rw [Finset.mem_Ico] at hr
      rw [show blockDiag s M1 M2 (s + r) j = M2 r (j - s) by unfold blockDiag; rw [if_neg (by omega), if_pos (by omega), show s + r - s = r by omega]]

theorem sqm_mul (n : Int) (P Q : Int → Int → K) : sqm n P * sqm n Q = sqm n fun i j => ∑ r ∈ Finset.Ico 0 n, P i r * Q r j := by
  ext i j
  rw [Matrix.mul_apply]
  exact Finset.sum_coe_sort (Finset.Ico 0 n) fun r => P i r * Q r j

theorem sqm_congr {n : Int} {P Q : Int → Int → K} (h : ∀ i j, 0 ≤ i → i < n → 0 ≤ j → j < n → P i j = Q i j) : sqm n P = sqm n Q := by
  ext i j
  have hi := Finset.mem_Ico.1 i.2
  have hj := Finset.mem_Ico.1 j.2
  exact h i j hi.1 hi.2 hj.1 hj.2

theorem sqm_apply {n : Int} {P Q : Int → Int → K} (h : sqm n P = sqm n Q) {i j : Int} (i0 : 0 ≤ i) (i1 : i < n) (j0 : 0 ≤ j) (j1 : j < n) : P i j = Q i j :=
  congrFun (congrFun h ⟨i, Finset.mem_Ico.2 ⟨i0, i1⟩⟩) ⟨j, Finset.mem_Ico.2 ⟨j0, j1⟩⟩

theorem sqm_diag (n : Int) (P : Int → Int → K) (d : Int → K) : sqm n P * (Matrix.diagonal fun k : Finset.Ico (0 : Int) n => d k) = sqm n fun i j => P i j * d j := by
  ext i j
  rw [Matrix.mul_diagonal]
  rfl

theorem sqm_one (n : Int) : sqm n (fun i j => if i = j then (1 : K) else 0) = 1 := by
  ext i j
  rw [Matrix.one_apply]
  show (if (i : Int) = j then (1 : K) else 0) = _
  simp only [Subtype.ext_iff]

end

section
variable [Field K] [LinearOrder K]

theorem Decomposes.sq {n : Int} {P Q M : Int → Int → K} {l : Int → K} (h : Decomposes n P Q M l) :
    sqm n P * sqm n M = sqm n Q * sqm n M * (Matrix.diagonal fun k : Finset.Ico (0 : Int) n => l k) ∧ (sqm n M)ᵀ * (sqm n Q * sqm n M) = 1 := by
  constructor
  · rw [sqm_mul, sqm_mul, sqm_diag]
    refine sqm_congr fun i j i0 i1 j0 j1 => ?_
    have := h.eig j j0 j1 i i0 i1
    unfold rowMul at this
    rw [this, mul_comm]
  · rw [sqm_mul, show (sqm n M)ᵀ = sqm n (fun i j => M j i) from rfl, sqm_mul, ← sqm_one]
    exact sqm_congr fun i j i0 i1 j0 j1 => h.orth i j i0 i1 j0 j1

theorem decomposes_of_sq {n : Int} {P Q M : Int → Int → K} {l : Int → K} (ha : ∀ i j, 0 ≤ i → i < j → j < n → l i ≤ l j)
    (h1 : sqm n P * sqm n M = sqm n Q * sqm n M * (Matrix.diagonal fun k : Finset.Ico (0 : Int) n => l k)) (h2 : (sqm n M)ᵀ * (sqm n Q * sqm n M) = 1) : Decomposes n P Q M l := by
  rw [sqm_mul, sqm_mul, sqm_diag] at h1
  rw [sqm_mul, show (sqm n M)ᵀ = sqm n (fun i j => M j i) from rfl, sqm_mul, ← sqm_one] at h2
  refine ⟨ha, fun j j0 j1 i i0 i1 => ?_, fun j k j0 j1 k0 k1 => sqm_apply h2 j0 j1 k0 k1⟩
  rw [mul_comm]
  exact sqm_apply h1 i0 i1 j0 j1

/-- The decompositions of the halves make one of the block diagonal matrices. -/
theorem blk_sq {n s : Int} (h0 : 0 ≤ s) (h1 : s ≤ n) {P1 Q1 M1 P2 Q2 M2 : Int → Int → K} {l1 l2 d : Int → K} (D1 : Decomposes s P1 Q1 M1 l1) (D2 : Decomposes (n - s) P2 Q2 M2 l2)
    (hd : ∀ k, 0 ≤ k → k < n → d k = if k < s then l1 k else l2 (k - s)) :
    sqm n (blockDiag s P1 P2) * sqm n (blockDiag s M1 M2) = sqm n (blockDiag s Q1 Q2) * sqm n (blockDiag s M1 M2) * (Matrix.diagonal fun k : Finset.Ico (0 : Int) n => d k) ∧
      (sqm n (blockDiag s M1 M2))ᵀ * (sqm n (blockDiag s Q1 Q2) * sqm n (blockDiag s M1 M2)) = 1 := by
  constructor
  · rw [sqm_mul, sqm_mul, sqm_diag]
    refine sqm_congr fun i j i0 i1 j0 j1 => ?_
    rw [blk_mul h0 h1, blk_mul h0 h1, hd j j0 j1]
    unfold blockDiag
    by_cases hi : i < s <;> by_cases hj : j < s
    · rw [if_pos ⟨hi, hj⟩, if_pos ⟨hi, hj⟩, if_pos hj, mul_comm]
      exact D1.eig j j0 hj i i0 hi
    · rw [if_neg (by omega), if_neg (by omega), if_neg (by omega), if_neg (by omega), zero_mul]
    · rw [if_neg (by omega), if_neg (by omega), if_neg (by omega), if_neg (by omega), zero_mul]
    · rw [if_neg (by omega), if_pos (by omega), if_neg (by omega), if_pos (by omega), if_neg hj, mul_comm]
      exact D2.eig (j - s) (by omega) (by omega) (i - s) (by omega) (by omega)
  · rw [sqm_mul, show (sqm n (blockDiag s M1 M2))ᵀ = sqm n (fun i j => blockDiag s M1 M2 j i) from rfl, sqm_mul, ← sqm_one]
    refine sqm_congr fun i j i0 i1 j0 j1 => ?_
    rw [Finset.sum_congr rfl (fun r _ => by rw [blk_mul h0 h1, blk_swap M1 M2 r i]), blk_mul h0 h1]
    unfold blockDiag
    by_cases hi : i < s <;> by_cases hj : j < s
    · rw [if_pos ⟨hi, hj⟩]
      exact D1.orth i j i0 hi j0 hj
    · rw [if_neg (by omega), if_neg (by omega), if_neg (by omega)]
    · rw [if_neg (by omega), if_neg (by omega), if_neg (by omega)]
    · rw [if_neg (by omega), if_pos (by omega)]
      refine (D2.orth (i - s) (j - s) (by omega) (by omega) (by omega) (by omega)).trans ?_
      by_cases hij : i = j
      · rw [if_pos hij, if_pos (by omega)]
      · rw [if_neg hij, if_neg (by omega)]

theorem node_decomposes {n s : Int} (h0 : 0 ≤ s) (h1 : s ≤ n) {P Q P1 Q1 M1 P2 Q2 M2 W : Int → Int → K} {l1 l2 d y z lam : Int → K} {rho sigma : K}
    (D1 : Decomposes s P1 Q1 M1 l1) (D2 : Decomposes (n - s) P2 Q2 M2 l2)
    (hP : ∀ i j, 0 ≤ i → i < n → 0 ≤ j → j < n → P i j = blockDiag s P1 P2 i j + rho * y i * y j)
    (hQ : ∀ i j, 0 ≤ i → i < n → 0 ≤ j → j < n → Q i j = blockDiag s Q1 Q2 i j + sigma * y i * y j)
    (hd : ∀ k, 0 ≤ k → k < n → d k = if k < s then l1 k else l2 (k - s)) (hz : ∀ k, 0 ≤ k → k < n → z k = ∑ r ∈ Finset.Ico 0 n, blockDiag s M1 M2 r k * y r)
    (hW : Decomposes n (dpr1M d rho z) (idpr1M sigma z) W lam) : Decomposes n P Q (nodeM n s M1 M2 W) lam := by
  obtain ⟨b1, b2⟩ := blk_sq h0 h1 D1 D2 hd
  obtain ⟨w1, w2⟩ := hW.sq
  have eM : sqm n (nodeM n s M1 M2 W) = sqm n (blockDiag s M1 M2) * sqm n W := by rw [sqm_mul]; rfl
  generalize hB : sqm n (blockDiag s M1 M2) = B at *
  generalize hS : sqm n (blockDiag s Q1 Q2) = Sb at *
  generalize hT : sqm n (blockDiag s P1 P2) = Tb at *
  have eP : sqm n P = Tb + sqm n fun i j => rho * y i * y j := by
    rw [← hT]; exact sqm_congr fun i j i0 i1 j0 j1 => hP i j i0 i1 j0 j1
  have eQ : sqm n Q = Sb + sqm n fun i j => sigma * y i * y j := by
    rw [← hS]; exact sqm_congr fun i j i0 i1 j0 j1 => hQ i j i0 i1 j0 j1
  have rank : ∀ c : K, Bᵀ * (sqm n fun i j => c * y i * y j) * B = sqm n fun i j => c * z i * z j := fun c => by
    rw [← hB, show (sqm n (blockDiag s M1 M2))ᵀ = sqm n (fun i j => blockDiag s M1 M2 j i) from rfl, sqm_mul, sqm_mul]
    refine sqm_congr fun i j i0 i1 j0 j1 => ?_
    rw [hz i i0 i1, hz j j0 j1, mul_assoc, Finset.sum_mul_sum, Finset.mul_sum, Finset.sum_congr rfl fun r _ => Finset.sum_mul _ _ _, Finset.sum_comm]
    refine Finset.sum_congr rfl fun a _ => ?_
    rw [Finset.mul_sum]
    exact Finset.sum_congr rfl fun b _ => by ring
  have dP : Bᵀ * sqm n P * B = sqm n (dpr1M d rho z) := by
    rw [eP, Matrix.mul_add, Matrix.add_mul, rank, Matrix.mul_assoc, b1, ← Matrix.mul_assoc, b2, Matrix.one_mul]
    ext i j
    rw [Matrix.add_apply, Matrix.diagonal_apply]
    show _ = (if (i : Int) = j then d i else 0) + rho * z i * z j
    simp only [Subtype.ext_iff]
    rfl
  have dQ : Bᵀ * sqm n Q * B = sqm n (idpr1M sigma z) := by
    rw [eQ, Matrix.mul_add, Matrix.add_mul, rank, Matrix.mul_assoc, b2, ← sqm_one]
    rfl
  have inv : (Sb * B) * Bᵀ = 1 := mul_eq_one_comm.1 b2
  refine decomposes_of_sq hW.asc ?_ ?_
  · rw [eM]
    have h : Bᵀ * (sqm n P * (B * sqm n W)) = Bᵀ * (sqm n Q * (B * sqm n W) * (Matrix.diagonal fun k : Finset.Ico (0 : Int) n => lam k)) := by
      rw [← dP, ← dQ] at w1
      simpa only [Matrix.mul_assoc] using w1
    have h' := congrArg (fun X => (Sb * B) * X) h
    rw [← Matrix.mul_assoc (Sb * B), ← Matrix.mul_assoc (Sb * B), inv, Matrix.one_mul, Matrix.one_mul] at h'
    exact h'
  · rw [eM, Matrix.transpose_mul]
    rw [← dQ] at w2
    simpa only [Matrix.mul_assoc] using w2

end

end FT.Props
