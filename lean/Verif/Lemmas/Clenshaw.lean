import Mathlib.Algebra.Algebra.Basic
import Mathlib.Algebra.BigOperators.Group.Finset.Basic
import Mathlib.Tactic.Abel
import Mathlib.Tactic.NoncommRing
import Mathlib.Algebra.BigOperators.Ring.Finset
import Mathlib.Algebra.Group.Commute.Basic
import Mathlib.Algebra.BigOperators.GroupWithZero.Action

/-! # Clenshaw's recurrence in an algebra -/

namespace FT
variable {K R : Type*} [CommRing K] [Ring R] [Algebra K R]

/-- Three-term recurrence: `p₀ = 1`, `p₁ = A₀ X + B₀`, `p_{k+2} = (A_{k+1} X + B_{k+1}) p_{k+1} - C_{k+1} p_k`. -/
def opSeq (A B C : Nat → K) (X : R) : Nat → R
  | 0 => 1
  | 1 => A 0 • X + B 0 • 1
  | k + 2 => (A (k + 1) • X + B (k + 1) • 1) * opSeq A B C X (k + 1) - C (k + 1) • opSeq A B C X k

/-- `p_{k-1}` with `p_{-1} = 0`. -/
def opPrev (A B C : Nat → K) (X : R) : Nat → R
  | 0 => 0
  | k + 1 => opSeq A B C X k

theorem opSeq_succ (A B C : Nat → K) (X : R) (k : Nat) :
    opSeq A B C X (k + 1) = (A k • X + B k • 1) * opSeq A B C X k - C k • opPrev A B C X k := by
  cases k with
  | zero => simp [opSeq, opPrev]
  | succ k => rfl

theorem opSeq_commute (A B C : Nat → K) (X : R) : ∀ k, Commute (opSeq A B C X k) X ∧ Commute (opPrev A B C X k) X
  | 0 => ⟨Commute.one_left X, Commute.zero_left X⟩
  | k + 1 => by
    have h := opSeq_commute A B C X k
    refine ⟨?_, h.1⟩
    rw [opSeq_succ]
    refine Commute.sub_left (Commute.mul_left (Commute.add_left ?_ ?_) h.1) (Commute.smul_left h.2 _)
    · exact Commute.smul_left (Commute.refl X) _
    · exact Commute.smul_left (Commute.one_left X) _

/-- The pair `(b_{n-t}, b_{n-t+1})` after `t` steps of Clenshaw's recurrence. -/
def clen (A B C c : Nat → K) (X : R) (n : Nat) : Nat → R × R
  | 0 => (0, 0)
  | t + 1 =>
    let b := clen A B C c X n t
    ((A (n - 1 - t) • X + B (n - 1 - t) • 1) * b.1 - C (n - t) • b.2 + c (n - 1 - t) • 1, b.1)

theorem clen_inv (A B C c : Nat → K) (X : R) (n : Nat) : ∀ t, t ≤ n →
    ∑ k ∈ Finset.range n, c k • opSeq A B C X k =
      ∑ k ∈ Finset.range (n - t), c k • opSeq A B C X k + opSeq A B C X (n - t) * (clen A B C c X n t).1 - C (n - t) • (opPrev A B C X (n - t) * (clen A B C c X n t).2)
  | 0, _ => by simp [clen]
  | t + 1, h => by
    rw [clen_inv A B C c X n t (by omega)]
    obtain ⟨m, hm⟩ : ∃ m, n - t = m + 1 := ⟨n - t - 1, by omega⟩
    have hm1 : n - (t + 1) = m := by omega
    have hm2 : n - 1 - t = m := by omega
    simp only [clen, hm, hm1, hm2, Finset.sum_range_succ, opSeq_succ]
    have cm : opSeq A B C X m * X = X * opSeq A B C X m := (opSeq_commute A B C X m).1
    simp only [opPrev, mul_add, add_mul, mul_sub, sub_mul, smul_mul_assoc, mul_smul_comm, one_mul, mul_one, smul_sub, smul_add, ← mul_assoc, cm]
    abel

/-- Clenshaw's recurrence evaluates the series. -/
theorem clen_eq (A B C c : Nat → K) (X : R) (n : Nat) : (clen A B C c X n n).1 = ∑ k ∈ Finset.range n, c k • opSeq A B C X k := by
  rw [clen_inv A B C c X n n (le_refl n)]
  simp [opSeq, opPrev]

end FT
