import Verif.Props.TriCongSpec
import Mathlib.Algebra.Order.Field.Basic
import Mathlib.Data.Int.SuccPred
import Mathlib.Tactic.Ring
import Mathlib.Tactic.FieldSimp
import Mathlib.Tactic.LinearCombination

/-! # Lemmas for C69: the pivots of a positive definite tridiagonal matrix are positive -/

namespace FT
open FT.Props
variable {K : Type*} [Field K] [LinearOrder K]

/-- The pivots of elimination. -/
def pivN (a b : Int → K) : Nat → K
  | 0 => a 0
  | t + 1 => a (t + 1) - b t ^ 2 / pivN a b t

/-- The quadratic form on the first `t + 1` entries. -/
def quadN (a b x : Int → K) : Nat → K
  | 0 => a 0 * x 0 * x 0
  | t + 1 => quadN a b x t + 2 * b t * x t * x (t + 1) + a (t + 1) * x (t + 1) * x (t + 1)

omit [LinearOrder K] in
theorem quadN_piv {a b x : Int → K} : ∀ t : Nat, (∀ s, s < t → pivN a b s ≠ 0) → (∀ s : Nat, s < t → x s = -(b s / pivN a b s) * x (s + 1)) → quadN a b x t = pivN a b t * x t * x t
  | 0, _, _ => by simp [quadN, pivN]
  | t + 1, h, hx => by
    have ih := quadN_piv t (fun s hs => h s (by omega)) (fun s hs => hx s (by omega))
    have h0 := h t (by omega)
    have h1 := hx t (by omega)
    rw [quadN, ih, pivN]
    push_cast
    rw [h1]
    field_simp
    ring

omit [LinearOrder K] in
theorem quadN_sum {a b x : Int → K} {n : Int} {t : Nat} (hn : (t : Int) < n) (hx : ∀ j, (t : Int) < j → x j = 0) : ∑ i ∈ Finset.Ico 0 n, x i * rowMul n (triMat a b) x i = quadN a b x t := by
  have row : ∀ i, 0 ≤ i → i < n → rowMul n (triMat a b) x i = (if 0 < i then b (i - 1) * x (i - 1) else 0) + a i * x i + (if i + 1 < n then b i * x (i + 1) else 0) := fun i i0 i1 => by
    unfold rowMul
    rw [sum_three i0 i1 _ (fun k k0 k1 hk => by rw [triMat_far (by omega), zero_mul]), triMat_diag, triMat_sup rfl, triMat_sub (show i = i - 1 + 1 by omega)]
  have hrow : ∑ i ∈ Finset.Ico 0 n, x i * rowMul n (triMat a b) x i = ∑ i ∈ Finset.Ico 0 n, x i * ((if 0 < i then b (i - 1) * x (i - 1) else 0) + a i * x i + (if i + 1 < n then b i * x (i + 1) else 0)) :=
    Finset.sum_congr rfl fun i hi => by
      have := Finset.mem_Ico.1 hi
      rw [row i this.1 this.2]
  rw [hrow]
  have key : ∀ s : Nat, s ≤ t → ∑ i ∈ Finset.Ico 0 ((s : Int) + 1), x i * ((if 0 < i then b (i - 1) * x (i - 1) else 0) + a i * x i + (if i + 1 < n then b i * x (i + 1) else 0)) =
      quadN a b x s + if (s : Int) + 1 < n then x s * (b s * x (s + 1)) else 0 := by
    intro s
    induction s with
    | zero =>
      intro _
      rw [show Finset.Ico (0 : Int) ((0 : Nat) + 1) = {0} from rfl, Finset.sum_singleton]
      rw [if_neg (lt_irrefl _), quadN]
      push_cast
      split <;> ring
    | succ s ih =>
      intro hs
      have := ih (by omega)
      push_cast
      rw [← Finset.insert_Ico_right_eq_Ico_add_one (show (0 : Int) ≤ (s : Int) + 1 by omega), Finset.sum_insert Finset.right_notMem_Ico, this, if_pos (c := (0 : Int) < (s : Int) + 1) (by omega), if_pos (c := (s : Int) + 1 < n) (by omega), quadN, add_sub_cancel_right]
      push_cast
      split <;> ring
  rw [← Finset.sum_subset (s₁ := Finset.Ico 0 ((t : Int) + 1)) (Finset.Ico_subset_Ico_right (by omega)) (fun i hi hni => by
    rw [Finset.mem_Ico] at hi hni
    rw [hx i (by omega), zero_mul]), key t (le_refl _), hx (t + 1) (by omega)]
  simp

/-- A vector that picks out the pivot `t`. -/
def pivVec (a b : Int → K) (t : Nat) : Nat → K
  | 0 => 1
  | s + 1 => -(b ((t - (s + 1) : Nat) : Int) / pivN a b (t - (s + 1))) * pivVec a b t s

variable [IsStrictOrderedRing K]

theorem pivN_pos {a b : Int → K} {n : Int} (h : PosForm n (triMat a b)) : ∀ t : Nat, (t : Int) < n → 0 < pivN a b t := by
  intro t
  induction t using Nat.strong_induction_on with
  | _ t ih =>
    intro ht
    let x : Int → K := fun j => if 0 ≤ j ∧ j ≤ t then pivVec a b t (t - j.toNat) else 0
    have xt : x t = 1 := by
      show (if 0 ≤ (t : Int) ∧ (t : Int) ≤ t then pivVec a b t (t - (t : Int).toNat) else 0) = 1
      rw [if_pos (by omega), show t - (t : Int).toNat = 0 by omega]
      rfl
    have hq := quadN_piv (a := a) (b := b) (x := x) t (fun s hs => ne_of_gt (ih s hs (by omega))) (fun s hs => by
      show (if 0 ≤ (s : Int) ∧ (s : Int) ≤ t then pivVec a b t (t - (s : Int).toNat) else 0) = _ * (if 0 ≤ (s : Int) + 1 ∧ (s : Int) + 1 ≤ t then pivVec a b t (t - ((s : Int) + 1).toNat) else 0)
      rw [if_pos (by omega), if_pos (by omega), show t - (s : Int).toNat = (t - ((s : Int) + 1).toNat) + 1 by omega, pivVec, show t - (t - ((s : Int) + 1).toNat + 1) = s by omega])
    have hs := quadN_sum (a := a) (b := b) (x := x) (n := n) (t := t) ht (fun j hj => by
      show (if 0 ≤ j ∧ j ≤ t then _ else (0 : K)) = 0
      rw [if_neg (by omega)])
    have := h x ⟨t, by omega, ht, by rw [xt]; exact one_ne_zero⟩
    rw [hs, hq, xt, mul_one, mul_one] at this
    exact this

/-- The pivots as a sequence. -/
theorem pivots_of_pos {a b : Int → K} {n : Int} (h : PosForm n (triMat a b)) :
    ∃ p : Int → K, p 0 = a 0 ∧ (∀ i, 0 ≤ i → i < n - 1 → p (i + 1) = a (i + 1) - b i ^ 2 / p i) ∧ ∀ i, 0 ≤ i → i < n → 0 < p i := by
  refine ⟨fun i => pivN a b i.toNat, rfl, fun i i0 _ => ?_, fun i i0 i1 => pivN_pos h _ (by omega)⟩
  dsimp only
  rw [show (i + 1).toNat = i.toNat + 1 by omega, pivN, Int.toNat_of_nonneg i0]

end FT
