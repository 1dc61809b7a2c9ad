import Verif.Lemmas.JacOps

/-! # Derivatives of any order -/

set_option linter.unusedSectionVars false

namespace FT.Poly
open Polynomial
variable {K : Type*} [Field K]

theorem malloc_stores (junk : Int → K) (m n l u : Int) : Props.Stores (mallocBanded junk m n l u) m n l u (mallocBanded junk m n l u).ent :=
  .mk' ⟨rfl, rfl, rfl, rfl⟩ (by unfold Banded.WF mallocBanded; simp only; omega) fun _ _ => rfl

theorem malloc_storesT (junk : Int → K) (n b : Int) : Props.StoresT (mallocTB junk n b) n b (mallocTB junk n b).ent :=
  .mk' ⟨rfl, rfl⟩ (by unfold TB.WF mallocTB; simp only; omega) fun _ _ => rfl

theorem prodLoop_eq (order : Int) (g : Int → K) : prodLoop order g = some (∏ i ∈ Finset.Ico 0 order, g i) := by
  unfold prodLoop
  obtain ⟨v, e, h⟩ := forUp_spec (lo := 0) (hi := order) (body := fun k v => some (v * g k)) (s := (1 : K)) (fun k v => v = ∏ i ∈ Finset.Ico 0 k, g i) (by simp)
    (fun k k0 k1 v hv => ⟨_, rfl, by rw [hv, show Finset.Ico 0 (k + 1) = insert k (Finset.Ico 0 k) by ext; simp; omega, Finset.prod_insert (by simp), mul_comm]⟩)
  rw [e, h]
  rcases le_total 0 order with h | h
  · rw [max_eq_right h]
  · rw [max_eq_left h, Finset.Ico_self, Finset.Ico_eq_empty (by omega)]

/-- One superdiagonal. -/
def superM (order : Int) (c : Int → K) (i j : Int) : K := if i = j - order then c j else 0

theorem super_stores (junk : Int → K) (m n : Int) {order : Int} (ho : 0 ≤ order) (c : Int → K) :
    ∃ A, forUp order n (fun j A => A.set (c j) (j - order) j) (mallocBanded junk m n (-order) order) = some A ∧ Props.Stores A m n (-order) order (cut m n (superM order c)) := by
  have h0 := malloc_stores junk m n (-order) order
  obtain ⟨A, e, h⟩ := fill (lo := order) (hi := n) (body := fun j A => A.set (c j) (j - order) j) (v := superM order c) h0
    (fun j A a' j0 j1 hA _ => sets1 hA (fun p hp => by unfold Props.band at hp; unfold superM; rw [if_pos (by omega), if_pos (by omega)]))
  refine ⟨A, e, h.to fun i j => ?_⟩
  unfold cut
  by_cases hb : Props.band m n (-order) order i j
  · have hb' := hb
    unfold Props.band at hb
    rw [if_pos ⟨⟨by omega, by omega⟩, hb'⟩, if_pos (by omega)]
  · rw [if_neg (by tauto), ← h0.ent i j]
    rw [Props.C14_zero_outside h0 hb]
    split_ifs with hc
    · unfold superM
      rw [if_neg]
      unfold Props.band at hb
      omega
    · rfl

theorem super_band {order : Int} {c : Int → K} (i j : Int) (h : ¬ (j - order ≤ i ∧ i ≤ j + -order)) : superM order c i j = 0 := if_neg (by omega)

theorem super_matrix {T : K[X] → K[X]} {p q : Int → K[X]} {order : Int} (ho : 0 ≤ order) {c : Int → K} (h0 : ∀ j, 0 ≤ j → j < order → T (p j) = 0)
    (h1 : ∀ j, order ≤ j → T (p j) = C (c j) * q (j - order)) : IsMatrix T p q (superM order c) := by
  intro j hj
  refine ⟨fun i hi => if_neg (by omega), ?_⟩
  unfold superM
  rcases lt_or_ge j order with h | h
  · rw [h0 j hj h, Finset.sum_eq_zero fun i hi => by rw [Finset.mem_Ico] at hi; rw [if_neg (by omega), map_zero, zero_mul]]
  · rw [h1 j h, Finset.sum_eq_single (j - order) (fun i _ hi => by rw [if_neg hi, map_zero, zero_mul]) (fun hi => by rw [Finset.mem_Ico] at hi; omega), if_pos rfl]

/-- Derivatives of any order of a sequence of families, each the derivative of the one before. -/
theorem iterate_der {p : ℕ → Int → K[X]} {δ : ℕ → Int → K} (h : ∀ k j, 1 ≤ j → derivative (p k j) = C (δ k j) * p (k + 1) (j - 1)) (h0 : ∀ k, derivative (p k 0) = 0) (hn : ∀ k j, j < 0 → p k j = 0)
    (k : ℕ) {j : Int} (hj : 0 ≤ j) : derivative^[k] (p 0 j) = C (∏ i ∈ Finset.range k, δ i (j - i)) * p k (j - k) := by
  induction k with
  | zero => simp
  | succ k ih =>
    rw [Function.iterate_succ_apply', ih, derivative_C_mul, Finset.prod_range_succ]
    push_cast
    rcases lt_trichotomy (j - k : Int) 0 with hk | hk | hk
    · rw [hn _ _ hk, hn _ (j - (k + 1)) (by omega), derivative_zero, mul_zero, mul_zero]
    · rw [hk, h0, hn _ (j - (k + 1)) (by omega), mul_zero, mul_zero]
    · rw [h k _ (by omega), show j - (k + 1 : Int) = j - k - 1 by ring, C_mul, mul_assoc]

theorem prod_Ico_range (g : Int → K) (k : ℕ) : ∏ i ∈ Finset.Ico 0 (k : Int), g i = ∏ i ∈ Finset.range k, g i := by
  induction k with
  | zero => simp
  | succ k ih => rw [Finset.prod_range_succ, ← ih, Nat.cast_succ, show Finset.Ico 0 ((k : Int) + 1) = insert (k : Int) (Finset.Ico 0 (k : Int)) by ext; simp; omega, Finset.prod_insert (by simp), mul_comm]

variable [LinearOrder K] [IsStrictOrderedRing K] {F : Libm K} {norm : Bool} {α β : K}

theorem prod_sqrt {sqrt : K → K} (hs : IsSqrt sqrt) (x : ℕ → K) (k : ℕ) (h : ∀ i, i < k → 0 ≤ x i) : ∏ i ∈ Finset.range k, sqrt (x i) = sqrt (∏ i ∈ Finset.range k, x i) := by
  induction k with
  | zero => simp [sqrt_one hs]
  | succ k ih =>
    rw [Finset.prod_range_succ, Finset.prod_range_succ, sqrt_mul hs (Finset.prod_nonneg fun i hi => h i (by rw [Finset.mem_range] at hi; omega)) (h k (by omega)), ih fun i hi => h i (by omega)]

section
variable (hF : IsLibm F) (hα : -1 < α) (hβ : -1 < β)
include hF hα hβ

/-- The derivative of a Jacobi polynomial. -/
theorem Jac_derivative {j : Int} (hj : 1 ≤ j) :
    derivative (Jac F norm α β j) = C (if norm then F.sqrt (j * (j + α + β + 1)) else (j + α + β + 1) / 2) * Jac F norm (α + 1) (β + 1) (j - 1) := by
  have := jacS_1 (norm := norm) hF hα hβ (show 0 ≤ j - 1 by omega)
  rw [sub_add_cancel] at this
  unfold Jac scaled
  rw [derivative_C_mul, jacobi_derivative hα hβ (by omega), this, ← der1 hF hα hβ hj, C_mul, C_mul]
  ring

end
end FT.Poly
