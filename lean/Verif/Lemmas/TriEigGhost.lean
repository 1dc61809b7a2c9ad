import Verif.Lemmas.TriEigRec
import Verif.Lemmas.Accum
import Verif.Props.RankOne
import Mathlib.Tactic.Linarith
import Mathlib.Tactic.Positivity

/-! # Lemmas for C68: the orthogonal matrix accumulated so far and the entries neglected so far -/

namespace FT
open FT.Props
variable {K : Type*} [Field K] [LinearOrder K] [IsStrictOrderedRing K]

/-- Two terms of a sum replaced. -/
theorem sum_two {n a : Int} {f g : Int → K} (a0 : 0 ≤ a) (a1 : a + 1 < n) (h : ∀ k, k ≠ a → k ≠ a + 1 → f k = g k) (h2 : f a + f (a + 1) = g a + g (a + 1)) :
    ∑ k ∈ Finset.Ico 0 n, f k = ∑ k ∈ Finset.Ico 0 n, g k := by
  have ha : a ∈ Finset.Ico 0 n := Finset.mem_Ico.2 ⟨a0, by omega⟩
  have hb : a + 1 ∈ (Finset.Ico 0 n).erase a := Finset.mem_erase.2 ⟨by omega, Finset.mem_Ico.2 ⟨by omega, a1⟩⟩
  rw [← Finset.add_sum_erase _ _ ha, ← Finset.add_sum_erase _ _ hb, ← Finset.add_sum_erase _ _ ha, ← Finset.add_sum_erase _ _ hb, ← add_assoc, ← add_assoc, h2]
  congr 1
  refine Finset.sum_congr rfl fun k hk => ?_
  rw [Finset.mem_erase, Finset.mem_erase] at hk
  exact h k hk.2.1 hk.1

/-- `U` is orthogonal, `V = V0 U`, and `E` is a symmetric perturbation of size at most `τ`. -/
structure Gh (n : Int) (V0 : Int → Int → K) (V : Buf K) (U E : Int → Int → K) (tau : K) : Prop where
  orth : ∀ j k, 0 ≤ j → j < n → 0 ≤ k → k < n → ∑ r ∈ Finset.Ico 0 n, U r j * U r k = if j = k then 1 else 0
  vu : ∀ k j, 0 ≤ k → k < n → 0 ≤ j → j < n → V.val (k + n * j) = ∑ r ∈ Finset.Ico 0 n, V0 k r * U r j
  sym : ∀ i j, E i j = E j i
  bd : ∀ x : Int → K, |∑ i ∈ Finset.Ico 0 n, x i * rowMul n E x i| ≤ tau * ∑ i ∈ Finset.Ico 0 n, x i * x i

/-- `(A + E) U`. -/
noncomputable def AEU (n : Int) (A E U : Int → Int → K) (i j : Int) : K := rowMul n (fun a b => A a b + E a b) (fun r => U r j) i

omit [LinearOrder K] [IsStrictOrderedRing K] in
theorem sum_rotC {n : Int} (g : Int → K) (U : Int → Int → K) [LinearOrder K] (c s : K) (a j : Int) :
    ∑ r ∈ Finset.Ico 0 n, g r * rotC c s a (U r) j = rotC c s a (fun j => ∑ r ∈ Finset.Ico 0 n, g r * U r j) j := by
  unfold rotC
  split
  · rw [Finset.mul_sum, Finset.mul_sum, ← Finset.sum_sub_distrib]
    exact Finset.sum_congr rfl fun r _ => by ring
  · split
    · rw [Finset.mul_sum, Finset.mul_sum, ← Finset.sum_add_distrib]
      exact Finset.sum_congr rfl fun r _ => by ring
    · rfl

omit [IsStrictOrderedRing K] in
theorem aeu_rot {n : Int} {A E U : Int → Int → K} {c s : K} {a : Int} (i : Int) : AEU n A E (fun r => rotC c s a (U r)) i = rotC c s a (AEU n A E U i) := by
  funext j
  exact sum_rotC (fun b => A i b + E i b) U c s a j

/-- A rotation of two columns. -/
theorem Gh.rot {n a : Int} (a0 : 0 ≤ a) (a1 : a + 1 < n) {V0 : Int → Int → K} {V V' : Buf K} {U E : Int → Int → K} {tau c s : K} (h : Gh n V0 V U E tau) (hcs : c * c + s * s = 1)
    (hV : ∀ k j, 0 ≤ k → k < n → 0 ≤ j → j < n → V'.val (k + n * j) = rotC c s a (fun j => V.val (k + n * j)) j) : Gh n V0 V' (fun r => rotC c s a (U r)) E tau := by
  refine ⟨fun j k j0 j1 k0 k1 => ?_, fun k j k0 k1 j0 j1 => ?_, h.sym, h.bd⟩
  · have h1 := h.orth a a a0 (by omega) a0 (by omega)
    have h2 := h.orth a (a + 1) a0 (by omega) (by omega) (by omega)
    have h3 := h.orth (a + 1) a (by omega) (by omega) a0 (by omega)
    have h4 := h.orth (a + 1) (a + 1) (by omega) (by omega) (by omega) (by omega)
    rw [if_pos rfl] at h1 h4
    rw [if_neg (by omega)] at h2 h3
    have e : ∀ j k, ∑ r ∈ Finset.Ico 0 n, rotC c s a (U r) j * rotC c s a (U r) k = rotC c s a (fun k => rotC c s a (fun j => ∑ r ∈ Finset.Ico 0 n, U r j * U r k) j) k := fun j k => by
      rw [sum_rotC (fun r => rotC c s a (U r) j) U]
      congr 1
      funext k
      rw [Finset.sum_congr rfl fun r _ => mul_comm _ _, sum_rotC (fun r => U r k) U]
      congr 1
      funext j
      exact Finset.sum_congr rfl fun r _ => mul_comm _ _
    rw [e]
    by_cases ka : k = a
    · subst ka
      rw [rotC_l]
      by_cases ja : j = k
      · subst ja
        rw [if_pos rfl, rotC_l, rotC_l, h1, h2, h3, h4]; linear_combination hcs
      · rw [if_neg ja]
        by_cases jb : j = k + 1
        · subst jb
          rw [rotC_r, rotC_r, h1, h2, h3, h4]; ring
        · rw [rotC_o ja jb, rotC_o ja jb, h.orth j k j0 j1 k0 k1, h.orth j (k + 1) j0 j1 (by omega) a1, if_neg ja, if_neg jb]; ring
    · by_cases kb : k = a + 1
      · subst kb
        rw [rotC_r]
        by_cases ja : j = a
        · subst ja
          rw [if_neg (by omega), rotC_l, rotC_l, h1, h2, h3, h4]; ring
        · by_cases jb : j = a + 1
          · subst jb
            rw [if_pos rfl, rotC_r, rotC_r, h1, h2, h3, h4]; linear_combination hcs
          · rw [if_neg jb, rotC_o ja jb, rotC_o ja jb, h.orth j a j0 j1 (by omega) (by omega), h.orth j (a + 1) j0 j1 (by omega) a1, if_neg ja, if_neg jb]; ring
      · rw [rotC_o ka kb]
        by_cases ja : j = a
        · subst ja
          rw [if_neg (by omega), rotC_l, h.orth _ k j0 j1 k0 k1, h.orth _ k (by omega) a1 k0 k1, if_neg (by omega), if_neg (by omega)]; ring
        · by_cases jb : j = a + 1
          · subst jb
            rw [if_neg (by omega), rotC_r, h.orth _ k a0 (by omega) k0 k1, h.orth _ k (by omega) a1 k0 k1, if_neg (by omega), if_neg (by omega)]; ring
          · rw [rotC_o ja jb, h.orth j k j0 j1 k0 k1]
  · rw [hV k j k0 k1 j0 j1, sum_rotC]
    unfold rotC
    dsimp only
    split
    · rw [h.vu k a k0 k1 a0 (by omega), h.vu k (a + 1) k0 k1 (by omega) a1]
    · split
      · rw [h.vu k a k0 k1 a0 (by omega), h.vu k (a + 1) k0 k1 (by omega) a1]
      · rw [h.vu k j k0 k1 j0 j1]

/-- What is left of the perturbation when the entry `v` at `(a, a + 1)` is neglected. -/
def dropE (E U : Int → Int → K) (a : Int) (v : K) (i k : Int) : K := E i k - v * (U i a * U k (a + 1) + U i (a + 1) * U k a)

/-- Two orthonormal vectors: Bessel's inequality. -/
theorem bessel_two {n : Int} {x u v : Int → K} (huu : ∑ i ∈ Finset.Ico 0 n, u i * u i = 1) (hvv : ∑ i ∈ Finset.Ico 0 n, v i * v i = 1) (huv : ∑ i ∈ Finset.Ico 0 n, u i * v i = 0) :
    (∑ i ∈ Finset.Ico 0 n, x i * u i) * (∑ i ∈ Finset.Ico 0 n, x i * u i) + (∑ i ∈ Finset.Ico 0 n, x i * v i) * (∑ i ∈ Finset.Ico 0 n, x i * v i) ≤ ∑ i ∈ Finset.Ico 0 n, x i * x i := by
  generalize hp : ∑ i ∈ Finset.Ico 0 n, x i * u i = p
  generalize hq : ∑ i ∈ Finset.Ico 0 n, x i * v i = q
  have h0 : 0 ≤ ∑ i ∈ Finset.Ico 0 n, (x i - p * u i - q * v i) * (x i - p * u i - q * v i) := Finset.sum_nonneg fun i _ => mul_self_nonneg _
  have e : ∑ i ∈ Finset.Ico 0 n, (x i - p * u i - q * v i) * (x i - p * u i - q * v i) = (∑ i ∈ Finset.Ico 0 n, x i * x i) - 2 * p * (∑ i ∈ Finset.Ico 0 n, x i * u i) -
      2 * q * (∑ i ∈ Finset.Ico 0 n, x i * v i) + p * p * (∑ i ∈ Finset.Ico 0 n, u i * u i) + q * q * (∑ i ∈ Finset.Ico 0 n, v i * v i) + 2 * p * q * ∑ i ∈ Finset.Ico 0 n, u i * v i := by
    simp only [Finset.mul_sum, ← Finset.sum_sub_distrib, ← Finset.sum_add_distrib]
    exact Finset.sum_congr rfl fun i _ => by ring
  rw [e, hp, hq, huu, hvv, huv] at h0
  linarith

/-- Neglecting the entry `v` at `(a, a + 1)`. -/
theorem Gh.drop {n a : Int} (a0 : 0 ≤ a) (a1 : a + 1 < n) {V0 : Int → Int → K} {V : Buf K} {U E : Int → Int → K} {tau : K} (h : Gh n V0 V U E tau) (v : K) :
    Gh n V0 V U (dropE E U a v) (tau + |v|) := by
  refine ⟨h.orth, h.vu, fun i j => by unfold dropE; rw [h.sym i j]; ring, fun x => ?_⟩
  have h1 := h.orth a a a0 (by omega) a0 (by omega)
  have h2 := h.orth a (a + 1) a0 (by omega) (by omega) (by omega)
  have h4 := h.orth (a + 1) (a + 1) (by omega) (by omega) (by omega) (by omega)
  rw [if_pos rfl] at h1 h4
  rw [if_neg (by omega)] at h2
  have hb := bessel_two (x := x) h1 h4 h2
  have e : ∑ i ∈ Finset.Ico 0 n, x i * rowMul n (dropE E U a v) x i = (∑ i ∈ Finset.Ico 0 n, x i * rowMul n E x i) -
      2 * v * ((∑ i ∈ Finset.Ico 0 n, x i * U i a) * ∑ i ∈ Finset.Ico 0 n, x i * U i (a + 1)) := by
    have e1 : ∀ i, rowMul n (dropE E U a v) x i = rowMul n E x i - v * (U i a * (∑ k ∈ Finset.Ico 0 n, x k * U k (a + 1)) + U i (a + 1) * ∑ k ∈ Finset.Ico 0 n, x k * U k a) := fun i => by
      unfold rowMul dropE
      simp only [Finset.mul_sum, ← Finset.sum_sub_distrib, ← Finset.sum_add_distrib]
      exact Finset.sum_congr rfl fun k _ => by ring
    simp only [e1]
    generalize hq : ∑ k ∈ Finset.Ico 0 n, x k * U k (a + 1) = q
    generalize hp : ∑ k ∈ Finset.Ico 0 n, x k * U k a = p
    have e2 : ∑ i ∈ Finset.Ico 0 n, x i * (rowMul n E x i - v * (U i a * q + U i (a + 1) * p)) = (∑ i ∈ Finset.Ico 0 n, x i * rowMul n E x i) -
        v * ((∑ k ∈ Finset.Ico 0 n, x k * U k a) * q + (∑ k ∈ Finset.Ico 0 n, x k * U k (a + 1)) * p) := by
      simp only [Finset.mul_sum, Finset.sum_mul, ← Finset.sum_sub_distrib, ← Finset.sum_add_distrib]
      exact Finset.sum_congr rfl fun k _ => by ring
    rw [e2, hp, hq]
    ring
  rw [e]
  generalize ∑ i ∈ Finset.Ico 0 n, x i * U i a = p at *
  generalize ∑ i ∈ Finset.Ico 0 n, x i * U i (a + 1) = q at *
  have h5 := h.bd x
  generalize ∑ i ∈ Finset.Ico 0 n, x i * rowMul n E x i = t at *
  generalize ∑ i ∈ Finset.Ico 0 n, x i * x i = X at *
  have h6 : |2 * v * (p * q)| ≤ |v| * X := by
    rw [show 2 * v * (p * q) = v * (2 * (p * q)) by ring, abs_mul]
    refine mul_le_mul_of_nonneg_left (le_trans ?_ hb) (abs_nonneg v)
    rw [abs_le]
    constructor
    · nlinarith [mul_self_nonneg (p + q)]
    · nlinarith [mul_self_nonneg (p - q)]
  calc |t - 2 * v * (p * q)| ≤ |t| + |2 * v * (p * q)| := abs_sub _ _
    _ ≤ tau * X + |v| * X := add_le_add h5 h6
    _ = (tau + |v|) * X := by ring

theorem aeu_drop {n a : Int} (a0 : 0 ≤ a) (a1 : a + 1 < n) {V0 : Int → Int → K} {V : Buf K} {A U E : Int → Int → K} {tau : K} (h : Gh n V0 V U E tau) (v : K) {i j : Int} (j0 : 0 ≤ j) (j1 : j < n) :
    AEU n A (dropE E U a v) U i j = AEU n A E U i j - if j = a then v * U i (a + 1) else if j = a + 1 then v * U i a else 0 := by
  have e : AEU n A (dropE E U a v) U i j = AEU n A E U i j - v * (U i a * (∑ k ∈ Finset.Ico 0 n, U k (a + 1) * U k j) + U i (a + 1) * ∑ k ∈ Finset.Ico 0 n, U k a * U k j) := by
    unfold AEU rowMul dropE
    simp only [Finset.mul_sum, ← Finset.sum_sub_distrib, ← Finset.sum_add_distrib]
    exact Finset.sum_congr rfl fun k _ => by ring
  rw [e, h.orth (a + 1) j (by omega) a1 j0 j1, h.orth a j a0 (by omega) j0 j1]
  by_cases ja : j = a
  · rw [if_pos ja, if_neg (by omega), if_pos ja.symm]; ring
  · rw [if_neg ja, if_neg (c := a = j) (by omega)]
    by_cases jb : j = a + 1
    · rw [if_pos jb, if_pos jb.symm]; ring
    · rw [if_neg jb, if_neg (by omega)]; ring

end FT
