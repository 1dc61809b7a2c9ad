import Verif.Lemmas.Compose
import Mathlib.Algebra.Polynomial.Degree.Lemmas

/-!
# Eigenvectors of a pencil are connection coefficients
-/

namespace FT.Poly
open Polynomial
variable {K : Type*} [Field K]

/-- The polynomial `q_i` has degree `i` and leading coefficient `s_i ≠ 0`. -/
def Graded (q : Int → K[X]) (s : Int → K) : Prop := ∀ i, 0 ≤ i → s i ≠ 0 ∧ (q i).coeff i.toNat = s i ∧ ∀ k : ℕ, i < k → (q i).coeff k = 0

theorem sum_coeff (q : Int → K[X]) (c : Int → K) (m : Int) (k : ℕ) : (∑ i ∈ Finset.Ico 0 m, C (c i) * q i).coeff k = ∑ i ∈ Finset.Ico 0 m, c i * (q i).coeff k := by
  rw [finset_sum_coeff]
  exact Finset.sum_congr rfl fun i _ => by rw [coeff_C_mul]

/-- The leading coefficient of a combination. -/
theorem Graded.top {q : Int → K[X]} {s : Int → K} (h : Graded q s) (c : Int → K) {m : Int} (hm : 0 ≤ m) :
    (∑ i ∈ Finset.Ico 0 (m + 1), C (c i) * q i).coeff m.toNat = c m * s m := by
  rw [sum_coeff, sum_Ico_succ hm, (h m hm).2.1, sum_Ico_congr (g := fun _ => (0 : K)) fun i i0 i1 => by rw [(h i i0).2.2 _ (by omega), mul_zero], Finset.sum_const_zero, zero_add]

/-- Independence. -/
theorem Graded.indep {q : Int → K[X]} {s : Int → K} (h : Graded q s) {c : Int → K} {m : Int} (e : ∑ i ∈ Finset.Ico 0 m, C (c i) * q i = 0) : ∀ i, 0 ≤ i → i < m → c i = 0 := by
  rcases le_total m 0 with hm | hm
  · intro i i0 i1; omega
  obtain ⟨k, rfl⟩ := Int.eq_ofNat_of_zero_le hm
  clear hm
  induction k with
  | zero => intro i i0 i1; omega
  | succ k ih =>
    push_cast at e ⊢
    have t := h.top c (m := k) (by omega)
    rw [e, coeff_zero] at t
    have ck : c k = 0 := (mul_eq_zero.1 t.symm).resolve_right (h k (by omega)).1
    rw [sum_Ico_succ (by omega), ck, map_zero, zero_mul, add_zero] at e
    intro i i0 i1
    rcases eq_or_lt_of_le (show i ≤ k by omega) with rfl | hi
    · exact ck
    · exact ih e i i0 hi

/-- Every polynomial of degree less than `m` is a combination. -/
theorem Graded.span {q : Int → K[X]} {s : Int → K} (h : Graded q s) (k : ℕ) : ∀ p : K[X], (∀ i, k ≤ i → p.coeff i = 0) → ∃ c : Int → K, p = ∑ i ∈ Finset.Ico 0 (k : Int), C (c i) * q i := by
  induction k with
  | zero => intro p hp; exact ⟨fun _ => 0, by rw [show Finset.Ico (0 : Int) ((0 : ℕ) : Int) = ∅ by simp, Finset.sum_empty]; exact ext fun i => by rw [hp i (by omega), coeff_zero]⟩
  | succ k ih =>
    intro p hp
    obtain ⟨sk, tk, zk⟩ := h k (by omega)
    rw [show (k : Int).toNat = k by omega] at tk
    obtain ⟨c, hc⟩ := ih (p - C (p.coeff k / s k) * q k) fun i hi => by
      rw [coeff_sub, coeff_C_mul]
      rcases eq_or_lt_of_le hi with rfl | hi
      · rw [tk, div_mul_cancel₀ _ sk, sub_self]
      · rw [hp i (by omega), zk i (by omega), mul_zero, sub_zero]
    refine ⟨fun i => if i = k then p.coeff k / s k else c i, ?_⟩
    push_cast
    rw [sum_Ico_succ (by omega), if_pos rfl, sum_Ico_congr (g := fun i => C (c i) * q i) fun i i0 i1 => by rw [if_neg (by omega)], ← hc]
    ring

variable {L : K[X] → K[X]} {p q u : Int → K[X]} {sp sq su : Int → K} {MA MB : Int → Int → K} {lam : Int → K}

/-- `T (Σ c_k q_k) = Σ (M c)_i u_i`. -/
theorem IsMatrix.comb {T : K[X] → K[X]} {M : Int → Int → K} (h : IsMatrix T q u M) (hT : IsLinearMap K T) (hz : ∀ i j, j < i → M i j = 0) (c : Int → K) (m : Int) :
    T (∑ k ∈ Finset.Ico 0 m, C (c k) * q k) = ∑ i ∈ Finset.Ico 0 m, C (∑ k ∈ Finset.Ico 0 m, M i k * c k) * u i := by
  have e : T (∑ k ∈ Finset.Ico 0 m, C (c k) * q k) = hT.mk' T (∑ k ∈ Finset.Ico 0 m, c k • q k) := by
    rw [IsLinearMap.mk'_apply]
    simp only [smul_eq_C_mul]
  rw [e, map_sum]
  simp only [IsLinearMap.mk'_apply, smul_eq_C_mul, map_sum, Finset.sum_mul]
  rw [Finset.sum_comm]
  refine sum_Ico_congr fun j j0 j1 => ?_
  have hs : T (C (c j) * q j) = C (c j) * T (q j) := by have := hT.map_smul (c j) (q j); rwa [smul_eq_C_mul, smul_eq_C_mul] at this
  rw [hs, (h j j0).2, Finset.mul_sum]
  have z : ∀ i, j < i → C (c j) * (C (M i j) * u i) = 0 := fun i hi => by rw [hz i j hi, map_zero, zero_mul, mul_zero]
  rw [sum_Ico_congr (f := fun i => C (M i j * c j) * u i) (g := fun i => C (c j) * (C (M i j) * u i)) fun i i0 i1 => by rw [C_mul]; ring]
  rw [sum_Ico_shrink (lo' := 0) (hi' := j + 1) (fun k k0 k1 hk => z k (by omega)) le_rfl (by omega), sum_Ico_shrink (lo := 0) (hi := m) (lo' := 0) (hi' := j + 1) (fun k k0 k1 hk => z k (by omega)) le_rfl (by omega)]

section pencil
variable (hA : IsMatrix L q u MA) (hB : IsMatrix id q u MB) (zA : ∀ i j, j < i → MA i j = 0) (zB : ∀ i j, j < i → MB i j = 0) (hL : IsLinearMap K L) (gp : Graded p sp) (gq : Graded q sq)
  (gu : Graded u su) (hp : ∀ j, 0 ≤ j → L (p j) = C (lam j) * p j)
include hA hB zA zB hL gp gq gu hp

omit hA zA hL gp hp in
theorem pencil_ne {j : Int} (hj : 0 ≤ j) : MB j j ≠ 0 := by
  intro h
  have e := (hB j hj).2
  have t := gu.top (fun i => MB i j) hj
  have z : ∑ i ∈ Finset.Ico 0 (j + 3), C (MB i j) * u i = ∑ i ∈ Finset.Ico 0 (j + 1), C (MB i j) * u i :=
    sum_Ico_shrink (fun k k0 k1 hk => by rw [zB k j (by omega), map_zero, zero_mul]) le_rfl (by omega)
  rw [← z, ← e, h, zero_mul] at t
  exact (gq j hj).1 ((gq j hj).2.1.symm.trans t)

omit hB zB zA hL gp gu hp hA in
theorem expand {j : Int} (gp : Graded p sp) (hj : 0 ≤ j) : ∃ c : Int → K, p j = ∑ i ∈ Finset.Ico 0 (j + 1), C (c i) * q i ∧ c j = sp j / sq j := by
  obtain ⟨c, hc⟩ := gq.span (j + 1).toNat (p j) fun i hi => (gp j hj).2.2 i (by omega)
  rw [show ((j + 1).toNat : Int) = j + 1 by omega] at hc
  refine ⟨c, hc, ?_⟩
  have t := gq.top c hj
  rw [← hc, (gp j hj).2.1] at t
  rw [t, mul_div_cancel_right₀ _ (gq j hj).1]

/-- The coefficients of an eigenfunction satisfy the equation of the pencil. -/
theorem pencil_eq {j : Int} (hj : 0 ≤ j) {c : Int → K} (hc : p j = ∑ i ∈ Finset.Ico 0 (j + 1), C (c i) * q i) {i : Int} (i0 : 0 ≤ i) (i1 : i < j + 1) :
    ∑ k ∈ Finset.Ico 0 (j + 1), MA i k * c k = lam j * ∑ k ∈ Finset.Ico 0 (j + 1), MB i k * c k := by
  have e1 := hA.comb hL zA c (j + 1)
  have e2 := hB.comb (IsLinearMap.mk (fun _ _ => rfl) fun _ _ => rfl) zB c (j + 1)
  rw [← hc] at e1 e2
  rw [hp j hj] at e1
  have e3 : ∑ i ∈ Finset.Ico 0 (j + 1), C (∑ k ∈ Finset.Ico 0 (j + 1), MA i k * c k - lam j * ∑ k ∈ Finset.Ico 0 (j + 1), MB i k * c k) * u i = 0 := by
    simp only [map_sub, sub_mul, Finset.sum_sub_distrib]
    rw [← e1, sub_eq_zero]
    conv_lhs => rw [show p j = id (p j) from rfl, e2, Finset.mul_sum]
    exact sum_Ico_congr fun i i0 i1 => by rw [C_mul]; ring
  exact sub_eq_zero.1 (gu.indep e3 i i0 i1)

/-- The diagonals: `a_jj = λ_j b_jj`. -/
theorem pencil_diag {j : Int} (hj : 0 ≤ j) : MA j j = lam j * MB j j := by
  obtain ⟨c, hc, hl⟩ := expand gq gp hj
  have h := pencil_eq hA hB zA zB hL gp gq gu hp hj hc hj (by omega)
  rw [sum_Ico_succ hj, sum_Ico_succ hj, sum_Ico_congr (g := fun _ => (0 : K)) fun k k0 k1 => by rw [zA j k k1, zero_mul],
    sum_Ico_congr (f := fun k => MB j k * c k) (g := fun _ => (0 : K)) fun k k0 k1 => by rw [zB j k k1, zero_mul], Finset.sum_const_zero, zero_add, zero_add] at h
  have hc0 : c j ≠ 0 := by rw [hl]; exact div_ne_zero (gp j hj).1 (gq j hj).1
  exact mul_right_cancel₀ hc0 (by rw [h]; ring)

/-- Upper triangular eigenvectors with the right diagonal hold the connection coefficients. -/
theorem connection {n : Int} (hdist : ∀ i j, 0 ≤ i → i < j → lam i ≠ lam j) {v : Int → Int → K} (hlow : ∀ i j, 0 ≤ j → j < i → i < n → v i j = 0)
    (hd : ∀ j, 0 ≤ j → j < n → v j j = sp j / sq j) {j : Int} (j0 : 0 ≤ j) (j1 : j < n)
    (he : ∀ i, 0 ≤ i → i < n → ∑ k ∈ Finset.Ico 0 n, MA i k * v k j = lam j * ∑ k ∈ Finset.Ico 0 n, MB i k * v k j) : p j = ∑ i ∈ Finset.Ico 0 n, C (v i j) * q i := by
  obtain ⟨c, hc, hl⟩ := expand gq gp j0
  have sh : ∀ M : Int → Int → K, ∀ i, ∑ k ∈ Finset.Ico 0 n, M i k * v k j = ∑ k ∈ Finset.Ico 0 (j + 1), M i k * v k j := fun M i =>
    sum_Ico_shrink (fun k k0 k1 hk => by rw [hlow k j j0 (by omega) k1, mul_zero]) le_rfl (by omega)
  have key : ∀ d : ℕ, ∀ i, 0 ≤ i → j - d ≤ i → i ≤ j → v i j = c i := by
    intro d
    induction d with
    | zero => intro i i0 h1 h2; obtain rfl : i = j := by omega
              rw [hd i i0 j1, hl]
    | succ d ih =>
      intro i i0 h1 h2
      by_cases hi : j - d ≤ i
      · exact ih i i0 hi h2
      have hij : i < j := by omega
      have e1 := pencil_eq hA hB zA zB hL gp gq gu hp j0 hc i0 (by omega)
      have e2 := he i i0 (by omega)
      rw [sh, sh] at e2
      have split : ∀ (M : Int → Int → K) (w : Int → K), (∀ i j, j < i → M i j = 0) → ∑ k ∈ Finset.Ico 0 (j + 1), M i k * w k = M i i * w i + ∑ k ∈ Finset.Ico (i + 1) (j + 1), M i k * w k := fun M w hz => by
        rw [sum_Ico_shrink (lo := 0) (hi := j + 1) (lo' := i) (hi' := j + 1) (fun k k0 k1 hk => by rw [hz i k (by omega), zero_mul]) i0 le_rfl, sum_Ico_pred (by omega)]
      have up : ∀ M : Int → Int → K, ∑ k ∈ Finset.Ico (i + 1) (j + 1), M i k * v k j = ∑ k ∈ Finset.Ico (i + 1) (j + 1), M i k * c k := fun M =>
        sum_Ico_congr fun k k0 k1 => by rw [ih k (by omega) (by omega) (by omega)]
      rw [split MA (fun k => v k j) zA, split MB (fun k => v k j) zB, up, up] at e2
      rw [split MA c zA, split MB c zB] at e1
      have dg := pencil_diag hA hB zA zB hL gp gq gu hp i0
      rw [dg] at e1 e2
      have : (lam i - lam j) * MB i i * (v i j - c i) = 0 := by linear_combination e2 - e1
      rcases mul_eq_zero.1 this with h | h
      · rcases mul_eq_zero.1 h with h | h
        · exact absurd (sub_eq_zero.1 h) (hdist i j i0 hij)
        · exact absurd h (pencil_ne hB zB gq gu i0)
      · exact sub_eq_zero.1 h
  have : ∑ i ∈ Finset.Ico 0 n, C (v i j) * q i = ∑ i ∈ Finset.Ico 0 (j + 1), C (v i j) * q i :=
    sum_Ico_shrink (fun k k0 k1 hk => by rw [hlow k j j0 (by omega) k1, map_zero, zero_mul]) le_rfl (by omega)
  rw [this, hc]
  exact sum_Ico_congr fun i i0 i1 => by rw [key (j - i).toNat i i0 (by omega) (by omega)]

end pencil

/-- The families of the specification are graded. -/
theorem monic_graded (a b : Int → K) : Graded (monic a b) fun _ => 1 := by
  intro i hi
  refine ⟨one_ne_zero, ?_⟩
  refine two_step (P := fun i => (monic a b i).coeff i.toNat = 1 ∧ ∀ k : ℕ, i < k → (monic a b i).coeff k = 0) ?_ (fun n n0 ih ih' => ?_) hi
  · rw [monic_zero]
    exact ⟨by simp, fun k hk => by rw [coeff_one, if_neg (by omega)]⟩
  · have prev : ∀ k : ℕ, n ≤ k → (monic a b (n - 1)).coeff k = 0 := fun k hk => by
      rcases eq_or_lt_of_le n0 with h | h
      · rw [monic_neg (by omega), coeff_zero]
      · exact (ih' h).2 k (by omega)
    rw [monic_succ n0]
    constructor
    · rw [show (n + 1).toNat = n.toNat + 1 by omega, coeff_sub, sub_mul, coeff_sub, coeff_X_mul, coeff_C_mul, coeff_C_mul, ih.1, ih.2 _ (by omega), prev _ (by omega)]
      ring
    · intro k hk
      obtain ⟨m, rfl⟩ : ∃ m, k = m + 1 := ⟨k - 1, by omega⟩
      rw [coeff_sub, sub_mul, coeff_sub, coeff_X_mul, coeff_C_mul, coeff_C_mul, ih.2 m (by push_cast at hk; omega), ih.2 _ (by omega), prev _ (by omega)]
      ring

theorem scaled_graded {s : Int → K} (hs : ∀ i, 0 ≤ i → s i ≠ 0) (a b : Int → K) : Graded (scaled s (monic a b)) s := fun i hi =>
  ⟨hs i hi, by unfold scaled; rw [coeff_C_mul, (monic_graded a b i hi).2.1, mul_one], fun k hk => by unfold scaled; rw [coeff_C_mul, (monic_graded a b i hi).2.2 k hk, mul_zero]⟩

theorem scaled_eigen {s : Int → K} {p : Int → K[X]} (hL : IsLinearMap K L) (hp : ∀ j, 0 ≤ j → L (p j) = C (lam j) * p j) (j : Int) (hj : 0 ≤ j) : L (scaled s p j) = C (lam j) * scaled s p j := by
  unfold scaled
  have := hL.map_smul (s j) (p j)
  rw [smul_eq_C_mul, smul_eq_C_mul] at this
  rw [this, hp j hj]
  ring

theorem ultOp_linear (lam : K) : IsLinearMap K (ultOp lam) where
  map_add p q := by unfold ultOp; simp only [derivative_add]; ring
  map_smul c p := by unfold ultOp; simp only [smul_eq_C_mul, derivative_C_mul]; ring

theorem jacOp_linear (α β : K) : IsLinearMap K (jacOp α β) where
  map_add p q := by unfold jacOp; simp only [derivative_add]; ring
  map_smul c p := by unfold jacOp; simp only [smul_eq_C_mul, derivative_C_mul]; ring

theorem lagOp_linear (α : K) : IsLinearMap K (lagOp α) where
  map_add p q := by unfold lagOp; simp only [derivative_add]; ring
  map_smul c p := by unfold lagOp; simp only [smul_eq_C_mul, derivative_C_mul]; ring

end FT.Poly
