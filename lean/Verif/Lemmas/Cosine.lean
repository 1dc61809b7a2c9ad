import Verif.Lemmas.Fftw3
import Verif.Model.FftwReal
import Mathlib.LinearAlgebra.Matrix.NonsingularInverse

/-!
# The discrete cosine, sine and Fourier transforms over the reals

The formulas of the FFTW manual undo each other up to the documented factor.
-/

namespace FT.Fftw
open FT FT.Model Real

/-! ## Sums of cosines -/

theorem tele_odd (x : ℝ) {n : Int} (hn : 0 ≤ n) : 2 * sin x * ∑ k ∈ Finset.Ico 0 n, cos ((2 * k + 1) * x) = sin (2 * n * x) := by
  induction n, hn using Int.le_induction with
  | base => simp
  | succ n hn ih =>
    rw [sum_Ico_succ hn, mul_add, ih]
    have e1 : (2 * ((n + 1 : Int) : ℝ)) * x = (2 * n + 1) * x + x := by push_cast; ring
    have e2 : 2 * (n : ℝ) * x = (2 * n + 1) * x - x := by ring
    rw [e1, e2, sin_add, sin_sub]; ring

theorem tele_even (x : ℝ) {n : Int} (hn : 0 ≤ n) : 2 * sin x * ∑ k ∈ Finset.Ico 0 n, cos (2 * k * x) = sin ((2 * n - 1) * x) + sin x := by
  induction n, hn using Int.le_induction with
  | base =>
    have : (2 * ((0 : Int) : ℝ) - 1) * x = -x := by push_cast; ring
    rw [this, sin_neg]; simp
  | succ n hn ih =>
    rw [sum_Ico_succ hn, mul_add, ih]
    have e1 : (2 * ((n + 1 : Int) : ℝ) - 1) * x = 2 * n * x + x := by push_cast; ring
    have e2 : (2 * (n : ℝ) - 1) * x = 2 * n * x - x := by ring
    rw [e1, e2, sin_add, sin_sub]; ring

theorem tele_sin (x : ℝ) {n : Int} (hn : 0 ≤ n) : 2 * sin x * ∑ k ∈ Finset.Ico 0 n, sin (2 * k * x) = cos x - cos ((2 * n - 1) * x) := by
  induction n, hn using Int.le_induction with
  | base =>
    have : (2 * ((0 : Int) : ℝ) - 1) * x = -x := by push_cast; ring
    rw [this, cos_neg]; simp
  | succ n hn ih =>
    rw [sum_Ico_succ hn, mul_add, ih]
    have e1 : (2 * ((n + 1 : Int) : ℝ) - 1) * x = 2 * n * x + x := by push_cast; ring
    have e2 : (2 * (n : ℝ) - 1) * x = 2 * n * x - x := by ring
    rw [e1, e2, cos_add, cos_sub]; ring

theorem sin_frac_ne {m n : Int} (hn : 0 < n) (h0 : 0 < m) (h1 : m < n) : sin (π * m / n) ≠ 0 := by
  have hn' : (0 : ℝ) < n := by exact_mod_cast hn
  have hm' : (0 : ℝ) < m := by exact_mod_cast h0
  have hmn : (m : ℝ) < n := by exact_mod_cast h1
  refine (sin_pos_of_pos_of_lt_pi (by positivity) ?_).ne'
  rw [div_lt_iff₀ hn']
  exact mul_lt_mul_of_pos_left hmn pi_pos

theorem sum_cos_grid_zero {n : Int} (hn : 0 < n) : ∑ k ∈ Finset.Ico 0 n, cos (((0 : Int) : ℝ) * grid n k) = n := by
  have h : ∀ k, cos (((0 : Int) : ℝ) * grid n k) = 1 := fun k => by simp
  rw [Finset.sum_congr rfl fun k _ => h k]
  simp only [Finset.sum_const, Int.card_Ico, nsmul_eq_mul, mul_one, sub_zero]
  rw [show ((n.toNat : ℕ) : ℝ) = ((n.toNat : Int) : ℝ) by push_cast; rfl, Int.toNat_of_nonneg hn.le]

theorem sum_cos_grid {n m : Int} (hn : 0 < n) (h0 : 0 < m) (h1 : m < 2 * n) : ∑ k ∈ Finset.Ico 0 n, cos ((m : ℝ) * grid n k) = 0 := by
  have hn' : (n : ℝ) ≠ 0 := by exact_mod_cast hn.ne'
  have hs := sin_frac_ne (n := 2 * n) (m := m) (by omega) h0 h1
  have t := tele_odd (π * m / ((2 * n : Int) : ℝ)) hn.le
  have e : ∀ k : Int, (2 * (k : ℝ) + 1) * (π * m / ((2 * n : Int) : ℝ)) = (m : ℝ) * grid n k := fun k => by unfold grid; push_cast; field_simp
  have e2 : 2 * (n : ℝ) * (π * m / ((2 * n : Int) : ℝ)) = m * π := by push_cast; field_simp
  simp only [e] at t
  rw [e2, sin_int_mul_pi] at t
  rcases mul_eq_zero.1 t with t | t
  · rcases mul_eq_zero.1 t with t | t
    · norm_num at t
    · exact absurd t hs
  · exact t

theorem sum_cos_grid_neg {n m : Int} (hn : 0 < n) (h0 : m ≠ 0) (h1 : m < 2 * n) (h2 : -(2 * n) < m) : ∑ k ∈ Finset.Ico 0 n, cos ((m : ℝ) * grid n k) = 0 := by
  by_cases h : 0 < m
  · exact sum_cos_grid hn h h1
  · have := sum_cos_grid (m := -m) hn (by omega) (by omega)
    rw [← this]
    refine Finset.sum_congr rfl fun k _ => ?_
    push_cast
    rw [neg_mul, cos_neg]

theorem sum_cos_grid_full {n : Int} (hn : 0 < n) : ∑ k ∈ Finset.Ico 0 n, cos (((2 * n : Int) : ℝ) * grid n k) = -n := by
  have hn' : (n : ℝ) ≠ 0 := by exact_mod_cast hn.ne'
  have h : ∀ k : Int, cos (((2 * n : Int) : ℝ) * grid n k) = -1 := fun k => by
    have : ((2 * n : Int) : ℝ) * grid n k = π + k * (2 * π) := by unfold grid; push_cast; field_simp; ring
    rw [this, cos_add_int_mul_two_pi, cos_pi]
  rw [Finset.sum_congr rfl fun k _ => h k]
  simp only [Finset.sum_const, Int.card_Ico, nsmul_eq_mul, sub_zero]
  rw [show ((n.toNat : ℕ) : ℝ) = ((n.toNat : Int) : ℝ) by push_cast; rfl, Int.toNat_of_nonneg hn.le]; ring

theorem sum_cos_ring {M m : Int} (hM : 0 < M) (h0 : m ≠ 0) (h1 : m < M) (h2 : -M < m) : ∑ c ∈ Finset.Ico 0 M, cos ((m : ℝ) * circ M c) = 0 := by
  have key : ∀ m : Int, 0 < m → m < M → ∑ c ∈ Finset.Ico 0 M, cos ((m : ℝ) * circ M c) = 0 := by
    intro m h0 h1
    have hn' : (M : ℝ) ≠ 0 := by exact_mod_cast hM.ne'
    have hs := sin_frac_ne (n := M) (m := m) hM h0 h1
    have t := tele_even (π * m / (M : ℝ)) hM.le
    have e : ∀ k : Int, (2 * (k : ℝ)) * (π * m / (M : ℝ)) = (m : ℝ) * circ M k := fun k => by unfold circ; field_simp
    have e2 : (2 * (M : ℝ) - 1) * (π * m / (M : ℝ)) = -(π * m / M) + m * (2 * π) := by field_simp; ring
    simp only [e] at t
    rw [e2, sin_add_int_mul_two_pi, sin_neg, neg_add_cancel] at t
    rcases mul_eq_zero.1 t with t | t
    · rcases mul_eq_zero.1 t with t | t
      · norm_num at t
      · exact absurd t hs
    · exact t
  by_cases h : 0 < m
  · exact key m h h1
  · rw [← key (-m) (by omega) (by omega)]
    refine Finset.sum_congr rfl fun k _ => ?_
    push_cast
    rw [neg_mul, cos_neg]

theorem sum_cos_ring_zero {M : Int} (hn : 0 < M) : ∑ k ∈ Finset.Ico 0 M, cos (((0 : Int) : ℝ) * circ M k) = M := by
  have h : ∀ k, cos (((0 : Int) : ℝ) * circ M k) = 1 := fun k => by simp
  rw [Finset.sum_congr rfl fun k _ => h k]
  simp only [Finset.sum_const, Int.card_Ico, nsmul_eq_mul, mul_one, sub_zero]
  rw [show ((M.toNat : ℕ) : ℝ) = ((M.toNat : Int) : ℝ) by push_cast; rfl, Int.toNat_of_nonneg hn.le]

theorem sum_sin_ring {M : Int} (hM : 0 < M) {m : Int} (h1 : m < M) (h2 : -M < m) : ∑ c ∈ Finset.Ico 0 M, sin ((m : ℝ) * circ M c) = 0 := by
  have key : ∀ m : Int, 0 < m → m < M → ∑ c ∈ Finset.Ico 0 M, sin ((m : ℝ) * circ M c) = 0 := by
    intro m h0 h1
    have hn' : (M : ℝ) ≠ 0 := by exact_mod_cast hM.ne'
    have hs := sin_frac_ne (n := M) (m := m) hM h0 h1
    have t := tele_sin (π * m / (M : ℝ)) hM.le
    have e : ∀ k : Int, (2 * (k : ℝ)) * (π * m / (M : ℝ)) = (m : ℝ) * circ M k := fun k => by unfold circ; field_simp
    have e2 : (2 * (M : ℝ) - 1) * (π * m / (M : ℝ)) = -(π * m / M) + m * (2 * π) := by field_simp; ring
    simp only [e] at t
    rw [e2, cos_add_int_mul_two_pi, cos_neg, sub_self] at t
    rcases mul_eq_zero.1 t with t | t
    · rcases mul_eq_zero.1 t with t | t
      · norm_num at t
      · exact absurd t hs
    · exact t
  rcases lt_trichotomy m 0 with h | rfl | h
  · have := key (-m) (by omega) (by omega)
    rw [← neg_eq_zero, ← Finset.sum_neg_distrib, ← this]
    refine Finset.sum_congr rfl fun k _ => ?_
    push_cast
    rw [neg_mul, sin_neg]
  · simp
  · exact key m h h1

/-! ## Matrices that undo each other -/

/-- The matrix on the integers `0, …, n - 1`. -/
def toMat (n : Int) (A : Int → Int → ℝ) : Matrix (Fin n.toNat) (Fin n.toNat) ℝ := Matrix.of fun i j => A i j

theorem sum_fin {n : Int} (hn : 0 ≤ n) (f : Int → ℝ) : ∑ i : Fin n.toNat, f i = ∑ i ∈ Finset.Ico 0 n, f i := by
  rw [Fin.sum_univ_eq_sum_range (fun i => f i)]
  obtain ⟨m, rfl⟩ := Int.eq_ofNat_of_zero_le hn
  rw [Int.toNat_natCast]
  clear hn
  induction m with
  | zero => simp
  | succ m ih =>
    rw [Finset.sum_range_succ, ih, show ((m + 1 : ℕ) : Int) = (m : Int) + 1 by push_cast; rfl, sum_Ico_succ (by omega)]

theorem toMat_mul {n : Int} (hn : 0 ≤ n) (A B : Int → Int → ℝ) (i k : Fin n.toNat) : (toMat n A * toMat n B) i k = ∑ j ∈ Finset.Ico 0 n, A i j * B j k := by
  rw [Matrix.mul_apply, ← sum_fin hn]; rfl

/-- A one-sided inverse up to a factor is two-sided. -/
theorem inverse_comm {n : Int} (hn : 0 ≤ n) {k : ℝ} (hk : k ≠ 0) {A B : Int → Int → ℝ}
    (h : ∀ i l, 0 ≤ i → i < n → 0 ≤ l → l < n → ∑ j ∈ Finset.Ico 0 n, B i j * A j l = if i = l then k else 0) {i l : Int} (i0 : 0 ≤ i) (i1 : i < n) (l0 : 0 ≤ l) (l1 : l < n) :
    ∑ j ∈ Finset.Ico 0 n, A i j * B j l = if i = l then k else 0 := by
  have e : (k⁻¹ • toMat n B) * toMat n A = 1 := by
    ext a b
    rw [Matrix.smul_mul, Matrix.smul_apply, toMat_mul hn, h a b (by omega) (by have := a.2; omega) (by omega) (by have := b.2; omega), Matrix.one_apply]
    by_cases hab : a = b
    · rw [if_pos hab, if_pos (by rw [hab]), smul_eq_mul, inv_mul_cancel₀ hk]
    · rw [if_neg hab, if_neg (fun e => hab (Fin.ext (by exact_mod_cast e))), smul_zero]
  rw [mul_eq_one_comm] at e
  have e2 := congrFun (congrFun e ⟨i.toNat, by omega⟩) ⟨l.toNat, by omega⟩
  rw [Matrix.mul_smul, Matrix.smul_apply, toMat_mul hn, Matrix.one_apply] at e2
  dsimp only at e2
  rw [Int.toNat_of_nonneg i0, Int.toNat_of_nonneg l0, smul_eq_mul, inv_mul_eq_iff_eq_mul₀ hk] at e2
  rw [e2]
  by_cases hil : i = l
  · rw [if_pos hil, if_pos (Fin.ext (by dsimp only; omega)), mul_one]
  · rw [if_neg hil, if_neg (fun e => hil (by have := congrArg Fin.val e; dsimp only at this; omega)), mul_zero]

theorem inv_apply {n : Int} {k : ℝ} {A B : Int → Int → ℝ} {f g : Line ℝ} (hf : MatOf n A f) (hg : MatOf n B g)
    (h : ∀ i l, 0 ≤ i → i < n → 0 ≤ l → l < n → ∑ j ∈ Finset.Ico 0 n, B i j * A j l = if i = l then k else 0) (x : Int → ℝ) {i : Int} (i0 : 0 ≤ i) (i1 : i < n) :
    g (f x) i = k * x i := by
  rw [hg _ i i0 i1, sum_Ico_congr (fun j j0 j1 => by rw [hf x j j0 j1, Finset.mul_sum]), Finset.sum_comm,
    sum_Ico_congr (g := fun l => if l = i then k * x l else 0) (fun l l0 l1 => ?_), sum_Ico_delta i0 i1]
  rw [Finset.sum_congr rfl (fun j _ => (mul_assoc (B i j) (A j l) (x l)).symm), ← Finset.sum_mul, h i l i0 i1 l0 l1]
  by_cases hil : i = l
  · rw [if_pos hil, if_pos hil.symm]
  · rw [if_neg hil, if_neg (Ne.symm hil), zero_mul]

/-! ## The transforms as matrices -/

theorem redft10_mat (n : Int) : MatOf n (fun k j => 2 * cos ((k : ℝ) * grid n j)) (redft10 n) := by
  intro x k _ _
  unfold redft10 grid
  rw [Finset.mul_sum]
  exact Finset.sum_congr rfl fun j _ => by rw [show π * ((j : ℝ) + 1 / 2) * k / n = k * (π * (j + 1 / 2) / n) by ring]; ring

theorem rodft10_mat (n : Int) : MatOf n (fun k j => 2 * sin (((k + 1 : Int) : ℝ) * grid n j)) (rodft10 n) := by
  intro x k _ _
  unfold rodft10 grid
  rw [Finset.mul_sum]
  exact Finset.sum_congr rfl fun j _ => by rw [show π * ((j : ℝ) + 1 / 2) * (k + 1) / n = ((k + 1 : Int) : ℝ) * (π * (j + 1 / 2) / n) by push_cast; ring]; ring

theorem redft11_mat (n : Int) : MatOf n (fun k j => 2 * cos (((k : ℝ) + 1 / 2) * grid n j)) (redft11 n) := by
  intro x k _ _
  unfold redft11 grid
  rw [Finset.mul_sum]
  exact Finset.sum_congr rfl fun j _ => by rw [show π * ((j : ℝ) + 1 / 2) * (k + 1 / 2) / n = ((k : ℝ) + 1 / 2) * (π * (j + 1 / 2) / n) by ring]; ring

theorem redft01_mat {n : Int} (hn : 0 < n) : MatOf n (fun k j => (if j = 0 then 1 else 2) * cos ((j : ℝ) * grid n k)) (redft01 n) := by
  intro x k _ _
  unfold redft01 grid
  rw [sum_Ico_pred hn]
  simp only [if_true, Int.cast_zero, zero_mul, cos_zero, one_mul]
  rw [Finset.mul_sum, zero_add]
  congr 1
  refine sum_Ico_congr fun j j0 j1 => ?_
  rw [if_neg (by omega), show π * (j : ℝ) * (k + 1 / 2) / n = j * (π * (k + 1 / 2) / n) by ring]; ring

theorem sin_top {n : Int} (hn : 0 < n) (k : Int) : sin ((n : ℝ) * grid n k) = (-1) ^ k := by
  have hn' : (n : ℝ) ≠ 0 := by exact_mod_cast hn.ne'
  have : (n : ℝ) * grid n k = k * π + π / 2 := by unfold grid; field_simp
  rw [this, sin_add_pi_div_two, cos_int_mul_pi]

theorem rodft01_mat {n : Int} (hn : 0 < n) : MatOf n (fun k j => (if j = n - 1 then 1 else 2) * sin (((j + 1 : Int) : ℝ) * grid n k)) (rodft01 n) := by
  intro x k _ _
  unfold rodft01
  have hs := sum_Ico_succ (lo := 0) (i := n - 1) (by omega) (fun j : Int => (if j = n - 1 then 1 else 2) * sin (((j + 1 : Int) : ℝ) * grid n k) * x j)
  rw [show n - 1 + 1 = n by ring] at hs
  rw [hs, if_pos rfl, sin_top hn, one_mul, add_comm, Finset.mul_sum]
  congr 1
  refine sum_Ico_congr fun j j0 j1 => ?_
  rw [if_neg (by omega)]
  unfold grid
  rw [show π * ((j : ℝ) + 1) * (k + 1 / 2) / n = ((j + 1 : Int) : ℝ) * (π * (k + 1 / 2) / n) by push_cast; ring]; ring

theorem two_cos_cos (x y : ℝ) : 2 * cos x * cos y = cos (x - y) + cos (x + y) := by rw [cos_add, cos_sub]; ring
theorem two_sin_sin (x y : ℝ) : 2 * sin x * sin y = cos (x - y) - cos (x + y) := by rw [cos_add, cos_sub]; ring
theorem two_sin_cos (x y : ℝ) : 2 * sin x * cos y = sin (x - y) + sin (x + y) := by rw [sin_add, sin_sub]; ring

/-- Discrete orthogonality, cosines. -/
theorem redft_orth {n : Int} (hn : 0 < n) (i l : Int) (i0 : 0 ≤ i) (i1 : i < n) (l0 : 0 ≤ l) (l1 : l < n) :
    ∑ j ∈ Finset.Ico 0 n, 2 * cos ((i : ℝ) * grid n j) * ((if l = 0 then 1 else 2) * cos ((l : ℝ) * grid n j)) = if i = l then ((2 * n : Int) : ℝ) else 0 := by
  have e : ∀ j : Int, 2 * cos ((i : ℝ) * grid n j) * ((if l = 0 then 1 else 2) * cos ((l : ℝ) * grid n j)) =
      (if l = 0 then 1 else 2) * (cos (((i - l : Int) : ℝ) * grid n j) + cos (((i + l : Int) : ℝ) * grid n j)) := fun j => by
    push_cast
    rw [sub_mul, add_mul, ← two_cos_cos]; ring
  rw [Finset.sum_congr rfl fun j _ => e j, ← Finset.mul_sum, Finset.sum_add_distrib]
  by_cases h : i = l
  · subst h
    rw [if_pos rfl, sub_self, sum_cos_grid_zero hn]
    by_cases h0 : i = 0
    · subst h0
      rw [if_pos rfl, add_zero, sum_cos_grid_zero hn]; push_cast; ring
    · rw [if_neg h0, sum_cos_grid hn (by omega) (by omega)]; push_cast; ring
  · rw [if_neg h, sum_cos_grid_neg hn (by omega) (by omega) (by omega), sum_cos_grid hn (by omega) (by omega), add_zero, mul_zero]

/-- Discrete orthogonality, sines. -/
theorem rodft_orth {n : Int} (hn : 0 < n) (i l : Int) (i0 : 0 ≤ i) (i1 : i < n) (l0 : 0 ≤ l) (l1 : l < n) :
    ∑ j ∈ Finset.Ico 0 n, 2 * sin (((i + 1 : Int) : ℝ) * grid n j) * ((if l = n - 1 then 1 else 2) * sin (((l + 1 : Int) : ℝ) * grid n j)) = if i = l then ((2 * n : Int) : ℝ) else 0 := by
  have e : ∀ j : Int, 2 * sin (((i + 1 : Int) : ℝ) * grid n j) * ((if l = n - 1 then 1 else 2) * sin (((l + 1 : Int) : ℝ) * grid n j)) =
      (if l = n - 1 then 1 else 2) * (cos (((i - l : Int) : ℝ) * grid n j) - cos (((i + l + 2 : Int) : ℝ) * grid n j)) := fun j => by
    rw [show ((i - l : Int) : ℝ) * grid n j = ((i + 1 : Int) : ℝ) * grid n j - ((l + 1 : Int) : ℝ) * grid n j by push_cast; ring,
      show ((i + l + 2 : Int) : ℝ) * grid n j = ((i + 1 : Int) : ℝ) * grid n j + ((l + 1 : Int) : ℝ) * grid n j by push_cast; ring, ← two_sin_sin]; ring
  rw [Finset.sum_congr rfl fun j _ => e j, ← Finset.mul_sum, Finset.sum_sub_distrib]
  by_cases h : i = l
  · subst h
    rw [if_pos rfl, sub_self, sum_cos_grid_zero hn]
    by_cases h0 : i = n - 1
    · rw [if_pos h0, show i + i + 2 = 2 * n by omega, sum_cos_grid_full hn]; push_cast; ring
    · rw [if_neg h0, sum_cos_grid hn (by omega) (by omega)]; push_cast; ring
  · rw [if_neg h, sum_cos_grid_neg hn (by omega) (by omega) (by omega), sum_cos_grid hn (by omega) (by omega), sub_zero, mul_zero]

theorem redft11_orth {n : Int} (hn : 0 < n) (i l : Int) (i0 : 0 ≤ i) (i1 : i < n) (l0 : 0 ≤ l) (l1 : l < n) :
    ∑ j ∈ Finset.Ico 0 n, 2 * cos (((i : ℝ) + 1 / 2) * grid n j) * (2 * cos (((j : ℝ) + 1 / 2) * grid n l)) = if i = l then ((2 * n : Int) : ℝ) else 0 := by
  have e : ∀ j : Int, 2 * cos (((i : ℝ) + 1 / 2) * grid n j) * (2 * cos (((j : ℝ) + 1 / 2) * grid n l)) =
      2 * (cos (((i - l : Int) : ℝ) * grid n j) + cos (((i + l + 1 : Int) : ℝ) * grid n j)) := fun j => by
    rw [show ((j : ℝ) + 1 / 2) * grid n l = ((l : ℝ) + 1 / 2) * grid n j by unfold grid; ring,
      show ((i - l : Int) : ℝ) * grid n j = ((i : ℝ) + 1 / 2) * grid n j - ((l : ℝ) + 1 / 2) * grid n j by push_cast; ring,
      show ((i + l + 1 : Int) : ℝ) * grid n j = ((i : ℝ) + 1 / 2) * grid n j + ((l : ℝ) + 1 / 2) * grid n j by push_cast; ring, ← two_cos_cos]; ring
  rw [Finset.sum_congr rfl fun j _ => e j, ← Finset.mul_sum, Finset.sum_add_distrib]
  by_cases h : i = l
  · subst h
    rw [if_pos rfl, sub_self, sum_cos_grid_zero hn, sum_cos_grid hn (by omega) (by omega)]; push_cast; ring
  · rw [if_neg h, sum_cos_grid_neg hn (by omega) (by omega) (by omega), sum_cos_grid hn (by omega) (by omega), add_zero, mul_zero]

/-! ## Rows -/

theorem arg_ring (M j c : Int) : 2 * π * j * c / M = (j : ℝ) * circ M c := by unfold circ; ring

theorem cc_ring {M : Int} (hM : 0 < M) {j l : Int} (j0 : 0 ≤ j) (j1 : j < M / 2 + 1) (l0 : 1 ≤ l) (l1 : l < M / 2 + 1) (ho : M % 2 = 1) :
    2 * ∑ c ∈ Finset.Ico 0 M, cos ((j : ℝ) * circ M c) * cos ((l : ℝ) * circ M c) = if j = l then (M : ℝ) else 0 := by
  have e : ∀ c : Int, 2 * (cos ((j : ℝ) * circ M c) * cos ((l : ℝ) * circ M c)) = cos (((j - l : Int) : ℝ) * circ M c) + cos (((j + l : Int) : ℝ) * circ M c) := fun c => by
    push_cast; rw [sub_mul, add_mul, ← two_cos_cos]; ring
  rw [Finset.mul_sum, Finset.sum_congr rfl fun c _ => e c, Finset.sum_add_distrib, sum_cos_ring hM (m := j + l) (by omega) (by omega) (by omega), add_zero]
  by_cases h : j = l
  · rw [if_pos h, h, sub_self, sum_cos_ring_zero hM]
  · rw [if_neg h, sum_cos_ring hM (by omega) (by omega) (by omega)]

theorem ss_ring {M : Int} (hM : 0 < M) {j l : Int} (j0 : 1 ≤ j) (j1 : j < M / 2 + 1) (l0 : 1 ≤ l) (l1 : l < M / 2 + 1) (ho : M % 2 = 1) :
    2 * ∑ c ∈ Finset.Ico 0 M, sin ((j : ℝ) * circ M c) * sin ((l : ℝ) * circ M c) = if j = l then (M : ℝ) else 0 := by
  have e : ∀ c : Int, 2 * (sin ((j : ℝ) * circ M c) * sin ((l : ℝ) * circ M c)) = cos (((j - l : Int) : ℝ) * circ M c) - cos (((j + l : Int) : ℝ) * circ M c) := fun c => by
    push_cast; rw [sub_mul, add_mul, ← two_sin_sin]; ring
  rw [Finset.mul_sum, Finset.sum_congr rfl fun c _ => e c, Finset.sum_sub_distrib, sum_cos_ring hM (m := j + l) (by omega) (by omega) (by omega), sub_zero]
  by_cases h : j = l
  · rw [if_pos h, h, sub_self, sum_cos_ring_zero hM]
  · rw [if_neg h, sum_cos_ring hM (by omega) (by omega) (by omega)]

theorem sc_ring {M : Int} (hM : 0 < M) {j l : Int} (j0 : 0 ≤ j) (j1 : j < M / 2 + 1) (l0 : 0 ≤ l) (l1 : l < M / 2 + 1) (ho : M % 2 = 1) :
    ∑ c ∈ Finset.Ico 0 M, sin ((j : ℝ) * circ M c) * cos ((l : ℝ) * circ M c) = 0 := by
  have e : ∀ c : Int, sin ((j : ℝ) * circ M c) * cos ((l : ℝ) * circ M c) = 1 / 2 * (sin (((j - l : Int) : ℝ) * circ M c) + sin (((j + l : Int) : ℝ) * circ M c)) := fun c => by
    push_cast; rw [sub_mul, add_mul, ← two_sin_cos]; ring
  rw [Finset.sum_congr rfl fun c _ => e c, ← Finset.mul_sum, Finset.sum_add_distrib, sum_sin_ring hM (by omega) (by omega), sum_sin_ring hM (by omega) (by omega)]; ring

theorem r2hc_hc2r_re {M : Int} (hM : 0 < M) (ho : M % 2 = 1) (z : Int → ℝ × ℝ) {j : Int} (j0 : 0 ≤ j) (j1 : j < M / 2 + 1) :
    (r2hc M (hc2r M z) j).1 = M * (z j).1 := by
  unfold r2hc hc2r
  dsimp only
  simp only [arg_ring, add_mul, Finset.sum_add_distrib]
  have e : ∑ c ∈ Finset.Ico 0 M, 2 * (∑ l ∈ Finset.Ico 1 (M / 2 + 1), ((z l).1 * cos ((l : ℝ) * circ M c) - (z l).2 * sin ((l : ℝ) * circ M c))) * cos ((j : ℝ) * circ M c) =
      ∑ l ∈ Finset.Ico 1 (M / 2 + 1), if l = j then M * (z l).1 else 0 := by
    have e1 : ∀ c : Int, 2 * (∑ l ∈ Finset.Ico 1 (M / 2 + 1), ((z l).1 * cos ((l : ℝ) * circ M c) - (z l).2 * sin ((l : ℝ) * circ M c))) * cos ((j : ℝ) * circ M c) =
        ∑ l ∈ Finset.Ico 1 (M / 2 + 1), ((z l).1 * (2 * (cos ((j : ℝ) * circ M c) * cos ((l : ℝ) * circ M c))) - (z l).2 * 2 * (sin ((l : ℝ) * circ M c) * cos ((j : ℝ) * circ M c))) := fun c => by
      rw [Finset.mul_sum, Finset.sum_mul]
      exact Finset.sum_congr rfl fun l _ => by ring
    rw [Finset.sum_congr rfl fun c _ => e1 c, Finset.sum_comm]
    refine sum_Ico_congr fun l l0 l1 => ?_
    rw [Finset.sum_sub_distrib, ← Finset.mul_sum, ← Finset.mul_sum, ← Finset.mul_sum, sc_ring hM (by omega) l1 j0 j1 ho, cc_ring hM j0 j1 l0 l1 ho]
    by_cases h : l = j
    · rw [if_pos h, if_pos h.symm]; ring
    · rw [if_neg h, if_neg (Ne.symm h)]; ring
  rw [e, ← Finset.mul_sum]
  by_cases h : j = 0
  · subst h
    rw [sum_cos_ring_zero hM, sum_Ico_congr (g := fun _ => (0 : ℝ)) (fun l l0 l1 => if_neg (by omega)), Finset.sum_const_zero]; ring
  · rw [sum_cos_ring hM h (by omega) (by omega), sum_Ico_delta (by omega) j1]; ring

theorem r2hc_hc2r_im {M : Int} (hM : 0 < M) (ho : M % 2 = 1) (z : Int → ℝ × ℝ) {j : Int} (j0 : 1 ≤ j) (j1 : j < M / 2 + 1) :
    (r2hc M (hc2r M z) j).2 = M * (z j).2 := by
  unfold r2hc hc2r
  dsimp only
  simp only [arg_ring, add_mul, Finset.sum_add_distrib]
  have e : ∑ c ∈ Finset.Ico 0 M, 2 * (∑ l ∈ Finset.Ico 1 (M / 2 + 1), ((z l).1 * cos ((l : ℝ) * circ M c) - (z l).2 * sin ((l : ℝ) * circ M c))) * sin ((j : ℝ) * circ M c) =
      ∑ l ∈ Finset.Ico 1 (M / 2 + 1), if l = j then -(M * (z l).2) else 0 := by
    have e1 : ∀ c : Int, 2 * (∑ l ∈ Finset.Ico 1 (M / 2 + 1), ((z l).1 * cos ((l : ℝ) * circ M c) - (z l).2 * sin ((l : ℝ) * circ M c))) * sin ((j : ℝ) * circ M c) =
        ∑ l ∈ Finset.Ico 1 (M / 2 + 1), ((z l).1 * 2 * (sin ((j : ℝ) * circ M c) * cos ((l : ℝ) * circ M c)) - (z l).2 * (2 * (sin ((j : ℝ) * circ M c) * sin ((l : ℝ) * circ M c)))) := fun c => by
      rw [Finset.mul_sum, Finset.sum_mul]
      exact Finset.sum_congr rfl fun l _ => by ring
    rw [Finset.sum_congr rfl fun c _ => e1 c, Finset.sum_comm]
    refine sum_Ico_congr fun l l0 l1 => ?_
    rw [Finset.sum_sub_distrib, ← Finset.mul_sum, ← Finset.mul_sum, sc_ring hM (by omega) j1 (by omega) l1 ho, ← Finset.mul_sum, ss_ring hM j0 j1 l0 l1 ho]
    by_cases h : l = j
    · rw [if_pos h, if_pos h.symm]; ring
    · rw [if_neg h, if_neg (Ne.symm h)]; ring
  rw [e, ← Finset.mul_sum, sum_sin_ring hM (by omega) (by omega), sum_Ico_delta (by omega) j1]; ring

/-- The Dirichlet kernel on the grid. -/
theorem dirichlet {M : Int} (hM : 0 < M) (ho : M % 2 = 1) {t : Int} (h1 : t < M) (h2 : -M < t) :
    1 + 2 * ∑ j ∈ Finset.Ico 1 (M / 2 + 1), cos (2 * π * j * t / M) = if t = 0 then (M : ℝ) else 0 := by
  by_cases h : t = 0
  · subst h
    rw [if_pos rfl]
    simp only [Int.cast_zero, mul_zero, zero_div, cos_zero, Finset.sum_const, Int.card_Ico, nsmul_eq_mul, mul_one]
    rw [show (((M / 2 + 1 - 1).toNat : ℕ) : ℝ) = (((M / 2 + 1 - 1).toNat : Int) : ℝ) by push_cast; rfl, Int.toNat_of_nonneg (by omega)]
    have : M = 2 * (M / 2 + 1 - 1) + 1 := by omega
    conv_rhs => rw [this]
    push_cast; ring
  · rw [if_neg h]
    have hn' : (M : ℝ) ≠ 0 := by exact_mod_cast hM.ne'
    have key : ∀ t : Int, 0 < t → t < M → 1 + 2 * ∑ j ∈ Finset.Ico 1 (M / 2 + 1), cos (2 * π * j * t / M) = 0 := by
      intro t h0 h1
      have hs := sin_frac_ne (n := M) (m := t) hM h0 h1
      have te := tele_even (π * t / (M : ℝ)) (n := M / 2 + 1) (by omega)
      rw [sum_Ico_pred (by omega : (0 : Int) < M / 2 + 1)] at te
      have e : ∀ k : Int, (2 * (k : ℝ)) * (π * t / (M : ℝ)) = 2 * π * k * t / M := fun k => by ring
      have e2 : (2 * ((M / 2 + 1 : Int) : ℝ) - 1) * (π * t / (M : ℝ)) = t * π := by
        have : (M : ℝ) = 2 * ((M / 2 + 1 : Int) : ℝ) - 1 := by
          have : M = 2 * (M / 2 + 1) - 1 := by omega
          exact_mod_cast this
        rw [← this]; field_simp
      rw [e2, sin_int_mul_pi, zero_add, Finset.sum_congr rfl (fun k _ => by rw [e]), zero_add] at te
      simp only [Int.cast_zero, mul_zero, zero_mul, cos_zero] at te
      have : sin (π * t / M) * (1 + 2 * ∑ j ∈ Finset.Ico 1 (M / 2 + 1), cos (2 * π * j * t / M)) = 0 := by linarith
      exact (mul_eq_zero.1 this).resolve_left hs
    by_cases h0 : 0 < t
    · exact key t h0 h1
    · rw [← key (-t) (by omega) (by omega)]
      congr 2
      refine Finset.sum_congr rfl fun k _ => ?_
      rw [← cos_neg]; congr 1; push_cast; ring

theorem hc2r_r2hc {M : Int} (hM : 0 < M) (ho : M % 2 = 1) (x : Int → ℝ) {c : Int} (c0 : 0 ≤ c) (c1 : c < M) : hc2r M (r2hc M x) c = M * x c := by
  unfold r2hc hc2r
  dsimp only
  have e0 : ∑ d ∈ Finset.Ico 0 M, x d * cos (2 * π * ((0 : Int) : ℝ) * d / M) = ∑ d ∈ Finset.Ico 0 M, x d := Finset.sum_congr rfl fun d _ => by simp
  have e1 : ∀ j : Int, (∑ d ∈ Finset.Ico 0 M, x d * cos (2 * π * j * d / M)) * cos (2 * π * j * c / M) - -(∑ d ∈ Finset.Ico 0 M, x d * sin (2 * π * j * d / M)) * sin (2 * π * j * c / M) =
      ∑ d ∈ Finset.Ico 0 M, x d * cos (2 * π * j * ((d - c : Int) : ℝ) / M) := fun j => by
    rw [neg_mul, sub_neg_eq_add, Finset.sum_mul, Finset.sum_mul, ← Finset.sum_add_distrib]
    refine Finset.sum_congr rfl fun d _ => ?_
    rw [show 2 * π * (j : ℝ) * ((d - c : Int) : ℝ) / M = 2 * π * j * d / M - 2 * π * j * c / M by push_cast; ring, cos_sub]; ring
  rw [e0, Finset.sum_congr rfl (fun j _ => e1 j), Finset.sum_comm, Finset.mul_sum, ← Finset.sum_add_distrib,
    sum_Ico_congr (g := fun d => if d = c then M * x d else 0) (fun d d0 d1 => ?_), sum_Ico_delta c0 c1]
  rw [← Finset.mul_sum]
  have := dirichlet hM ho (t := d - c) (by omega) (by omega)
  have e3 : x d + 2 * (x d * ∑ j ∈ Finset.Ico 1 (M / 2 + 1), cos (2 * π * j * ((d - c : Int) : ℝ) / M)) = x d * (1 + 2 * ∑ j ∈ Finset.Ico 1 (M / 2 + 1), cos (2 * π * j * ((d - c : Int) : ℝ) / M)) := by ring
  rw [e3, this]
  by_cases h : d = c
  · rw [if_pos h, if_pos (by omega)]; ring
  · rw [if_neg h, if_neg (by omega), mul_zero]

/-- The complex transforms of opposite signs undo each other up to `M`. -/
theorem dft_dft {M : Int} (hM : 0 < M) {s t : ℝ} (hs : s * s = 1) (hst : t = -s) (z : Int → ℝ × ℝ) {c : Int} (c0 : 0 ≤ c) (c1 : c < M) : dft t M (dft s M z) c = (M * (z c).1, M * (z c).2) := by
  subst hst
  have dc : ∀ d : Int, 0 ≤ d → d < M → ∑ j ∈ Finset.Ico 0 M, cos (((d - c : Int) : ℝ) * circ M j) = if d = c then (M : ℝ) else 0 := fun d d0 d1 => by
    by_cases h : d = c
    · rw [if_pos h, h, sub_self, sum_cos_ring_zero hM]
    · rw [if_neg h, sum_cos_ring hM (by omega) (by omega) (by omega)]
  have ds : ∀ d : Int, 0 ≤ d → d < M → ∑ j ∈ Finset.Ico 0 M, sin (((d - c : Int) : ℝ) * circ M j) = 0 := fun d d0 d1 => sum_sin_ring hM (by omega) (by omega)
  have cs : ∀ d j : Int, cos (((d - c : Int) : ℝ) * circ M j) = cos (2 * π * d * j / M) * cos (2 * π * j * c / M) + sin (2 * π * d * j / M) * sin (2 * π * j * c / M) := fun d j => by
    rw [← cos_sub]; congr 1; unfold circ; push_cast; ring
  have sn : ∀ d j : Int, sin (((d - c : Int) : ℝ) * circ M j) = sin (2 * π * d * j / M) * cos (2 * π * j * c / M) - cos (2 * π * d * j / M) * sin (2 * π * j * c / M) := fun d j => by
    rw [← sin_sub]; congr 1; unfold circ; push_cast; ring
  have main : ∀ a b : Int → ℝ, ∀ r : ℝ, ∑ j ∈ Finset.Ico 0 M, ∑ d ∈ Finset.Ico 0 M, (a d * cos (((d - c : Int) : ℝ) * circ M j) + r * (b d * sin (((d - c : Int) : ℝ) * circ M j))) = M * a c := by
    intro a b r
    rw [Finset.sum_comm, sum_Ico_congr (g := fun d => if d = c then M * a d else 0) (fun d d0 d1 => ?_), sum_Ico_delta c0 c1]
    rw [Finset.sum_add_distrib, ← Finset.mul_sum, ← Finset.mul_sum, ← Finset.mul_sum, dc d d0 d1, ds d d0 d1]
    split_ifs <;> ring
  unfold dft
  dsimp only
  refine Prod.ext ?_ ?_ <;> dsimp only
  · rw [← main (fun d => (z d).1) (fun d => (z d).2) (-s)]
    refine Finset.sum_congr rfl fun j _ => ?_
    rw [Finset.sum_mul, Finset.sum_mul, Finset.mul_sum, ← Finset.sum_sub_distrib]
    refine Finset.sum_congr rfl fun d _ => ?_
    rw [cs, sn]
    linear_combination ((z d).1 * sin (2 * π * d * j / M) * sin (2 * π * j * c / M)) * hs
  · rw [← main (fun d => (z d).2) (fun d => (z d).1) s]
    refine Finset.sum_congr rfl fun j _ => ?_
    rw [Finset.sum_mul, Finset.sum_mul, Finset.mul_sum, ← Finset.sum_add_distrib]
    refine Finset.sum_congr rfl fun d _ => ?_
    rw [cs, sn]
    linear_combination ((z d).2 * sin (2 * π * d * j / M) * sin (2 * π * j * c / M)) * hs

end FT.Fftw
