import Verif.Model.ShtPencil
import Verif.Lemmas.PosPivot
import Verif.Lemmas.Accum
import Verif.Lemmas.Sqrt
import Mathlib.Tactic.Positivity
import Mathlib.Tactic.FieldSimp
import Mathlib.Tactic.Linarith

/-! # Lemmas for C71: the entries of the pencils -/

namespace FT
open FT.Props

section
variable {K : Type*}

theorem shtFill_eq [Field K] {cnt s : Int} (hs : s = 0 ∨ s = 1) {f : K → Option K} {x : Buf K} (y : Int → K) (hx : cnt ≤ x.size) (hf : ∀ t, 0 ≤ t → t < cnt → f ((1 + s + 2 * t : Int) : K) = some (y t)) :
    shtFill cnt s f x = some (mix x 0 cnt y) := by
  rw [← sweepUp_eq (f := fun t _ => f ((1 + s + 2 * t : Int) : K)) y (le_refl _) hx (fun t t0 t1 => hf t t0 t1)]
  unfold shtFill sweepUp
  congr 1
  funext t x
  rw [show (1 + s + 2 * t - 1) / 2 = t by omega]

/-- The weighted product of the bidiagonal matrix with its transpose. -/
theorem bid_weighted [CommRing K] {n i j : Int} (c d w : Int → K) (i0 : 0 ≤ i) (i1 : i < n) (j0 : 0 ≤ j) (j1 : j < n) :
    ∑ r ∈ Finset.Ico 0 (n + 1), bidMat c d i r * w r * bidMat c d j r = triMat (fun i => c i * c i * w i + d i * d i * w (i + 1)) (fun i => d i * c (i + 1) * w (i + 1)) i j := by
  rw [sum_three (i := i) i0 (by omega) _ (fun r r0 r1 hr => by
    have : bidMat c d i r = 0 := by unfold bidMat; rw [if_neg (by omega), if_neg (by omega)]
    rw [this, zero_mul, zero_mul])]
  have e1 : bidMat c d i (i - 1) = 0 := by unfold bidMat; rw [if_neg (by omega), if_neg (by omega)]
  have e2 : bidMat c d i i = c i := if_pos rfl
  have e3 : bidMat c d i (i + 1) = d i := by unfold bidMat; rw [if_neg (by omega), if_pos rfl]
  rw [e1, e2, e3, if_pos (show i + 1 < n + 1 by omega), zero_mul, zero_mul, ite_self, zero_add]
  by_cases h : i = j
  · subst h
    rw [e2, e3, triMat_diag]; ring
  by_cases h2 : j = i + 1
  · rw [triMat_sup h2]
    have f1 : bidMat c d j i = 0 := by unfold bidMat; rw [if_neg (by omega), if_neg (by omega)]
    have f2 : bidMat c d j (i + 1) = c (i + 1) := by rw [h2]; exact if_pos rfl
    rw [f1, f2]; ring
  by_cases h3 : i = j + 1
  · rw [triMat_sub h3]
    have f1 : bidMat c d j i = d j := by unfold bidMat; rw [if_neg (by omega), if_pos h3]
    have f2 : bidMat c d j (i + 1) = 0 := by unfold bidMat; rw [if_neg (by omega), if_neg (by omega)]
    rw [f1, f2, h3]; ring
  · rw [triMat_far (by omega)]
    have f1 : bidMat c d j i = 0 := by unfold bidMat; rw [if_neg (by omega), if_neg (by omega)]
    have f2 : bidMat c d j (i + 1) = 0 := by unfold bidMat; rw [if_neg (by omega), if_neg (by omega)]
    rw [f1, f2]; ring

end

variable {K : Type*} [Field K] [LinearOrder K] [IsStrictOrderedRing K]

/-- The square of the diagonal entry of `R`. -/
def Cv (m l : K) : K := (l + 2 * m) * (l + 2 * m + 1) / ((2 * l + 2 * m - 1) * (2 * l + 2 * m + 1))

/-- The square of the superdiagonal entry of `R`. -/
def Dv (m l : K) : K := l * (l + 1) / ((2 * l + 2 * m + 1) * (2 * l + 2 * m + 3))

section
variable {m l : K} (hm : 0 ≤ m) (hl : 1 ≤ l)
include hm hl

theorem Cv_pos : 0 < Cv m l := by
  unfold Cv
  have : 0 < 2 * l + 2 * m - 1 := by linarith
  positivity

theorem Dv_pos : 0 < Dv m l := by
  unfold Dv
  positivity

theorem shtDiagB_eq : shtDiagB m l = some (Cv m l + Dv m l) := by
  have h1 : 2 * l + 2 * m - 1 ≠ 0 := by linarith
  have h2 : 2 * l + 2 * m + 1 ≠ 0 := by linarith
  have h3 : 2 * l + 2 * m + 3 ≠ 0 := by linarith
  unfold shtDiagB shtDen Cv Dv
  rw [divC_of (mul_ne_zero h1 h3), div_add_div _ _ (mul_ne_zero h1 h2) (mul_ne_zero h2 h3)]
  congr 1
  rw [div_eq_div_iff (mul_ne_zero h1 h3) (mul_ne_zero (mul_ne_zero h1 h2) (mul_ne_zero h2 h3))]
  ring

theorem shtDiagA_eq (mu : K) : shtDiagA mu m l = some (Cv m l * ((l + m - 1) * (l + m)) + Dv m l * ((l + m + 1) * (l + m + 2)) + (mu * mu - m * m)) := by
  have h1 : 2 * l + 2 * m - 1 ≠ 0 := by linarith
  have h2 : 2 * l + 2 * m + 1 ≠ 0 := by linarith
  have h3 : 2 * l + 2 * m + 3 ≠ 0 := by linarith
  unfold shtDiagA shtDen Cv Dv
  rw [divC_of (mul_ne_zero h1 h3), Option.map_some, div_mul_eq_mul_div, div_mul_eq_mul_div, div_add_div _ _ (mul_ne_zero h1 h2) (mul_ne_zero h2 h3)]
  refine congrArg some (congrArg₂ _ ?_ (by ring))
  rw [div_eq_div_iff (mul_ne_zero h1 h3) (mul_ne_zero (mul_ne_zero h1 h2) (mul_ne_zero h2 h3))]
  ring

theorem shtRat_eq : shtRat m l = some (Dv m l * Cv m (l + 2)) := by
  have h2 : 2 * l + 2 * m + 1 ≠ 0 := by linarith
  have h3 : 2 * l + 2 * m + 3 ≠ 0 := by linarith
  have h5 : 2 * l + 2 * m + 5 ≠ 0 := by linarith
  unfold shtRat Cv Dv
  rw [divC_of h2, Option.bind_some, divC_of h3, Option.bind_some, divC_of h3, Option.bind_some, divC_of h5, Option.map_some]
  congr 1
  have h3' : 2 * (l + 2) + 2 * m - 1 ≠ 0 := by intro h; exact h3 (by linear_combination h)
  have h5' : 2 * (l + 2) + 2 * m + 1 ≠ 0 := by intro h; exact h5 (by linear_combination h)
  rw [show 2 * (l + 2) + 2 * m - 1 = 2 * l + 2 * m + 3 by ring, show 2 * (l + 2) + 2 * m + 1 = 2 * l + 2 * m + 5 by ring]
  field_simp
  ring

theorem Dv_lt : Dv m l < Dv m (l + 2) := by
  unfold Dv
  rw [div_lt_div_iff₀ (by positivity) (by positivity), ← sub_pos,
    show (l + 2) * (l + 2 + 1) * ((2 * l + 2 * m + 1) * (2 * l + 2 * m + 3)) - l * (l + 1) * ((2 * (l + 2) + 2 * m + 1) * (2 * (l + 2) + 2 * m + 3)) =
      8 * l ^ 2 + 28 * l + 18 + 2 * m * (8 * l ^ 2 + 32 * l + 24) + (2 * m) ^ 2 * (4 * l + 6) by ring]
  positivity

theorem Cv_lt : Cv m (l + 2) < Cv m l := by
  have h1 : 0 < 2 * l + 2 * m - 1 := by linarith
  unfold Cv
  rw [show 2 * (l + 2) + 2 * m - 1 = 2 * l + 2 * m + 3 by ring, div_lt_div_iff₀ (by positivity) (by positivity), ← sub_pos,
    show (l + 2 * m) * (l + 2 * m + 1) * ((2 * l + 2 * m + 3) * (2 * (l + 2) + 2 * m + 1)) - (l + 2 + 2 * m) * (l + 2 + 2 * m + 1) * ((2 * l + 2 * m - 1) * (2 * l + 2 * m + 1)) =
      4 * (l + 2 * m) * (2 * l * (2 * m) + (2 * m) ^ 2) + 8 * l ^ 2 + 32 * l * (2 * m) + 18 * (2 * m) ^ 2 + 20 * (l + 2 * m) + 6 by ring]
  positivity

end

theorem sqrt_eqS {sqrt : K → K} (hs : IsSqrt sqrt) {x y : K} (hx : 0 ≤ x) (hy : 0 ≤ y) (h : y * y = x) : sqrt x = y := by
  obtain ⟨h1, h2⟩ := hs x hx
  exact (mul_self_inj h1 hy).1 (h2.trans h.symm)

theorem sqrt_mulS {sqrt : K → K} (hs : IsSqrt sqrt) {x y : K} (hx : 0 ≤ x) (hy : 0 ≤ y) : sqrt (x * y) = sqrt x * sqrt y := by
  obtain ⟨x1, x2⟩ := hs x hx
  obtain ⟨y1, y2⟩ := hs y hy
  exact sqrt_eqS hs (mul_nonneg hx hy) (mul_nonneg x1 y1) (by rw [mul_mul_mul_comm, x2, y2])

section
variable {sqrt : K → K} (hs : IsSqrt sqrt) {m l : K} (hm : 0 ≤ m) (hl : 1 ≤ l)
include hs hm hl

theorem shtOffB_eq : shtOffB sqrt m l = some (-(sqrt (Dv m l) * sqrt (Cv m (l + 2)))) := by
  have hd := le_of_lt (Dv_pos hm hl)
  have hc := le_of_lt (Cv_pos (l := l + 2) hm (by linarith))
  unfold shtOffB sqrtC
  rw [shtRat_eq hm hl, Option.bind_some, if_neg (not_lt.2 (mul_nonneg hd hc)), Option.map_some, sqrt_mulS hs hd hc]

theorem shtOffA_eq : shtOffA sqrt m l = some (-(sqrt (Dv m l) * sqrt (Cv m (l + 2)) * ((l + m + 1) * (l + m + 2)))) := by
  have hd := le_of_lt (Dv_pos hm hl)
  have hc := le_of_lt (Cv_pos (l := l + 2) hm (by linarith))
  unfold shtOffA sqrtC
  rw [shtRat_eq hm hl, Option.bind_some, if_neg (not_lt.2 (mul_nonneg hd hc)), Option.map_some, sqrt_mulS hs hd hc]
  congr 1
  ring

omit hs in
theorem shtC_eq : shtC sqrt m l = some (sqrt (Cv m l)) := by
  have h1 : 2 * l + 2 * m - 1 ≠ 0 := by linarith
  have h2 : 2 * l + 2 * m + 1 ≠ 0 := by linarith
  have hc := le_of_lt (Cv_pos hm hl)
  unfold shtC sqrtC
  rw [divC_of h1, Option.bind_some, divC_of h2, Option.bind_some, div_mul_div_comm]
  exact if_neg (not_lt.2 hc)

omit hs in
theorem shtD_eq : shtD sqrt m l = some (-sqrt (Dv m l)) := by
  have h1 : 2 * l + 2 * m + 1 ≠ 0 := by linarith
  have h2 : 2 * l + 2 * m + 3 ≠ 0 := by linarith
  have hd := le_of_lt (Dv_pos hm hl)
  unfold shtD sqrtC
  rw [divC_of h1, Option.bind_some, divC_of h2, Option.bind_some, div_mul_div_comm, show l * (l + 1) / ((2 * l + 2 * m + 1) * (2 * l + 2 * m + 3)) = Dv m l from rfl, if_neg (not_lt.2 hd), Option.map_some]

end

/-! ## Dominant diagonals -/

/-- The diagonal entries are larger than the sums of the magnitudes of the others in their rows. -/
def Dominant (n : Int) (a b : Int → K) : Prop := ∀ i, 0 ≤ i → i < n → (if 0 < i then |b (i - 1)| else 0) + (if i + 1 < n then |b i| else 0) < a i

theorem quadN_dom {a b x : Int → K} : ∀ t : Nat, ∑ i ∈ Finset.Ico (0 : Int) t, (a i - (if 0 < i then |b (i - 1)| else 0) - |b i|) * (x i * x i) +
    (a t - (if (0 : Int) < t then |b (t - 1)| else 0)) * (x t * x t) ≤ quadN a b x t
  | 0 => by
    rw [quadN]
    simp [mul_assoc]
  | t + 1 => by
    have ih := quadN_dom (a := a) (b := b) (x := x) t
    rw [quadN]
    push_cast
    rw [← Finset.insert_Ico_right_eq_Ico_add_one (show (0 : Int) ≤ (t : Int) by omega), Finset.sum_insert Finset.right_notMem_Ico, if_pos (show (0 : Int) < (t : Int) + 1 by omega), add_sub_cancel_right]
    have h : -(|b t| * (x t * x t + x (t + 1) * x (t + 1))) ≤ 2 * b t * x t * x (t + 1) := by
      have := neg_abs_le (b t)
      have h2 := le_abs_self (b t)
      nlinarith [mul_self_nonneg (x t + x (t + 1)), mul_self_nonneg (x t - x (t + 1)), mul_nonneg (sub_nonneg.2 h2) (mul_self_nonneg (x t - x (t + 1))),
        mul_nonneg (show 0 ≤ b t + |b t| by linarith) (mul_self_nonneg (x t + x (t + 1)))]
    nlinarith [ih, h]

theorem posForm_of_dominant {n : Int} (n1 : 1 ≤ n) {a b : Int → K} (h : Dominant n a b) : PosForm n (triMat a b) := by
  intro x ⟨i, i0, i1, hx⟩
  obtain ⟨y, hy⟩ : ∃ y : Int → K, y = fun j => if j < n then x j else 0 := ⟨_, rfl⟩
  have yx : ∀ j, j < n → y j = x j := fun j hj => by rw [hy]; exact if_pos hj
  have e : ∑ i ∈ Finset.Ico 0 n, x i * rowMul n (triMat a b) x i = ∑ i ∈ Finset.Ico 0 n, y i * rowMul n (triMat a b) y i := by
    refine Finset.sum_congr rfl fun j hj => ?_
    rw [yx j (Finset.mem_Ico.1 hj).2]
    congr 1
    exact Finset.sum_congr rfl fun r hr => by rw [yx r (Finset.mem_Ico.1 hr).2]
  rw [e, quadN_sum (t := (n - 1).toNat) (by omega) (fun j hj => by rw [hy]; exact if_neg (by omega))]
  refine lt_of_lt_of_le ?_ (quadN_dom _)
  rw [Int.toNat_of_nonneg (by omega)]
  have pos : ∀ j, 0 ≤ j → j < n - 1 → 0 < a j - (if 0 < j then |b (j - 1)| else 0) - |b j| := fun j j0 j1 => by
    have := h j j0 (by omega)
    rw [if_pos (show j + 1 < n by omega)] at this
    linarith
  have posl : 0 < a (n - 1) - (if (0 : Int) < n - 1 then |b (n - 1 - 1)| else 0) := by
    have := h (n - 1) (by omega) (by omega)
    rw [if_neg (show ¬ n - 1 + 1 < n by omega)] at this
    linarith
  have nn : ∀ j ∈ Finset.Ico 0 (n - 1), 0 ≤ (a j - (if 0 < j then |b (j - 1)| else 0) - |b j|) * (y j * y j) := fun j hj => by
    rw [Finset.mem_Ico] at hj
    exact mul_nonneg (le_of_lt (pos j hj.1 hj.2)) (mul_self_nonneg _)
  have hyi : y i ≠ 0 := by rw [yx i i1]; exact hx
  by_cases hi : i = n - 1
  · subst hi
    exact add_pos_of_nonneg_of_pos (Finset.sum_nonneg nn) (mul_pos posl (mul_self_pos.2 hyi))
  · refine add_pos_of_pos_of_nonneg (Finset.sum_pos' nn ⟨i, Finset.mem_Ico.2 ⟨i0, by omega⟩, mul_pos (pos i i0 (by omega)) (mul_self_pos.2 hyi)⟩) (mul_nonneg (le_of_lt posl) (mul_self_nonneg _))

end FT
