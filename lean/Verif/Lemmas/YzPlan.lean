import Verif.Lemmas.Kac
import Verif.Lemmas.Accum
import Verif.Lemmas.Sqrt
import Verif.Model.YzPlan
import Mathlib.Algebra.BigOperators.Intervals
import Mathlib.Data.Int.Interval

/-! # The planned eigenvectors are orthonormal -/

namespace FT.YzP
open FT FT.Kac

section tri
variable {K : Type*} [Field K] {n : Int} {a b X Y : Int → K} {lam : K}

/-- Off-diagonal entries, zero outside the matrix. -/
def offd (n : Int) (b : Int → K) (t : Int) : K := if 0 ≤ t ∧ t < n - 1 then b t else 0

/-- `w` is an eigenvector. -/
def Rows (n : Int) (a b : Int → K) (lam : K) (w : Int → K) : Prop :=
  ∀ t, 0 ≤ t → t < n → offd n b (t - 1) * w (t - 1) + a t * w t + offd n b t * w (t + 1) = lam * w t

/-- Scaling that makes the matrix with off-diagonal entries `X`, `Y` symmetric. -/
def scal (X b : Int → K) : Nat → K
  | 0 => 1
  | t + 1 => scal X b t * X t / b t

theorem scal_ne (hb : ∀ t, 0 ≤ t → t < n - 1 → b t * b t = X t * Y t ∧ b t ≠ 0) : ∀ t : Nat, (t : Int) < n → scal X b t ≠ 0
  | 0, _ => one_ne_zero
  | t + 1, h => by
    obtain ⟨e, z⟩ := hb t (by omega) (by push_cast at h; omega)
    have hX : X t ≠ 0 := fun hX => by rw [hX, zero_mul] at e; exact z (mul_self_eq_zero.1 e)
    exact div_ne_zero (mul_ne_zero (scal_ne hb t (by push_cast at h; omega)) hX) z

/-- From an eigenvector of the unsymmetric matrix to one of the symmetric matrix. -/
theorem rows_scal (hb : ∀ t, 0 ≤ t → t < n - 1 → b t * b t = X t * Y t ∧ b t ≠ 0) {q : Int → K}
    (hq : ∀ t, 0 ≤ t → t < n → offd n X t * q (t + 1) + a t * q t + offd n Y (t - 1) * q (t - 1) = lam * q t) :
    Rows n a b lam fun t => scal X b t.toNat * q t := by
  intro t t0 tn
  have e := hq t t0 tn
  have h1 : offd n b t * (scal X b (t + 1).toNat * q (t + 1)) = scal X b t.toNat * (offd n X t * q (t + 1)) := by
    unfold offd
    by_cases h : 0 ≤ t ∧ t < n - 1
    · rw [if_pos h, if_pos h]
      obtain ⟨m, rfl⟩ := Int.eq_ofNat_of_zero_le t0
      have z := (hb m t0 h.2).2
      rw [show ((m : Int) + 1).toNat = m + 1 by omega, Int.toNat_natCast, scal]
      field_simp
    · rw [if_neg h, if_neg h]; ring
  have h2 : offd n b (t - 1) * (scal X b (t - 1).toNat * q (t - 1)) = scal X b t.toNat * (offd n Y (t - 1) * q (t - 1)) := by
    unfold offd
    by_cases h : 0 ≤ t - 1 ∧ t - 1 < n - 1
    · rw [if_pos h, if_pos h]
      obtain ⟨m, hm⟩ := Int.eq_ofNat_of_zero_le h.1
      obtain rfl : t = m + 1 := by omega
      obtain ⟨e, z⟩ := hb m (by omega) (by omega)
      rw [show (m + 1 - 1 : Int) = m by ring, show ((m : Int) + 1).toNat = m + 1 by omega, Int.toNat_natCast, scal]
      field_simp
      linear_combination scal X b m * q m * e
    · rw [if_neg h, if_neg h]; ring
  show offd n b (t - 1) * (scal X b (t - 1).toNat * q (t - 1)) + a t * (scal X b t.toNat * q t) + offd n b t * (scal X b (t + 1).toNat * q (t + 1)) = _
  rw [h1, h2]
  linear_combination scal X b t.toNat * e

/-- A solution of the backward recurrence for an eigenvalue is an eigenvector. -/
theorem rows_of_rec (hz : ∀ t, 0 ≤ t → t < n - 1 → b t ≠ 0) {u w : Int → K} (hu : Rows n a b lam u) (un : u (n - 1) ≠ 0)
    (hw : ∀ k, 1 ≤ k → k < n → b (k - 1) * w (k - 1) + a k * w k + offd n b k * w (k + 1) = lam * w k) : Rows n a b lam w := by
  have prop : ∀ m : Nat, (m : Int) < n → w (n - 1 - m) = w (n - 1) / u (n - 1) * u (n - 1 - m) ∧
      offd n b (n - 1 - m) * w (n - m) = w (n - 1) / u (n - 1) * (offd n b (n - 1 - m) * u (n - m)) := by
    intro m
    induction m with
    | zero =>
      intro _
      have : offd n b (n - 1 - (0 : Nat)) = 0 := by unfold offd; rw [if_neg (by push_cast; omega)]
      rw [this]
      exact ⟨by rw [Nat.cast_zero, sub_zero]; field_simp, by ring⟩
    | succ m ih =>
      intro hm
      push_cast at hm
      obtain ⟨i1, i2⟩ := ih (by omega)
      have r1 := hw (n - 1 - m) (by omega) (by omega)
      have r2 := hu (n - 1 - m) (by omega) (by omega)
      have eo : offd n b (n - 1 - m - 1) = b (n - 1 - m - 1) := by unfold offd; rw [if_pos (by omega)]
      have z := hz (n - 1 - m - 1) (by omega) (by omega)
      rw [show n - 1 - (m : Int) + 1 = n - m by ring] at r1 r2
      rw [eo] at r2
      have e1 : w (n - 1 - m - 1) = w (n - 1) / u (n - 1) * u (n - 1 - m - 1) := by
        apply mul_left_cancel₀ z
        rw [i2, i1] at r1
        linear_combination r1 - w (n - 1) / u (n - 1) * r2
      push_cast
      rw [show n - 1 - ((m : Int) + 1) = n - 1 - m - 1 by ring, show n - ((m : Int) + 1) = n - 1 - m by ring]
      exact ⟨e1, by rw [i1]; ring⟩
  intro t t0 tn
  by_cases h : 1 ≤ t
  · have e := hw t h tn
    rwa [show offd n b (t - 1) = b (t - 1) by unfold offd; rw [if_pos (by omega)]]
  · obtain rfl : t = 0 := by omega
    obtain ⟨i1, i2⟩ := prop (n - 1).toNat (by omega)
    rw [show n - 1 - ((n - 1).toNat : Int) = 0 by omega] at i1 i2
    rw [show n - ((n - 1).toNat : Int) = 0 + 1 by omega] at i2
    have r := hu 0 le_rfl tn
    rw [show offd n b (0 - 1) = 0 by unfold offd; rw [if_neg (by omega)]] at r ⊢
    rw [i2, i1]
    linear_combination w (n - 1) / u (n - 1) * r

/-- Eigenvectors for different eigenvalues are orthogonal. -/
theorem rows_orth {lam' : K} {w w' : Int → K} (h : Rows n a b lam w) (h' : Rows n a b lam' w') (ne : lam ≠ lam') :
    ∑ t ∈ Finset.Ico 0 n, w t * w' t = 0 := by
  rcases lt_or_ge n 1 with hn | hn
  · rw [Finset.Ico_eq_empty (by omega)]; rfl
  have tel : ∀ m : Nat, (m : Int) ≤ n → (lam - lam') * ∑ t ∈ Finset.Ico (0 : Int) m, w t * w' t = offd n b (m - 1) * (w m * w' (m - 1) - w (m - 1) * w' m) := by
    intro m
    induction m with
    | zero =>
      intro _
      rw [show offd n b (((0 : Nat) : Int) - 1) = 0 by unfold offd; rw [if_neg (by omega)]]
      simp
    | succ m ih =>
      intro hm
      push_cast at hm ⊢
      have i := ih (by omega)
      have r := h m (by omega) (by omega)
      have r' := h' m (by omega) (by omega)
      rw [sum_Ico_succ (by omega), mul_add, i, show (m : Int) + 1 - 1 = m by ring]
      linear_combination - w' m * r + w m * r'
  have e := tel n.toNat (by omega)
  rw [Int.toNat_of_nonneg (by omega), show offd n b (n - 1) = 0 by unfold offd; rw [if_neg (by omega)], zero_mul] at e
  exact (mul_eq_zero.1 e).resolve_left (sub_ne_zero.2 ne)

end tri

section entries
variable {K : Type*} [Field K]

theorem yDiag_sin {l m : Int} (h1 : 1 ≤ m) (h2 : m ≤ l) :
    (yDiag l (l - m) : K) = 2 * (l + 1) * (l + 2) + 2 * m * m + (if m = 1 then (l : K) * (l + 1) else 0) := by
  unfold yDiag gySq2l gySq2l2
  rw [if_neg (show ¬ (2 ≤ 2 * l - (l - m) + 2 ∧ 2 * l - (l - m) + 2 ≤ l) by omega), if_pos (show l + 3 ≤ 2 * l - (l - m) + 2 ∧ 2 * l - (l - m) + 2 ≤ 2 * l + 2 by omega)]
  by_cases h : m = 1
  · subst h
    rw [if_neg (by omega), if_neg (by omega), if_pos (by omega), if_pos rfl]
    push_cast; ring
  · rw [if_pos (by omega), if_neg h]
    push_cast; ring

theorem yDiag_cos {l m : Int} (h1 : 0 ≤ m) (h2 : m ≤ l) :
    (yDiag l (l + m) : K) = 2 * (l + 1) * (l + 2) + 2 * m * m - (if m = 1 then (l : K) * (l + 1) else 0) := by
  unfold yDiag gySq2l gySq2l2
  rw [if_neg (show ¬ (l + 2 ≤ 2 * l - (l + m) ∧ 2 * l - (l + m) ≤ 2 * l) by omega)]
  by_cases h0 : m = 0
  · subst h0
    rw [if_neg (by omega), if_neg (by omega), if_pos (by omega), if_neg (by omega), if_neg (by omega), if_neg (by omega)]
    push_cast; ring
  · rw [if_pos (by omega)]
    by_cases h : m = 1
    · subst h
      rw [if_neg (by omega), if_neg (by omega), if_pos rfl]
      push_cast; ring
    · rw [if_pos (by omega), if_neg h]
      push_cast; ring

variable [LinearOrder K] [IsStrictOrderedRing K] {sqrt : K → K}

theorem sqrt_int (hs : IsSqrt sqrt) {x : Int} (h : 0 < x) : sqrt (x : K) * sqrt x = x ∧ sqrt (x : K) ≠ 0 :=
  ⟨(hs x (by exact_mod_cast h.le)).2, (sqrt_pos hs (by exact_mod_cast h)).ne'⟩

theorem yOff_sin (hs : IsSqrt sqrt) {l m : Int} (h1 : 1 ≤ m) (h2 : m + 2 ≤ l) :
    yOff sqrt l (l - m - 2) * yOff sqrt l (l - m - 2) = ((l : K) + m + 1) * (l + m + 2) * ((l - m - 1) * (l - m)) ∧ yOff sqrt l (l - m - 2) ≠ 0 := by
  unfold yOff gy2l gy2l2
  rw [if_pos (by omega), if_neg (by omega), if_pos (by omega)]
  obtain ⟨e, z⟩ := sqrt_int (K := K) hs (x := (l - m - 2 + 1) * (l - m - 2 + 2)) (mul_pos (by omega) (by omega))
  obtain ⟨e', z'⟩ := sqrt_int (K := K) hs (x := (2 * l + 1 - (l - m - 2 + 2)) * (2 * l + 2 - (l - m - 2 + 2))) (mul_pos (by omega) (by omega))
  refine ⟨?_, mul_ne_zero z z'⟩
  rw [mul_mul_mul_comm, e, e']
  push_cast; ring

theorem yOff_cos (hs : IsSqrt sqrt) {l m : Int} (h1 : 0 ≤ m) (h2 : m + 2 ≤ l) :
    yOff sqrt l (l + m) * yOff sqrt l (l + m) = (if m = 0 then 2 else 1) * (((l : K) + m + 1) * (l + m + 2)) * ((l - m - 1) * (l - m)) ∧ yOff sqrt l (l + m) ≠ 0 := by
  unfold yOff gy2l gy2l2
  rw [if_neg (by omega), if_pos (show 2 ≤ 2 * l - (l + m) ∧ 2 * l - (l + m) ≤ l by omega)]
  obtain ⟨e', z'⟩ := sqrt_int (K := K) hs (x := (2 * l - (l + m) - 1) * (2 * l - (l + m))) (mul_pos (by omega) (by omega))
  by_cases h0 : m = 0
  · subst h0
    obtain ⟨e, z⟩ := sqrt_int (K := K) hs (x := 2 * (l + 1) * (l + 2)) (mul_pos (by omega) (by omega))
    rw [if_neg (by omega), if_neg (by omega), if_pos (by omega), if_pos rfl]
    refine ⟨?_, mul_ne_zero (neg_ne_zero.2 z) (neg_ne_zero.2 z')⟩
    rw [mul_mul_mul_comm, neg_mul_neg, neg_mul_neg, e, e']
    push_cast; ring
  · obtain ⟨e, z⟩ := sqrt_int (K := K) hs (x := (2 * l + 1 - (2 * l - (l + m))) * (2 * l + 2 - (2 * l - (l + m)))) (mul_pos (by omega) (by omega))
    rw [if_pos (by omega), if_neg h0]
    refine ⟨?_, mul_ne_zero (neg_ne_zero.2 z) (neg_ne_zero.2 z')⟩
    rw [mul_mul_mul_comm, neg_mul_neg, neg_mul_neg, e, e']
    push_cast; ring

end entries

section block
variable {K : Type*} [Field K] [LinearOrder K] [IsStrictOrderedRing K] {sqrt : K → K}

/-- Position of order `m` among the `2l+1` coefficients of degree `l`: sines below `l`, cosines from `l` on. -/
def posi (cosn : Bool) (l m : Int) : Int := if cosn then l + m else l - m

/-- The diagonal and off-diagonal entries of the block with the orders `m0, m0 + 2, …`. -/
def bA (K : Type*) [Ring K] (cosn : Bool) (l m0 t : Int) : K := yDiag l (posi cosn l (m0 + 2 * t))
/-- See `bA`. -/
def bB (sqrt : K → K) (cosn : Bool) (l m0 t : Int) : K := yOff sqrt l (if cosn then l + (m0 + 2 * t) else l - (m0 + 2 * t) - 2)

/-- The orders `m0, m0 + 2, …, m0 + 2 (n-1)` of a block and an index `μ` of an eigenvalue. -/
structure BlockFits (cosn : Bool) (l m0 n : Int) (μ : Int) : Prop where
  n1 : 1 ≤ n
  m00 : 0 ≤ m0
  m02 : m0 ≤ 2
  sinm : cosn = false → 1 ≤ m0
  cosm : cosn = true → m0 ≤ 1
  top : m0 + 2 * n = l + 1 ∨ m0 + 2 * n = l + 2
  mu0 : 0 ≤ μ
  mul : μ ≤ l
  par : (l - μ) % 2 = if cosn then 0 else 1
  topmu : m0 + 2 * n = l + 1 → 1 ≤ μ

/-- The unsymmetric off-diagonal entries. -/
def bX (K : Type*) [Ring K] (l m0 t : Int) : K := -((if m0 + 2 * t = 0 then 2 else 1) * ((l + ((m0 + 2 * t : Int) : K) + 1) * (l + ((m0 + 2 * t : Int) : K) + 2)))
/-- See `bX`. -/
def bY (K : Type*) [Ring K] (l m0 t : Int) : K := -((l - ((m0 + 2 * t : Int) : K) - 1) * (l - ((m0 + 2 * t : Int) : K)))

theorem block_b (hs : IsSqrt sqrt) {cosn : Bool} {l m0 n μ : Int} (h : BlockFits cosn l m0 n μ) {t : Int} (t0 : 0 ≤ t) (tn : t < n - 1) :
    bB sqrt cosn l m0 t * bB sqrt cosn l m0 t = bX K l m0 t * bY K l m0 t ∧ bB sqrt cosn l m0 t ≠ 0 := by
  have hm : m0 + 2 * t + 2 ≤ l := by rcases h.top with e | e <;> omega
  have h0 := h.m00
  unfold bB bX bY
  cases hc : cosn with
  | true =>
    rw [if_pos rfl]
    obtain ⟨e, z⟩ := yOff_cos (K := K) hs (l := l) (m := m0 + 2 * t) (by omega) hm
    exact ⟨by rw [e]; ring, z⟩
  | false =>
    rw [if_neg (by decide)]
    have := h.sinm hc
    obtain ⟨e, z⟩ := yOff_sin (K := K) hs (l := l) (m := m0 + 2 * t) (by omega) hm
    exact ⟨by rw [e, if_neg (by omega)]; ring, z⟩

/-- The coefficients of `(1+x)^(l+μ) (1-x)^(l-μ)` are an eigenvector. -/
theorem block_q {cosn : Bool} {l m0 n μ : Int} (h : BlockFits cosn l m0 n μ) {t : Int} (t0 : 0 ≤ t) (tn : t < n) :
    offd n (bX K l m0) t * co K (l + μ).toNat (l - μ).toNat (l + m0 + 2 * (t + 1)) + bA K cosn l m0 t * co K (l + μ).toNat (l - μ).toNat (l + m0 + 2 * t)
      + offd n (bY K l m0) (t - 1) * co K (l + μ).toNat (l - μ).toNat (l + m0 + 2 * (t - 1)) = zDiag l (l + μ) * co K (l + μ).toNat (l - μ).toNat (l + m0 + 2 * t) := by
  obtain ⟨h1, h2, h3, h4, h5, h6, h7, h8, h9, h10⟩ := h
  have ha : (((l + μ).toNat : Nat) : K) = l + μ := by
    have : (((l + μ).toNat : Int) : K) = ((l + μ : Int) : K) := by rw [Int.toNat_of_nonneg (by omega)]
    push_cast at this; exact this
  have hcc : (((l - μ).toNat : Nat) : K) = l - μ := by
    have : (((l - μ).toNat : Int) : K) = ((l - μ : Int) : K) := by rw [Int.toNat_of_nonneg (by omega)]
    push_cast at this; exact this
  have flip : ∀ k, co K (l + μ).toNat (l - μ).toNat (2 * l - k) = (if cosn then 1 else -1) * co K (l + μ).toNat (l - μ).toNat k := by
    intro k
    have := co_flip (K := K) (l + μ).toNat (l - μ).toNat k
    rw [show (((l + μ).toNat : Int) + (l - μ).toNat - k) = 2 * l - k by omega] at this
    rw [this]
    congr 1
    cases cosn with
    | true => rw [if_pos rfl] at h9 ⊢; exact Even.neg_one_pow (by rw [Nat.even_iff]; omega)
    | false => rw [if_neg (by decide)] at h9 ⊢; exact Odd.neg_one_pow (by rw [Nat.odd_iff]; omega)
  have above : l < m0 + 2 * t + 2 → co K (l + μ).toNat (l - μ).toNat (l + m0 + 2 * (t + 1)) = 0 := fun h => co_above _ _ (by omega)
  have rec2 := co_rec2 (K := K) (l + μ).toNat (l - μ).toNat (l + m0 + 2 * t)
  rw [ha, hcc, show l + m0 + 2 * t + 2 = l + m0 + 2 * (t + 1) by ring, show l + m0 + 2 * t - 2 = l + m0 + 2 * (t - 1) by ring] at rec2
  generalize hp : co K (l + μ).toNat (l - μ).toNat = p at *
  have hX : offd n (bX K l m0) t * p (l + m0 + 2 * (t + 1)) = bX K l m0 t * p (l + m0 + 2 * (t + 1)) := by
    unfold offd
    by_cases c : 0 ≤ t ∧ t < n - 1
    · rw [if_pos c]
    · rw [if_neg c, above (by rcases h6 with e | e <;> omega)]; ring
  have hA : bA K cosn l m0 t = 2 * (l + 1) * (l + 2) + 2 * ((m0 + 2 * t : Int) : K) * ((m0 + 2 * t : Int) : K)
      - (if m0 + 2 * t = 1 then (if cosn then (1 : K) else -1) * (l * (l + 1)) else 0) := by
    unfold bA posi
    cases cosn with
    | true =>
      simp only [if_true]
      rw [yDiag_cos (by omega) (by omega)]; simp only [one_mul]
    | false =>
      have := h4 rfl
      simp only [Bool.false_eq_true, if_false]
      rw [yDiag_sin (by omega) (by omega)]
      split_ifs <;> ring
  rw [hX, hA]
  unfold zDiag bX
  by_cases c : t = 0
  · subst c
    rw [show offd n (bY K l m0) (0 - 1) = 0 by unfold offd; rw [if_neg (by omega)]]
    have f0 := flip (l + m0 + 2 * 0 - 2 + (2 - m0) + (2 - m0))
    obtain rfl | rfl | rfl : m0 = 0 ∨ m0 = 1 ∨ m0 = 2 := by omega
    · have hc : cosn = true := by
        cases hc : cosn with
        | true => rfl
        | false => exact absurd (h4 hc) (by omega)
      have f := flip (l + 0 + 2 * (0 + 1))
      rw [show 2 * l - (l + 0 + 2 * (0 + 1)) = l + 0 + 2 * (0 - 1) by ring, hc, if_pos rfl, one_mul] at f
      rw [f] at rec2
      rw [if_pos (by omega), if_neg (by omega)]
      push_cast at rec2 ⊢
      linear_combination -rec2
    · have f := flip (l + 1 + 2 * 0)
      rw [show 2 * l - (l + 1 + 2 * 0) = l + 1 + 2 * (0 - 1) by ring] at f
      rw [f] at rec2
      rw [if_neg (by omega), if_pos (by omega)]
      push_cast at rec2 ⊢
      linear_combination -rec2
    · have hc : cosn = false := by
        cases hc : cosn with
        | false => rfl
        | true => exact absurd (h5 hc) (by omega)
      have f := flip (l + 2 + 2 * (0 - 1))
      rw [show 2 * l - (l + 2 + 2 * (0 - 1)) = l + 2 + 2 * (0 - 1) by ring, hc, if_neg (by decide)] at f
      have z : p (l + 2 + 2 * (0 - 1)) = 0 := by linarith
      rw [z] at rec2
      rw [if_neg (by omega), if_neg (by omega)]
      push_cast at rec2 ⊢
      linear_combination -rec2
  · rw [show offd n (bY K l m0) (t - 1) = bY K l m0 (t - 1) by unfold offd; rw [if_pos (by omega)], if_neg (by omega), if_neg (by omega)]
    unfold bY
    push_cast at rec2 ⊢
    linear_combination -rec2

theorem block_top {cosn : Bool} {l m0 n μ : Int} (h : BlockFits cosn l m0 n μ) : co K (l + μ).toNat (l - μ).toNat (l + m0 + 2 * (n - 1)) ≠ 0 := by
  have a0 := h.mu0
  have a1 := h.mul
  rcases h.top with e | e
  · have f := co_flip (K := K) (l + μ).toNat (l - μ).toNat 1
    rw [show (((l + μ).toNat : Int) + (l - μ).toNat - 1) = l + m0 + 2 * (n - 1) by omega, co_one] at f
    rw [f]
    have t := h.topmu e
    have : (((l + μ).toNat : Nat) : K) - ((l - μ).toNat : Nat) = ((2 * μ : Int) : K) := by
      have : (((l + μ).toNat - (l - μ).toNat : Int) : K) = ((2 * μ : Int) : K) := by congr 1; omega
      rw [← this]; push_cast; ring
    rw [this]
    exact mul_ne_zero (pow_ne_zero _ (by simp)) (by rw [Int.cast_ne_zero]; omega)
  · have f := co_top (K := K) (l + μ).toNat (l - μ).toNat
    rw [show (((l + μ).toNat : Int) + (l - μ).toNat) = l + m0 + 2 * (n - 1) by omega] at f
    rw [f]
    exact pow_ne_zero _ (by simp)

/-- Solutions of the recurrence are eigenvectors of the block. -/
theorem block_rows (hs : IsSqrt sqrt) {cosn : Bool} {l m0 n μ : Int} (h : BlockFits cosn l m0 n μ) {w : Int → K}
    (hw : ∀ k, 1 ≤ k → k < n → bB sqrt cosn l m0 (k - 1) * w (k - 1) + bA K cosn l m0 k * w k + offd n (bB sqrt cosn l m0) k * w (k + 1) = zDiag l (l + μ) * w k) :
    Rows n (bA K cosn l m0) (bB sqrt cosn l m0) (zDiag l (l + μ)) w := by
  have hb := fun t t0 tn => block_b (K := K) hs h (t := t) t0 tn
  have n1 := h.n1
  refine rows_of_rec (fun t t0 tn => (hb t t0 tn).2) (rows_scal (q := fun t => co K (l + μ).toNat (l - μ).toNat (l + m0 + 2 * t)) hb fun t t0 tn => block_q h t0 tn) ?_ hw
  exact mul_ne_zero (scal_ne hb _ (by omega)) (block_top h)

end block

section plan
variable {K : Type*}

theorem fillB_spec (rev : Bool) (junk : Int → K) {n : Int} (n0 : 0 ≤ n) (g : Int → K) :
    ∃ x, fillB rev junk n g = some x ∧ x.size = n.toNat ∧ ∀ t, 0 ≤ t → t < n → x.val t = g (if rev then n - 1 - t else t) := by
  obtain ⟨x, e, s, v⟩ := forUp_spec (body := fun i (x : Buf K) => x.wr (if rev then n - 1 - i else i) (g i)) (lo := 0) (hi := n) (s := ⟨n.toNat, junk⟩)
    (fun i x => x.size = n.toNat ∧ ∀ t, 0 ≤ t → t < n → (if rev then n - 1 - t else t) < i → x.val t = g (if rev then n - 1 - t else t))
    ⟨rfl, fun t t0 tn h => by cases rev <;> simp at h <;> omega⟩
    (fun i i0 hi x ⟨s, v⟩ => by
      have hp : 0 ≤ (if rev then n - 1 - i else i) ∧ (if rev then n - 1 - i else i) < n := by cases rev <;> simp <;> omega
      refine ⟨_, Buf.wr_of hp.1 (by rw [s]; omega), s, fun t t0 tn h => ?_⟩
      show Function.update x.val (if rev then n - 1 - i else i) (g i) t = _
      by_cases c : t = (if rev then n - 1 - i else i)
      · rw [c, Function.update_self]
        congr 1
        cases rev <;> simp
      · rw [Function.update_of_ne c]
        exact v t t0 tn (by cases rev <;> simp at h c ⊢ <;> omega))
  refine ⟨x, e, s, fun t t0 tn => v t t0 tn (by cases rev <;> simp <;> omega)⟩

variable [Field K] [DecidableEq K]

theorem symEig_spec (junk : Int → K) {T : STri K} {lambda : Buf K} (sign : Int) (n1 : 1 ≤ T.n) (ha : T.n ≤ T.a.size) (hb : T.n - 1 ≤ T.b.size) (hl : T.n ≤ lambda.size)
    (hz : ∀ t, 0 ≤ t → t < T.n - 1 → T.b.val t ≠ 0) :
    ∃ F, symEig junk T lambda sign = some F ∧ F.n = T.n ∧ F.sign = sign ∧ F.A.size = T.n.toNat ∧ F.B.size = T.n.toNat ∧ F.C.size = T.n.toNat ∧ F.lambda.size = T.n.toNat ∧
      (∀ t, 0 ≤ t → t < T.n → F.lambda.val t = lambda.val t) ∧
      ∀ k, 1 ≤ k → k < T.n → F.A.val k = 1 / T.b.val (k - 1) ∧ F.B.val k = -T.a.val k ∧ F.C.val k = -offd T.n T.b.val k := by
  obtain ⟨a, b, n⟩ := T
  simp only at n1 ha hb hl hz ⊢
  unfold symEig
  simp only
  have start : ∃ A B : Buf K, (if n > 1 then (b.rd (n - 2)).bind fun b => (divC 1 b).bind fun q => ((⟨n.toNat, fun _ => 0⟩ : Buf K).wr (n - 1) q).bind fun A =>
      (a.rd (n - 1)).bind fun a => ((⟨n.toNat, fun _ => 0⟩ : Buf K).wr (n - 1) (-a)).map fun B => (A, B)
    else some (⟨n.toNat, fun _ => 0⟩, ⟨n.toNat, fun _ => 0⟩)) = some (A, B) ∧ A.size = n.toNat ∧ B.size = n.toNat ∧
      (1 < n → A.val (n - 1) = 1 / b.val (n - 2) ∧ B.val (n - 1) = -a.val (n - 1)) := by
    by_cases h : n > 1
    · rw [if_pos h, Buf.rd_of (by omega) (by omega)]
      simp only [Option.bind_some]
      unfold divC
      rw [if_neg (hz (n - 2) (by omega) (by omega))]
      simp only [Option.bind_some]
      rw [Buf.wr_of (by omega) (by simp only; omega), Option.bind_some, Buf.rd_of (by omega) (by omega), Option.bind_some, Buf.wr_of (by omega) (by simp only; omega)]
      exact ⟨_, _, rfl, rfl, rfl, fun _ => ⟨Function.update_self .., Function.update_self ..⟩⟩
    · rw [if_neg h]
      exact ⟨_, _, rfl, rfl, rfl, fun h' => absurd h' h⟩
  obtain ⟨A0, B0, e0, sA, sB, v0⟩ := start
  rw [e0, Option.bind_some]
  obtain ⟨s, e, ⟨zA, zB, zC, v⟩⟩ := forDown_spec (body := fun i (s : Buf K × Buf K × Buf K) => (b.rd (i - 1)).bind fun b' => (divC 1 b').bind fun q => (s.1.wr i q).bind fun A =>
      (a.rd i).bind fun a => (s.2.1.wr i (-a)).bind fun B =>
      (b.rd i).bind fun c => (s.2.2.wr i (-c)).map fun C => (A, B, C)) (lo := 1) (hi := n - 2) (s := (A0, B0, (⟨n.toNat, fun _ => 0⟩ : Buf K)))
    (fun i s => s.1.size = n.toNat ∧ s.2.1.size = n.toNat ∧ s.2.2.size = n.toNat ∧
      ∀ k, 1 ≤ k → i < k → k < n → s.1.val k = 1 / b.val (k - 1) ∧ s.2.1.val k = -a.val k ∧ s.2.2.val k = -offd n b.val k)
    ⟨sA, sB, rfl, fun k k1 ik kn => by
      obtain rfl : k = n - 1 := by omega
      obtain ⟨p, q⟩ := v0 (by omega)
      refine ⟨by rw [p]; congr 2; ring, q, ?_⟩
      unfold offd
      rw [if_neg (by omega), neg_zero]⟩
    (fun i i1 i2 s ⟨zA, zB, zC, v⟩ => by
      rw [Buf.rd_of (i := i - 1) (by omega) (by omega), Option.bind_some]
      unfold divC
      rw [if_neg (hz (i - 1) (by omega) (by omega))]
      simp only [Option.bind_some]
      rw [Buf.wr_of (by omega) (by omega), Option.bind_some, Buf.rd_of (by omega) (by omega), Option.bind_some, Buf.wr_of (by omega) (by omega), Option.bind_some,
        Buf.rd_of (by omega) (by omega), Option.bind_some, Buf.wr_of (by omega) (by omega)]
      refine ⟨_, rfl, zA, zB, zC, fun k k1 ik kn => ?_⟩
      simp only
      by_cases c : k = i
      · subst c
        rw [Function.update_self, Function.update_self, Function.update_self]
        refine ⟨rfl, rfl, ?_⟩
        unfold offd
        rw [if_pos (by omega)]
      · rw [Function.update_of_ne c, Function.update_of_ne c, Function.update_of_ne c]
        exact v k k1 (by omega) kn)
  rw [e, Option.bind_some, sweepUp_eq lambda.val le_rfl (by simp only; omega) (fun i i0 i1 => Buf.rd_of (by omega) (by omega))]
  refine ⟨_, rfl, rfl, rfl, zA, zB, zC, rfl, fun t t0 tn => mix_val_in t0 tn, fun k k1 kn => v k k1 ?_ kn⟩
  omega

end plan
end FT.YzP
