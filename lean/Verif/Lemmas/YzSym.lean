import Verif.Lemmas.KacDual

/-! # The planned blocks are mutually inverse -/

namespace FT.YzP
open FT FT.Kac

section tri
variable {K : Type*} [Field K] {n : Int} {a b : Int → K} {lam : K}

/-- Eigenvectors for the same eigenvalue are proportional. -/
theorem rows_prop (hz : ∀ t, 0 ≤ t → t < n - 1 → b t ≠ 0) {u w : Int → K} (hu : Rows n a b lam u) (un : u (n - 1) ≠ 0) (hw : Rows n a b lam w) {t : Int} (t0 : 0 ≤ t) (tn : t < n) :
    w t = w (n - 1) / u (n - 1) * u t := by
  have prop : ∀ m : Nat, (m : Int) < n → w (n - 1 - m) = w (n - 1) / u (n - 1) * u (n - 1 - m) ∧
      offd n b (n - 1 - m) * w (n - m) = w (n - 1) / u (n - 1) * (offd n b (n - 1 - m) * u (n - m)) := by
    intro m
    induction m with
    | zero =>
      intro _
      have : offd n b (n - 1 - (0 : Nat)) = 0 := by unfold offd; rw [if_neg (by push_cast; omega)]
      rw [this]
      exact ⟨by rw [Nat.cast_zero, sub_zero]; field_simp, by ring⟩
    | succ m ih =>
      intro hm
      push_cast at hm
      obtain ⟨i1, i2⟩ := ih (by omega)
      have r1 := hw (n - 1 - m) (by omega) (by omega)
      have r2 := hu (n - 1 - m) (by omega) (by omega)
      have eo : offd n b (n - 1 - m - 1) = b (n - 1 - m - 1) := by unfold offd; rw [if_pos (by omega)]
      have z := hz (n - 1 - m - 1) (by omega) (by omega)
      rw [show n - 1 - (m : Int) + 1 = n - m by ring] at r1 r2
      rw [eo] at r1 r2
      have e1 : w (n - 1 - m - 1) = w (n - 1) / u (n - 1) * u (n - 1 - m - 1) := by
        apply mul_left_cancel₀ z
        rw [i2, i1] at r1
        linear_combination r1 - w (n - 1) / u (n - 1) * r2
      push_cast
      rw [show n - 1 - ((m : Int) + 1) = n - 1 - m - 1 by ring, show n - ((m : Int) + 1) = n - 1 - m by ring]
      exact ⟨e1, by rw [i1]; ring⟩
  have := (prop (n - 1 - t).toNat (by omega)).1
  rwa [show n - 1 - ((n - 1 - t).toNat : Int) = t by omega] at this

end tri

section ord
variable {K : Type*} [Field K] [LinearOrder K] [IsStrictOrderedRing K] {sqrt : K → K}

theorem yOff_pos_sin (hs : IsSqrt sqrt) {l m : Int} (h1 : 1 ≤ m) (h2 : m + 2 ≤ l) : 0 < yOff sqrt l (l - m - 2) := by
  unfold yOff gy2l gy2l2
  rw [if_pos (by omega), if_neg (by omega), if_pos (by omega)]
  exact mul_pos (sqrt_pos hs (by exact_mod_cast mul_pos (by omega) (by omega))) (sqrt_pos hs (by exact_mod_cast mul_pos (by omega) (by omega)))

theorem yOff_pos_cos (hs : IsSqrt sqrt) {l m : Int} (h1 : 0 ≤ m) (h2 : m + 2 ≤ l) : 0 < yOff sqrt l (l + m) := by
  unfold yOff gy2l gy2l2
  rw [if_neg (by omega), if_pos (show 2 ≤ 2 * l - (l + m) ∧ 2 * l - (l + m) ≤ l by omega)]
  have p := sqrt_pos hs (show (0 : K) < (((2 * l - (l + m) - 1) * (2 * l - (l + m)) : Int) : K) by exact_mod_cast mul_pos (by omega) (by omega))
  by_cases h0 : m = 0
  · subst h0
    rw [if_neg (by omega), if_neg (by omega), if_pos (by omega), neg_mul_neg]
    exact mul_pos (sqrt_pos hs (by exact_mod_cast mul_pos (by omega) (by omega))) p
  · rw [if_pos (by omega), neg_mul_neg]
    exact mul_pos (sqrt_pos hs (by exact_mod_cast mul_pos (by omega) (by omega))) p

theorem block_b_pos (hs : IsSqrt sqrt) {cosn : Bool} {l m0 n μ : Int} (h : BlockFits cosn l m0 n μ) {t : Int} (t0 : 0 ≤ t) (tn : t < n - 1) : 0 < bB sqrt cosn l m0 t := by
  have hm : m0 + 2 * t + 2 ≤ l := by rcases h.top with e | e <;> omega
  have h0 := h.m00
  unfold bB
  cases hc : cosn with
  | true => rw [if_pos rfl]; exact yOff_pos_cos hs (by omega) hm
  | false =>
    rw [if_neg (by decide)]
    have := h.sinm hc
    exact yOff_pos_sin hs (by omega) hm

/-- The coefficients that belong to the orders of a block. -/
noncomputable def qv (K : Type*) [Field K] (l m0 μ t : Int) : K := co K (l + μ).toNat (l - μ).toNat (l + m0 + 2 * t)

/-- The eigenvector of the symmetric block. -/
noncomputable def uv (sqrt : K → K) (cosn : Bool) (l m0 μ t : Int) : K := scal (bX K l m0) (bB sqrt cosn l m0) t.toNat * qv K l m0 μ t

theorem uv_rows (hs : IsSqrt sqrt) {cosn : Bool} {l m0 n μ : Int} (h : BlockFits cosn l m0 n μ) :
    Rows n (bA K cosn l m0) (bB sqrt cosn l m0) (zDiag l (l + μ)) (uv sqrt cosn l m0 μ) ∧ uv sqrt cosn l m0 μ (n - 1) ≠ 0 := by
  have hb := fun t t0 tn => block_b (K := K) hs h (t := t) t0 tn
  have n1 := h.n1
  exact ⟨rows_scal (q := fun t => co K (l + μ).toNat (l - μ).toNat (l + m0 + 2 * t)) hb fun t t0 tn => block_q h t0 tn,
    mul_ne_zero (scal_ne hb _ (by omega)) (block_top h)⟩

/-- Consecutive coefficients have opposite signs. -/
def Alternates (K : Type*) [Field K] [LinearOrder K] (l m0 n μ : Int) : Prop :=
  ∀ t, 0 ≤ t → t < n - 1 → ∃ α β : K, 0 < α ∧ 0 < β ∧ α * qv K l m0 μ (t + 1) = -(β * qv K l m0 μ t)

/-- The entries of the eigenvector all have the same sign. -/
theorem uv_same (hs : IsSqrt sqrt) {cosn : Bool} {l m0 n μ : Int} (h : BlockFits cosn l m0 n μ) (ha : Alternates K l m0 n μ) {t : Int} (t0 : 0 ≤ t) (tn : t < n) :
    0 < uv sqrt cosn l m0 μ 0 * uv sqrt cosn l m0 μ t := by
  have n1 := h.n1
  have hb := fun t t0 tn => block_b (K := K) hs h (t := t) t0 tn
  have nz : ∀ m : Nat, (m : Int) < n → qv K l m0 μ (n - 1 - m) ≠ 0 := by
    intro m
    induction m with
    | zero => intro _; rw [Nat.cast_zero, sub_zero]; exact block_top h
    | succ m ih =>
      intro hm
      push_cast at hm ⊢
      obtain ⟨α, β, hα, hβ, e⟩ := ha (n - 1 - (m + 1)) (by omega) (by omega)
      intro z
      rw [z, mul_zero, neg_zero, show n - 1 - ((m : Int) + 1) + 1 = n - 1 - m by ring] at e
      exact ih (by omega) ((mul_eq_zero.1 e).resolve_left hα.ne')
  have step : ∀ t, 0 ≤ t → t < n - 1 → 0 < uv sqrt cosn l m0 μ t * uv sqrt cosn l m0 μ (t + 1) := by
    intro t t0 tn
    obtain ⟨α, β, hα, hβ, e⟩ := ha t t0 tn
    have z := nz (n - 1 - t).toNat (by omega)
    rw [show n - 1 - ((n - 1 - t).toNat : Int) = t by omega] at z
    have hc := scal_ne (X := bX K l m0) (b := bB sqrt cosn l m0) hb t.toNat (by omega)
    have bp := block_b_pos hs h t0 tn
    have hX : bX K l m0 t < 0 := by
      have := h.m00
      have := h.mul
      have := h.mu0
      unfold bX
      have p : (0 : K) < (l + ((m0 + 2 * t : Int) : K) + 1) * (l + ((m0 + 2 * t : Int) : K) + 2) := by exact_mod_cast mul_pos (by omega) (by omega)
      rw [neg_lt_zero]
      split_ifs
      · exact mul_pos (by norm_num) p
      · exact mul_pos one_pos p
    unfold uv
    rw [show (t + 1).toNat = t.toNat + 1 by omega, scal, Int.toNat_of_nonneg t0]
    have e' : qv K l m0 μ (t + 1) = -(β / α * qv K l m0 μ t) := by field_simp; linear_combination e
    rw [e', show scal (bX K l m0) (bB sqrt cosn l m0) t.toNat * qv K l m0 μ t * (scal (bX K l m0) (bB sqrt cosn l m0) t.toNat * bX K l m0 t / bB sqrt cosn l m0 t * -(β / α * qv K l m0 μ t))
      = (scal (bX K l m0) (bB sqrt cosn l m0) t.toNat * qv K l m0 μ t) ^ 2 * (-bX K l m0 t / bB sqrt cosn l m0 t * (β / α)) by ring]
    exact mul_pos (pow_pos_of_ne (mul_ne_zero hc z)) (mul_pos (div_pos (neg_pos.2 hX) bp) (div_pos hβ hα))
  obtain ⟨m, rfl⟩ := Int.eq_ofNat_of_zero_le t0
  clear t0
  induction m with
  | zero =>
    have z := nz (n - 1).toNat (by omega)
    rw [show n - 1 - ((n - 1).toNat : Int) = 0 by omega] at z
    have hc := scal_ne (X := bX K l m0) (b := bB sqrt cosn l m0) hb 0 (by push_cast; omega)
    rw [Nat.cast_zero, ← sq]
    exact pow_pos_of_ne (mul_ne_zero hc z)
  | succ m ih =>
    push_cast at tn ⊢
    have i := ih (by omega)
    have s := step m (by omega) (by omega)
    have hz : uv sqrt cosn l m0 μ m ≠ 0 := fun hz => by rw [hz, zero_mul] at s; exact lt_irrefl _ s
    have := mul_pos i s
    rw [show uv sqrt cosn l m0 μ 0 * uv sqrt cosn l m0 μ m * (uv sqrt cosn l m0 μ m * uv sqrt cosn l m0 μ (m + 1)) = uv sqrt cosn l m0 μ m ^ 2 * (uv sqrt cosn l m0 μ 0 * uv sqrt cosn l m0 μ (m + 1)) by ring] at this
    exact (pos_iff_pos_of_mul_pos this).1 (pow_pos_of_ne hz)
where
  pow_pos_of_ne {x : K} (h : x ≠ 0) : 0 < x ^ 2 := by positivity

end ord

section alt
variable {K : Type*} [Field K] [LinearOrder K] [IsStrictOrderedRing K]

theorem q_rec {l μ : Int} (h0 : 0 ≤ μ) (h1 : μ ≤ l) (k : Int) :
    ((k : K) + 1) * co K (l + μ).toNat (l - μ).toNat (k + 1) + (2 * l - k + 1) * co K (l + μ).toNat (l - μ).toNat (k - 1) = 2 * μ * co K (l + μ).toNat (l - μ).toNat k := by
  have ha : (((l + μ).toNat : Nat) : K) = l + μ := by
    have : (((l + μ).toNat : Int) : K) = ((l + μ : Int) : K) := by rw [Int.toNat_of_nonneg (by omega)]
    push_cast at this; exact this
  have hcc : (((l - μ).toNat : Nat) : K) = l - μ := by
    have : (((l - μ).toNat : Int) : K) = ((l - μ : Int) : K) := by rw [Int.toNat_of_nonneg (by omega)]
    push_cast at this; exact this
  have r := co_rec (K := K) (l + μ).toNat (l - μ).toNat k
  rw [ha, hcc] at r
  linear_combination r

theorem q_rec2 {l μ : Int} (h0 : 0 ≤ μ) (h1 : μ ≤ l) (k : Int) :
    ((k : K) + 1) * (k + 2) * co K (l + μ).toNat (l - μ).toNat (k + 2) + ((k + 1) * (2 * l - k) + (2 * l - k + 1) * k) * co K (l + μ).toNat (l - μ).toNat k
      + (2 * l - k + 1) * (2 * l - k + 2) * co K (l + μ).toNat (l - μ).toNat (k - 2) = 4 * μ * μ * co K (l + μ).toNat (l - μ).toNat k := by
  have r0 := q_rec (K := K) h0 h1 k
  have r1 := q_rec (K := K) h0 h1 (k + 1)
  have r2 := q_rec (K := K) h0 h1 (k - 1)
  rw [show k + 1 + 1 = k + 2 by ring, show k + 1 - 1 = k by ring] at r1
  rw [show k - 1 + 1 = k by ring, show k - 1 - 1 = k - 2 by ring] at r2
  push_cast at r1 r2
  linear_combination (2 * μ : K) * r0 + (k + 1) * r1 + (2 * l - k + 1) * r2

theorem q_above {l μ : Int} (h0 : 0 ≤ μ) (h1 : μ ≤ l) {k : Int} (h : 2 * l < k) : co K (l + μ).toNat (l - μ).toNat k = 0 := co_above _ _ (by omega)

theorem ne_cast {x : Int} (h : 0 < x) : (x : K) ≠ 0 := by exact_mod_cast h.ne'

/-- `μ = 0`. -/
theorem alt_zero {l m0 n : Int} (hl : 0 ≤ l) (h0 : 0 ≤ m0) (ht : l + m0 + 2 * n ≤ 2 * l + 2) : Alternates K l m0 n 0 := by
  intro t t0 tn
  refine ⟨((l + m0 + 2 * t + 2 : Int) : K), ((2 * l - (l + m0 + 2 * t) : Int) : K), by exact_mod_cast (by omega), by exact_mod_cast (by omega), ?_⟩
  have r := q_rec (K := K) le_rfl hl (l + m0 + 2 * t + 1)
  unfold qv
  rw [show l + m0 + 2 * t + 1 + 1 = l + m0 + 2 * (t + 1) by ring, show l + m0 + 2 * t + 1 - 1 = l + m0 + 2 * t by ring] at r
  push_cast at r ⊢
  linear_combination r

/-- `μ = 1`, even distance from the last but one coefficient. -/
theorem q_one {l : Int} (hl : 1 ≤ l) (j : Nat) : ((2 * l - 1 - 2 * j : K) + 1) * co K (l + 1).toNat (l - 1).toNat (2 * l - 1 - 2 * j + 2) = -((2 * j : K) * co K (l + 1).toNat (l - 1).toNat (2 * l - 1 - 2 * j)) := by
  induction j with
  | zero => rw [q_above (μ := 1) (by omega) hl (by push_cast; omega)]; push_cast; ring
  | succ j ih =>
    have r := q_rec2 (K := K) (μ := 1) (by omega) hl (2 * l - 1 - 2 * j)
    rw [show 2 * l - 1 - 2 * (j : Int) - 2 = 2 * l - 1 - 2 * ((j + 1 : Nat) : Int) by push_cast; ring] at r
    rw [show 2 * l - 1 - 2 * ((j + 1 : Nat) : Int) + 2 = 2 * l - 1 - 2 * (j : Int) by push_cast; ring]
    have z : ((2 * j + 3 : Int) : K) ≠ 0 := ne_cast (by omega)
    apply mul_left_cancel₀ z
    push_cast at r ih ⊢
    linear_combination r - (2 * (l : K) - 1 - 2 * j + 2) * ih

theorem alt_one_odd {l m0 n : Int} (hl : 1 ≤ l) (h0 : 0 ≤ m0) (ht : m0 + 2 * n = l + 1) : Alternates K l m0 n 1 := by
  intro t t0 tn
  have r := q_one (K := K) hl (n - 1 - t).toNat
  have e : (((n - 1 - t).toNat : Nat) : K) = ((n - 1 - t : Int) : K) := by
    rw [← Int.cast_natCast, Int.toNat_of_nonneg (by omega)]
  rw [show 2 * l - 1 - 2 * ((n - 1 - t).toNat : Int) = l + m0 + 2 * t by omega, e, show l + m0 + 2 * t + 2 = l + m0 + 2 * (t + 1) by ring] at r
  refine ⟨((2 * l - 1 - 2 * (n - 1 - t) + 1 : Int) : K), ((2 * (n - 1 - t) : Int) : K), by exact_mod_cast (by omega), by exact_mod_cast (by omega), ?_⟩
  unfold qv
  push_cast at r ⊢
  linear_combination r

/-- `μ = 1`: every coefficient is a multiple of the one before. -/
theorem q_one_even {l : Int} (hl : 1 ≤ l) {j : Nat} (hj : 2 * (j : Int) < 2 * l) :
    (2 * l - 2 * j : K) * co K (l + 1).toNat (l - 1).toNat (2 * l - 2 * j) = (l - 2 * j) * co K (l + 1).toNat (l - 1).toNat (2 * l - 2 * j - 1) := by
  have r := q_rec (K := K) (μ := 1) (by omega) hl (2 * l - 2 * j)
  have o := q_one (K := K) hl j
  rw [show 2 * l - 1 - 2 * (j : Int) + 2 = 2 * l - 2 * j + 1 by ring, show 2 * l - 1 - 2 * (j : Int) = 2 * l - 2 * j - 1 by ring] at o
  push_cast at r o
  linear_combination (-(1 : K) / 2) * (2 * l - 2 * j) * r + (1 / 2) * ((2 * l - 2 * j) + 1) * o

theorem alt_one_even {l m0 n : Int} (hl : 1 ≤ l) (h0 : 1 ≤ m0) (ht : m0 + 2 * n = l + 2) : Alternates K l m0 n 1 := by
  intro t t0 tn
  have e : (((n - 1 - t).toNat : Nat) : K) = ((n - 1 - t : Int) : K) := by
    rw [← Int.cast_natCast, Int.toNat_of_nonneg (by omega)]
  have e2 : (((n - 2 - t).toNat : Nat) : K) = ((n - 2 - t : Int) : K) := by
    rw [← Int.cast_natCast, Int.toNat_of_nonneg (by omega)]
  have r1 := q_one_even (K := K) hl (j := (n - 1 - t).toNat) (by omega)
  have r2 := q_one_even (K := K) hl (j := (n - 2 - t).toNat) (by omega)
  have o := q_one (K := K) hl (n - 1 - t).toNat
  have c0 : (2 * (n : K)) = l + 2 - m0 := by have : ((m0 + 2 * n : Int) : K) = ((l + 2 : Int) : K) := by rw [ht]
                                             push_cast at this; linear_combination this
  rw [show 2 * l - 1 - 2 * ((n - 1 - t).toNat : Int) + 2 = l + m0 + 2 * t + 1 by omega, show 2 * l - 1 - 2 * ((n - 1 - t).toNat : Int) = l + m0 + 2 * t - 1 by omega, e] at o
  rw [show 2 * l - 2 * ((n - 1 - t).toNat : Int) = l + m0 + 2 * t by omega, e] at r1
  rw [show 2 * l - 2 * ((n - 2 - t).toNat : Int) = l + m0 + 2 * (t + 1) by omega, e2, show l + m0 + 2 * (t + 1) - 1 = l + m0 + 2 * t + 1 by ring] at r2
  refine ⟨((l + m0 + 2 * t + 2 : Int) : K) * ((m0 + 2 * t : Int) : K), ((l - m0 - 2 * t : Int) : K) * ((m0 + 2 * t + 2 : Int) : K),
    mul_pos (by exact_mod_cast (by omega)) (by exact_mod_cast (by omega)), mul_pos (by exact_mod_cast (by omega)) (by exact_mod_cast (by omega)), ?_⟩
  unfold qv
  have z : ((l + m0 + 2 * t : Int) : K) ≠ 0 := ne_cast (by omega)
  apply mul_left_cancel₀ z
  generalize co K (l + 1).toNat (l - 1).toNat (l + m0 + 2 * t + 1) = p1 at *
  generalize co K (l + 1).toNat (l - 1).toNat (l + m0 + 2 * t - 1) = p2 at *
  push_cast at r1 r2 o ⊢
  have r1' : ((l : K) + m0 + 2 * t) * co K (l + 1).toNat (l - 1).toNat (l + m0 + 2 * t) = (m0 + 2 * t) * p2 := by linear_combination r1 + (co K (l + 1).toNat (l - 1).toNat (l + m0 + 2 * t) - p2) * c0
  have r2' : ((l : K) + m0 + 2 * t + 2) * co K (l + 1).toNat (l - 1).toNat (l + m0 + 2 * (t + 1)) = (m0 + 2 * t + 2) * p1 := by linear_combination r2 + (co K (l + 1).toNat (l - 1).toNat (l + m0 + 2 * (t + 1)) - p1) * c0
  have o' : ((l : K) + m0 + 2 * t) * p1 = -((l - m0 - 2 * t) * p2) := by linear_combination o + (p1 - p2) * c0
  linear_combination ((l : K) + m0 + 2 * t) * (m0 + 2 * t) * r2' + (m0 + 2 * t) * (m0 + 2 * t + 2) * o' + (l - m0 - 2 * t) * (m0 + 2 * t + 2) * r1'

/-- `μ = 2`. -/
theorem q_two {l : Int} (hl : 2 ≤ l) (j : Nat) (hj : 2 * (j : Int) < l - 1) :
    ((2 * l - 2 * j : K)) * (l - 1 - 2 * j) * co K (l + 2).toNat (l - 2).toNat (2 * l - 1 - 2 * j + 2) = -((2 * j : K) * (l + 1 - 2 * j) * co K (l + 2).toNat (l - 2).toNat (2 * l - 1 - 2 * j)) := by
  induction j with
  | zero => rw [q_above (μ := 2) (by omega) hl (by push_cast; omega)]; push_cast; ring
  | succ j ih =>
    have i := ih (by push_cast at hj; omega)
    have r := q_rec2 (K := K) (μ := 2) (by omega) hl (2 * l - 1 - 2 * j)
    rw [show 2 * l - 1 - 2 * (j : Int) - 2 = 2 * l - 1 - 2 * ((j + 1 : Nat) : Int) by push_cast; ring] at r
    rw [show 2 * l - 1 - 2 * ((j + 1 : Nat) : Int) + 2 = 2 * l - 1 - 2 * (j : Int) by push_cast; ring]
    have z : ((2 * j + 3 : Int) : K) ≠ 0 := ne_cast (by omega)
    apply mul_left_cancel₀ z
    push_cast at r i ⊢
    linear_combination (l - 1 - 2 * (j : K)) * r - (2 * (l : K) - 1 - 2 * j + 2) * i

theorem alt_two {l m0 n : Int} (hl : 2 ≤ l) (h0 : 1 ≤ m0) (ht : m0 + 2 * n = l + 1) : Alternates K l m0 n 2 := by
  intro t t0 tn
  have r := q_two (K := K) hl (n - 1 - t).toNat (by omega)
  have e : (((n - 1 - t).toNat : Nat) : K) = ((n - 1 - t : Int) : K) := by
    rw [← Int.cast_natCast, Int.toNat_of_nonneg (by omega)]
  rw [show 2 * l - 1 - 2 * ((n - 1 - t).toNat : Int) = l + m0 + 2 * t by omega, e, show l + m0 + 2 * t + 2 = l + m0 + 2 * (t + 1) by ring] at r
  refine ⟨((2 * l - 2 * (n - 1 - t) : Int) : K) * ((l - 1 - 2 * (n - 1 - t) : Int) : K), ((2 * (n - 1 - t) : Int) : K) * ((l + 1 - 2 * (n - 1 - t) : Int) : K),
    mul_pos (by exact_mod_cast (by omega)) (by exact_mod_cast (by omega)), mul_pos (by exact_mod_cast (by omega)) (by exact_mod_cast (by omega)), ?_⟩
  unfold qv
  push_cast at r ⊢
  linear_combination r

end alt
end FT.YzP
