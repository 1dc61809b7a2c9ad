import Verif.Lemmas.Yz
import Verif.Lemmas.ColMap
import Verif.Props.Isometry
import Mathlib.LinearAlgebra.Matrix.NonsingularInverse

/-! # C56: exchange of the y- and z-axes, and orthogonal transformations of spherical harmonic expansions -/

namespace FT.Props
open FT
variable {K : Type*} [CommRing K] {J : YzPlan K} {N M : Int}

/-- What exchanging the axes means for the coefficients `a` (before) and `b` (after): in every degree `l ≥ 2` the sines of orders `m` with `l + m`
odd are multiplied by the block `w11`, the cosines with `l + m` even by `w22`, and the other sines and cosines are exchanged through `w12` and `w21`;
in degree one the coefficients of `y` and `z` are exchanged and negated. -/
structure Exchanged (J : YzPlan K) (N : Int) (a b : Int → K) : Prop where
  sine_odd : ∀ l m, 2 ≤ l → l < J.n → 1 ≤ m → m ≤ l → (l + m) % 2 = 1 → b (l - m + N * (2 * m - 1)) =
    ∑ k ∈ Finset.Ico 0 (l / 2), J.w11 l ((m - 1) / 2) k * a (l - (1 + l % 2 + 2 * k) + N * (2 * (1 + l % 2 + 2 * k) - 1))
  cosine_even : ∀ l m, 2 ≤ l → l < J.n → 0 ≤ m → m ≤ l → (l + m) % 2 = 0 → b (l - m + N * (2 * m)) =
    ∑ k ∈ Finset.Ico 0 ((l + 2) / 2), J.w22 l (m / 2) k * a (l - (l % 2 + 2 * k) + N * (2 * (l % 2 + 2 * k)))
  sine_even : ∀ l m, 2 ≤ l → l < J.n → 1 ≤ m → m ≤ l → (l + m) % 2 = 0 → b (l - m + N * (2 * m - 1)) =
    ∑ k ∈ Finset.Ico 0 ((l + 1) / 2), J.w12 l ((m - 1) / 2) k * a (l - (1 - l % 2 + 2 * k) + N * (2 * (1 - l % 2 + 2 * k)))
  cosine_odd : ∀ l m, 2 ≤ l → l < J.n → 0 ≤ m → m ≤ l → (l + m) % 2 = 1 → b (l - m + N * (2 * m)) =
    ∑ k ∈ Finset.Ico 0 ((l + 1) / 2), J.w21 l (m / 2) k * a (l - (2 - l % 2 + 2 * k) + N * (2 * (2 - l % 2 + 2 * k) - 1))
  y : b N = -a 1
  z : b 1 = -a N
  /-- Below the coefficients of the columns of order `m` some entries are used as work space and left zero. -/
  work_sine : ∀ m i, 2 ≤ m → m < J.n → 0 ≤ i → i < m → b (N - m + i + N * (2 * m - 1)) = if i < (m + 1) / 2 then 0 else a (N - m + i + N * (2 * m - 1))
  work_cosine : ∀ m i, 2 ≤ m → m < J.n → 0 ≤ i → i < m → b (N - m + i + N * (2 * m)) = if i < (m + 2) / 2 then 0 else a (N - m + i + N * (2 * m))
  /-- Nothing else changes: row `i` of column `c`, holding order `(c + 1)/2`. -/
  other : ∀ i c, 0 ≤ i → i < N → 0 ≤ c → i + (c + 1) / 2 = 0 ∨ J.n ≤ i + (c + 1) / 2 ∨ (i = 0 ∧ c = 2) →
    ¬ (2 ≤ (c + 1) / 2 ∧ (c + 1) / 2 < J.n ∧ N - (c + 1) / 2 ≤ i) → b (i + N * c) = a (i + N * c)
  outside : ∀ p, p < 0 → b p = a p

/-- The exchange of degree one. -/
theorem yzStart_eq (hn : 2 ≤ J.n) (hN : J.n ≤ N) {A : Buf K} (hs : N * (2 * J.n - 1) ≤ A.size) :
    yzStart J N A = some ⟨A.size, Function.update (Function.update A.val 1 (-A.val N)) N (-A.val 1)⟩ := by
  have h3 : N * 3 ≤ N * (2 * J.n - 1) := Int.mul_le_mul_of_nonneg_left (by omega) (by omega)
  unfold yzStart
  rw [if_pos (by omega), Buf.rd_of (by omega) (by omega), Buf.rd_of (by omega) (by omega)]
  simp only [Option.bind_eq_bind, Option.bind_some]
  rw [Buf.wr_of (by omega) (by omega), Option.bind_some, Buf.wr_of (by omega) (by dsimp only; omega)]

/-- **C56.** For every plan of order at least two, every array with room for `2n - 1` columns, every number of threads and every schedule the exchange
is free of undefined behaviour, ends, and has the stated effect. -/
theorem C56_exchange_partial (hn : 2 ≤ J.n) (hN : J.n ≤ N) {A : Buf K} (hs : N * (2 * J.n - 1) ≤ A.size) {T : Nat} (hT : 0 < T) :
    ∃ B, ExchangeEnds J N T A B ∧ B.size = A.size ∧ Exchanged J N A.val B.val := by
  have e0 := yzStart_eq hn hN hs
  obtain ⟨B, pB, zB, dB, oB⟩ := yzThreads_end (J := J) (A := ⟨A.size, Function.update (Function.update A.val 1 (-A.val N)) N (-A.val 1)⟩) hN hs hT
  have one : yzR N 1 1 := Or.inr (Or.inl ⟨0, by omega, by omega, by unfold cC; ring⟩)
  have enn : yzR N 1 N := Or.inl ⟨1, by omega, by omega, by unfold cS; ring⟩
  have keep : ∀ l p, 2 ≤ l → l < J.n → yzR N l p → Function.update (Function.update A.val 1 (-A.val N)) N (-A.val 1) p = A.val p := by
    intro l p l2 ln hp
    have h1 : p ≠ 1 := fun h => yzR_disj (by omega) (by omega) (by omega) (by omega) (by omega) hp (h ▸ one)
    have h2 : p ≠ N := fun h => yzR_disj (a := l) (b := 1) (p := p) (N := N) (by omega) (by omega) (by omega) (by omega) (by omega) hp (by rw [h]; exact enn)
    rw [Function.update_of_ne h2, Function.update_of_ne h1]
  have rS : ∀ l m, 1 ≤ m → m ≤ l → yzR N l (cS N l m) := fun l m a b => Or.inl ⟨m, a, b, rfl⟩
  have rC : ∀ l m, 0 ≤ m → m ≤ l → yzR N l (cC N l m) := fun l m a b => Or.inr (Or.inl ⟨m, a, b, rfl⟩)
  have rA : ∀ l m, 0 ≤ m → m < l → yzR N l (sA N l m) := fun l m a b => Or.inr (Or.inr (Or.inl ⟨m, a, b, rfl⟩))
  have rB : ∀ l m, 0 ≤ m → m < l → yzR N l (sB N l m) := fun l m a b => Or.inr (Or.inr (Or.inr ⟨m, a, b, rfl⟩))
  have deg : ∀ l, 2 ≤ l → l < J.n → ∃ h e, l = 2 * h + e ∧ (e = 0 ∨ e = 1) ∧ 1 ≤ h := fun l a _ => ⟨l / 2, l % 2, by omega, by omega, by omega⟩
  refine ⟨B, ⟨_, e0, pB⟩, zB, ?_⟩
  refine ⟨?_, ?_, ?_, ?_, ?_, ?_, ?_, ?_, ?_, ?_⟩
  · intro l m l2 ln m0 m1 hm
    obtain ⟨h, e, rfl, he, hh⟩ := deg l l2 ln
    have e1 : (2 * h + e) % 2 = e := by omega
    have e2 : (2 * h + e) / 2 = h := by omega
    obtain ⟨i, rfl⟩ : ∃ i, m = 1 + e + 2 * i := ⟨(m - 1 - e) / 2, by omega⟩
    refine ((dB h e he hh ln).s1 i (by omega) (by omega)).trans ?_
    rw [e1, e2, show (1 + e + 2 * i - 1) / 2 = i by omega]
    refine sum_Ico_congr fun k k0 k1 => ?_
    rw [show Buf.val _ _ = _ from keep _ _ l2 ln (rS _ _ (by omega) (by omega))]
    rfl
  · intro l m l2 ln m0 m1 hm
    obtain ⟨h, e, rfl, he, hh⟩ := deg l l2 ln
    have e1 : (2 * h + e) % 2 = e := by omega
    have e2 : (2 * h + e + 2) / 2 = h + 1 := by omega
    obtain ⟨i, rfl⟩ : ∃ i, m = e + 2 * i := ⟨(m - e) / 2, by omega⟩
    refine ((dB h e he hh ln).c1 i (by omega) (by omega)).trans ?_
    rw [e1, e2, show (e + 2 * i) / 2 = i by omega]
    refine sum_Ico_congr fun k k0 k1 => ?_
    rw [show Buf.val _ _ = _ from keep _ _ l2 ln (rC _ _ (by omega) (by omega))]
    rfl
  · intro l m l2 ln m0 m1 hm
    obtain ⟨h, e, rfl, he, hh⟩ := deg l l2 ln
    have e1 : (2 * h + e) % 2 = e := by omega
    have e2 : (2 * h + e + 1) / 2 = h + e := by omega
    obtain ⟨i, rfl⟩ : ∃ i, m = 2 - e + 2 * i := ⟨(m - 2 + e) / 2, by omega⟩
    refine ((dB h e he hh ln).s2 i (by omega) (by omega)).trans ?_
    rw [e1, e2, show (2 - e + 2 * i - 1) / 2 = i by omega]
    refine sum_Ico_congr fun k k0 k1 => ?_
    rw [show Buf.val _ _ = _ from keep _ _ l2 ln (rC _ _ (by omega) (by omega))]
    rfl
  · intro l m l2 ln m0 m1 hm
    obtain ⟨h, e, rfl, he, hh⟩ := deg l l2 ln
    have e1 : (2 * h + e) % 2 = e := by omega
    have e2 : (2 * h + e + 1) / 2 = h + e := by omega
    obtain ⟨i, rfl⟩ : ∃ i, m = 1 - e + 2 * i := ⟨(m - 1 + e) / 2, by omega⟩
    refine ((dB h e he hh ln).c2 i (by omega) (by omega)).trans ?_
    rw [e1, e2, show (1 - e + 2 * i) / 2 = i by omega]
    refine sum_Ico_congr fun k k0 k1 => ?_
    rw [show Buf.val _ _ = _ from keep _ _ l2 ln (rS _ _ (by omega) (by omega))]
    rfl
  · rw [oB N (fun l l2 ln => yzR_disj (by omega) (by omega) (by omega) (by omega) (by omega) enn)]
    exact Function.update_self ..
  · rw [oB 1 (fun l l2 ln => yzR_disj (by omega) (by omega) (by omega) (by omega) (by omega) one)]
    show Function.update _ _ _ _ = _
    rw [Function.update_of_ne (by omega), Function.update_self]
  · intro m i m2 mn i0 i1
    obtain ⟨h, e, rfl, he, hh⟩ := deg m m2 mn
    have e2 : (2 * h + e + 1) / 2 = h + e := by omega
    rw [e2]
    split_ifs with hi
    · exact (dB h e he hh mn).za i i0 hi
    · exact ((dB h e he hh mn).rest i (by omega) i1).trans (keep _ _ m2 mn (rA _ _ i0 i1))
  · intro m i m2 mn i0 i1
    obtain ⟨h, e, rfl, he, hh⟩ := deg m m2 mn
    have e2 : (2 * h + e + 2) / 2 = h + 1 := by omega
    rw [e2]
    split_ifs with hi
    · exact (dB h e he hh mn).zb i i0 hi
    · exact ((dB h e he hh mn).restb i (by omega) i1).trans (keep _ _ m2 mn (rB _ _ i0 i1))
  · intro i c i0 iN c0 hd hw
    rw [oB]
    · show Function.update _ _ _ _ = _
      have h1 : i + N * c ≠ 1 := by
        have := rc_ne (N := N) (i := i) (c := c) (i' := 1) (c' := 0) i0 iN (by omega) (by omega) (by omega)
        simpa using this
      have h2 : i + N * c ≠ N := by
        have := rc_ne (N := N) (i := i) (c := c) (i' := 0) (c' := 1) i0 iN (by omega) (by omega) (by omega)
        simpa using this
      rw [Function.update_of_ne h2, Function.update_of_ne h1]
    · intro l l2 ln
      unfold yzR cS cC sA sB
      rintro (⟨m, m1, m2, e⟩ | ⟨m, m1, m2, e⟩ | ⟨m, m1, m2, e⟩ | ⟨m, m1, m2, e⟩) <;>
        exact rc_ne i0 iN (by omega) (by omega) (by omega) e
  · intro p hp
    rw [oB]
    · show Function.update _ _ _ _ = _
      rw [Function.update_of_ne (by omega), Function.update_of_ne (by omega)]
    · intro l l2 ln
      have b1 : ∀ m, 1 ≤ m → 0 ≤ N * (2 * m - 1) := fun m hm => Int.mul_nonneg (by omega) (by omega)
      have b2 : ∀ m, 0 ≤ m → 0 ≤ N * (2 * m) := fun m hm => Int.mul_nonneg (by omega) (by omega)
      unfold yzR cS cC sA sB
      rintro (⟨m, m1, m2, e⟩ | ⟨m, m1, m2, e⟩ | ⟨m, m1, m2, e⟩ | ⟨m, m1, m2, e⟩)
      · have := b1 m m1; omega
      · have := b2 m m1; omega
      · have := b1 l (by omega); omega
      · have := b2 l (by omega); omega

/-- **C56 (defect).** The guard on the exchange of degree one accepts a plan of order one, although the expansion then has a single column of `N`
entries and the access to entry `N` is beyond it. -/
theorem C56_order_one_defect (h : J.n = 1) {A : Buf K} (hs : (A.size : Int) = N * (2 * J.n - 1)) : yzStart J N A = none := by
  unfold yzStart
  rw [if_pos (by omega), Buf.rd_oob (i := N) (by rw [hs, h]; omega)]
  cases A.rd 1 <;> rfl

/-! ## Involution and isometry -/

/-- Sum over an interval, even and odd indices apart. -/
theorem sum_parity (f : Int → K) {h : Int} (hh : 0 ≤ h) :
    ∑ m ∈ Finset.Ico 0 (2 * h), f m = ∑ i ∈ Finset.Ico 0 h, f (2 * i) + ∑ i ∈ Finset.Ico 0 h, f (1 + 2 * i) := by
  obtain ⟨n, rfl⟩ := Int.eq_ofNat_of_zero_le hh
  induction n with
  | zero => simp
  | succ n ih =>
    push_cast
    rw [show 2 * ((n : Int) + 1) = 2 * n + 1 + 1 by ring, sum_Ico_succ (by omega), sum_Ico_succ (by omega), ih (by omega), sum_Ico_succ (by omega), sum_Ico_succ (by omega),
      show 1 + 2 * (n : Int) = 2 * n + 1 by ring]
    ring

theorem sum_Ico_shift (f : Int → K) (h : Int) : ∑ m ∈ Finset.Ico 1 (h + 1), f m = ∑ i ∈ Finset.Ico 0 h, f (1 + i) := by
  refine Finset.sum_bij' (fun m _ => m - 1) (fun i _ => 1 + i) ?_ ?_ ?_ ?_ ?_ <;> simp only [Finset.mem_Ico] <;> intro a ha
  · omega
  · omega
  · omega
  · omega
  · rw [show 1 + (a - 1) = a by ring]

theorem sum_cosines (f : Int → K) {h e : Int} (he : e = 0 ∨ e = 1) (hh : 0 ≤ h) :
    ∑ m ∈ Finset.Ico 0 (2 * h + e + 1), f m = ∑ i ∈ Finset.Ico 0 (h + 1), f (e + 2 * i) + ∑ i ∈ Finset.Ico 0 (h + e), f (1 - e + 2 * i) := by
  rcases he with rfl | rfl
  · rw [add_zero, add_zero, sum_Ico_succ (by omega), sum_parity f hh, sum_Ico_succ hh]
    simp only [zero_add, sub_zero]
    ring
  · rw [show 2 * h + 1 + 1 = 2 * (h + 1) by ring, sum_parity f (by omega)]
    simp only [sub_self, zero_add]
    ring

theorem sum_sines (f : Int → K) {h e : Int} (he : e = 0 ∨ e = 1) (hh : 0 ≤ h) :
    ∑ m ∈ Finset.Ico 1 (2 * h + e + 1), f m = ∑ i ∈ Finset.Ico 0 h, f (1 + e + 2 * i) + ∑ i ∈ Finset.Ico 0 (h + e), f (2 - e + 2 * i) := by
  rw [sum_Ico_shift]
  rcases he with rfl | rfl
  · rw [add_zero, add_zero, sum_parity _ hh]
    have h2 : ∑ i ∈ Finset.Ico 0 h, f (1 + (1 + 2 * i)) = ∑ i ∈ Finset.Ico 0 h, f (2 - 0 + 2 * i) := sum_Ico_congr fun k _ _ => by
      rw [show 1 + (1 + 2 * k) = 2 - 0 + 2 * k by ring]
    simp only [add_zero]
    rw [h2]
  · rw [sum_Ico_succ (by omega), sum_parity _ hh, sum_Ico_succ hh]
    have h1 : ∑ i ∈ Finset.Ico 0 h, f (1 + (1 + 2 * i)) = ∑ i ∈ Finset.Ico 0 h, f (1 + 1 + 2 * i) := sum_Ico_congr fun k _ _ => by congr 1; ring
    have h2 : ∑ i ∈ Finset.Ico 0 h, f (1 + 2 * i) = ∑ i ∈ Finset.Ico 0 h, f (2 - 1 + 2 * i) := sum_Ico_congr fun k _ _ => by congr 1
    rw [h1, h2, show (2 : Int) - 1 + 2 * h = 1 + 2 * h by ring]
    ring

/-- The vectors `w 0, ..., w (n-1)` of length `n` are orthonormal. -/
def Orthonormal (n : Int) (w : Int → Int → K) : Prop :=
  ∀ i j, 0 ≤ i → i < n → 0 ≤ j → j < n → ∑ k ∈ Finset.Ico 0 n, w i k * w j k = if i = j then 1 else 0

/-- `v` undoes `w`. -/
def Undoes (n : Int) (v w : Int → Int → K) : Prop :=
  ∀ i j, 0 ≤ i → i < n → 0 ≤ j → j < n → ∑ k ∈ Finset.Ico 0 n, v i k * w k j = if i = j then 1 else 0

/-- Orthonormal rows have orthonormal columns. -/
theorem Orthonormal.columns {n : Int} {w : Int → Int → K} (h : Orthonormal n w) :
    ∀ i j, 0 ≤ i → i < n → 0 ≤ j → j < n → ∑ k ∈ Finset.Ico 0 n, w k i * w k j = if i = j then 1 else 0 := by
  classical
  let W : Matrix (Finset.Ico 0 n) (Finset.Ico 0 n) K := Matrix.of fun i j => w i j
  have h1 : W * W.transpose = 1 := by
    ext ⟨i, hi⟩ ⟨j, hj⟩
    have hi' := Finset.mem_Ico.1 hi
    have hj' := Finset.mem_Ico.1 hj
    rw [Matrix.mul_apply, Matrix.one_apply]
    simp only [Subtype.mk.injEq]
    rw [← h i j hi'.1 hi'.2 hj'.1 hj'.2, ← Finset.sum_coe_sort (Finset.Ico 0 n) (fun k => w i k * w j k)]
    rfl
  have h2 := mul_eq_one_comm.1 h1
  intro i j i0 i1 j0 j1
  have := congrFun (congrFun h2 ⟨i, Finset.mem_Ico.2 ⟨i0, i1⟩⟩) ⟨j, Finset.mem_Ico.2 ⟨j0, j1⟩⟩
  rw [Matrix.mul_apply, Matrix.one_apply] at this
  simp only [Subtype.mk.injEq] at this
  rw [← this, ← Finset.sum_coe_sort (Finset.Ico 0 n) (fun k => w k i * w k j)]
  rfl

/-- Orthonormal vectors preserve the sum of squares. -/
theorem Orthonormal.energy {n : Int} {w : Int → Int → K} (h : Orthonormal n w) (x y : Int → K)
    (hy : ∀ i, 0 ≤ i → i < n → y i = ∑ k ∈ Finset.Ico 0 n, w i k * x k) : ∑ i ∈ Finset.Ico 0 n, y i * y i = ∑ i ∈ Finset.Ico 0 n, x i * x i := by
  have h1 : ∑ i ∈ Finset.Ico 0 n, y i * y i = ∑ i ∈ Finset.Ico 0 n, ∑ j ∈ Finset.Ico 0 n, ∑ k ∈ Finset.Ico 0 n, x j * x k * (w i j * w i k) :=
    sum_Ico_congr fun i i0 i1 => by
      rw [hy i i0 i1, Finset.sum_mul_sum]
      exact sum_Ico_congr fun j _ _ => sum_Ico_congr fun k _ _ => by ring
  rw [h1, Finset.sum_comm]
  refine sum_Ico_congr fun j j0 j1 => ?_
  rw [Finset.sum_comm]
  have h2 : ∀ k, 0 ≤ k → k < n → ∑ i ∈ Finset.Ico 0 n, x j * x k * (w i j * w i k) = if k = j then x j * x k else 0 := fun k k0 k1 => by
    rw [← Finset.mul_sum, h.columns j k j0 j1 k0 k1]
    by_cases e : k = j
    · rw [if_pos e, if_pos e.symm, mul_one]
    · rw [if_neg e, if_neg (fun h => e h.symm), mul_zero]
  rw [sum_Ico_congr h2, sum_Ico_delta j0 j1]

theorem Undoes.apply {n : Int} {v w : Int → Int → K} (h : Undoes n v w) (x y : Int → K)
    (hy : ∀ i, 0 ≤ i → i < n → y i = ∑ k ∈ Finset.Ico 0 n, w i k * x k) {i : Int} (i0 : 0 ≤ i) (i1 : i < n) : ∑ k ∈ Finset.Ico 0 n, v i k * y k = x i := by
  have h1 : ∑ k ∈ Finset.Ico 0 n, v i k * y k = ∑ k ∈ Finset.Ico 0 n, ∑ j ∈ Finset.Ico 0 n, v i k * w k j * x j :=
    sum_Ico_congr fun k k0 k1 => by
      rw [hy k k0 k1, Finset.mul_sum]
      exact sum_Ico_congr fun j _ _ => by ring
  rw [h1, Finset.sum_comm]
  have h2 : ∀ j, 0 ≤ j → j < n → ∑ k ∈ Finset.Ico 0 n, v i k * w k j * x j = if j = i then x j else 0 := fun j j0 j1 => by
    rw [← Finset.sum_mul, h i j i0 i1 j0 j1]
    by_cases e : j = i
    · rw [if_pos e, if_pos e.symm, one_mul]
    · rw [if_neg e, if_neg (fun h => e h.symm), zero_mul]
  rw [sum_Ico_congr h2, sum_Ico_delta i0 i1]

/-- The four blocks of every degree have orthonormal rows (they hold the unit eigenvectors, C33). -/
structure BlocksOrthonormal (J : YzPlan K) : Prop where
  b11 : ∀ l, 2 ≤ l → l < J.n → Orthonormal (l / 2) (J.w11 l)
  b22 : ∀ l, 2 ≤ l → l < J.n → Orthonormal ((l + 2) / 2) (J.w22 l)
  b12 : ∀ l, 2 ≤ l → l < J.n → Orthonormal ((l + 1) / 2) (J.w12 l)
  b21 : ∀ l, 2 ≤ l → l < J.n → Orthonormal ((l + 1) / 2) (J.w21 l)

/-- The energy of a degree is preserved by the exchange. -/
theorem Exchanged.energy {a b : Int → K} (hJ : BlocksOrthonormal J) (hN : J.n ≤ N) (hn : 2 ≤ J.n) (h : Exchanged J N a b) {L l : Int} (l0 : 0 ≤ l) (ln : l < J.n) (hL : J.n - 1 ≤ L) :
    degreeEnergy N L l b = degreeEnergy N L l a := by
  have b0 : b 0 = a 0 := by simpa using h.other 0 0 (by omega) (by omega) (by omega) (Or.inl (by omega)) (by omega)
  have b2 : b (N * 2) = a (N * 2) := by simpa using h.other 0 2 (by omega) (by omega) (by omega) (Or.inr (Or.inr ⟨rfl, rfl⟩)) (by omega)
  unfold degreeEnergy
  rw [show min l L = l by omega]
  by_cases hl : l = 0
  · subst hl
    simp only [zero_add, Finset.Ico_self, Finset.sum_empty, b0]
  by_cases hl1 : l = 1
  · subst hl1
    rw [show (1 : Int) + 1 = 1 + 1 from rfl, sum_Ico_succ (by omega), sum_Ico_succ (by omega)]
    simp only [Finset.Ico_self, Finset.sum_empty, zero_add, sub_self, mul_one, h.z]
    rw [show N * (2 - 1) = N by ring, h.y, b2]
    ring
  have l2 : 2 ≤ l := by omega
  obtain ⟨d, e, rfl, he, hd⟩ : ∃ h e, l = 2 * h + e ∧ (e = 0 ∨ e = 1) ∧ 1 ≤ h := ⟨l / 2, l % 2, by omega, by omega, by omega⟩
  have e1 : (2 * d + e) % 2 = e := by omega
  have e2 : (2 * d + e) / 2 = d := by omega
  have e3 : (2 * d + e + 2) / 2 = d + 1 := by omega
  have e4 : (2 * d + e + 1) / 2 = d + e := by omega
  have split : ∀ f : Int → K, f (2 * d + e) * f (2 * d + e) + ∑ m ∈ Finset.Ico 1 (2 * d + e + 1),
        (f (2 * d + e - m + N * (2 * m - 1)) * f (2 * d + e - m + N * (2 * m - 1)) + f (2 * d + e - m + N * (2 * m)) * f (2 * d + e - m + N * (2 * m))) =
      (∑ i ∈ Finset.Ico 0 d, f (cS N (2 * d + e) (1 + e + 2 * i)) * f (cS N (2 * d + e) (1 + e + 2 * i)) +
        ∑ i ∈ Finset.Ico 0 (d + e), f (cS N (2 * d + e) (2 - e + 2 * i)) * f (cS N (2 * d + e) (2 - e + 2 * i))) +
      (∑ i ∈ Finset.Ico 0 (d + 1), f (cC N (2 * d + e) (e + 2 * i)) * f (cC N (2 * d + e) (e + 2 * i)) +
        ∑ i ∈ Finset.Ico 0 (d + e), f (cC N (2 * d + e) (1 - e + 2 * i)) * f (cC N (2 * d + e) (1 - e + 2 * i))) := by
    intro f
    rw [← sum_cosines (fun m => f (cC N (2 * d + e) m) * f (cC N (2 * d + e) m)) he (by omega),
      ← sum_sines (fun m => f (cS N (2 * d + e) m) * f (cS N (2 * d + e) m)) he (by omega), sum_Ico_pred (show (0 : Int) < 2 * d + e + 1 by omega), zero_add,
      Finset.sum_add_distrib]
    have : cC N (2 * d + e) 0 = 2 * d + e := by unfold cC; ring
    rw [this]
    unfold cC cS
    ring
  rw [split, split]
  have o1 := hJ.b11 _ l2 ln
  have o2 := hJ.b22 _ l2 ln
  have o3 := hJ.b12 _ l2 ln
  have o4 := hJ.b21 _ l2 ln
  rw [e2] at o1
  rw [e3] at o2
  rw [e4] at o3 o4
  have q1 := o1.energy (fun k => a (cS N (2 * d + e) (1 + e + 2 * k))) (fun i => b (cS N (2 * d + e) (1 + e + 2 * i))) fun i i0 i1 => by
    refine (h.sine_odd (2 * d + e) (1 + e + 2 * i) l2 ln (by omega) (by omega) (by omega)).trans ?_
    rw [e1, e2, show (1 + e + 2 * i - 1) / 2 = i by omega]
    rfl
  have q2 := o2.energy (fun k => a (cC N (2 * d + e) (e + 2 * k))) (fun i => b (cC N (2 * d + e) (e + 2 * i))) fun i i0 i1 => by
    refine (h.cosine_even (2 * d + e) (e + 2 * i) l2 ln (by omega) (by omega) (by omega)).trans ?_
    rw [e1, e3, show (e + 2 * i) / 2 = i by omega]
    rfl
  have q3 := o3.energy (fun k => a (cC N (2 * d + e) (1 - e + 2 * k))) (fun i => b (cS N (2 * d + e) (2 - e + 2 * i))) fun i i0 i1 => by
    refine (h.sine_even (2 * d + e) (2 - e + 2 * i) l2 ln (by omega) (by omega) (by omega)).trans ?_
    rw [e1, e4, show (2 - e + 2 * i - 1) / 2 = i by omega]
    rfl
  have q4 := o4.energy (fun k => a (cS N (2 * d + e) (2 - e + 2 * k))) (fun i => b (cC N (2 * d + e) (1 - e + 2 * i))) fun i i0 i1 => by
    refine (h.cosine_odd (2 * d + e) (1 - e + 2 * i) l2 ln (by omega) (by omega) (by omega)).trans ?_
    rw [e1, e4, show (1 - e + 2 * i) / 2 = i by omega]
    rfl
  linear_combination q1 + q2 + q3 + q4

/-- The blocks undo each other: the exchange of axes is its own inverse. -/
structure BlocksInvolutive (J : YzPlan K) : Prop where
  b11 : ∀ l, 2 ≤ l → l < J.n → Undoes (l / 2) (J.w11 l) (J.w11 l)
  b22 : ∀ l, 2 ≤ l → l < J.n → Undoes ((l + 2) / 2) (J.w22 l) (J.w22 l)
  b12 : ∀ l, 2 ≤ l → l < J.n → Undoes ((l + 1) / 2) (J.w12 l) (J.w21 l)
  b21 : ∀ l, 2 ≤ l → l < J.n → Undoes ((l + 1) / 2) (J.w21 l) (J.w12 l)

/-- The entries below the coefficients of degree less than `N`, in the columns of order `2, ..., n-1`, are zero. -/
def Padded (n N : Int) (a : Int → K) : Prop :=
  ∀ m i, 2 ≤ m → m < n → 0 ≤ i → i < m → a (N - m + i + N * (2 * m - 1)) = 0 ∧ a (N - m + i + N * (2 * m)) = 0

theorem Exchanged.padded {a b : Int → K} (h : Exchanged J N a b) (hp : Padded J.n N a) : Padded J.n N b := fun m i m2 mn i0 i1 => by
  have := hp m i m2 mn i0 i1
  refine ⟨?_, ?_⟩
  · rw [h.work_sine m i m2 mn i0 i1, this.1, ite_self]
  · rw [h.work_cosine m i m2 mn i0 i1, this.2, ite_self]

/-- Exchanging twice restores the coefficients. -/
theorem Exchanged.twice {a b c : Int → K} (hJ : BlocksInvolutive J) (hn : 2 ≤ J.n) (hN : J.n ≤ N) (hp : Padded J.n N a) (h : Exchanged J N a b) (h' : Exchanged J N b c) (p : Int) :
    c p = a p := by
  by_cases p0 : p < 0
  · rw [h'.outside p p0, h.outside p p0]
  obtain ⟨i, d, i0, iN, rfl, -, -⟩ := rc_eq (N := N) (p := p) (by omega)
  have d0 : 0 ≤ d := by
    by_contra hd
    have : N * d ≤ N * (-1) := Int.mul_le_mul_of_nonneg_left (by omega) (by omega)
    omega
  by_cases hw : 2 ≤ (d + 1) / 2 ∧ (d + 1) / 2 < J.n ∧ N - (d + 1) / 2 ≤ i
  · obtain ⟨w1, w2, w3⟩ := hw
    have pb := (h'.padded (h.padded hp)) ((d + 1) / 2) (i - (N - (d + 1) / 2)) w1 w2 (by omega) (by omega)
    have pa := hp ((d + 1) / 2) (i - (N - (d + 1) / 2)) w1 w2 (by omega) (by omega)
    rw [show N - (d + 1) / 2 + (i - (N - (d + 1) / 2)) = i by ring] at pa pb
    rcases (by omega : 2 * ((d + 1) / 2) - 1 = d ∨ 2 * ((d + 1) / 2) = d) with e | e
    · rw [e] at pa pb
      rw [pa.1, pb.1]
    · rw [e] at pa pb
      rw [pa.2, pb.2]
  by_cases ho : i + (d + 1) / 2 = 0 ∨ J.n ≤ i + (d + 1) / 2 ∨ (i = 0 ∧ d = 2)
  · rw [h'.other i d i0 iN d0 ho hw, h.other i d i0 iN d0 ho hw]
  by_cases h1 : i + (d + 1) / 2 = 1
  · rcases (by omega : (i = 1 ∧ d = 0) ∨ (i = 0 ∧ d = 1)) with ⟨rfl, rfl⟩ | ⟨rfl, rfl⟩
    · rw [show 1 + N * 0 = 1 by ring, h'.z, h.y, neg_neg]
    · rw [show 0 + N * 1 = N by ring, h'.y, h.z, neg_neg]
  obtain ⟨k, e, hl, he, hk⟩ : ∃ k e, i + (d + 1) / 2 = 2 * k + e ∧ (e = 0 ∨ e = 1) ∧ 1 ≤ k := ⟨(i + (d + 1) / 2) / 2, (i + (d + 1) / 2) % 2, by omega, by omega, by omega⟩
  have l2 : 2 ≤ 2 * k + e := by omega
  have ln : 2 * k + e < J.n := by omega
  have e1 : (2 * k + e) % 2 = e := by omega
  have e2 : (2 * k + e) / 2 = k := by omega
  have e3 : (2 * k + e + 2) / 2 = k + 1 := by omega
  have e4 : (2 * k + e + 1) / 2 = k + e := by omega
  have o1 := hJ.b11 _ l2 ln
  have o2 := hJ.b22 _ l2 ln
  have o3 := hJ.b12 _ l2 ln
  have o4 := hJ.b21 _ l2 ln
  rw [e2] at o1
  rw [e3] at o2
  rw [e4] at o3 o4
  have q1 : ∀ {a b : Int → K}, Exchanged J N a b → ∀ i, 0 ≤ i → i < k → b (cS N (2 * k + e) (1 + e + 2 * i)) =
      ∑ j ∈ Finset.Ico 0 k, J.w11 (2 * k + e) i j * a (cS N (2 * k + e) (1 + e + 2 * j)) := fun h i i0 i1 => by
    refine (h.sine_odd (2 * k + e) (1 + e + 2 * i) l2 ln (by omega) (by omega) (by omega)).trans ?_
    rw [e1, e2, show (1 + e + 2 * i - 1) / 2 = i by omega]
    rfl
  have q2 : ∀ {a b : Int → K}, Exchanged J N a b → ∀ i, 0 ≤ i → i < k + 1 → b (cC N (2 * k + e) (e + 2 * i)) =
      ∑ j ∈ Finset.Ico 0 (k + 1), J.w22 (2 * k + e) i j * a (cC N (2 * k + e) (e + 2 * j)) := fun h i i0 i1 => by
    refine (h.cosine_even (2 * k + e) (e + 2 * i) l2 ln (by omega) (by omega) (by omega)).trans ?_
    rw [e1, e3, show (e + 2 * i) / 2 = i by omega]
    rfl
  have q3 : ∀ {a b : Int → K}, Exchanged J N a b → ∀ i, 0 ≤ i → i < k + e → b (cS N (2 * k + e) (2 - e + 2 * i)) =
      ∑ j ∈ Finset.Ico 0 (k + e), J.w12 (2 * k + e) i j * a (cC N (2 * k + e) (1 - e + 2 * j)) := fun h i i0 i1 => by
    refine (h.sine_even (2 * k + e) (2 - e + 2 * i) l2 ln (by omega) (by omega) (by omega)).trans ?_
    rw [e1, e4, show (2 - e + 2 * i - 1) / 2 = i by omega]
    rfl
  have q4 : ∀ {a b : Int → K}, Exchanged J N a b → ∀ i, 0 ≤ i → i < k + e → b (cC N (2 * k + e) (1 - e + 2 * i)) =
      ∑ j ∈ Finset.Ico 0 (k + e), J.w21 (2 * k + e) i j * a (cS N (2 * k + e) (2 - e + 2 * j)) := fun h i i0 i1 => by
    refine (h.cosine_odd (2 * k + e) (1 - e + 2 * i) l2 ln (by omega) (by omega) (by omega)).trans ?_
    rw [e1, e4, show (1 - e + 2 * i) / 2 = i by omega]
    rfl
  have hi : i = 2 * k + e - (d + 1) / 2 := by omega
  obtain ⟨m, hm⟩ : ∃ m, m = (d + 1) / 2 := ⟨_, rfl⟩
  rcases (by omega : d = 2 * m - 1 ∨ d = 2 * m) with hd | hd
  · have hpos : i + N * d = cS N (2 * k + e) m := by unfold cS; rw [hi, hd, show (2 * m - 1 + 1) / 2 = m by omega]
    rw [hpos]
    rcases (by omega : (m - 1 - e) % 2 = 0 ∨ (m - 2 + e) % 2 = 0) with hj | hj
    · obtain ⟨j, rfl, j0, j1⟩ : ∃ j, m = 1 + e + 2 * j ∧ 0 ≤ j ∧ j < k := ⟨(m - 1 - e) / 2, by omega, by omega, by omega⟩
      rw [q1 h' j j0 j1]
      exact o1.apply (fun j => a (cS N (2 * k + e) (1 + e + 2 * j))) (fun j => b (cS N (2 * k + e) (1 + e + 2 * j))) (q1 h) j0 j1
    · obtain ⟨j, rfl, j0, j1⟩ : ∃ j, m = 2 - e + 2 * j ∧ 0 ≤ j ∧ j < k + e := ⟨(m - 2 + e) / 2, by omega, by omega, by omega⟩
      rw [q3 h' j j0 j1]
      exact o3.apply (fun j => a (cS N (2 * k + e) (2 - e + 2 * j))) (fun j => b (cC N (2 * k + e) (1 - e + 2 * j))) (q4 h) j0 j1
  · have hpos : i + N * d = cC N (2 * k + e) m := by unfold cC; rw [hi, hd, show (2 * m + 1) / 2 = m by omega]
    rw [hpos]
    rcases (by omega : (m - e) % 2 = 0 ∨ (m - 1 + e) % 2 = 0) with hj | hj
    · obtain ⟨j, rfl, j0, j1⟩ : ∃ j, m = e + 2 * j ∧ 0 ≤ j ∧ j < k + 1 := ⟨(m - e) / 2, by omega, by omega, by omega⟩
      rw [q2 h' j j0 j1]
      exact o2.apply (fun j => a (cC N (2 * k + e) (e + 2 * j))) (fun j => b (cC N (2 * k + e) (e + 2 * j))) (q2 h) j0 j1
    · obtain ⟨j, rfl, j0, j1⟩ : ∃ j, m = 1 - e + 2 * j ∧ 0 ≤ j ∧ j < k + e := ⟨(m - 1 + e) / 2, by omega, by omega, by omega⟩
      rw [q4 h' j j0 j1]
      exact o4.apply (fun j => a (cC N (2 * k + e) (1 - e + 2 * j))) (fun j => b (cS N (2 * k + e) (2 - e + 2 * j))) (q3 h) j0 j1

theorem exchange_unique {T : Nat} {A B C : Buf K} (h : ExchangeEnds J N T A B) (h' : ExchangeEnds J N T A C) : B = C := by
  obtain ⟨A1, e1, p1⟩ := h
  obtain ⟨A2, e2, p2⟩ := h'
  rw [e1] at e2
  injection e2 with e2
  subst e2
  exact p1.unique p2

/-- **C56.** When the blocks are mutually inverse, exchanging the axes twice restores every array whose entries below the coefficients are zero,
whatever the numbers of threads and the schedules. -/
theorem C56_involution (hJ : BlocksInvolutive J) (hn : 2 ≤ J.n) (hN : J.n ≤ N) {A : Buf K} (hs : N * (2 * J.n - 1) ≤ A.size) (hp : Padded J.n N A.val) {T T' : Nat} (hT : 0 < T)
    (hT' : 0 < T') : ∃ B, ExchangeEnds J N T A B ∧ ExchangeEnds J N T' B A := by
  obtain ⟨B, eB, zB, xB⟩ := C56_exchange_partial hn hN hs hT
  obtain ⟨C, eC, zC, xC⟩ := C56_exchange_partial hn hN (A := B) (by rw [zB]; exact hs) hT'
  have : C = A := Buf.ext' (by rw [zC, zB]) fun p => xB.twice hJ hn hN hp xC p
  exact ⟨B, eB, this ▸ eC⟩

/-- **C56.** When the rows of the blocks are orthonormal, the exchange preserves the energy of every degree. -/
theorem C56_energy (hJ : BlocksOrthonormal J) (hn : 2 ≤ J.n) (hN : J.n ≤ N) {A : Buf K} (hs : N * (2 * J.n - 1) ≤ A.size) {T : Nat} (hT : 0 < T) {L : Int} (hL : J.n - 1 ≤ L) :
    ∃ B, ExchangeEnds J N T A B ∧ ∀ l, 0 ≤ l → l < J.n → degreeEnergy N L l B.val = degreeEnergy N L l A.val := by
  obtain ⟨B, eB, zB, xB⟩ := C56_exchange_partial hn hN hs hT
  exact ⟨B, eB, fun l l0 ln => xB.energy hJ hN hn l0 ln hL⟩

/-! ## The whole transformation -/

/-- The reflection preserves the energy. -/
theorem reflection_energy (hN : 0 < N) (hM : 0 ≤ M) {A : Buf K} (hA : N * (2 * (M / 2) + 1) ≤ A.size) :
    ∃ B, polarReflection N M A = some B ∧ B.size = A.size ∧ ∀ l, 0 ≤ l → l < N → degreeEnergy N (M / 2) l B.val = degreeEnergy N (M / 2) l A.val := by
  obtain ⟨B, eB, sB, hB, oB⟩ := C38_reflection hN hM hA
  have sq : ∀ (n : Nat) (x : K), (-1) ^ n * x * ((-1) ^ n * x) = x * x := fun n x => by
    rw [show (-1) ^ n * x * ((-1) ^ n * x) = ((-1) ^ n * (-1) ^ n) * (x * x) by ring, ← mul_pow]
    simp
  refine ⟨B, eB, sB, fun l l0 lN => ?_⟩
  unfold degreeEnergy
  have h0 := hB 0 l (by omega) (by omega) l0 (by omega)
  rw [mul_zero, add_zero] at h0
  rw [h0, sq]
  congr 1
  refine Finset.sum_congr rfl fun m hm => ?_
  rw [Finset.mem_Ico] at hm
  rw [hB (2 * m - 1) (l - m) (by omega) (by omega) (by omega) (by omega), hB (2 * m) (l - m) (by omega) (by omega) (by omega) (by omega), sq, sq]

/-- **C56.** Transforming an expansion by the planned factors of an orthogonal matrix is free of undefined behaviour, ends on every schedule, and
preserves the energy of every degree. -/
theorem C56_isometry (hJ : BlocksOrthonormal J) (hn : 2 ≤ J.n) (hN : J.n ≤ N) (hM : J.n - 1 ≤ M / 2) {Z : ZYZR K} (u0 : Z.c0 * Z.c0 + Z.s0 * Z.s0 = 1)
    (u1 : Z.c1 * Z.c1 + Z.s1 * Z.s1 = 1) (u2 : Z.c2 * Z.c2 + Z.s2 * Z.s2 = 1) {A : Buf K} (hA : N * (2 * (M / 2) + 1) ≤ A.size) {T : Nat} (hT : 0 < T) :
    ∃ B, IsometryEnds J Z N M T A B ∧ ∀ l, 0 ≤ l → l < J.n → degreeEnergy N (M / 2) l B.val = degreeEnergy N (M / 2) l A.val := by
  have hs : ∀ {n : Nat}, n = A.size → N * (2 * (M / 2) + 1) ≤ n ∧ N * (2 * J.n - 1) ≤ n := fun {n} h => by
    rw [h]
    exact ⟨hA, le_trans (Int.mul_le_mul_of_nonneg_left (by omega) (by omega)) hA⟩
  have rot : ∀ {s c : K} {A' : Buf K}, c * c + s * s = 1 → A'.size = A.size → ∃ B, polarRotation N M s c A' = some B ∧ B.size = A.size ∧
      ∀ l, 0 ≤ l → l < N → degreeEnergy N (M / 2) l B.val = degreeEnergy N (M / 2) l A'.val := fun hu hz => by
    obtain ⟨B, eB, tB⟩ := C38_rotation hu (by omega : 0 < N) (by omega : 0 ≤ M) (hs hz).1
    obtain ⟨B', eB', hB'⟩ := C38_energy hu (by omega : 0 < N) (by omega : 0 ≤ M) (hs hz).1
    rw [eB] at eB'
    injection eB' with eB'
    exact ⟨B, eB, by rw [tB.size, hz], eB' ▸ hB'⟩
  have ex : ∀ {A' : Buf K}, A'.size = A.size → ∃ B, ExchangeEnds J N T A' B ∧ B.size = A.size ∧
      ∀ l, 0 ≤ l → l < J.n → degreeEnergy N (M / 2) l B.val = degreeEnergy N (M / 2) l A'.val := fun hz => by
    obtain ⟨B, eB, zB, xB⟩ := C56_exchange_partial hn hN (hs hz).2 hT
    exact ⟨B, eB, by rw [zB, hz], fun l l0 ln => xB.energy hJ hN hn l0 ln hM⟩
  obtain ⟨A0, r0, z0, g0⟩ : ∃ A0, (if Z.sign < 0 then polarReflection N M A else some A) = some A0 ∧ A0.size = A.size ∧
      ∀ l, 0 ≤ l → l < N → degreeEnergy N (M / 2) l A0.val = degreeEnergy N (M / 2) l A.val := by
    split_ifs
    · exact reflection_energy (by omega) (by omega) hA
    · exact ⟨A, rfl, rfl, fun _ _ _ => rfl⟩
  obtain ⟨A1, r1, z1, g1⟩ := rot (s := Z.s2) (c := Z.c2) u2 z0
  obtain ⟨A2, r2, z2, g2⟩ := ex z1
  obtain ⟨A3, r3, z3, g3⟩ := rot (s := -Z.s1) (c := Z.c1) (by linear_combination u1) z2
  obtain ⟨A4, r4, z4, g4⟩ := ex z3
  obtain ⟨B, r5, z5, g5⟩ := rot (s := Z.s0) (c := Z.c0) u0 z4
  refine ⟨B, ⟨A0, A1, A2, A3, A4, r0, r1, r2, r3, r4, r5⟩, fun l l0 ln => ?_⟩
  rw [g5 l l0 (by omega), g4 l l0 ln, g3 l l0 (by omega), g2 l l0 ln, g1 l l0 (by omega), g0 l l0 (by omega)]

/-- The coefficients of degree one (those of `x`, `y`, `z`) as the first column of a matrix. -/
def degreeOne (N : Int) (a : Int → K) : Mat3 K := ⟨a (2 * N), a N, a 1, 0, 0, 0, 0, 0, 0⟩

/-- **C56.** On degree one the transformation is the planned 3×3 matrix: the coefficients of `(x, y, z)` are multiplied by it. With C36 this is the
matrix the plan was made from. -/
theorem C56_degree_one (hn : 2 ≤ J.n) (hN : J.n ≤ N) (hM : J.n - 1 ≤ M / 2) {Z : ZYZR K} (u0 : Z.c0 * Z.c0 + Z.s0 * Z.s0 = 1)
    (u1 : Z.c1 * Z.c1 + Z.s1 * Z.s1 = 1) (u2 : Z.c2 * Z.c2 + Z.s2 * Z.s2 = 1) {A : Buf K} (hA : N * (2 * (M / 2) + 1) ≤ A.size) {T : Nat} (hT : 0 < T) :
    ∃ B, IsometryEnds J Z N M T A B ∧ B.val 0 = A.val 0 ∧ degreeOne N B.val = applyZYZR Z (degreeOne N A.val) := by
  have hs : ∀ {n : Nat}, n = A.size → N * (2 * (M / 2) + 1) ≤ n ∧ N * (2 * J.n - 1) ≤ n := fun {n} h => by
    rw [h]
    exact ⟨hA, le_trans (Int.mul_le_mul_of_nonneg_left (by omega) (by omega)) hA⟩
  have low : ∀ m i, 1 ≤ m → 0 ≤ i → 1 < i + N * (2 * m - 1) ∧ 1 < i + N * (2 * m) := fun m i hm hi => by
    have h1 : N * 1 ≤ N * (2 * m - 1) := Int.mul_le_mul_of_nonneg_left (by omega) (by omega)
    have h2 : N * 1 ≤ N * (2 * m) := Int.mul_le_mul_of_nonneg_left (by omega) (by omega)
    omega
  have rot : ∀ {s c : K} {A' : Buf K}, c * c + s * s = 1 → A'.size = A.size → ∃ B, polarRotation N M s c A' = some B ∧ B.size = A.size ∧ B.val 0 = A'.val 0 ∧
      B.val (2 * N) = c * A'.val (2 * N) - s * A'.val N ∧ B.val N = c * A'.val N + s * A'.val (2 * N) ∧ B.val 1 = A'.val 1 := fun {s c A'} hu hz => by
    obtain ⟨B, eB, tB⟩ := C38_rotation hu (by omega : 0 < N) (by omega : 0 ≤ M) (hs hz).1
    have t1 := tB.sine 1 0 (by omega) (by omega) (by omega) (by omega)
    have t2 := tB.cosine 1 0 (by omega) (by omega) (by omega) (by omega)
    have c1 := (polC_rec (s := s) (c := c) (m := 0) (by omega))
    rw [show (0 : Int) + N * (2 * 1 - 1) = N by ring, show (0 : Int) + N * (2 * 1) = 2 * N by ring, show (1 : Int) = 0 + 1 from rfl, c1.2.2.1, c1.2.2.2, c1.1, c1.2.1] at t1 t2
    refine ⟨B, eB, by rw [tB.size, hz], tB.other 0 fun m i m1 _ i0 _ => ?_, by rw [t2]; ring, by rw [t1]; ring, tB.other 1 fun m i m1 _ i0 _ => ?_⟩
    · have := low m i m1 i0
      omega
    · have := low m i m1 i0
      omega
  have ex : ∀ {A' : Buf K}, A'.size = A.size → ∃ B, ExchangeEnds J N T A' B ∧ B.size = A.size ∧ B.val 0 = A'.val 0 ∧
      B.val (2 * N) = A'.val (2 * N) ∧ B.val N = -A'.val 1 ∧ B.val 1 = -A'.val N := fun hz => by
    obtain ⟨B, eB, zB, xB⟩ := C56_exchange_partial hn hN (hs hz).2 hT
    refine ⟨B, eB, by rw [zB, hz], ?_, ?_, xB.y, xB.z⟩
    · simpa using xB.other 0 0 (by omega) (by omega) (by omega) (Or.inl (by omega)) (by omega)
    · have := xB.other 0 2 (by omega) (by omega) (by omega) (Or.inr (Or.inr ⟨rfl, rfl⟩)) (by omega)
      rwa [show 0 + N * 2 = 2 * N by ring] at this
  obtain ⟨A0, r0, z0, f0, x0, y0, w0⟩ : ∃ A0, (if Z.sign < 0 then polarReflection N M A else some A) = some A0 ∧ A0.size = A.size ∧ A0.val 0 = A.val 0 ∧
      A0.val (2 * N) = A.val (2 * N) ∧ A0.val N = A.val N ∧ A0.val 1 = if Z.sign < 0 then -A.val 1 else A.val 1 := by
    split_ifs
    · obtain ⟨B, eB, sB, hB, oB⟩ := C38_reflection (by omega : 0 < N) (by omega : 0 ≤ M) hA
      have h0 := hB 0 0 (by omega) (by omega) (by omega) (by omega)
      have h1 := hB 0 1 (by omega) (by omega) (by omega) (by omega)
      have h2 := hB 1 0 (by omega) (by omega) (by omega) (by omega)
      have h3 := hB 2 0 (by omega) (by omega) (by omega) (by omega)
      rw [show (0 : Int) + N * 2 = 2 * N by ring] at h3
      refine ⟨B, eB, sB, by simpa using h0, by simpa using h3, by simpa using h2, by simpa using h1⟩
    · exact ⟨A, rfl, rfl, rfl, rfl, rfl, rfl⟩
  obtain ⟨A1, r1, z1, f1, x1, y1, w1⟩ := rot (s := Z.s2) (c := Z.c2) u2 z0
  obtain ⟨A2, r2, z2, f2, x2, y2, w2⟩ := ex z1
  obtain ⟨A3, r3, z3, f3, x3, y3, w3⟩ := rot (s := -Z.s1) (c := Z.c1) (by linear_combination u1) z2
  obtain ⟨A4, r4, z4, f4, x4, y4, w4⟩ := ex z3
  obtain ⟨B, r5, z5, f5, x5, y5, w5⟩ := rot (s := Z.s0) (c := Z.c0) u0 z4
  refine ⟨B, ⟨A0, A1, A2, A3, A4, r0, r1, r2, r3, r4, r5⟩, by rw [f5, f4, f3, f2, f1, f0], ?_⟩
  unfold degreeOne applyZYZR isoZ isoY
  rw [x5, y5, w5, x4, y4, w4, x3, y3, w3, x2, y2, w2, x1, y1, w1, x0, y0, w0]
  by_cases hsg : Z.sign < 0
  · rw [if_pos hsg, if_pos hsg]
    ext <;> simp only <;> ring
  · rw [if_neg hsg, if_neg hsg]
    ext <;> simp only <;> ring

/-- The factors of the inverse of a rotation. -/
def ZYZR.inverse (Z : ZYZR K) : ZYZR K := ⟨-Z.s2, -Z.s1, -Z.s0, Z.c2, Z.c1, Z.c0, 1⟩

theorem TurnedBy.padded {L n : Int} {C S : Int → K} {A B : Buf K} (hN : n ≤ N) (h : TurnedBy N L C S A B) (hp : Padded n N A.val) : Padded n N B.val := by
  intro m i m2 mn i0 i1
  have := hp m i m2 mn i0 i1
  refine ⟨?_, ?_⟩
  · rw [h.other _ fun k j k1 kL j0 jN => ⟨rc_ne (by omega) (by omega) (by omega) (by omega) (by omega), rc_ne (by omega) (by omega) (by omega) (by omega) (by omega)⟩, this.1]
  · rw [h.other _ fun k j k1 kL j0 jN => ⟨rc_ne (by omega) (by omega) (by omega) (by omega) (by omega), rc_ne (by omega) (by omega) (by omega) (by omega) (by omega)⟩, this.2]

/-- **C56.** Transforming by a rotation and then by its inverse restores the expansion. -/
theorem C56_inverse (hJ : BlocksInvolutive J) (hn : 2 ≤ J.n) (hN : J.n ≤ N) (hM : J.n - 1 ≤ M / 2) {Z : ZYZR K} (hZ : 0 ≤ Z.sign) (u0 : Z.c0 * Z.c0 + Z.s0 * Z.s0 = 1)
    (u1 : Z.c1 * Z.c1 + Z.s1 * Z.s1 = 1) (u2 : Z.c2 * Z.c2 + Z.s2 * Z.s2 = 1) {A : Buf K} (hA : N * (2 * (M / 2) + 1) ≤ A.size) (hp : Padded J.n N A.val) {T T' : Nat} (hT : 0 < T)
    (hT' : 0 < T') : ∃ B, IsometryEnds J Z N M T A B ∧ IsometryEnds J (ZYZR.inverse Z) N M T' B A := by
  have hs : ∀ {n : Nat}, n = A.size → N * (2 * (M / 2) + 1) ≤ n ∧ N * (2 * J.n - 1) ≤ n := fun {n} h => by
    rw [h]
    exact ⟨hA, le_trans (Int.mul_le_mul_of_nonneg_left (by omega) (by omega)) hA⟩
  have rot : ∀ {s c : K} {A' : Buf K}, c * c + s * s = 1 → A'.size = A.size → Padded J.n N A'.val →
      ∃ B, polarRotation N M s c A' = some B ∧ B.size = A.size ∧ Padded J.n N B.val ∧ polarRotation N M (-s) c B = some A' := fun hu hz hp' => by
    obtain ⟨B, eB, tB⟩ := C38_rotation hu (by omega : 0 < N) (by omega : 0 ≤ M) (hs hz).1
    have := C38_inverse hu (by omega : 0 < N) (by omega : 0 ≤ M) (hs hz).1
    rw [eB, Option.bind_some] at this
    exact ⟨B, eB, by rw [tB.size, hz], tB.padded hN hp', this⟩
  have ex : ∀ {A' : Buf K}, A'.size = A.size → Padded J.n N A'.val → ∃ B, ExchangeEnds J N T A' B ∧ B.size = A.size ∧ Padded J.n N B.val ∧ ExchangeEnds J N T' B A' := fun hz hp' => by
    obtain ⟨B, eB, zB, xB⟩ := C56_exchange_partial hn hN (hs hz).2 hT
    obtain ⟨C, eC, iC⟩ := C56_involution hJ hn hN (hs hz).2 hp' hT hT'
    have := exchange_unique eC eB
    subst this
    exact ⟨C, eB, by rw [zB, hz], xB.padded hp', iC⟩
  obtain ⟨A1, r1, z1, p1, i1⟩ := rot (s := Z.s2) (c := Z.c2) u2 rfl hp
  obtain ⟨A2, r2, z2, p2, i2⟩ := ex z1 p1
  obtain ⟨A3, r3, z3, p3, i3⟩ := rot (s := -Z.s1) (c := Z.c1) (by linear_combination u1) z2 p2
  obtain ⟨A4, r4, z4, p4, i4⟩ := ex z3 p3
  obtain ⟨B, r5, z5, p5, i5⟩ := rot (s := Z.s0) (c := Z.c0) u0 z4 p4
  exact ⟨B, ⟨A, A1, A2, A3, A4, if_neg (by omega), r1, r2, r3, r4, r5⟩, ⟨B, A4, A3, A2, A1, if_neg (by show ¬ (1 : Int) < 0; decide), i5, i4, i3, i2, i1⟩⟩

/-- A plan of order three whose blocks are exact over the integers: degree two has blocks of sizes 1, 2, 1 and 1. -/
def plan3 : YzPlan Int := ⟨3, fun _ _ _ => -1, fun _ i k => if i = k then 0 else 1, fun _ _ _ => 1, fun _ _ _ => 1⟩

theorem plan3_involutive : BlocksInvolutive plan3 := by
  refine ⟨?_, ?_, ?_, ?_⟩ <;> intro l l2 ln <;> (have : l = 2 := by (have : l < 3 := ln); omega) <;> subst this <;> intro i j i0 i1 j0 j1 <;>
    simp only [show (2 : Int) / 2 = 1 by decide, show ((2 : Int) + 2) / 2 = 2 by decide, show ((2 : Int) + 1) / 2 = 1 by decide] at i1 j1
  · obtain rfl : i = 0 := by omega
    obtain rfl : j = 0 := by omega
    decide
  · rcases (by omega : i = 0 ∨ i = 1) with rfl | rfl <;> rcases (by omega : j = 0 ∨ j = 1) with rfl | rfl <;> decide
  · obtain rfl : i = 0 := by omega
    obtain rfl : j = 0 := by omega
    decide
  · obtain rfl : i = 0 := by omega
    obtain rfl : j = 0 := by omega
    decide

theorem plan3_orthonormal : BlocksOrthonormal plan3 := by
  refine ⟨?_, ?_, ?_, ?_⟩ <;> intro l l2 ln <;> (have : l = 2 := by (have : l < 3 := ln); omega) <;> subst this <;> intro i j i0 i1 j0 j1 <;>
    simp only [show (2 : Int) / 2 = 1 by decide, show ((2 : Int) + 2) / 2 = 2 by decide, show ((2 : Int) + 1) / 2 = 1 by decide] at i1 j1
  · obtain rfl : i = 0 := by omega
    obtain rfl : j = 0 := by omega
    decide
  · rcases (by omega : i = 0 ∨ i = 1) with rfl | rfl <;> rcases (by omega : j = 0 ∨ j = 1) with rfl | rfl <;> decide
  · obtain rfl : i = 0 := by omega
    obtain rfl : j = 0 := by omega
    decide
  · obtain rfl : i = 0 := by omega
    obtain rfl : j = 0 := by omega
    decide

/-- A quarter turn about the first axis, and back, of a 3 × 5 array with two and three threads. -/
example : ∃ B, IsometryEnds plan3 ⟨1, 1, 0, 0, 0, 1, 1⟩ 3 5 2 (Buf.ofList [1, 2, 3, 4, 5, 0, 6, 7, 0, 8, 0, 0, 9, 0, 0]) B ∧
    IsometryEnds plan3 (ZYZR.inverse ⟨1, 1, 0, 0, 0, 1, 1⟩) 3 5 3 B (Buf.ofList [1, 2, 3, 4, 5, 0, 6, 7, 0, 8, 0, 0, 9, 0, 0]) :=
  C56_inverse plan3_involutive (by decide) (by decide) (by decide) (by decide) (by decide) (by decide) (by decide) (by decide) (fun m i m2 mn i0 i1 => by
    obtain rfl : m = 2 := by (have : m < 3 := mn); omega
    rcases (by omega : i = 0 ∨ i = 1) with rfl | rfl <;> decide) (by decide) (by decide)

example : ∃ B, IsometryEnds plan3 ⟨1, 1, 0, 0, 0, 1, -1⟩ 3 5 2 (Buf.ofList [1, 2, 3, 4, 5, 0, 6, 7, 0, 8, 0, 0, 9, 0, 0]) B ∧ ∀ l, 0 ≤ l → l < 3 →
    degreeEnergy 3 (5 / 2) l B.val = degreeEnergy 3 (5 / 2) l (Buf.ofList [1, 2, 3, 4, 5, 0, 6, 7, 0, 8, 0, 0, 9, 0, 0]).val :=
  C56_isometry plan3_orthonormal (by decide) (by decide) (by decide) (by decide) (by decide) (by decide) (by decide) (by decide)

example : ∃ B, IsometryEnds plan3 ⟨1, 1, 0, 0, 0, 1, -1⟩ 3 5 2 (Buf.ofList [1, 2, 3, 4, 5, 0, 6, 7, 0, 8, 0, 0, 9, 0, 0]) B ∧ B.val 0 = 1 ∧
    degreeOne 3 B.val = applyZYZR ⟨1, 1, 0, 0, 0, 1, -1⟩ ⟨6, 4, 2, 0, 0, 0, 0, 0, 0⟩ :=
  C56_degree_one (by decide) (by decide) (by decide) (by decide) (by decide) (by decide) (by decide) (by decide)

/-- One degree of the exchange, computed. -/
example : ((yzDegree plan3 3 2).run (Buf.ofList [1, 2, 3, 4, 5, 0, 6, 7, 0, 8, 0, 0, 9, 0, 0])).map (fun r => r.2.toList) =
    some [1, 2, 9, 4, -5, 0, 6, 8, 0, 7, 0, 0, 3, 0, 0] := by decide

example : yzStart (⟨1, fun _ _ _ => 1, fun _ _ _ => 1, fun _ _ _ => 1, fun _ _ _ => 1⟩ : YzPlan Int) 4 (Buf.ofList [1, 2, 3, 4]) = none :=
  C56_order_one_defect rfl (by decide)

end FT.Props
