import Verif.Model.Isometry
import Verif.Lemmas.Accum
import Mathlib.Tactic.LinearCombination

/-! # Rotation about and reflection across the polar axis -/

namespace FT
variable {K : Type*}

/-- A nonnegative index is row plus `N` times column, in one way. -/
theorem rc_div {N i c : Int} (i0 : 0 ≤ i) (iN : i < N) : (i + N * c) / N = c := by
  rw [Int.add_mul_ediv_left _ _ (by omega), Int.ediv_eq_zero_of_lt i0 iN, zero_add]

theorem rc_mod {N i c : Int} (i0 : 0 ≤ i) (iN : i < N) : (i + N * c) % N = i := by
  rw [Int.add_mul_emod_self_left, Int.emod_eq_of_lt i0 iN]

theorem rc_eq {N p : Int} (hN : 0 < N) : ∃ i c, 0 ≤ i ∧ i < N ∧ p = i + N * c ∧ p % N = i ∧ p / N = c :=
  ⟨p % N, p / N, Int.emod_nonneg _ (by omega), Int.emod_lt_of_pos _ hN, (Int.emod_add_mul_ediv p N).symm, rfl, rfl⟩

/-- Cosines and sines of multiples of the angle, by the addition theorem. -/
def multC [CommRing K] (s c : K) : Nat → K × K
  | 0 => (1, 0)
  | n + 1 => (c * (multC s c n).1 - s * (multC s c n).2, s * (multC s c n).1 + c * (multC s c n).2)

section Ring
variable [CommRing K]

theorem multC_unit {s c : K} (h : c * c + s * s = 1) (n : Nat) : (multC s c n).1 * (multC s c n).1 + (multC s c n).2 * (multC s c n).2 = 1 := by
  induction n with
  | zero => simp [multC]
  | succ n ih =>
    simp only [multC]
    linear_combination ih + ((multC s c n).1 * (multC s c n).1 + (multC s c n).2 * (multC s c n).2) * h

/-- The three-term recurrence used by the code. -/
theorem multC_rec {s c : K} (h : c * c + s * s = 1) (n : Nat) :
    (multC s c (n + 2)).1 = 2 * c * (multC s c (n + 1)).1 - (multC s c n).1 ∧ (multC s c (n + 2)).2 = 2 * c * (multC s c (n + 1)).2 - (multC s c n).2 := by
  simp only [multC]
  constructor
  · linear_combination (-(multC s c n).1) * h
  · linear_combination (-(multC s c n).2) * h

theorem multC_neg (s c : K) (n : Nat) : (multC (-s) c n).1 = (multC s c n).1 ∧ (multC (-s) c n).2 = -(multC s c n).2 := by
  induction n with
  | zero => simp [multC]
  | succ n ih =>
    simp only [multC]
    rw [ih.1, ih.2]
    constructor <;> ring

/-- Angles add. -/
theorem multC_mul (s c s' c' : K) (n : Nat) :
    (multC (s * c' + c * s') (c * c' - s * s') n).1 = (multC s c n).1 * (multC s' c' n).1 - (multC s c n).2 * (multC s' c' n).2 ∧
    (multC (s * c' + c * s') (c * c' - s * s') n).2 = (multC s c n).2 * (multC s' c' n).1 + (multC s c n).1 * (multC s' c' n).2 := by
  induction n with
  | zero => simp [multC]
  | succ n ih =>
    simp only [multC]
    rw [ih.1, ih.2]
    constructor <;> ring

/-- Array after the rows below `lim m` of the columns `2m-1`, `2m` have been rotated by `(C m, S m)`. -/
def polV (N : Int) (C S : Int → K) (lim : Int → Int) (a : Int → K) (p : Int) : K :=
  if 0 ≤ p ∧ p % N < lim ((p / N + 1) / 2) then
    if p / N % 2 = 1 then C ((p / N + 1) / 2) * a p + S ((p / N + 1) / 2) * a (p + N)
    else C ((p / N + 1) / 2) * a p - S ((p / N + 1) / 2) * a (p - N)
  else a p

variable {N : Int} {C S : Int → K} {a : Int → K}

theorem polV_at {lim : Int → Int} {i c : Int} (i0 : 0 ≤ i) (iN : i < N) (c0 : 0 ≤ c) :
    polV N C S lim a (i + N * c) = if i < lim ((c + 1) / 2) then
      if c % 2 = 1 then C ((c + 1) / 2) * a (i + N * c) + S ((c + 1) / 2) * a (i + N * (c + 1))
      else C ((c + 1) / 2) * a (i + N * c) - S ((c + 1) / 2) * a (i + N * (c - 1))
    else a (i + N * c) := by
  unfold polV
  have hp : 0 ≤ i + N * c := by have := Int.mul_nonneg (show 0 ≤ N by omega) c0; omega
  rw [rc_div i0 iN, rc_mod i0 iN, show i + N * c + N = i + N * (c + 1) by ring, show i + N * c - N = i + N * (c - 1) by ring]
  simp only [hp, true_and]

theorem polV_step {sz : Nat} {lim : Int → Int} {m i : Int} (hm : 1 ≤ m) (i0 : 0 ≤ i) (iN : i < N) (hl : lim m = i) (hsz : i + N * (2 * m) < sz) :
    polarPair (S m) (C m) (i + N * (2 * m - 1)) (i + N * (2 * m)) ⟨sz, polV N C S lim a⟩
      = some ⟨sz, polV N C S (Function.update lim m (i + 1)) a⟩ := by
  have hN : 0 < N := by omega
  have e : N * (2 * m) = N * (2 * m - 1) + N := by ring
  have hp : 0 ≤ N * (2 * m - 1) := Int.mul_nonneg (by omega) (by omega)
  have v1 : polV N C S lim a (i + N * (2 * m - 1)) = a (i + N * (2 * m - 1)) := by
    rw [polV_at i0 iN (by omega), show (2 * m - 1 + 1) / 2 = m by omega, hl, if_neg (lt_irrefl _)]
  have v2 : polV N C S lim a (i + N * (2 * m)) = a (i + N * (2 * m)) := by
    rw [polV_at i0 iN (by omega), show (2 * m + 1) / 2 = m by omega, hl, if_neg (lt_irrefl _)]
  unfold polarPair
  rw [Buf.rd_of (b := ⟨sz, polV N C S lim a⟩) (by omega) (by show _ < (sz : Int); omega)]
  rw [Buf.rd_of (b := ⟨sz, polV N C S lim a⟩) (by omega) (by show _ < (sz : Int); omega)]
  show (Buf.wr _ _ _).bind _ = _
  rw [Buf.wr_of (b := ⟨sz, polV N C S lim a⟩) (by omega) (by show _ < (sz : Int); omega)]
  show Buf.wr ⟨sz, _⟩ _ _ = _
  rw [Buf.wr_of (by omega) (by show _ < (sz : Int); omega)]
  dsimp only
  rw [v1, v2]
  refine congrArg some (Buf.ext' rfl fun x => ?_)
  dsimp only
  rw [Function.update_apply, Function.update_apply]
  have u1 : polV N C S (Function.update lim m (i + 1)) a (i + N * (2 * m - 1)) = C m * a (i + N * (2 * m - 1)) + S m * a (i + N * (2 * m)) := by
    rw [polV_at i0 iN (by omega), show (2 * m - 1 + 1) / 2 = m by omega, Function.update_self, if_pos (by omega), if_pos (by omega),
      show 2 * m - 1 + 1 = 2 * m by ring]
  have u2 : polV N C S (Function.update lim m (i + 1)) a (i + N * (2 * m)) = C m * a (i + N * (2 * m)) - S m * a (i + N * (2 * m - 1)) := by
    rw [polV_at i0 iN (by omega), show (2 * m + 1) / 2 = m by omega, Function.update_self, if_pos (by omega), if_neg (by omega)]
  split_ifs with hx hx
  · rw [hx, u2]
  · rw [hx, u1]
  · by_cases x0 : 0 ≤ x
    · obtain ⟨j, d, j0, jN, rfl, -, -⟩ := rc_eq (p := x) hN
      have d0 : 0 ≤ d := by
        by_contra h
        have : N * d ≤ N * (-1) := Int.mul_le_mul_of_nonneg_left (by omega) (by omega)
        omega
      rw [polV_at j0 jN d0, polV_at j0 jN d0]
      by_cases hd : (d + 1) / 2 = m
      · rw [hd, Function.update_self, hl]
        have : j ≠ i := by
          rintro rfl
          have : d = 2 * m - 1 ∨ d = 2 * m := by omega
          rcases this with rfl | rfl
          · exact ‹¬ j + N * (2 * m - 1) = j + N * (2 * m - 1)› rfl
          · exact ‹¬ j + N * (2 * m) = j + N * (2 * m)› rfl
        have : (j < i) ↔ (j < i + 1) := by omega
        simp only [this]
      · rw [Function.update_of_ne hd]
    · unfold polV
      simp only [x0, false_and, if_false]

theorem polV_zero {lim : Int → Int} (h : ∀ m, lim m ≤ 0) (hN : 0 < N) : polV N C S lim a = a := by
  funext p
  unfold polV
  have := Int.emod_nonneg p (show N ≠ 0 by omega)
  have := h ((p / N + 1) / 2)
  rw [if_neg (by omega)]

theorem polV_congr {C' S' : Int → K} {lim lim' : Int → Int} (h : ∀ m, lim m = lim' m ∨ (lim m ≤ 0 ∧ lim' m ≤ 0)) (hC : ∀ m, 0 < lim m → C m = C' m ∧ S m = S' m) (hN : 0 < N) :
    polV N C S lim a = polV N C' S' lim' a := by
  funext p
  unfold polV
  have h0 := Int.emod_nonneg p (show N ≠ 0 by omega)
  rcases h ((p / N + 1) / 2) with e | ⟨e, e'⟩
  · rw [← e]
    by_cases hp : 0 ≤ p ∧ p % N < lim ((p / N + 1) / 2)
    · rw [if_pos hp, if_pos hp, (hC _ (by omega)).1, (hC _ (by omega)).2]
    · rw [if_neg hp, if_neg hp]
  · rw [if_neg (by omega), if_neg (by omega)]

/-- Rows rotated in the columns of order `m` when the highest order is `L`. -/
def polLim (N L : Int) (m : Int) : Int := if 1 ≤ m ∧ m ≤ L then N - m else 0

/-- The factors for order `m`. -/
def polC (s c : K) (m : Int) : K := (multC s c m.toNat).1
def polS (s c : K) (m : Int) : K := (multC s c m.toNat).2

theorem polarRotation_eq {M : Int} {s c : K} (hu : c * c + s * s = 1) (hN : 0 < N) (hM : 0 ≤ M) {A : Buf K} (hA : N * (2 * (M / 2) + 1) ≤ A.size) :
    polarRotation N M s c A = some ⟨A.size, polV N (polC s c) (polS s c) (polLim N (M / 2)) A.val⟩ := by
  unfold polarRotation
  obtain ⟨st, e, h1, h2, h3, h4, h5⟩ := forUp_spec (lo := 1) (hi := M / 2 + 1) (s := (⟨A, s, c, 0, 1⟩ : PolarSt K))
    (body := fun m (st : PolarSt K) =>
      (forUp 0 (N - m) (fun i A => polarPair st.s st.c (i + N * (2 * m - 1)) (i + N * (2 * m)) A) st.A).bind fun A =>
        some ⟨A, 2 * c * st.s - st.sold, 2 * c * st.c - st.cold, st.s, st.c⟩)
    (fun m st => st.A = ⟨A.size, polV N (polC s c) (polS s c) (polLim N (m - 1)) A.val⟩ ∧ st.s = polS s c m ∧ st.c = polC s c m ∧
      st.sold = polS s c (m - 1) ∧ st.cold = polC s c (m - 1))
    ⟨by rw [polV_zero (fun m => by unfold polLim; rw [if_neg (by omega)]) hN], by simp [polS, multC], by simp [polC, multC],
      by simp [polS, multC], by simp [polC, multC]⟩
    (fun m m1 mM st ⟨h1, h2, h3, h4, h5⟩ => by
      have hinner : forUp 0 (N - m) (fun i A => polarPair st.s st.c (i + N * (2 * m - 1)) (i + N * (2 * m)) A) st.A =
          some ⟨A.size, polV N (polC s c) (polS s c) (polLim N m) A.val⟩ := by
        obtain ⟨B, eB, hB⟩ := forUp_spec (lo := 0) (hi := N - m) (s := st.A)
          (body := fun i A => polarPair st.s st.c (i + N * (2 * m - 1)) (i + N * (2 * m)) A)
          (fun i B => B = ⟨A.size, polV N (polC s c) (polS s c) (Function.update (polLim N (m - 1)) m i) A.val⟩)
          (by
            rw [h1]
            rw [polV_congr (fun k => ?_) (fun k _ => ⟨rfl, rfl⟩) hN]
            by_cases hk : k = m
            · right; subst hk
              rw [Function.update_self]
              unfold polLim
              rw [if_neg (by omega)]
              omega
            · left; rw [Function.update_of_ne hk])
          (fun i i0 iN B hB => by
            subst hB
            have hmN : N * (2 * m) ≤ N * (2 * (M / 2)) := Int.mul_le_mul_of_nonneg_left (by omega) (by omega)
            have e1 : N * (2 * (M / 2) + 1) = N * (2 * (M / 2)) + N := by ring
            have := polV_step (C := polC s c) (S := polS s c) (a := A.val) (sz := A.size) (lim := Function.update (polLim N (m - 1)) m i) m1 i0
              (by omega : i < N) (Function.update_self _ _ _) (by omega)
            rw [Function.update_idem] at this
            refine ⟨_, ?_, rfl⟩
            rw [h2, h3]
            exact this)
        rw [eB, hB]
        rw [polV_congr (fun k => ?_) (fun k _ => ⟨rfl, rfl⟩) hN]
        by_cases hk : k = m
        · subst hk
          rw [Function.update_self]
          unfold polLim
          rw [if_pos (by omega)]
          omega
        · left; rw [Function.update_of_ne hk]
          unfold polLim
          split_ifs <;> first | rfl | omega
      rw [hinner]
      refine ⟨_, rfl, ?_, ?_, ?_, ?_, ?_⟩
      · show _ = (⟨A.size, polV N (polC s c) (polS s c) (polLim N (m + 1 - 1)) A.val⟩ : Buf K)
        rw [show m + 1 - 1 = m by ring]
      · show 2 * c * st.s - st.sold = _
        obtain ⟨n, rfl⟩ : ∃ n : Nat, m = n + 1 := ⟨(m - 1).toNat, by omega⟩
        rw [h2, h4]
        unfold polS
        rw [show ((n : Int) + 1 + 1).toNat = n + 2 by omega, show ((n : Int) + 1).toNat = n + 1 by omega, show ((n : Int) + 1 - 1).toNat = n by omega]
        exact (multC_rec hu n).2.symm
      · show 2 * c * st.c - st.cold = _
        obtain ⟨n, rfl⟩ : ∃ n : Nat, m = n + 1 := ⟨(m - 1).toNat, by omega⟩
        rw [h3, h5]
        unfold polC
        rw [show ((n : Int) + 1 + 1).toNat = n + 2 by omega, show ((n : Int) + 1).toNat = n + 1 by omega, show ((n : Int) + 1 - 1).toNat = n by omega]
        exact (multC_rec hu n).1.symm
      · show st.s = _
        rw [h2, show m + 1 - 1 = m by ring]
      · show st.c = _
        rw [h3, show m + 1 - 1 = m by ring])
  have e' := congrArg (fun o => Option.bind o fun st => some st.A) e
  refine e'.trans ?_
  show some st.A = _
  rw [h1, show max 1 (M / 2 + 1) - 1 = M / 2 by omega]

/-- Array after the odd rows below `lim d` of every column `d` have been negated. -/
def negV (N : Int) (lim : Int → Int) (a : Int → K) (p : Int) : K :=
  if 0 ≤ p ∧ p % N % 2 = 1 ∧ p % N < lim (p / N) then -a p else a p

theorem negV_at {lim : Int → Int} {i c : Int} (i0 : 0 ≤ i) (iN : i < N) (c0 : 0 ≤ c) :
    negV N lim a (i + N * c) = if i % 2 = 1 ∧ i < lim c then -a (i + N * c) else a (i + N * c) := by
  unfold negV
  have hp : 0 ≤ i + N * c := by have := Int.mul_nonneg (show 0 ≤ N by omega) c0; omega
  rw [rc_div i0 iN, rc_mod i0 iN]
  simp only [hp, true_and]

theorem negV_step {sz : Nat} {lim : Int → Int} {d i : Int} (hd : 0 ≤ d) (i0 : 0 ≤ i) (iN : i < N) (io : i % 2 = 1) (hl : lim d = i) (hsz : i + N * d < sz) :
    negAt (i + N * d) ⟨sz, negV N lim a⟩ = some ⟨sz, negV N (Function.update lim d (i + 2)) a⟩ := by
  have hN : 0 < N := by omega
  have hp : 0 ≤ N * d := Int.mul_nonneg (by omega) hd
  have v1 : negV N lim a (i + N * d) = a (i + N * d) := by
    rw [negV_at i0 iN hd, hl, if_neg (by omega)]
  unfold negAt
  rw [Buf.rd_of (b := ⟨sz, negV N lim a⟩) (by omega) (by show _ < (sz : Int); omega)]
  show Buf.wr ⟨sz, negV N lim a⟩ _ _ = _
  rw [Buf.wr_of (b := ⟨sz, negV N lim a⟩) (by omega) (by show _ < (sz : Int); omega)]
  dsimp only
  rw [v1]
  refine congrArg some (Buf.ext' rfl fun x => ?_)
  dsimp only
  rw [Function.update_apply]
  split_ifs with hx
  · rw [hx, negV_at i0 iN hd, Function.update_self, if_pos ⟨io, by omega⟩]
  · by_cases x0 : 0 ≤ x
    · obtain ⟨j, e, j0, jN, rfl, -, -⟩ := rc_eq (p := x) hN
      have e0 : 0 ≤ e := by
        by_contra h
        have : N * e ≤ N * (-1) := Int.mul_le_mul_of_nonneg_left (by omega) (by omega)
        omega
      rw [negV_at j0 jN e0, negV_at j0 jN e0]
      by_cases he : e = d
      · subst he
        rw [Function.update_self, hl]
        have : j ≠ i := fun h => hx (by rw [h])
        have : (j % 2 = 1 ∧ j < i) ↔ (j % 2 = 1 ∧ j < i + 2) := by omega
        simp only [this]
      · rw [Function.update_of_ne he]
    · unfold negV
      simp only [x0, false_and, if_false]

theorem negV_congr {lim lim' : Int → Int} (h : ∀ d r, 0 ≤ r → r < N → r % 2 = 1 → (r < lim d ↔ r < lim' d)) (hN : 0 < N) : negV N lim a = negV N lim' a := by
  funext p
  unfold negV
  have h0 := Int.emod_nonneg p (show N ≠ 0 by omega)
  have h1 := Int.emod_lt_of_pos p hN
  by_cases ho : p % N % 2 = 1
  · simp only [h (p / N) (p % N) h0 h1 ho]
  · simp only [ho, false_and, and_false]

/-- The odd rows below `H` of one column. -/
theorem negCol_eq {sz : Nat} {lim : Int → Int} {d H : Int} (hN : 0 < N) (hd : 0 ≤ d) (hH : H ≤ N) (hl : lim d = 1) (hsz : N * d + N ≤ sz) :
    forStep 1 H 2 (fun i => negAt (i + N * d)) ⟨sz, negV N lim a⟩ = some ⟨sz, negV N (Function.update lim d H) a⟩ := by
  unfold forStep
  obtain ⟨B, e, hB⟩ := loop_spec (body := fun k : Nat => negAt (K := K) (1 + 2 * k + N * d)) (n := stepCount 1 H 2) (s := ⟨sz, negV N lim a⟩)
    (fun k B => B = ⟨sz, negV N (Function.update lim d (1 + 2 * k)) a⟩)
    (by rw [Nat.cast_zero, mul_zero, add_zero, ← hl, Function.update_eq_self])
    (fun k hk B hB => by
      have := (mem_stepCount (lo := 1) (hi := H) (by omega : (0 : Int) < 2) k).1 hk
      subst hB
      refine ⟨_, negV_step hd (by omega) (by omega) (by omega) (Function.update_self _ _ _) (by omega), ?_⟩
      rw [Function.update_idem, Nat.cast_add, Nat.cast_one, show (1 : Int) + 2 * (k + 1) = 1 + 2 * k + 2 by ring])
  rw [e, hB, negV_congr (fun c r r0 rN ro => ?_) hN]
  by_cases hc : c = d
  · subst hc
    rw [Function.update_self, Function.update_self]
    obtain ⟨k, rfl⟩ : ∃ k : Nat, r = 1 + 2 * k := ⟨((r - 1) / 2).toNat, by omega⟩
    have := mem_stepCount (lo := 1) (hi := H) (by omega : (0 : Int) < 2) k
    omega
  · rw [Function.update_of_ne hc, Function.update_of_ne hc]

/-- The odd rows below `H` of two columns together. -/
theorem negCols_eq {sz : Nat} {lim : Int → Int} {d d' H : Int} (hN : 0 < N) (hd : 0 ≤ d) (hd' : 0 ≤ d') (hne : d ≠ d') (hH : H ≤ N) (hl : lim d = 1) (hl' : lim d' = 1)
    (hsz : N * d + N ≤ sz) (hsz' : N * d' + N ≤ sz) :
    forStep 1 H 2 (fun i A => (negAt (i + N * d) A).bind fun A => negAt (i + N * d') A) ⟨sz, negV N lim a⟩
      = some ⟨sz, negV N (Function.update (Function.update lim d H) d' H) a⟩ := by
  unfold forStep
  obtain ⟨B, e, hB⟩ := loop_spec (body := fun (k : Nat) (A : Buf K) => (negAt (1 + 2 * k + N * d) A).bind fun A => negAt (1 + 2 * k + N * d') A)
    (n := stepCount 1 H 2) (s := ⟨sz, negV N lim a⟩)
    (fun k B => B = ⟨sz, negV N (Function.update (Function.update lim d (1 + 2 * k)) d' (1 + 2 * k)) a⟩)
    (by
      have h1 : Function.update (Function.update lim d (1 + 2 * ((0 : Nat) : Int))) d' (1 + 2 * ((0 : Nat) : Int)) = lim := by
        funext c
        rw [Function.update_apply, Function.update_apply]
        split_ifs with h1 h2
        · rw [h1, hl']; rfl
        · rw [h2, hl]; rfl
        · rfl
      rw [h1])
    (fun k hk B hB => by
      have := (mem_stepCount (lo := 1) (hi := H) (by omega : (0 : Int) < 2) k).1 hk
      subst hB
      rw [negV_step hd (by omega) (by omega) (by omega) (by rw [Function.update_of_ne hne, Function.update_self]) (by omega)]
      rw [Option.bind_some]
      refine ⟨_, negV_step hd' (by omega) (by omega) (by omega) (by rw [Function.update_of_ne hne.symm, Function.update_self]) (by omega), ?_⟩
      have h1 : Function.update (Function.update (Function.update (Function.update lim d (1 + 2 * (k : Int))) d' (1 + 2 * k)) d (1 + 2 * k + 2)) d' (1 + 2 * k + 2)
          = Function.update (Function.update lim d (1 + 2 * ((k + 1 : Nat) : Int))) d' (1 + 2 * ((k + 1 : Nat) : Int)) := by
        funext c
        simp only [Function.update_apply]
        split_ifs <;> push_cast <;> ring
      rw [h1])
  rw [e, hB, negV_congr (fun c r r0 rN ro => ?_) hN]
  simp only [Function.update_apply]
  have key : r < 1 + 2 * ((stepCount 1 H 2 : Nat) : Int) ↔ r < H := by
    obtain ⟨k, rfl⟩ : ∃ k : Nat, r = 1 + 2 * k := ⟨((r - 1) / 2).toNat, by omega⟩
    have := mem_stepCount (lo := 1) (hi := H) (by omega : (0 : Int) < 2) k
    omega
  split_ifs
  · exact key
  · exact key
  · rfl

/-- Rows negated (odd ones below the bound) in column `d` when the highest order is `L`; `1` stands for none. -/
def negLim (N L : Int) (d : Int) : Int := if 0 ≤ d ∧ d ≤ 2 * L then N - (d + 1) / 2 else 1

theorem polarReflection_eq {M : Int} (hN : 0 < N) (hM : 0 ≤ M) {A : Buf K} (hA : N * (2 * (M / 2) + 1) ≤ A.size) :
    polarReflection N M A = some ⟨A.size, negV N (negLim N (M / 2)) A.val⟩ := by
  have hN0 : 0 ≤ N * (2 * (M / 2)) := Int.mul_nonneg (by omega) (by omega)
  have e1 : N * (2 * (M / 2) + 1) = N * (2 * (M / 2)) + N := by ring
  unfold polarReflection
  have h0 : A = ⟨A.size, negV N (fun _ => 1) A.val⟩ := by
    refine Buf.ext' rfl fun p => ?_
    show _ = negV N (fun _ => 1) A.val p
    unfold negV
    have h0 := Int.emod_nonneg p (show N ≠ 0 by omega)
    dsimp only
    rw [if_neg (by omega)]
  have hfirst : forStep 1 N 2 negAt A = some ⟨A.size, negV N (negLim N 0) A.val⟩ := by
    have h := negCol_eq (a := A.val) (sz := A.size) (lim := fun _ => 1) (d := 0) hN (le_refl 0) (le_refl N) rfl (by omega)
    rw [← h0] at h
    have h' : (fun i => negAt (K := K) (i + N * 0)) = negAt := by funext i; rw [mul_zero, add_zero]
    rw [h'] at h
    rw [h]
    congr 3
    funext c
    rw [Function.update_apply]
    unfold negLim
    split_ifs <;> omega
  rw [hfirst]
  obtain ⟨B, e, hB⟩ := forUp_spec (lo := 1) (hi := M / 2 + 1) (s := (⟨A.size, negV N (negLim N 0) A.val⟩ : Buf K))
    (body := fun m A => forStep 1 (N - m) 2 (fun i A => (negAt (i + N * (2 * m - 1)) A).bind fun A => negAt (i + N * (2 * m)) A) A)
    (fun m B => B = ⟨A.size, negV N (negLim N (m - 1)) A.val⟩) rfl
    (fun m m1 mM B hB => by
      subst hB
      have hmN : N * (2 * m) ≤ N * (2 * (M / 2)) := Int.mul_le_mul_of_nonneg_left (by omega) (by omega)
      have e2 : N * (2 * m - 1) = N * (2 * m) - N := by ring
      refine ⟨_, negCols_eq hN (by omega) (by omega) (by omega) (by omega) (by unfold negLim; rw [if_neg (by omega)]) (by unfold negLim; rw [if_neg (by omega)])
        (by omega) (by omega), ?_⟩
      congr 2
      funext c
      simp only [Function.update_apply]
      unfold negLim
      split_ifs <;> omega)
  refine Eq.trans (b := some B) e ?_
  rw [hB, show max 1 (M / 2 + 1) - 1 = M / 2 by omega]

end Ring
end FT
