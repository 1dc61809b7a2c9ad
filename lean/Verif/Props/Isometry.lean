import Verif.Lemmas.Isometry
import Verif.Lemmas.Polar
import Verif.Lemmas.Tridiag
import Verif.Props.Scalar
import Mathlib.Analysis.SpecialFunctions.Trigonometric.Basic

/-! # Orthogonal transformations: C36 (factoring into rotations) and C38 (rotation about and reflection across the polar axis) -/

namespace FT.Props
open FT
variable {K : Type*}

section C36
variable [Field K] [LinearOrder K] [IsStrictOrderedRing K]

/-- **C36.** Every rotation matrix is reproduced: the planned factors act on every 3×3 matrix `U` as the product `Q U`. The third column's
horizontal part must vanish or exceed the smallest normalised number. -/
theorem C36_rotation_partial {sqrt : K → K} (hs : IsSqrt sqrt) {tiny : K} (ht : 0 ≤ tiny) (ht1 : tiny < 1) {Q : Mat3 K} (hQ : Q.Orth) (hd : Q.det = 1)
    (hg : (Q.q6 = 0 ∧ Q.q7 = 0) ∨ tiny < sqrt (Q.q6 * Q.q6 + Q.q7 * Q.q7)) :
    ∃ Z, createZYZR sqrt tiny Q = some Z ∧ ∀ U, applyZYZR Z U = Q.mul U := by
  obtain ⟨Z, e, -, -, -, p, h, -, -⟩ := iso_core hs ht ht1 hQ hg
  refine ⟨Z, e, fun U => ?_⟩
  rcases h with h | ⟨-, h, -⟩
  · rw [applyZYZR_mul, h]
  · rw [hd] at h
    exfalso
    linarith [zero_lt_one (α := K)]

/-- **C36.** An orthogonal matrix of determinant `-1` is reproduced, provided its entry `(2, 0)` is nonzero, or its third column is vertical and its
entry `(1, 1)` is nonzero. -/
theorem C36_reflection_partial {sqrt : K → K} (hs : IsSqrt sqrt) {tiny : K} (ht : 0 ≤ tiny) (ht1 : tiny < 1) {Q : Mat3 K} (hQ : Q.Orth)
    (hn : Q.q2 ≠ 0 ∨ (Q.q6 = 0 ∧ Q.q7 = 0 ∧ Q.q4 ≠ 0))
    (hg : (Q.q6 = 0 ∧ Q.q7 = 0) ∨ tiny < sqrt (Q.q6 * Q.q6 + Q.q7 * Q.q7)) :
    ∃ Z, createZYZR sqrt tiny Q = some Z ∧ ∀ U, applyZYZR Z U = Q.mul U := by
  obtain ⟨Z, e, -, -, -, p, h, -, hp⟩ := iso_core hs ht ht1 hQ hg
  refine ⟨Z, e, fun U => ?_⟩
  rcases h with h | ⟨h0, h, -⟩
  · rw [applyZYZR_mul, h]
  · exfalso
    obtain ⟨h2, h4⟩ := hp.1 h0
    rcases hn with hn | ⟨h6, h7, hn⟩
    · exact hn h2
    · exact hn (h4 ⟨h6, h7⟩)

/-- **C36 (defect).** Every other orthogonal matrix of determinant `-1` is turned into a rotation: the planned action has determinant `1`, so it is
not `Q`. -/
theorem C36_reflection_defect {sqrt : K → K} (hs : IsSqrt sqrt) {tiny : K} (ht : 0 ≤ tiny) (ht1 : tiny < 1) {Q : Mat3 K} (hQ : Q.Orth) (hd : Q.det = -1)
    (h2 : Q.q2 = 0) (h4 : Q.q6 = 0 → Q.q7 = 0 → Q.q4 = 0)
    (hg : (Q.q6 = 0 ∧ Q.q7 = 0) ∨ tiny < sqrt (Q.q6 * Q.q6 + Q.q7 * Q.q7)) :
    ∃ Z, createZYZR sqrt tiny Q = some Z ∧ (applyZYZR Z Mat3.one).det = 1 ∧ applyZYZR Z Mat3.one ≠ Q := by
  obtain ⟨Z, e, u0, u1, u2, p, -, hs, hp⟩ := iso_core hs ht ht1 hQ hg
  have hdet : (applyZYZR Z Mat3.one).det = 1 := by
    rw [applyZYZR_det u0 u1 u2, if_neg (hs (hp.2 ⟨h2, fun h => h4 h.1 h.2⟩))]
  refine ⟨Z, e, hdet, fun h => ?_⟩
  rw [h, hd] at hdet
  linarith [zero_lt_one (α := K)]

/-- A quarter turn about the first axis meets the hypotheses. -/
example : ∃ Z, createZYZR Real.sqrt (1 / 2) ⟨1, 0, 0, 0, 0, 1, 0, -1, 0⟩ = some Z ∧ ∀ U, applyZYZR Z U = Mat3.mul ⟨1, 0, 0, 0, 0, 1, 0, -1, 0⟩ U :=
  C36_rotation_partial real_isSqrt (by norm_num) (by norm_num) ⟨by norm_num, by norm_num, by norm_num, by norm_num, by norm_num, by norm_num⟩
    (by norm_num [Mat3.det]) (Or.inr (by norm_num))

/-- Reflection across the plane of the second and third axes is reproduced. -/
example : ∃ Z, createZYZR Real.sqrt (1 / 2) ⟨-1, 0, 0, 0, 1, 0, 0, 0, 1⟩ = some Z ∧ ∀ U, applyZYZR Z U = Mat3.mul ⟨-1, 0, 0, 0, 1, 0, 0, 0, 1⟩ U :=
  C36_reflection_partial real_isSqrt (by norm_num) (by norm_num) ⟨by norm_num, by norm_num, by norm_num, by norm_num, by norm_num, by norm_num⟩
    (Or.inr (by norm_num)) (Or.inl (by norm_num))

/-- Exchanging the first two axes is not. -/
example : ∃ Z, createZYZR Real.sqrt (1 / 2) ⟨0, 1, 0, 1, 0, 0, 0, 0, 1⟩ = some Z ∧ (applyZYZR Z Mat3.one).det = 1 ∧ applyZYZR Z Mat3.one ≠ ⟨0, 1, 0, 1, 0, 0, 0, 0, 1⟩ :=
  C36_reflection_defect real_isSqrt (by norm_num) (by norm_num) ⟨by norm_num, by norm_num, by norm_num, by norm_num, by norm_num, by norm_num⟩
    (by norm_num [Mat3.det]) (by norm_num) (by norm_num) (Or.inl (by norm_num))

end C36

section C38
variable [CommRing K] {N M : Int}

/-- What rotating about the polar axis means: the coefficients of order `m` and degree `i + m` are turned by `m` times the angle (`C m`, `S m` its
cosine and sine), everything else stays. -/
structure TurnedBy (N L : Int) (C S : Int → K) (A B : Buf K) : Prop where
  size : B.size = A.size
  sine : ∀ m i, 1 ≤ m → m ≤ L → 0 ≤ i → i < N - m → B.val (i + N * (2 * m - 1)) = C m * A.val (i + N * (2 * m - 1)) + S m * A.val (i + N * (2 * m))
  cosine : ∀ m i, 1 ≤ m → m ≤ L → 0 ≤ i → i < N - m → B.val (i + N * (2 * m)) = C m * A.val (i + N * (2 * m)) - S m * A.val (i + N * (2 * m - 1))
  other : ∀ p, (∀ m i, 1 ≤ m → m ≤ L → 0 ≤ i → i < N - m → p ≠ i + N * (2 * m - 1) ∧ p ≠ i + N * (2 * m)) → B.val p = A.val p

theorem polV_turned {L : Int} {C S : Int → K} (hN : 0 < N) (A : Buf K) : TurnedBy N L C S A ⟨A.size, polV N C S (polLim N L) A.val⟩ where
  size := rfl
  sine := fun m i m1 mL i0 iN => by
    show polV N C S (polLim N L) A.val _ = _
    rw [polV_at i0 (by omega) (by omega), show (2 * m - 1 + 1) / 2 = m by omega, if_pos (by unfold polLim; rw [if_pos ⟨m1, mL⟩]; exact iN), if_pos (by omega),
      show 2 * m - 1 + 1 = 2 * m by ring]
  cosine := fun m i m1 mL i0 iN => by
    show polV N C S (polLim N L) A.val _ = _
    rw [polV_at i0 (by omega) (by omega), show (2 * m + 1) / 2 = m by omega, if_pos (by unfold polLim; rw [if_pos ⟨m1, mL⟩]; exact iN), if_neg (by omega)]
  other := fun p hp => by
    show polV N C S (polLim N L) A.val p = _
    by_cases p0 : 0 ≤ p
    · obtain ⟨j, d, j0, jN, rfl, -, -⟩ := rc_eq (p := p) hN
      have d0 : 0 ≤ d := by
        by_contra h
        have : N * d ≤ N * (-1) := Int.mul_le_mul_of_nonneg_left (by omega) (by omega)
        omega
      rw [polV_at j0 jN d0, if_neg]
      intro hj
      unfold polLim at hj
      split_ifs at hj with hm
      · obtain ⟨h1, h2⟩ := hp ((d + 1) / 2) j hm.1 hm.2 j0 hj
        rcases (by omega : d = 2 * ((d + 1) / 2) - 1 ∨ d = 2 * ((d + 1) / 2)) with e | e
        · exact h1 (by rw [← e])
        · exact h2 (by rw [← e])
      · omega
    · unfold polV
      simp only [p0, false_and, if_false]

/-- `TurnedBy` determines the result. -/
theorem TurnedBy.unique {L : Int} {C S : Int → K} {A B B' : Buf K} (h : TurnedBy N L C S A B) (h' : TurnedBy N L C S A B') : B = B' := by
  refine Buf.ext' (by rw [h.size, h'.size]) fun p => ?_
  by_cases hp : ∀ m i, 1 ≤ m → m ≤ L → 0 ≤ i → i < N - m → p ≠ i + N * (2 * m - 1) ∧ p ≠ i + N * (2 * m)
  · rw [h.other p hp, h'.other p hp]
  · push Not at hp
    obtain ⟨m, i, m1, mL, i0, iN, hp⟩ := hp
    by_cases e : p = i + N * (2 * m - 1)
    · rw [e, h.sine m i m1 mL i0 iN, h'.sine m i m1 mL i0 iN]
    · rw [hp e, h.cosine m i m1 mL i0 iN, h'.cosine m i m1 mL i0 iN]

/-- Cosine (first) and sine of `m` times the angle whose cosine and sine are `c` and `s`: powers of `c + i s`. -/
theorem polC_rec {s c : K} {m : Int} (hm : 0 ≤ m) : polC s c 0 = 1 ∧ polS s c 0 = 0 ∧ polC s c (m + 1) = c * polC s c m - s * polS s c m ∧
    polS s c (m + 1) = s * polC s c m + c * polS s c m := by
  unfold polC polS
  rw [show (m + 1).toNat = m.toNat + 1 by omega]
  exact ⟨rfl, rfl, rfl, rfl⟩

/-- **C38.** For every array with room for `2 (M/2) + 1` columns (in particular `N × M` with `M` odd) and every unit pair `(c, s)` the rotation is
total, and turns the order-`m` coefficients by `m` times the angle. -/
theorem C38_rotation {s c : K} (hu : c * c + s * s = 1) (hN : 0 < N) (hM : 0 ≤ M) {A : Buf K} (hA : N * (2 * (M / 2) + 1) ≤ A.size) :
    ∃ B, polarRotation N M s c A = some B ∧ TurnedBy N (M / 2) (polC s c) (polS s c) A B :=
  ⟨_, polarRotation_eq hu hN hM hA, polV_turned hN A⟩

/-- An `N × M` array with `M` odd has room. -/
theorem odd_room {M : Int} (h : M % 2 = 1) {sz : Nat} (hs : (sz : Int) = N * M) : N * (2 * (M / 2) + 1) ≤ (sz : Int) := by
  rw [hs, show 2 * (M / 2) + 1 = M by omega]

/-- **C38.** Rotating by an angle and then by another is rotating by their sum. -/
theorem C38_compose {s c s' c' : K} (hu : c * c + s * s = 1) (hu' : c' * c' + s' * s' = 1) (hN : 0 < N) (hM : 0 ≤ M) {A : Buf K}
    (hA : N * (2 * (M / 2) + 1) ≤ A.size) :
    (polarRotation N M s c A).bind (polarRotation N M s' c') = polarRotation N M (s * c' + c * s') (c * c' - s * s') A ∧
      ∃ B, polarRotation N M (s * c' + c * s') (c * c' - s * s') A = some B := by
  obtain ⟨B, eB, tB⟩ := C38_rotation hu hN hM hA
  obtain ⟨D, eD, tD⟩ := C38_rotation hu' hN hM (by rw [tB.size]; exact hA : N * (2 * (M / 2) + 1) ≤ B.size)
  obtain ⟨E, eE, tE⟩ := C38_rotation (s := s * c' + c * s') (c := c * c' - s * s') (by
    linear_combination hu + (c * c + s * s) * hu') hN hM hA
  rw [eB, Option.bind_some, eD, eE]
  refine ⟨congrArg some (TurnedBy.unique (L := M / 2) (A := A) ?_ tE), E, rfl⟩
  have hC : ∀ m, polC (s * c' + c * s') (c * c' - s * s') m = polC s c m * polC s' c' m - polS s c m * polS s' c' m := fun m => (multC_mul s c s' c' m.toNat).1
  have hS : ∀ m, polS (s * c' + c * s') (c * c' - s * s') m = polS s c m * polC s' c' m + polC s c m * polS s' c' m := fun m => (multC_mul s c s' c' m.toNat).2
  refine ⟨by rw [tD.size, tB.size], fun m i m1 mL i0 iN => ?_, fun m i m1 mL i0 iN => ?_, fun p hp => ?_⟩
  · rw [tD.sine m i m1 mL i0 iN, tB.sine m i m1 mL i0 iN, tB.cosine m i m1 mL i0 iN, hC, hS]
    ring
  · rw [tD.cosine m i m1 mL i0 iN, tB.sine m i m1 mL i0 iN, tB.cosine m i m1 mL i0 iN, hC, hS]
    ring
  · rw [tD.other p hp, tB.other p hp]

/-- **C38.** Rotating by an angle and back restores the array. -/
theorem C38_inverse {s c : K} (hu : c * c + s * s = 1) (hN : 0 < N) (hM : 0 ≤ M) {A : Buf K} (hA : N * (2 * (M / 2) + 1) ≤ A.size) :
    (polarRotation N M s c A).bind (polarRotation N M (-s) c) = some A := by
  obtain ⟨B, eB, tB⟩ := C38_rotation hu hN hM hA
  obtain ⟨D, eD, tD⟩ := C38_rotation (s := -s) (c := c) (by linear_combination hu) hN hM (by rw [tB.size]; exact hA : N * (2 * (M / 2) + 1) ≤ B.size)
  rw [eB, Option.bind_some, eD]
  have hone : ∀ m, polC s c m * polC s c m + polS s c m * polS s c m = 1 := fun m => multC_unit hu m.toNat
  have hC : ∀ m, polC (-s) c m = polC s c m := fun m => (multC_neg s c m.toNat).1
  have hS : ∀ m, polS (-s) c m = -polS s c m := fun m => (multC_neg s c m.toNat).2
  refine congrArg some (TurnedBy.unique (N := N) (L := M / 2) (C := fun _ => 1) (S := fun _ => 0) (A := A) ?_ ?_)
  · refine ⟨by rw [tD.size, tB.size], fun m i m1 mL i0 iN => ?_, fun m i m1 mL i0 iN => ?_, fun p hp => ?_⟩
    · rw [tD.sine m i m1 mL i0 iN, tB.sine m i m1 mL i0 iN, tB.cosine m i m1 mL i0 iN, hC, hS]
      linear_combination (A.val (i + N * (2 * m - 1))) * hone m
    · rw [tD.cosine m i m1 mL i0 iN, tB.sine m i m1 mL i0 iN, tB.cosine m i m1 mL i0 iN, hC, hS]
      linear_combination (A.val (i + N * (2 * m))) * hone m
    · rw [tD.other p hp, tB.other p hp]
  · exact ⟨rfl, fun m i _ _ _ _ => by ring, fun m i _ _ _ _ => by ring, fun p _ => rfl⟩

/-- Sum of squares of the coefficients of degree `l` with orders up to `L`. -/
noncomputable def degreeEnergy (N L l : Int) (a : Int → K) : K :=
  a l * a l + ∑ m ∈ Finset.Ico 1 (min l L + 1),
    (a (l - m + N * (2 * m - 1)) * a (l - m + N * (2 * m - 1)) + a (l - m + N * (2 * m)) * a (l - m + N * (2 * m)))

/-- **C38.** The energy of every degree is preserved. -/
theorem C38_energy {s c : K} (hu : c * c + s * s = 1) (hN : 0 < N) (hM : 0 ≤ M) {A : Buf K} (hA : N * (2 * (M / 2) + 1) ≤ A.size) :
    ∃ B, polarRotation N M s c A = some B ∧ ∀ l, 0 ≤ l → l < N → degreeEnergy N (M / 2) l B.val = degreeEnergy N (M / 2) l A.val := by
  obtain ⟨B, eB, tB⟩ := C38_rotation hu hN hM hA
  have hone : ∀ m, polC s c m * polC s c m + polS s c m * polS s c m = 1 := fun m => multC_unit hu m.toNat
  refine ⟨B, eB, fun l l0 lN => ?_⟩
  unfold degreeEnergy
  rw [tB.other l fun m i m1 mL i0 iN => ?_]
  · congr 1
    refine Finset.sum_congr rfl fun m hm => ?_
    rw [Finset.mem_Ico] at hm
    rw [tB.sine m (l - m) hm.1 (by omega) (by omega) (by omega), tB.cosine m (l - m) hm.1 (by omega) (by omega) (by omega)]
    linear_combination (A.val (l - m + N * (2 * m - 1)) * A.val (l - m + N * (2 * m - 1)) + A.val (l - m + N * (2 * m)) * A.val (l - m + N * (2 * m))) * hone m
  · have h1 : N * 1 ≤ N * (2 * m - 1) := Int.mul_le_mul_of_nonneg_left (by omega) (by omega)
    have h2 : N * 1 ≤ N * (2 * m) := Int.mul_le_mul_of_nonneg_left (by omega) (by omega)
    omega

/-- **C38.** Reflecting across the equatorial plane multiplies the coefficient of order `m` in row `i` (degree `i + m`) by `(-1)^i`, leaving everything
that is not a coefficient of degree below `N` alone. Column `d` holds order `(d + 1)/2`. -/
theorem C38_reflection (hN : 0 < N) (hM : 0 ≤ M) {A : Buf K} (hA : N * (2 * (M / 2) + 1) ≤ A.size) :
    ∃ B, polarReflection N M A = some B ∧ B.size = A.size ∧
      (∀ d i, 0 ≤ d → d ≤ 2 * (M / 2) → 0 ≤ i → i < N - (d + 1) / 2 → B.val (i + N * d) = (-1) ^ i.toNat * A.val (i + N * d)) ∧
      (∀ p, (∀ d i, 0 ≤ d → d ≤ 2 * (M / 2) → 0 ≤ i → i < N - (d + 1) / 2 → p ≠ i + N * d) → B.val p = A.val p) := by
  refine ⟨_, polarReflection_eq hN hM hA, rfl, fun d i d0 dL i0 iN => ?_, fun p hp => ?_⟩
  · show negV N (negLim N (M / 2)) A.val _ = _
    have hl : negLim N (M / 2) d = N - (d + 1) / 2 := if_pos ⟨d0, dL⟩
    rw [negV_at i0 (by omega) d0, hl]
    by_cases ho : i % 2 = 1
    · rw [if_pos ⟨ho, iN⟩, (Nat.odd_iff.2 (by omega) : Odd i.toNat).neg_one_pow]
      ring
    · rw [if_neg (fun h => ho h.1), (Nat.even_iff.2 (by omega) : Even i.toNat).neg_one_pow]
      ring
  · show negV N (negLim N (M / 2)) A.val p = _
    by_cases p0 : 0 ≤ p
    · obtain ⟨j, d, j0, jN, rfl, -, -⟩ := rc_eq (p := p) hN
      have d0 : 0 ≤ d := by
        by_contra h
        have : N * d ≤ N * (-1) := Int.mul_le_mul_of_nonneg_left (by omega) (by omega)
        omega
      rw [negV_at j0 jN d0, if_neg]
      rintro ⟨ho, hj⟩
      unfold negLim at hj
      split_ifs at hj with hm
      · exact hp d j hm.1 hm.2 j0 hj rfl
      · omega
    · unfold negV
      simp only [p0, false_and, if_false]

/-- **C38.** Reflecting twice restores the array. -/
theorem C38_reflection_involution (hN : 0 < N) (hM : 0 ≤ M) {A : Buf K} (hA : N * (2 * (M / 2) + 1) ≤ A.size) :
    (polarReflection N M A).bind (polarReflection N M) = some A := by
  obtain ⟨B, eB, sB, hB, oB⟩ := C38_reflection hN hM hA
  obtain ⟨D, eD, sD, hD, oD⟩ := C38_reflection hN hM (by rw [sB]; exact hA : N * (2 * (M / 2) + 1) ≤ B.size)
  rw [eB, Option.bind_some, eD]
  refine congrArg some (Buf.ext' (by rw [sD, sB]) fun p => ?_)
  by_cases hp : ∀ d i, 0 ≤ d → d ≤ 2 * (M / 2) → 0 ≤ i → i < N - (d + 1) / 2 → p ≠ i + N * d
  · rw [oD p hp, oB p hp]
  · push Not at hp
    obtain ⟨d, i, d0, dL, i0, iN, rfl⟩ := hp
    rw [hD d i d0 dL i0 iN, hB d i d0 dL i0 iN, ← mul_assoc, ← mul_pow]
    simp

theorem polarPair_size {s c : K} {p q : Int} {A B : Buf K} (h : polarPair s c p q A = some B) : q < A.size ∧ B.size = A.size := by
  unfold polarPair at h
  obtain ⟨t1, -, h⟩ := Option.bind_eq_some_iff.1 h
  obtain ⟨t2, h2, h⟩ := Option.bind_eq_some_iff.1 h
  obtain ⟨A1, h3, h4⟩ := Option.bind_eq_some_iff.1 h
  have e2 := Buf.rd_eq_some_iff.1 h2
  have e3 := Buf.wr_eq_some_iff.1 h3
  have e4 := Buf.wr_eq_some_iff.1 h4
  exact ⟨e2.1.2, by rw [e4.2, e3.2]⟩

/-- **C38 (defect).** With an even number of columns, `N × M` storage and `N > M/2` the rotation reads and writes beyond the array. -/
theorem C38_even_columns_defect {L : Int} (hL : 1 ≤ L) (hN : L < N) {s c : K} {A : Buf K} (hA : (A.size : Int) = N * (2 * L)) :
    polarRotation N (2 * L) s c A = none := by
  cases hr : polarRotation N (2 * L) s c A with
  | none => rfl
  | some B =>
    exfalso
    unfold polarRotation at hr
    obtain ⟨st, hst, -⟩ := Option.bind_eq_some_iff.1 hr
    rw [show 2 * L / 2 = L by omega] at hst
    have := forUp_inv (fun m (st : PolarSt K) => st.A.size = A.size ∧ m ≤ L) ⟨rfl, hL⟩ (fun m m1 mL st t ⟨hs, _⟩ hb => by
      obtain ⟨D, hD, hb⟩ := Option.bind_eq_some_iff.1 hb
      have hi := forUp_inv (fun i (D : Buf K) => D.size = A.size ∧ (m = L → i ≤ 0)) ⟨hs, fun _ => le_refl 0⟩ (fun i i0 iN D E ⟨hD, _⟩ hE => by
        obtain ⟨hq, hE⟩ := polarPair_size hE
        refine ⟨by rw [hE, hD], fun e => ?_⟩
        subst e
        rw [hD, hA] at hq
        omega) hD
      injection hb with hb
      subst hb
      refine ⟨hi.1, ?_⟩
      by_contra h
      have e : m = L := by omega
      have := hi.2 e
      omega) hst
    omega

/-- Over the reals, with `c = cos θ` and `s = sin θ`, the factors for order `m` are `cos (m θ)` and `sin (m θ)`. -/
theorem polC_cos (θ : ℝ) (m : Nat) : polC (Real.sin θ) (Real.cos θ) m = Real.cos (m * θ) ∧ polS (Real.sin θ) (Real.cos θ) m = Real.sin (m * θ) := by
  unfold polC polS
  rw [Int.toNat_natCast]
  induction m with
  | zero => simp [multC]
  | succ m ih =>
    simp only [multC]
    rw [ih.1, ih.2]
    push_cast
    rw [add_mul, one_mul, Real.cos_add, Real.sin_add]
    constructor <;> ring

/-- **C38.** Rotation by a real angle `θ` turns order `m` by `m θ`. -/
theorem C38_angle (θ : ℝ) (hN : 0 < N) (hM : 0 ≤ M) {A : Buf ℝ} (hA : N * (2 * (M / 2) + 1) ≤ A.size) :
    ∃ B, polarRotation N M (Real.sin θ) (Real.cos θ) A = some B ∧
      TurnedBy N (M / 2) (fun m => Real.cos (m.toNat * θ)) (fun m => Real.sin (m.toNat * θ)) A B := by
  obtain ⟨B, eB, tB⟩ := C38_rotation (s := Real.sin θ) (c := Real.cos θ) (by linear_combination Real.sin_sq_add_cos_sq θ) hN hM hA
  refine ⟨B, eB, tB.size, fun m i m1 mL i0 iN => ?_, fun m i m1 mL i0 iN => ?_, tB.other⟩
  · have h := polC_cos θ m.toNat
    rw [Int.toNat_of_nonneg (by omega)] at h
    rw [tB.sine m i m1 mL i0 iN, h.1, h.2]
  · have h := polC_cos θ m.toNat
    rw [Int.toNat_of_nonneg (by omega)] at h
    rw [tB.cosine m i m1 mL i0 iN, h.1, h.2]

/-- A quarter turn of a 3 × 5 array of integers. -/
example : (polarRotation 3 5 1 0 (Buf.ofList [1, 2, 3, 4, 5, 0, 6, 7, 0, 8, 0, 0, 9, 0, 0] : Buf Int)).map Buf.toList =
    some [1, 2, 3, 6, 7, 0, -4, -5, 0, -8, 0, 0, -9, 0, 0] := by decide

example : ∃ B, polarRotation 3 5 1 0 (Buf.ofList [1, 2, 3, 4, 5, 0, 6, 7, 0, 8, 0, 0, 9, 0, 0] : Buf Int) = some B ∧
    TurnedBy 3 (5 / 2) (polC 1 0) (polS 1 0) (Buf.ofList [1, 2, 3, 4, 5, 0, 6, 7, 0, 8, 0, 0, 9, 0, 0]) B :=
  C38_rotation (by decide) (by decide) (by decide) (by decide)

example : (polarReflection 3 5 (Buf.ofList [1, 2, 3, 4, 5, 0, 6, 7, 0, 8, 0, 0, 9, 0, 0] : Buf Int)).map Buf.toList =
    some [1, -2, 3, 4, -5, 0, 6, -7, 0, 8, 0, 0, 9, 0, 0] := by decide

example : polarRotation 2 2 1 0 (Buf.ofList [1, 2, 3, 4] : Buf Int) = none := C38_even_columns_defect (L := 1) (by decide) (by decide) (by decide)

end C38
end FT.Props
