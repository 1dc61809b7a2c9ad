import Verif.Model.Isometry
import Verif.Lemmas.Sqrt
import Verif.Lemmas.Accum
import Mathlib.Tactic.LinearCombination

/-! # Factoring a 3×3 orthogonal matrix -/

namespace FT
variable {K : Type*}

section Givens
variable [Field K] [LinearOrder K] [IsStrictOrderedRing K]

/-- What one rotation provides: unit, `c r = x`, `s r = y`. -/
structure GivensOf (x y : K) (g : K × K × K) : Prop where
  unit : g.1 * g.1 + g.2.1 * g.2.1 = 1
  fst : g.1 * g.2.2 = x
  snd : g.2.1 * g.2.2 = y

theorem isoGivens_eq {sqrt : K → K} (hs : IsSqrt sqrt) {tiny x y : K} (ht : 0 ≤ tiny) (hg : (x = 0 ∧ y = 0) ∨ tiny < sqrt (x * x + y * y)) :
    ∃ g, isoGivens sqrt tiny x y = some g ∧ GivensOf x y g ∧ 0 ≤ g.2.2 ∧ (x = 0 → y = 0 → g = (1, 0, 0)) := by
  have h0 : 0 ≤ x * x + y * y := add_nonneg (mul_self_nonneg x) (mul_self_nonneg y)
  obtain ⟨p1, p2⟩ := hs _ h0
  unfold isoGivens
  rcases hg with ⟨hx, hy⟩ | hg
  · have hz : sqrt (x * x + y * y) = 0 := by
      subst hx; subst hy
      rw [mul_zero, add_zero] at *
      exact mul_self_eq_zero.1 p2
    refine ⟨(1, 0, 0), ?_, ⟨by simp, by simp [hx], by simp [hy]⟩, le_refl _, fun _ _ => rfl⟩
    simp only [hz]
    rw [if_pos ht]
  · have hr : sqrt (x * x + y * y) ≠ 0 := fun e => by rw [e] at hg; exact absurd hg (not_lt.2 ht)
    refine ⟨(x / sqrt (x * x + y * y), y / sqrt (x * x + y * y), sqrt (x * x + y * y)), ?_, ⟨?_, ?_, ?_⟩, p1, fun hx hy => ?_⟩
    · simp only
      rw [if_neg (not_le.2 hg), divC_of hr, divC_of hr]
      rfl
    · show x / _ * (x / _) + y / _ * (y / _) = 1
      rw [div_mul_div_comm, div_mul_div_comm, p2, ← add_div, div_self]
      intro e
      rw [e] at p2
      exact hr (by rw [e]; exact mul_self_eq_zero.1 p2)
    · exact div_mul_cancel₀ x hr
    · exact div_mul_cancel₀ y hr
    · subst hx; subst hy
      rw [mul_zero, add_zero] at *
      exact absurd (mul_self_eq_zero.1 p2) hr

theorem isoFlip_of {x y : K} {g : K × K × K} (h : GivensOf x y g) {t : K} : GivensOf x y (isoFlip t g) := by
  unfold isoFlip
  split_ifs
  · exact ⟨by simpa using h.unit, by simpa using h.fst, by simpa using h.snd⟩
  · exact h

/-- The new diagonal entry is nonnegative after the sign choice. -/
theorem isoFlip_nonneg {g : K × K × K} {a b : K} : 0 ≤ (isoFlip (g.1 * a - g.2.1 * b) g).1 * a - (isoFlip (g.1 * a - g.2.1 * b) g).2.1 * b := by
  unfold isoFlip
  split_ifs with h
  · simp only; linarith
  · exact not_lt.1 h

/-- If the new diagonal entry vanishes no sign is changed. -/
theorem isoFlip_zero {g : K × K × K} {a b : K} (h : (isoFlip (g.1 * a - g.2.1 * b) g).1 * a - (isoFlip (g.1 * a - g.2.1 * b) g).2.1 * b = 0) :
    isoFlip (g.1 * a - g.2.1 * b) g = g := by
  unfold isoFlip at *
  split_ifs at * with h'
  · simp only at h
    exfalso
    have : g.1 * a - g.2.1 * b = 0 := by linarith
    rw [this] at h'
    exact lt_irrefl _ h'
  · rfl

end Givens

section Mat
variable [CommRing K]

/-- Columns are orthonormal. -/
structure Mat3.Orth (Q : Mat3 K) : Prop where
  n0 : Q.q0 * Q.q0 + Q.q1 * Q.q1 + Q.q2 * Q.q2 = 1
  n1 : Q.q3 * Q.q3 + Q.q4 * Q.q4 + Q.q5 * Q.q5 = 1
  n2 : Q.q6 * Q.q6 + Q.q7 * Q.q7 + Q.q8 * Q.q8 = 1
  o01 : Q.q0 * Q.q3 + Q.q1 * Q.q4 + Q.q2 * Q.q5 = 0
  o02 : Q.q0 * Q.q6 + Q.q1 * Q.q7 + Q.q2 * Q.q8 = 0
  o12 : Q.q3 * Q.q6 + Q.q4 * Q.q7 + Q.q5 * Q.q8 = 0

/-- Determinant. -/
def Mat3.det (Q : Mat3 K) : K :=
  Q.q0 * (Q.q4 * Q.q8 - Q.q5 * Q.q7) - Q.q3 * (Q.q1 * Q.q8 - Q.q2 * Q.q7) + Q.q6 * (Q.q1 * Q.q5 - Q.q2 * Q.q4)

/-- Matrix product. -/
def Mat3.mul (P U : Mat3 K) : Mat3 K where
  q0 := P.q0 * U.q0 + P.q3 * U.q1 + P.q6 * U.q2
  q1 := P.q1 * U.q0 + P.q4 * U.q1 + P.q7 * U.q2
  q2 := P.q2 * U.q0 + P.q5 * U.q1 + P.q8 * U.q2
  q3 := P.q0 * U.q3 + P.q3 * U.q4 + P.q6 * U.q5
  q4 := P.q1 * U.q3 + P.q4 * U.q4 + P.q7 * U.q5
  q5 := P.q2 * U.q3 + P.q5 * U.q4 + P.q8 * U.q5
  q6 := P.q0 * U.q6 + P.q3 * U.q7 + P.q6 * U.q8
  q7 := P.q1 * U.q6 + P.q4 * U.q7 + P.q7 * U.q8
  q8 := P.q2 * U.q6 + P.q5 * U.q7 + P.q8 * U.q8

/-- Identity. -/
def Mat3.one : Mat3 K := ⟨1, 0, 0, 0, 1, 0, 0, 0, 1⟩

theorem Mat3.mul_one (P : Mat3 K) : P.mul Mat3.one = P := by
  ext <;> simp [Mat3.mul, Mat3.one]

theorem applyZYZR_mul (Z : ZYZR K) (U : Mat3 K) : applyZYZR Z U = (applyZYZR Z Mat3.one).mul U := by
  unfold applyZYZR
  split_ifs <;> ext <;> simp only [isoZ, isoY, Mat3.mul, Mat3.one] <;> ring

theorem applyZYZR_det {Z : ZYZR K} (h0 : Z.c0 * Z.c0 + Z.s0 * Z.s0 = 1) (h1 : Z.c1 * Z.c1 + Z.s1 * Z.s1 = 1) (h2 : Z.c2 * Z.c2 + Z.s2 * Z.s2 = 1) :
    (applyZYZR Z Mat3.one).det = if Z.sign < 0 then -1 else 1 := by
  have e : (Z.c0 * Z.c0 + Z.s0 * Z.s0) * ((Z.c1 * Z.c1 + Z.s1 * Z.s1) * (Z.c2 * Z.c2 + Z.s2 * Z.s2)) = 1 := by rw [h0, h1, h2]; ring
  unfold applyZYZR
  split_ifs <;> simp only [isoZ, isoY, Mat3.det, Mat3.one]
  · linear_combination (-1) * e
  · linear_combination e

end Mat

section Create
variable [Field K] [LinearOrder K] [IsStrictOrderedRing K]

/-- Rotation of rows 0 and 1 by the first pair. -/
def rot1 (c s r : K) (Q : Mat3 K) : Mat3 K :=
  ⟨c * Q.q0 + s * Q.q1, c * Q.q1 - s * Q.q0, Q.q2, c * Q.q3 + s * Q.q4, c * Q.q4 - s * Q.q3, Q.q5, r, 0, Q.q8⟩

theorem rot1_orth {c s r : K} {Q : Mat3 K} (h : Q.Orth) (hu : c * c + s * s = 1) (hx : c * r = Q.q6) (hy : s * r = Q.q7) : (rot1 c s r Q).Orth where
  n0 := by simp only [rot1]; linear_combination h.n0 + (Q.q0 * Q.q0 + Q.q1 * Q.q1) * hu
  n1 := by simp only [rot1]; linear_combination h.n1 + (Q.q3 * Q.q3 + Q.q4 * Q.q4) * hu
  n2 := by
    have := h.n2
    rw [← hx, ← hy] at this
    simp only [rot1]; linear_combination this - (r * r) * hu
  o01 := by simp only [rot1]; linear_combination h.o01 + (Q.q0 * Q.q3 + Q.q1 * Q.q4) * hu
  o02 := by
    have := h.o02
    rw [← hx, ← hy] at this
    simp only [rot1]; linear_combination this
  o12 := by
    have := h.o12
    rw [← hx, ← hy] at this
    simp only [rot1]; linear_combination this

theorem rot1_det {c s r : K} {Q : Mat3 K} (hu : c * c + s * s = 1) (hx : c * r = Q.q6) (hy : s * r = Q.q7) : (rot1 c s r Q).det = Q.det := by
  simp only [rot1, Mat3.det]
  rw [← hx, ← hy]
  linear_combination (Q.q8 * (Q.q0 * Q.q4 - Q.q1 * Q.q3)) * hu

/-- Rotation of rows 2 and 0 by the second pair. -/
def rot2 (c s r : K) (Q : Mat3 K) : Mat3 K :=
  ⟨c * Q.q0 - s * Q.q2, Q.q1, c * Q.q2 + s * Q.q0, c * Q.q3 - s * Q.q5, Q.q4, c * Q.q5 + s * Q.q3, 0, Q.q7, r⟩

theorem rot2_orth {c s r : K} {Q : Mat3 K} (h : Q.Orth) (hu : c * c + s * s = 1) (hx : c * r = Q.q8) (hy : s * r = Q.q6) : (rot2 c s r Q).Orth where
  n0 := by simp only [rot2]; linear_combination h.n0 + (Q.q0 * Q.q0 + Q.q2 * Q.q2) * hu
  n1 := by simp only [rot2]; linear_combination h.n1 + (Q.q3 * Q.q3 + Q.q5 * Q.q5) * hu
  n2 := by
    have := h.n2
    rw [← hx, ← hy] at this
    simp only [rot2]; linear_combination this - (r * r) * hu
  o01 := by simp only [rot2]; linear_combination h.o01 + (Q.q0 * Q.q3 + Q.q2 * Q.q5) * hu
  o02 := by
    have := h.o02
    rw [← hx, ← hy] at this
    simp only [rot2]; linear_combination this
  o12 := by
    have := h.o12
    rw [← hx, ← hy] at this
    simp only [rot2]; linear_combination this

theorem rot2_det {c s r : K} {Q : Mat3 K} (hu : c * c + s * s = 1) (hx : c * r = Q.q8) (hy : s * r = Q.q6) : (rot2 c s r Q).det = Q.det := by
  simp only [rot2, Mat3.det]
  rw [← hx, ← hy]
  linear_combination (Q.q7 * (Q.q2 * Q.q3 - Q.q0 * Q.q5)) * hu

theorem createZYZR_eq {sqrt : K → K} {tiny : K} {Q : Mat3 K} {g0 g1 g2 : K × K × K}
    (h0 : isoGivens sqrt tiny Q.q6 Q.q7 = some g0) {f0 : K × K × K} (hf0 : isoFlip (g0.1 * Q.q4 - g0.2.1 * Q.q3) g0 = f0)
    {P : Mat3 K} (hP : P = rot1 f0.1 f0.2.1 f0.2.2 Q)
    (h1 : isoGivens sqrt tiny P.q8 P.q6 = some g1) {f1 : K × K × K} (hf1 : isoFlip (g1.1 * P.q0 - g1.2.1 * P.q2) g1 = f1)
    {R : Mat3 K} (hR : R = rot2 f1.1 f1.2.1 f1.2.2 P)
    (h2 : isoGivens sqrt tiny R.q4 R.q3 = some g2) :
    createZYZR sqrt tiny Q = some ⟨f0.2.1, -f1.2.1, -g2.2.1, f0.1, f1.1, g2.1, isoSign R.q8⟩ := by
  obtain ⟨c0, s0, r0⟩ := f0
  obtain ⟨c1, s1, r1⟩ := f1
  obtain ⟨c2, s2, r2⟩ := g2
  subst hP hR
  unfold createZYZR
  rw [h0, Option.bind_eq_bind, Option.bind_some, hf0]
  dsimp only
  rw [show isoGivens sqrt tiny Q.q8 r0 = some g1 from h1, Option.bind_some]
  rw [show isoFlip (g1.1 * (c0 * Q.q0 + s0 * Q.q1) - g1.2.1 * Q.q2) g1 = (c1, s1, r1) from hf1]
  dsimp only
  simp only [rot1, rot2] at h2 ⊢
  rw [h2]
  rfl

end Create

section Core
variable [Field K] [LinearOrder K] [IsStrictOrderedRing K]

/-- A 2×2 orthogonal block with nonnegative diagonal is a rotation or an exchange of the axes. -/
theorem block_cases {a b c d : K} (h0 : a * a + b * b = 1) (h1 : c * c + d * d = 1) (h2 : a * c + b * d = 0) (ha : 0 ≤ a) (hd : 0 ≤ d) :
    (a = d ∧ b = -c) ∨ (a = 0 ∧ d = 0 ∧ b = c ∧ c * c = 1) := by
  -- (a - d)(a + d) = c² - b² and so on: (a,b) is ± (d,-c)
  have e1 : (a * d - b * c) * (a * d - b * c) = 1 := by
    linear_combination (c * c + d * d) * h0 + h1 - (a * c + b * d) * h2
  have e2 : (a * d - b * c - 1) * (a * d - b * c + 1) = 0 := by linear_combination e1
  rcases mul_eq_zero.1 e2 with e | e
  · left
    constructor
    · linear_combination d * h0 - a * e - b * h2
    · linear_combination (-c) * h0 - b * e + a * h2
  · right
    have ha' : a = -d := by linear_combination (-a) * h1 + c * h2 + d * e
    have hd0 : d = 0 := by linarith
    have ha0 : a = 0 := by linarith
    have hb : b = c := by linear_combination (-b) * h1 + d * h2 - c * e
    refine ⟨ha0, hd0, hb, ?_⟩
    rw [hd0] at h1
    linear_combination h1

theorem iso_core {sqrt : K → K} (hs : IsSqrt sqrt) {tiny : K} (ht : 0 ≤ tiny) (ht1 : tiny < 1) {Q : Mat3 K} (hQ : Q.Orth)
    (hg : (Q.q6 = 0 ∧ Q.q7 = 0) ∨ tiny < sqrt (Q.q6 * Q.q6 + Q.q7 * Q.q7)) :
    ∃ Z, createZYZR sqrt tiny Q = some Z ∧ Z.c0 * Z.c0 + Z.s0 * Z.s0 = 1 ∧ Z.c1 * Z.c1 + Z.s1 * Z.s1 = 1 ∧ Z.c2 * Z.c2 + Z.s2 * Z.s2 = 1 ∧
      (∃ p : K, (applyZYZR Z Mat3.one = Q ∨ (p = 0 ∧ Q.det = -1 ∧ ¬ Z.sign < 0)) ∧
        (p = 0 → ¬ Z.sign < 0) ∧ (p = 0 ↔ Q.q2 = 0 ∧ ((Q.q6 = 0 ∧ Q.q7 = 0) → Q.q4 = 0))) := by
  obtain ⟨g0, hg0, G0, -, G0z⟩ := isoGivens_eq hs ht hg
  obtain ⟨f0, hf0⟩ : ∃ f0, isoFlip (g0.1 * Q.q4 - g0.2.1 * Q.q3) g0 = f0 := ⟨_, rfl⟩
  have F0 : GivensOf Q.q6 Q.q7 f0 := hf0 ▸ isoFlip_of G0
  have P4 : 0 ≤ f0.1 * Q.q4 - f0.2.1 * Q.q3 := hf0 ▸ isoFlip_nonneg
  have F0z : Q.q6 = 0 ∧ Q.q7 = 0 → f0.1 * Q.q4 - f0.2.1 * Q.q3 = 0 → Q.q4 = 0 := by
    rintro ⟨z6, z7⟩ hz
    have : f0 = g0 := hf0 ▸ isoFlip_zero (by rw [hf0]; exact hz)
    rw [this, G0z z6 z7] at hz
    linear_combination hz
  have F0z' : Q.q6 = 0 ∧ Q.q7 = 0 → Q.q4 = 0 → f0.1 * Q.q4 - f0.2.1 * Q.q3 = 0 := by
    rintro ⟨z6, z7⟩ hz
    have : g0 = (1, 0, 0) := G0z z6 z7
    rw [this, hz] at hf0
    rw [← hf0]
    unfold isoFlip
    simp [hz]
  obtain ⟨P, hP⟩ : ∃ P, P = rot1 f0.1 f0.2.1 f0.2.2 Q := ⟨_, rfl⟩
  have oP : P.Orth := hP ▸ rot1_orth hQ F0.unit F0.fst F0.snd
  have dP : P.det = Q.det := hP ▸ rot1_det F0.unit F0.fst F0.snd
  have P7 : P.q7 = 0 := by rw [hP]; rfl
  have p4 : P.q4 = f0.1 * Q.q4 - f0.2.1 * Q.q3 := by rw [hP]; rfl
  have n1 : sqrt (P.q8 * P.q8 + P.q6 * P.q6) = 1 := by
    refine sqrt_unique hs (add_nonneg (mul_self_nonneg _) (mul_self_nonneg _)) zero_le_one ?_
    have := oP.n2
    rw [P7] at this
    linear_combination -this
  obtain ⟨g1, hg1, G1, G1n, -⟩ := isoGivens_eq hs ht (x := P.q8) (y := P.q6) (Or.inr (by rw [n1]; exact ht1))
  obtain ⟨f1, hf1⟩ : ∃ f1, isoFlip (g1.1 * P.q0 - g1.2.1 * P.q2) g1 = f1 := ⟨_, rfl⟩
  have F1 : GivensOf P.q8 P.q6 f1 := hf1 ▸ isoFlip_of G1
  have M0 : 0 ≤ f1.1 * P.q0 - f1.2.1 * P.q2 := hf1 ▸ isoFlip_nonneg
  have F1z : f1.1 * P.q0 - f1.2.1 * P.q2 = 0 → f1 = g1 := fun hz => hf1 ▸ isoFlip_zero (by rw [hf1]; exact hz)
  obtain ⟨R, hR⟩ : ∃ R, R = rot2 f1.1 f1.2.1 f1.2.2 P := ⟨_, rfl⟩
  have oR : R.Orth := hR ▸ rot2_orth oP F1.unit F1.fst F1.snd
  have dR : R.det = Q.det := by rw [← dP, hR]; exact rot2_det F1.unit F1.fst F1.snd
  have R6 : R.q6 = 0 := by rw [hR]; rfl
  have R7 : R.q7 = 0 := by rw [hR]; exact P7
  have R4 : R.q4 = P.q4 := by rw [hR]; rfl
  have R8 : R.q8 * R.q8 = 1 := by have := oR.n2; rw [R6, R7] at this; linear_combination this
  have R8n : R.q8 ≠ 0 := fun e => by rw [e] at R8; simp at R8
  have R2 : R.q2 = 0 := by
    have := oR.o02; rw [R6, R7] at this
    exact (mul_eq_zero.1 (by linear_combination this : R.q2 * R.q8 = 0)).resolve_right R8n
  have R5 : R.q5 = 0 := by
    have := oR.o12; rw [R6, R7] at this
    exact (mul_eq_zero.1 (by linear_combination this : R.q5 * R.q8 = 0)).resolve_right R8n
  have b0 : R.q0 * R.q0 + R.q1 * R.q1 = 1 := by have := oR.n0; rw [R2] at this; linear_combination this
  have b1 : R.q3 * R.q3 + R.q4 * R.q4 = 1 := by have := oR.n1; rw [R5] at this; linear_combination this
  have b2 : R.q0 * R.q3 + R.q1 * R.q4 = 0 := by have := oR.o01; rw [R2] at this; linear_combination this
  have n2 : sqrt (R.q4 * R.q4 + R.q3 * R.q3) = 1 :=
    sqrt_unique hs (add_nonneg (mul_self_nonneg _) (mul_self_nonneg _)) zero_le_one (by linear_combination -b1)
  obtain ⟨g2, hg2, G2, G2n, -⟩ := isoGivens_eq hs ht (x := R.q4) (y := R.q3) (Or.inr (by rw [n2]; exact ht1))
  have g2r : g2.2.2 = 1 := by
    have : g2.2.2 * g2.2.2 = 1 := by
      have h := G2.unit
      have hx := G2.fst
      have hy := G2.snd
      rw [← hx, ← hy] at b1
      linear_combination b1 - (g2.2.2 * g2.2.2) * h
    have h3 : (g2.2.2 - 1) * (g2.2.2 + 1) = 0 := by linear_combination this
    rcases mul_eq_zero.1 h3 with h | h
    · linear_combination h
    · exfalso; linarith
  have c2 : g2.1 = R.q4 := by have := G2.fst; rw [g2r] at this; linear_combination this
  have s2 : g2.2.1 = R.q3 := by have := G2.snd; rw [g2r] at this; linear_combination this
  refine ⟨_, createZYZR_eq hg0 hf0 hP hg1 hf1 hR hg2, F0.unit, by linear_combination F1.unit, by linear_combination G2.unit,
    P.q4, ?_, ?_, ?_⟩
  · have hR0 : 0 ≤ R.q0 := by rw [hR]; exact M0
    have hR4 : 0 ≤ R.q4 := by rw [R4, p4]; exact P4
    have r8 : R.q8 = f1.2.2 := by rw [hR]; rfl
    rcases block_cases b0 b1 b2 hR0 hR4 with ⟨e0, e1⟩ | ⟨e0, e4, e1, e3⟩
    · left
      -- P = rot2ᵀ R and Q = rot1ᵀ P
      have q2 : P.q2 = f1.1 * R.q2 - f1.2.1 * R.q0 := by rw [hR]; simp only [rot2]; linear_combination (-P.q2) * F1.unit
      have q0 : P.q0 = f1.1 * R.q0 + f1.2.1 * R.q2 := by rw [hR]; simp only [rot2]; linear_combination (-P.q0) * F1.unit
      have q5 : P.q5 = f1.1 * R.q5 - f1.2.1 * R.q3 := by rw [hR]; simp only [rot2]; linear_combination (-P.q5) * F1.unit
      have q3 : P.q3 = f1.1 * R.q3 + f1.2.1 * R.q5 := by rw [hR]; simp only [rot2]; linear_combination (-P.q3) * F1.unit
      have q1 : P.q1 = R.q1 := by rw [hR]; rfl
      have p0 : Q.q0 = f0.1 * P.q0 - f0.2.1 * P.q1 := by rw [hP]; simp only [rot1]; linear_combination (-Q.q0) * F0.unit
      have p1 : Q.q1 = f0.1 * P.q1 + f0.2.1 * P.q0 := by rw [hP]; simp only [rot1]; linear_combination (-Q.q1) * F0.unit
      have p3 : Q.q3 = f0.1 * P.q3 - f0.2.1 * P.q4 := by rw [hP]; simp only [rot1]; linear_combination (-Q.q3) * F0.unit
      have p4' : Q.q4 = f0.1 * P.q4 + f0.2.1 * P.q3 := by rw [hP]; simp only [rot1]; linear_combination (-Q.q4) * F0.unit
      have p2 : Q.q2 = P.q2 := by rw [hP]; rfl
      have p5 : Q.q5 = P.q5 := by rw [hP]; rfl
      have p6 : P.q6 = f0.2.2 := by rw [hP]; rfl
      have p8 : Q.q8 = P.q8 := by rw [hP]; rfl
      rw [R2] at q2 q0
      rw [R5] at q5 q3
      have k6 := F0.fst
      have k7 := F0.snd
      have k8 := F1.fst
      have k6' := F1.snd
      rw [← p6, ← k6', ← r8] at k6 k7
      rw [← p8, ← r8] at k8
      have sg : R.q8 = if (isoSign R.q8) < 0 then -1 else 1 := by
        have h3 : (R.q8 - 1) * (R.q8 + 1) = 0 := by linear_combination R8
        rcases mul_eq_zero.1 h3 with h | h
        · have : R.q8 = 1 := by linear_combination h
          rw [this]; simp [isoSign]
        · have : R.q8 = -1 := by linear_combination h
          rw [this]
          have : ¬ (0 : K) < -1 := by simp
          simp [isoSign, this]
      unfold applyZYZR
      simp only [c2, s2]
      split_ifs at sg ⊢ with hsg <;> rw [sg] at k6 k7 k8 <;> ext <;> simp only [isoZ, isoY, Mat3.one]
      all_goals first
        | (rw [p0, q0, q1, e0, e1]; ring)
        | (rw [p1, q0, q1, e0, e1]; ring)
        | (rw [p2, q2, e0]; ring)
        | (rw [p3, q3, ← R4]; ring)
        | (rw [p4', q3, ← R4]; ring)
        | (rw [p5, q5]; ring)
        | (rw [← k6]; ring)
        | (rw [← k7]; ring)
        | (rw [← k8]; ring)
    · right
      have hz : f1 = g1 := F1z (by rw [hR] at e0; exact e0)
      have h8 : R.q8 = 1 := by
        have h3 : (R.q8 - 1) * (R.q8 + 1) = 0 := by linear_combination R8
        rcases mul_eq_zero.1 h3 with h | h
        · linear_combination h
        · exfalso
          have : 0 ≤ R.q8 := by rw [r8, hz]; exact G1n
          linarith
      refine ⟨by rw [← R4]; exact e4, ?_, ?_⟩
      · rw [← dR]
        unfold Mat3.det
        rw [R2, R5, R6, R7, h8, e0, e1]
        linear_combination (-1) * e3
      · show ¬ isoSign R.q8 < 0
        rw [h8]; simp [isoSign]
  · intro hz
    have h4 : R.q4 = 0 := by rw [R4]; exact hz
    have h3 : R.q3 * R.q3 = 1 := by rw [h4] at b1; linear_combination b1
    have h0 : R.q0 = 0 := by
      rw [h4] at b2
      have : R.q3 ≠ 0 := fun e => by rw [e] at h3; simp at h3
      exact (mul_eq_zero.1 (by linear_combination b2 : R.q0 * R.q3 = 0)).resolve_right this
    have hf : f1 = g1 := F1z (by rw [hR] at h0; exact h0)
    have r8 : R.q8 = f1.2.2 := by rw [hR]; rfl
    have h8 : 0 < R.q8 := lt_of_le_of_ne (by rw [r8, hf]; exact G1n) (Ne.symm R8n)
    show ¬ isoSign R.q8 < 0
    simp [isoSign, h8]
  · rw [p4]
    constructor
    · intro hz
      refine ⟨?_, fun z => F0z z hz⟩
      have h4 : P.q4 = 0 := by rw [p4]; exact hz
      -- row 1 of P has norm one, so column 0 of P is its unit vector
      have hc : P.q1 * P.q1 = 1 := by
        have : R.q1 * R.q1 = 1 := by
          have h4' : R.q4 = 0 := by rw [R4]; exact h4
          have h3 : R.q3 * R.q3 = 1 := by rw [h4'] at b1; linear_combination b1
          have h0 : R.q0 = 0 := by
            rw [h4'] at b2
            have : R.q3 ≠ 0 := fun e => by rw [e] at h3; simp at h3
            exact (mul_eq_zero.1 (by linear_combination b2 : R.q0 * R.q3 = 0)).resolve_right this
          rw [h0] at b0; linear_combination b0
        rw [hR] at this; exact this
      have hn := oP.n0
      have p2 : Q.q2 = P.q2 := by rw [hP]; rfl
      rw [p2]
      have : P.q0 * P.q0 + P.q2 * P.q2 = 0 := by linear_combination hn - hc
      have h0 := mul_self_nonneg P.q0
      have h2 := mul_self_nonneg P.q2
      exact mul_self_eq_zero.1 (by linarith)
    · rintro ⟨h2, h4⟩
      by_cases hz : Q.q6 = 0 ∧ Q.q7 = 0
      · exact F0z' hz (h4 hz)
      · have hr : f0.2.2 ≠ 0 := fun e => hz ⟨by rw [← F0.fst, e, mul_zero], by rw [← F0.snd, e, mul_zero]⟩
        -- P q6 ≠ 0, P q2 = 0 ⇒ P q0 = 0 ⇒ P q1 = ±1 ⇒ P q4 = 0
        have P2 : P.q2 = 0 := by rw [hP]; exact h2
        have P6 : P.q6 ≠ 0 := by rw [hP]; exact hr
        have P0 : P.q0 = 0 := by
          have := oP.o02; rw [P2, P7] at this
          exact (mul_eq_zero.1 (by linear_combination this : P.q0 * P.q6 = 0)).resolve_right P6
        have P1 : P.q1 ≠ 0 := fun e => by
          have := oP.n0; rw [P2, P0, e] at this; simp at this
        have := oP.o01; rw [P2, P0] at this
        rw [← p4]
        exact (mul_eq_zero.1 (by linear_combination this : P.q1 * P.q4 = 0)).resolve_left P1

end Core
end FT
