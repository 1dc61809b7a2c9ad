import Verif.Props.Dct18Spec
import Verif.Lemmas.LegChebKern
import Verif.Lemmas.Cosine

/-! # The discrete cosine transform of length 18 -/

namespace FT.Props.Lc
open FT FT.Model.Lc FT.Fftw Real

theorem sum9 (f : Int → ℝ) : ∑ j ∈ Finset.Ico (0 : Int) 9, f j = f 0 + f 1 + f 2 + f 3 + f 4 + f 5 + f 6 + f 7 + f 8 := by
  have e : Finset.Ico (0 : Int) 9 = {0, 1, 2, 3, 4, 5, 6, 7, 8} := by decide
  rw [e]; simp; ring

/-- The transform of length 9. -/
noncomputable def dct9 (z : Int → ℝ) (k : Int) : ℝ := ∑ j ∈ Finset.Ico (0 : Int) 9, z j * cos (k * FT.Fftw.grid 9 j)

/-- cosine at `2π/3 ∓ θ`. -/
theorem third_minus (m : Int) (θ : ℝ) : cos ((3 * m + 1) * (2 * π / 3 - θ)) = -1 / 2 * cos ((3 * m + 1) * θ) + √3 / 2 * sin ((3 * m + 1) * θ) := by
  have c3 : cos (2 * π / 3) = -1 / 2 := by
    rw [show 2 * π / 3 = π - π / 3 by ring, cos_pi_sub, cos_pi_div_three]; norm_num
  have s3 : sin (2 * π / 3) = √3 / 2 := by
    rw [show 2 * π / 3 = π - π / 3 by ring, sin_pi_sub, sin_pi_div_three]
  rw [show (3 * (m : ℝ) + 1) * (2 * π / 3 - θ) = (2 * π / 3 - (3 * m + 1) * θ) + m * (2 * π) by ring, cos_add_int_mul_two_pi, cos_sub, c3, s3]

theorem third_plus (m : Int) (θ : ℝ) : cos ((3 * m + 1) * (2 * π / 3 + θ)) = -1 / 2 * cos ((3 * m + 1) * θ) - √3 / 2 * sin ((3 * m + 1) * θ) := by
  have h := third_minus m (-θ)
  rw [sub_neg_eq_add, mul_neg, cos_neg, sin_neg] at h
  rw [h]; ring

theorem third_zero (m : Int) (θ : ℝ) : cos (3 * m * (2 * π / 3 - θ)) = cos (3 * m * θ) ∧ cos (3 * m * (2 * π / 3 + θ)) = cos (3 * m * θ) := by
  constructor
  · rw [show 3 * (m : ℝ) * (2 * π / 3 - θ) = -(3 * m * θ) + m * (2 * π) by ring, cos_add_int_mul_two_pi, cos_neg]
  · rw [show 3 * (m : ℝ) * (2 * π / 3 + θ) = 3 * m * θ + m * (2 * π) by ring, cos_add_int_mul_two_pi]

/-- One of the three groups of the radix 3 step. -/
noncomputable def grp (z : Int → ℝ) (k : ℝ) (i : Int) : ℝ := z i * cos (k * FT.Fftw.grid 9 i) + z (5 - i) * cos (k * (2 * π / 3 - FT.Fftw.grid 9 i)) + z (6 + i) * cos (k * (2 * π / 3 + FT.Fftw.grid 9 i))

theorem dct9_grp (z : Int → ℝ) (k : Int) : dct9 z k = grp z k 0 + grp z k 1 + grp z k 2 := by
  unfold dct9 grp
  rw [sum9]
  have e3 : FT.Fftw.grid 9 3 = 2 * π / 3 - FT.Fftw.grid 9 2 := by unfold FT.Fftw.grid; push_cast; ring
  have e4 : FT.Fftw.grid 9 4 = 2 * π / 3 - FT.Fftw.grid 9 1 := by unfold FT.Fftw.grid; push_cast; ring
  have e5 : FT.Fftw.grid 9 5 = 2 * π / 3 - FT.Fftw.grid 9 0 := by unfold FT.Fftw.grid; push_cast; ring
  have e6 : FT.Fftw.grid 9 6 = 2 * π / 3 + FT.Fftw.grid 9 0 := by unfold FT.Fftw.grid; push_cast; ring
  have e7 : FT.Fftw.grid 9 7 = 2 * π / 3 + FT.Fftw.grid 9 1 := by unfold FT.Fftw.grid; push_cast; ring
  have e8 : FT.Fftw.grid 9 8 = 2 * π / 3 + FT.Fftw.grid 9 2 := by unfold FT.Fftw.grid; push_cast; ring
  rw [e3, e4, e5, e6, e7, e8]
  norm_num
  ring

theorem grp_one (z : Int → ℝ) (m i : Int) : grp z (3 * m + 1) i = 1 / 2 * ((2 * z i - z (5 - i) - z (6 + i)) * cos ((3 * m + 1) * FT.Fftw.grid 9 i) + (z (5 - i) - z (6 + i)) * (√3 * sin ((3 * m + 1) * FT.Fftw.grid 9 i))) := by
  unfold grp; rw [third_minus, third_plus]; ring

theorem grp_two (z : Int → ℝ) (m i : Int) : grp z (3 * m + 2) i = 1 / 2 * ((2 * z i - z (5 - i) - z (6 + i)) * cos ((3 * m + 2) * FT.Fftw.grid 9 i) - (z (5 - i) - z (6 + i)) * (√3 * sin ((3 * m + 2) * FT.Fftw.grid 9 i))) := by
  have a := third_minus (-m - 1) (FT.Fftw.grid 9 i)
  have b := third_plus (-m - 1) (FT.Fftw.grid 9 i)
  push_cast at a b
  have e : (3 * (-(m : ℝ) - 1) + 1) = -(3 * m + 2) := by ring
  rw [e, neg_mul, neg_mul, cos_neg, cos_neg, sin_neg] at a b
  unfold grp; rw [a, b]; ring

theorem grp_zero (z : Int → ℝ) (m i : Int) : grp z (3 * m) i = rad3F z i * cos (3 * m * FT.Fftw.grid 9 i) := by
  unfold grp rad3F; rw [(third_zero _ _).1, (third_zero _ _).2]; ring

theorem c3 : cos (3 * FT.Fftw.grid 9 0) = √3 / 2 ∧ cos (3 * FT.Fftw.grid 9 1) = 0 ∧ cos (3 * FT.Fftw.grid 9 2) = -(√3 / 2) := by
  unfold FT.Fftw.grid
  refine ⟨?_, ?_, ?_⟩
  · rw [← cos_pi_div_six]; congr 1; push_cast; ring
  · rw [← cos_pi_div_two]; congr 1; push_cast; ring
  · rw [← cos_pi_div_six, ← cos_pi_sub]; congr 1; push_cast; ring

theorem c6 : cos (6 * FT.Fftw.grid 9 0) = 1 / 2 ∧ cos (6 * FT.Fftw.grid 9 1) = -1 ∧ cos (6 * FT.Fftw.grid 9 2) = 1 / 2 := by
  have e0 : 6 * FT.Fftw.grid 9 0 = π / 3 := by unfold FT.Fftw.grid; push_cast; ring
  have e1 : 6 * FT.Fftw.grid 9 1 = π := by unfold FT.Fftw.grid; push_cast; ring
  have e2 : 6 * FT.Fftw.grid 9 2 = 2 * π - π / 3 := by unfold FT.Fftw.grid; push_cast; ring
  rw [e0, e1, e2, cos_two_pi_sub, cos_pi_div_three, cos_pi]
  exact ⟨rfl, rfl, rfl⟩

/-- Multiplying the group of index one or two by a cosine gives two groups. -/
theorem grp_mul (z : Int → ℝ) (i : Int) :
    2 * cos (3 * FT.Fftw.grid 9 i) * grp z 1 i = grp z 4 i + grp z 2 i ∧ 2 * cos (3 * FT.Fftw.grid 9 i) * grp z 2 i = grp z 5 i + grp z 1 i ∧
    2 * cos (6 * FT.Fftw.grid 9 i) * grp z 1 i = grp z 7 i + grp z 5 i ∧ 2 * cos (6 * FT.Fftw.grid 9 i) * grp z 2 i = grp z 8 i + grp z 4 i := by
  have g1 := grp_one z 0 i
  have g4 := grp_one z 1 i
  have g7 := grp_one z 2 i
  have g2 := grp_two z 0 i
  have g5 := grp_two z 1 i
  have g8 := grp_two z 2 i
  norm_num at g1 g4 g7 g2 g5 g8
  rw [g1, g2, g4, g5, g7, g8]
  set θ := FT.Fftw.grid 9 i
  have pc (a b : ℝ) : 2 * cos (a * θ) * cos (b * θ) = cos ((a + b) * θ) + cos ((a - b) * θ) := by
    rw [add_mul, sub_mul, cos_add, cos_sub]; ring
  have ps (a b : ℝ) : 2 * cos (a * θ) * sin (b * θ) = sin ((a + b) * θ) - sin ((a - b) * θ) := by
    rw [add_mul, sub_mul, sin_add, sin_sub]; ring
  have p1 := pc 3 1
  have p2 := pc 3 2
  have p3 := pc 6 1
  have p4 := pc 6 2
  have q1 := ps 3 1
  have q2 := ps 3 2
  have q3 := ps 6 1
  have q4 := ps 6 2
  norm_num at p1 p2 p3 p4 q1 q2 q3 q4
  refine ⟨?_, ?_, ?_, ?_⟩
  · linear_combination (1 / 2 * (2 * z i - z (5 - i) - z (6 + i))) * p1 + (1 / 2 * (z (5 - i) - z (6 + i)) * √3) * q1
  · linear_combination (1 / 2 * (2 * z i - z (5 - i) - z (6 + i))) * p2 - (1 / 2 * (z (5 - i) - z (6 + i)) * √3) * q2
  · linear_combination (1 / 2 * (2 * z i - z (5 - i) - z (6 + i))) * p3 + (1 / 2 * (z (5 - i) - z (6 + i)) * √3) * q3
  · linear_combination (1 / 2 * (2 * z i - z (5 - i) - z (6 + i))) * p4 - (1 / 2 * (z (5 - i) - z (6 + i)) * √3) * q4

theorem rad3G_eq (z t : Int → ℝ) (i : Int) (ht : t i = 2 * z i - z (5 - i) - z (6 + i)) : rad3G realTrig z t i = 2 * grp z 1 i := by
  have g1 := grp_one z 0 i
  norm_num at g1
  rw [g1]
  unfold rad3G realTrig FT.Fftw.grid
  dsimp only
  rw [ht]; norm_num; ring

theorem rad3H_eq (z t : Int → ℝ) (i : Int) (ht : t i = 2 * z i - z (5 - i) - z (6 + i)) : rad3H realTrig z t i = 2 * grp z 2 i := by
  have g1 := grp_two z 0 i
  norm_num at g1
  rw [g1]
  unfold rad3H realTrig FT.Fftw.grid
  dsimp only
  rw [ht, show 2 * π * ((i : ℝ) + 0.5) / 9 = 2 * (π * (i + 1 / 2) / (9 : Int)) by norm_num; ring]; norm_num; ring

theorem rad3_spec (z t : Int → ℝ) (ht : ∀ i, 0 ≤ i → i < 3 → t i = 2 * z i - z (5 - i) - z (6 + i)) (k : Int) (k0 : 0 ≤ k) (k1 : k < 9) :
    rad3 realTrig z t k = dct9 z k := by
  rw [dct9_grp]
  have hg (i : Int) (a : 0 ≤ i) (b : i < 3) := rad3G_eq z t i (ht i a b)
  have hh (i : Int) (a : 0 ≤ i) (b : i < 3) := rad3H_eq z t i (ht i a b)
  have s3 : (realTrig.sqrt32 : ℝ) = √3 / 2 := rfl
  unfold rad3
  dsimp only
  rw [hg 0 le_rfl (by norm_num), hg 1 (by norm_num) (by norm_num), hg 2 (by norm_num) (by norm_num), hh 0 le_rfl (by norm_num), hh 1 (by norm_num) (by norm_num), hh 2 (by norm_num) (by norm_num), s3]
  have z0 (i : Int) := grp_zero z 0 i
  have z1 (i : Int) := grp_zero z 1 i
  have z2 (i : Int) := grp_zero z 2 i
  norm_num at z0 z1 z2
  obtain ⟨a0, a1, a2⟩ := c3
  obtain ⟨b0, b1, b2⟩ := c6
  obtain ⟨m00, m01, m02, m03⟩ := grp_mul z 0
  obtain ⟨m10, m11, m12, m13⟩ := grp_mul z 1
  obtain ⟨m20, m21, m22, m23⟩ := grp_mul z 2
  rw [a0] at m00 m01
  rw [a1] at m10 m11
  rw [a2] at m20 m21
  rw [b0] at m02 m03
  rw [b1] at m12 m13
  rw [b2] at m22 m23
  have : k = 0 ∨ k = 1 ∨ k = 2 ∨ k = 3 ∨ k = 4 ∨ k = 5 ∨ k = 6 ∨ k = 7 ∨ k = 8 := by omega
  rcases this with rfl | rfl | rfl | rfl | rfl | rfl | rfl | rfl | rfl
  · norm_num; rw [z0, z0, z0]
  · norm_num; ring
  · norm_num; ring
  · norm_num; rw [z1, z1, z1, a0, a1, a2]; ring
  · norm_num; linarith
  · norm_num; linarith
  · norm_num; rw [z2, z2, z2, b0, b1, b2]; ring
  · norm_num; linarith
  · norm_num; linarith

theorem dct18_fold (f : Int → ℝ) : ∑ j ∈ Finset.Ico (0 : Int) 18, f j = ∑ j ∈ Finset.Ico (0 : Int) 9, (f j + f (17 - j)) := by
  have e : Finset.Ico (0 : Int) 18 = {0, 1, 2, 3, 4, 5, 6, 7, 8, 9, 10, 11, 12, 13, 14, 15, 16, 17} := by decide
  rw [e, sum9]; simp; ring

theorem grid_refl (j : Int) : FT.Fftw.grid 18 (17 - j) = π - FT.Fftw.grid 18 j := by unfold FT.Fftw.grid; push_cast; ring

theorem dct18_even (x : Int → ℝ) (k : Int) : dct18Sum x (2 * k) = dct9 (fun j => x j + x (17 - j)) k := by
  unfold dct18Sum dct9
  rw [dct18_fold]
  refine Finset.sum_congr rfl fun j _ => ?_
  have e1 : ((2 * k : Int) : ℝ) * FT.Fftw.grid 18 j = k * FT.Fftw.grid 9 j := by unfold FT.Fftw.grid; push_cast; ring
  have e2 : cos (((2 * k : Int) : ℝ) * FT.Fftw.grid 18 (17 - j)) = cos (k * FT.Fftw.grid 9 j) := by
    rw [grid_refl, ← e1, mul_sub, show ((2 * k : Int) : ℝ) * π = k * (2 * π) by push_cast; ring, ← neg_sub, cos_neg, cos_sub_int_mul_two_pi]
  rw [e2, e1]; ring

theorem dct18_odd (x : Int → ℝ) (k : Int) :
    dct18Sum x (2 * k + 1) + dct18Sum x (2 * k - 1) = dct9 (fun j => (x j - x (17 - j)) * realTrig.COSH j) k := by
  unfold dct18Sum dct9
  rw [dct18_fold, dct18_fold, ← Finset.sum_add_distrib]
  refine Finset.sum_congr rfl fun j _ => ?_
  set φ := FT.Fftw.grid 18 j with hφ
  have e1 : (k : ℝ) * FT.Fftw.grid 9 j = 2 * k * φ := by rw [hφ]; unfold FT.Fftw.grid; push_cast; ring
  have e3 : realTrig.COSH j = 2 * cos φ := by
    show 2 * cos (π * (j + 0.5) / 18) = _
    rw [hφ]; unfold FT.Fftw.grid; norm_num
  have od (m : Int) : cos (((2 * m + 1 : Int) : ℝ) * FT.Fftw.grid 18 (17 - j)) = -cos (((2 * m + 1 : Int) : ℝ) * φ) := by
    rw [grid_refl, mul_sub, show ((2 * m + 1 : Int) : ℝ) * π - ((2 * m + 1 : Int) : ℝ) * FT.Fftw.grid 18 j = (π - ((2 * m + 1 : Int) : ℝ) * φ) + m * (2 * π) by rw [hφ]; push_cast; ring,
      cos_add_int_mul_two_pi, cos_pi_sub]
  have o1 := od k
  have o2 := od (k - 1)
  rw [show 2 * (k - 1) + 1 = 2 * k - 1 by ring] at o2
  beta_reduce
  rw [o1, o2, e1, e3]
  have p : 2 * cos φ * cos (2 * k * φ) = cos (((2 * k + 1 : Int) : ℝ) * φ) + cos (((2 * k - 1 : Int) : ℝ) * φ) := by
    rw [show ((2 * k + 1 : Int) : ℝ) * φ = 2 * k * φ + φ by push_cast; ring, show ((2 * k - 1 : Int) : ℝ) * φ = 2 * k * φ - φ by push_cast; ring, cos_add, cos_sub]; ring
  linear_combination -(x j - x (17 - j)) * p

theorem dct18_neg (x : Int → ℝ) : dct18Sum x (-1) = dct18Sum x 1 := by
  unfold dct18Sum
  refine Finset.sum_congr rfl fun j _ => ?_
  rw [show ((-1 : Int) : ℝ) * FT.Fftw.grid 18 j = -((1 : Int) * FT.Fftw.grid 18 j) by push_cast; ring, cos_neg]

theorem foldP_spec (junk : Int → ℝ) (inp : Buf ℝ) {bi st : Int} (b0 : 0 ≤ bi) (s0 : 0 < st) (b1 : bi + 17 * st < inp.size) :
    ∃ z, foldP junk inp bi st = some z ∧ ∀ j, 0 ≤ j → j < 9 → z.val j = inp.val (bi + j * st) + inp.val (bi + (17 - j) * st) := by
  obtain ⟨z, e, _, h⟩ := forUp_spec (lo := 0) (hi := 9) (s := (⟨9, junk⟩ : Buf ℝ))
    (body := fun i z => (inp.rd (bi + i * st)).bind fun x => (inp.rd (bi + (17 - i) * st)).bind fun y => z.wr i (x + y))
    (fun n z => z.size = 9 ∧ ∀ j, 0 ≤ j → j < n → z.val j = inp.val (bi + j * st) + inp.val (bi + (17 - j) * st))
    ⟨rfl, fun j _ _ => by omega⟩ fun i i0 i1 z ⟨hs, h⟩ => by
      have u1 : 0 ≤ i * st := by positivity
      have u2 : i * st ≤ 17 * st := mul_le_mul_of_nonneg_right (by omega) s0.le
      have u3 : (17 - i) * st = 17 * st - i * st := by ring
      refine ⟨_, by rw [Buf.rd_of (by omega) (by omega), Option.bind_some, Buf.rd_of (by omega) (by omega), Option.bind_some, Buf.wr_of i0 (by omega)], by exact hs, fun j j0 j1 => ?_⟩
      show Function.update _ _ _ _ = _
      by_cases c : j = i
      · subst c; rw [Function.update_self]
      · rw [Function.update_of_ne c]; exact h j j0 (by omega)
  exact ⟨z, e, h⟩

theorem foldM_spec (junk : Int → ℝ) (inp : Buf ℝ) {bi st : Int} (b0 : 0 ≤ bi) (s0 : 0 < st) (b1 : bi + 17 * st < inp.size) :
    ∃ z, foldM realTrig junk inp bi st = some z ∧ ∀ j, 0 ≤ j → j < 9 → z.val j = (inp.val (bi + j * st) - inp.val (bi + (17 - j) * st)) * realTrig.COSH j := by
  obtain ⟨z, e, _, h⟩ := forUp_spec (lo := 0) (hi := 9) (s := (⟨9, junk⟩ : Buf ℝ))
    (body := fun i z => (inp.rd (bi + i * st)).bind fun x => (inp.rd (bi + (17 - i) * st)).bind fun y => z.wr i ((x - y) * realTrig.COSH i))
    (fun n z => z.size = 9 ∧ ∀ j, 0 ≤ j → j < n → z.val j = (inp.val (bi + j * st) - inp.val (bi + (17 - j) * st)) * realTrig.COSH j)
    ⟨rfl, fun j _ _ => by omega⟩ fun i i0 i1 z ⟨hs, h⟩ => by
      have u1 : 0 ≤ i * st := by positivity
      have u2 : i * st ≤ 17 * st := mul_le_mul_of_nonneg_right (by omega) s0.le
      have u3 : (17 - i) * st = 17 * st - i * st := by ring
      refine ⟨_, by rw [Buf.rd_of (by omega) (by omega), Option.bind_some, Buf.rd_of (by omega) (by omega), Option.bind_some, Buf.wr_of i0 (by omega)], by exact hs, fun j j0 j1 => ?_⟩
      show Function.update _ _ _ _ = _
      by_cases c : j = i
      · subst c; rw [Function.update_self]
      · rw [Function.update_of_ne c]; exact h j j0 (by omega)
  exact ⟨z, e, h⟩

theorem oddOut_spec (junk T Y : Int → ℝ) (h0 : T 0 = 2 * Y 0) (hT : ∀ i, 1 ≤ i → i < 9 → T i = Y i + Y (i - 1)) :
    ∃ o, oddOut junk T = some o ∧ o.size = 9 ∧ ∀ i, 0 ≤ i → i < 9 → o.val i = Y i := by
  obtain ⟨o, e, hs, h⟩ := forUp_spec (lo := 1) (hi := 9) (s := (⟨9, Function.update junk 0 (T 0 * (1 / 2))⟩ : Buf ℝ))
    (body := fun i o => (o.rd (i - 1)).bind fun x => o.wr i (T i - x))
    (fun n o => o.size = 9 ∧ ∀ i, 0 ≤ i → i < n → o.val i = Y i)
    ⟨rfl, fun j j0 j1 => by
      obtain rfl : j = 0 := by omega
      show Function.update junk 0 (T 0 * (1 / 2)) 0 = _
      rw [Function.update_self, h0]; ring⟩ fun i i0 i1 z ⟨hs, h⟩ => by
      refine ⟨_, by rw [Buf.rd_of (by omega) (by omega), Option.bind_some, Buf.wr_of (by omega) (by omega)], by exact hs, fun j j0 j1 => ?_⟩
      show Function.update _ _ _ _ = _
      by_cases c : j = i
      · subst c; rw [Function.update_self, h _ (by omega) (by omega), hT _ i0 i1]; ring
      · rw [Function.update_of_ne c]; exact h j j0 (by omega)
  refine ⟨o, ?_, hs, h⟩
  unfold oddOut
  rw [Buf.wr_of le_rfl (by norm_num), Option.bind_some]
  exact e

theorem rad3_congr {z z' : Int → ℝ} (h : ∀ j, 0 ≤ j → j < 9 → z j = z' j) {k : Int} : dct9 z k = dct9 z' k :=
  sum_Ico_congr fun j a b => by rw [h j a b]

theorem dctRadix23_spec (junk : Int → ℝ) (inp out : Buf ℝ) {bi bo st : Int} (b0 : 0 ≤ bi) (s0 : 0 < st) (b1 : bi + 17 * st < inp.size) (o0 : 0 ≤ bo) (o1 : bo + 17 * st < out.size) :
    ∃ o, dctRadix23 realTrig junk inp bi out bo st = some o ∧ o.size = out.size ∧
      (∀ k, 0 ≤ k → k < 18 → o.val (bo + k * st) = dct18Sum (fun j => inp.val (bi + j * st)) k) ∧
      ∀ p, (∀ k, 0 ≤ k → k < 18 → p ≠ bo + k * st) → o.val p = out.val p := by
  set x : Int → ℝ := fun j => inp.val (bi + j * st) with hx
  obtain ⟨z, ez, hz⟩ := foldP_spec junk inp b0 s0 b1
  obtain ⟨w, ew, hw⟩ := foldM_spec junk inp b0 s0 b1
  have hT (i : Int) (i0 : 0 ≤ i) (i1 : i < 9) : rad3 realTrig w.val (fun i => 3 * w.val i - rad3F w.val i) i = dct18Sum x (2 * i + 1) + dct18Sum x (2 * i - 1) := by
    rw [rad3_spec _ _ (fun i _ _ => by unfold rad3F; ring) i i0 i1, rad3_congr hw, dct18_odd]
  have hE (i : Int) (i0 : 0 ≤ i) (i1 : i < 9) : rad3 realTrig z.val (fun i => 2 * z.val i - z.val (5 - i) - z.val (6 + i)) i = dct18Sum x (2 * i) := by
    rw [rad3_spec _ _ (fun i _ _ => rfl) i i0 i1, rad3_congr hz, dct18_even]
  obtain ⟨o, eo, os, ho⟩ := oddOut_spec junk (rad3 realTrig w.val (fun i => 3 * w.val i - rad3F w.val i)) (fun i => dct18Sum x (2 * i + 1)) (by
      rw [hT 0 le_rfl (by norm_num)]; norm_num; rw [dct18_neg]; ring) (fun i i0 i1 => by
      rw [hT i (by omega) i1, show 2 * (i - 1) + 1 = 2 * i - 1 by ring])
  unfold dctRadix23
  rw [ez, Option.bind_some, ew, Option.bind_some, eo, Option.bind_some]
  have inj {a b : Int} (h : bo + a * st = bo + b * st) : a = b := mul_right_cancel₀ s0.ne' (add_left_cancel h)
  obtain ⟨r, er, hs, h, hu⟩ := forUp_spec (lo := 0) (hi := 9) (s := out)
    (body := fun i out => (out.wr (bo + 2 * i * st) (rad3 realTrig z.val (fun i => 2 * z.val i - z.val (5 - i) - z.val (6 + i)) i)).bind fun out =>
      (o.rd i).bind fun x => out.wr (bo + (2 * i + 1) * st) x)
    (fun n r => r.size = out.size ∧ (∀ k, 0 ≤ k → k < 2 * n → r.val (bo + k * st) = dct18Sum x k) ∧
      ∀ p, (∀ k, 0 ≤ k → k < 18 → p ≠ bo + k * st) → r.val p = out.val p)
    ⟨rfl, fun k _ _ => by omega, fun _ _ => rfl⟩ fun i i0 i1 r ⟨hs, h, hu⟩ => by
      have u1 : 0 ≤ i * st := by positivity
      have u2 : i * st ≤ 8 * st := mul_le_mul_of_nonneg_right (by omega) s0.le
      have u3 : (2 * i + 1) * st = 2 * (i * st) + st := by ring
      have u4 : 2 * i * st = 2 * (i * st) := by ring
      refine ⟨_, by
        rw [Buf.wr_of (by omega) (by omega), Option.bind_some, Buf.rd_of i0 (by omega), Option.bind_some, Buf.wr_of (by omega) (by show _ < (r.size : Int); omega)], by exact hs, fun k k0 k1 => ?_, fun p hp => ?_⟩
      · show Function.update (Function.update _ _ _) _ _ _ = _
        by_cases c : k = 2 * i + 1
        · subst c; rw [Function.update_self, ho i i0 i1]
        · rw [Function.update_of_ne fun e => c (inj e)]
          by_cases c : k = 2 * i
          · subst c; rw [Function.update_self, hE i i0 i1]
          · rw [Function.update_of_ne fun e => c (inj e)]
            exact h k k0 (by omega)
      · show Function.update (Function.update _ _ _) _ _ _ = _
        rw [Function.update_of_ne (hp _ (by omega) (by omega)), Function.update_of_ne (hp _ (by omega) (by omega)), hu p hp]
  exact ⟨r, er, hs, fun k k0 k1 => h k k0 (by rw [show max (0 : Int) 9 = 9 by norm_num]; omega), hu⟩

theorem dct2_spec (junk : Int → ℝ) (inp out : Buf ℝ) {bo : Int} (hi : 324 ≤ inp.size) (o0 : 0 ≤ bo) (o1 : bo + 324 ≤ out.size) :
    ∃ o, dct2 realTrig junk inp out bo = some o ∧ o.size = out.size ∧
      (∀ k l, 0 ≤ k → k < 18 → 0 ≤ l → l < 18 → o.val (bo + (k * 18 + l)) = hf k * hf l * (1 / 81) * ∑ i ∈ Finset.Ico (0 : Int) 18, ∑ j ∈ Finset.Ico (0 : Int) 18,
        inp.val (i * 18 + j) * (cos (k * FT.Fftw.grid 18 i) * cos (l * FT.Fftw.grid 18 j))) ∧
      ∀ p, p < bo ∨ bo + 324 ≤ p → o.val p = out.val p := by
  obtain ⟨t, et, ts, ht⟩ := forUp_spec (lo := 0) (hi := 18) (s := (⟨324, junk⟩ : Buf ℝ))
    (body := fun i tmp => dctRadix23 realTrig junk inp (i * 18) tmp (i * 18) 1)
    (fun n t => t.size = 324 ∧ ∀ i l, 0 ≤ i → i < n → 0 ≤ l → l < 18 → t.val (i * 18 + l) = dct18Sum (fun j => inp.val (i * 18 + j)) l)
    ⟨rfl, fun i l _ _ => by omega⟩ fun i i0 i1 t ⟨hs, h⟩ => by
      obtain ⟨r, er, rs, h1, h2⟩ := dctRadix23_spec junk inp t (bi := i * 18) (bo := i * 18) (st := 1) (by omega) (by norm_num) (by omega) (by omega) (by omega)
      refine ⟨r, er, by omega, fun a l a0 a1 l0 l1 => ?_⟩
      simp only [mul_one] at h1 h2
      by_cases c : a = i
      · subst c; exact h1 l l0 l1
      · rw [h2 _ fun k k0 k1 => by omega]
        exact h a l a0 (by omega) l0 l1
  obtain ⟨u, eu, us, hu, hu'⟩ := forUp_spec (lo := 0) (hi := 18) (s := out)
    (body := fun i out => dctRadix23 realTrig junk t i out (bo + i) 18)
    (fun n u => u.size = out.size ∧ (∀ k l, 0 ≤ k → k < 18 → 0 ≤ l → l < n → u.val (bo + (k * 18 + l)) = dct18Sum (fun i => t.val (i * 18 + l)) k) ∧
      ∀ p, p < bo ∨ bo + 324 ≤ p → u.val p = out.val p)
    ⟨rfl, fun k l _ _ _ _ => by omega, fun _ _ => rfl⟩ fun i i0 i1 u ⟨hs, h, hh⟩ => by
      obtain ⟨r, er, rs, h1, h2⟩ := dctRadix23_spec junk t u (bi := i) (bo := bo + i) (st := 18) (by omega) (by norm_num) (by omega) (by omega) (by omega)
      refine ⟨r, er, by omega, fun k l k0 k1 l0 l1 => ?_, fun p hp => ?_⟩
      · by_cases c : l = i
        · subst c
          rw [show bo + (k * 18 + l) = bo + l + k * 18 by ring, h1 k k0 k1]
          exact congrArg (dct18Sum · k) (funext fun j => by rw [add_comm])
        · rw [h2 _ fun k k0 k1 => by omega]
          exact h k l k0 k1 l0 (by omega)
      · rw [h2 _ fun k k0 k1 => by omega]
        exact hh p hp
  obtain ⟨v, ev, vs, hv, hv'⟩ := forUp_spec (lo := 0) (hi := 324) (s := u)
    (body := fun i out => mulAt out (bo + i) (1 / 81))
    (fun n v => v.size = u.size ∧ (∀ p, 0 ≤ p → p < n → v.val (bo + p) = u.val (bo + p) * (1 / 81)) ∧ ∀ p, p < bo ∨ bo + n ≤ p → v.val p = u.val p)
    ⟨rfl, fun p _ _ => by omega, fun _ _ => rfl⟩ fun i i0 i1 v ⟨hs, h, hh⟩ => by
      refine ⟨_, by unfold mulAt; rw [Buf.rd_of (by omega) (by omega), Option.bind_some, Buf.wr_of (by omega) (by omega)], by exact hs, fun p p0 p1 => ?_, fun p hp => ?_⟩
      · show Function.update _ _ _ _ = _
        by_cases c : p = i
        · subst c; rw [Function.update_self, hh _ (by omega)]
        · rw [Function.update_of_ne (by omega)]; exact h p p0 (by omega)
      · show Function.update _ _ _ _ = _
        rw [Function.update_of_ne (by omega)]; exact hh p (by omega)
  obtain ⟨w, ew, ws, hw, hw'⟩ := forUp_spec (lo := 0) (hi := 18) (s := v)
    (body := fun i out => (mulAt out (bo + i) (1 / 2)).bind fun out => mulAt out (bo + i * 18) (1 / 2))
    (fun n w => w.size = v.size ∧ (∀ k l, 0 ≤ k → k < 18 → 0 ≤ l → l < 18 → w.val (bo + (k * 18 + l)) =
        (if k = 0 ∧ l < n then 1 / 2 else 1) * (if l = 0 ∧ k < n then 1 / 2 else 1) * v.val (bo + (k * 18 + l))) ∧
      ∀ p, p < bo ∨ bo + 324 ≤ p → w.val p = v.val p)
    ⟨rfl, fun k l _ _ _ _ => by rw [if_neg (by omega), if_neg (by omega), one_mul, one_mul], fun _ _ => rfl⟩ fun i i0 i1 w ⟨hs, h, hh⟩ => by
      refine ⟨_, by
        unfold mulAt
        rw [Buf.rd_of (by omega) (by omega), Option.bind_some, Buf.wr_of (by omega) (by omega), Option.bind_some, Buf.rd_of (by omega) (by show _ < (w.size : Int); omega), Option.bind_some,
          Buf.wr_of (by omega) (by show _ < (w.size : Int); omega)], by exact hs, fun k l k0 k1 l0 l1 => ?_, fun p hp => ?_⟩
      · have hk := h k l k0 k1 l0 l1
        by_cases ck : k = 0
        · subst ck
          by_cases cl : l = 0
          · subst cl
            by_cases ci : i = 0
            · subst ci
              dsimp only
              rw [show bo + (0 * 18 + 0) = bo + 0 by ring, show bo + 0 * 18 = bo + 0 by ring, Function.update_self, Function.update_self]
              rw [show bo + (0 * 18 + 0) = bo + 0 by ring] at hk
              rw [hk]; norm_num; ring
            · show Function.update (Function.update _ _ _) _ _ _ = _
              rw [Function.update_of_ne (by omega), Function.update_of_ne (by omega), hk, if_pos (by omega), if_pos (by omega)]
          · show Function.update (Function.update _ _ _) _ _ _ = _
            rw [Function.update_of_ne (by omega), if_neg (c := l = 0 ∧ 0 < i + 1) (by omega)]
            rw [if_neg (c := l = 0 ∧ 0 < i) (by omega)] at hk
            by_cases ci : l = i
            · subst ci
              rw [show bo + (0 * 18 + l) = bo + l by ring, Function.update_self, if_pos (by omega)]
              rw [show bo + (0 * 18 + l) = bo + l by ring, if_neg (by omega)] at hk
              rw [hk]; ring
            · rw [Function.update_of_ne (by omega), hk]
              by_cases cc : l < i
              · rw [if_pos ⟨rfl, cc⟩, if_pos ⟨rfl, by omega⟩]
              · rw [if_neg (by omega), if_neg (by omega)]
        · rw [if_neg (by omega), one_mul]
          rw [if_neg (by omega), one_mul] at hk
          by_cases cl : l = 0
          · subst cl
            by_cases ci : k = i
            · subst ci
              dsimp only
              rw [show bo + (k * 18 + 0) = bo + k * 18 by ring, Function.update_self, Function.update_of_ne (by omega), if_pos (by omega)]
              rw [show bo + (k * 18 + 0) = bo + k * 18 by ring, if_neg (by omega)] at hk
              rw [hk]; ring
            · show Function.update (Function.update _ _ _) _ _ _ = _
              rw [Function.update_of_ne (by omega), Function.update_of_ne (by omega), hk]
              by_cases cc : k < i
              · rw [if_pos ⟨rfl, cc⟩, if_pos ⟨rfl, by omega⟩]
              · rw [if_neg (by omega), if_neg (by omega)]
          · show Function.update (Function.update _ _ _) _ _ _ = _
            rw [Function.update_of_ne (by omega), Function.update_of_ne (by omega), hk, if_neg (by omega), if_neg (by omega)]
      · show Function.update (Function.update _ _ _) _ _ _ = _
        rw [Function.update_of_ne (by omega), Function.update_of_ne (by omega)]; exact hh p hp
  refine ⟨w, ?_, by omega, fun k l k0 k1 l0 l1 => ?_, fun p hp => ?_⟩
  · unfold dct2
    rw [et, Option.bind_some, eu, Option.bind_some, ev, Option.bind_some, ew]
  · rw [show max (0 : Int) 18 = 18 by norm_num] at hw ht hu
    rw [show max (0 : Int) 324 = 324 by norm_num] at hv
    rw [hw k l k0 k1 l0 l1, hv _ (by omega) (by omega), hu k l k0 k1 l0 l1]
    have e : dct18Sum (fun i => t.val (i * 18 + l)) k = ∑ i ∈ Finset.Ico (0 : Int) 18, ∑ j ∈ Finset.Ico (0 : Int) 18,
        inp.val (i * 18 + j) * (cos (k * FT.Fftw.grid 18 i) * cos (l * FT.Fftw.grid 18 j)) := by
      unfold dct18Sum
      refine sum_Ico_congr fun i i0 i1 => ?_
      beta_reduce
      rw [ht i l i0 i1 l0 l1]
      unfold dct18Sum
      rw [Finset.sum_mul]
      exact Finset.sum_congr rfl fun j _ => by ring
    rw [e]
    have f1 : (if k = 0 ∧ l < 18 then (1 / 2 : ℝ) else 1) = hf k := by unfold hf; by_cases c : k = 0 <;> simp [c, l1]
    have f2 : (if l = 0 ∧ k < 18 then (1 / 2 : ℝ) else 1) = hf l := by unfold hf; by_cases c : l = 0 <;> simp [c, k1]
    rw [f1, f2]; ring
  · rw [show max (0 : Int) 324 = 324 by norm_num] at hv'
    rw [hw' p hp, hv' p hp, hu' p hp]

end FT.Props.Lc
