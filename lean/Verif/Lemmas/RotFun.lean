import Verif.Lemmas.Ladder
import Verif.Lemmas.RotJac
import Verif.Lemmas.JacScale

/-!
# The rotations of the library relate Jacobi polynomials of neighbouring parameters
-/

namespace FT
variable {K : Type*} [CommRing K]

theorem Ladder.smul {g t : Int} {c s p h u : Int → K} (L : Ladder g t c s p h u) (z : K) : Ladder g t c s (fun l => z * p l) (fun l => z * h l) (fun l => z * u l) where
  base l h0 h1 := by simp only [L.base l h0 h1]
  high k h0 h1 := by simp only [L.high k h0 h1]; ring
  mid k h0 h1 := by simp only [L.mid k h0 h1]; ring

theorem Ladder.flip {t : Int} {c s p h u : Int → K} (L : Ladder 1 t c s p h u) :
    Ladder 1 t c (fun k => -s k) (fun l => (-1) ^ l.toNat * p l) (fun l => (-1) ^ l.toNat * h l) (fun l => (-1) ^ l.toNat * u l) where
  base l h0 h1 := by simp only [L.base l h0 h1]
  high k h0 h1 := by simp only [L.high k h0 h1, show (k + 1).toNat = k.toNat + 1 by omega, pow_succ]; ring
  mid k h0 h1 := by simp only [L.mid k h0 h1, show (k + 1).toNat = k.toNat + 1 by omega, pow_succ]; ring

theorem Ladder.congr {g t : Int} (hg : 0 < g) {c c' s s' p p' h h' u : Int → K} (L : Ladder g t c s p h u) (hc : ∀ k, 0 ≤ k → k ≤ t → c' k = c k) (hs : ∀ k, 0 ≤ k → k ≤ t → s' k = s k)
    (hp : ∀ k, 0 ≤ k → p' k = p k) (hh : ∀ k, 0 ≤ k → h' k = h k) : Ladder g t c' s' p' h' u where
  base l h0 h1 := by rw [hp l h0]; exact L.base l h0 h1
  high k h0 h1 := by rw [hc k h0 h1, hs k h0 h1, hp _ (by omega), hh k h0]; exact L.high k h0 h1
  mid k h0 h1 := by rw [hc k h0 h1, hs k h0 h1, hp _ (by omega)]; exact L.mid k h0 h1

end FT

namespace FT.Poly
open Polynomial
variable {K : Type*} [Field K] [LinearOrder K] [IsStrictOrderedRing K] {F : Libm K} {a b : K}

theorem jf_pos (ha : -1 < a) (hb : -1 < b) {n : Int} (hn : 0 ≤ n) : 0 < jf a b n := by
  unfold jf
  split_ifs with h
  · exact div_pos (by linarith) (by linarith)
  · have h1 : (1 : K) ≤ n := by exact_mod_cast (show 1 ≤ n by omega)
    unfold kF
    refine div_pos (mul_pos ?_ ?_) (mul_pos (mul_pos ?_ ?_) ?_) <;> linarith

theorem gram_up1 {g0 : K} (ha : -1 < a) (hb : -1 < b) {n : Int} (hn : 0 ≤ n) : gram (jf a b 0 * g0) (jacB (a + 1) b) n = jf a b n * gram g0 (jacB a b) n := by
  refine eq_of_steps (s := gram (jf a b 0 * g0) (jacB (a + 1) b)) (t := fun n => jf a b n * gram g0 (jacB a b) n) ?_ (fun n hn ih => ?_) hn
  · rw [gram_zero, gram_zero]
  · have := jf_mul ha hb (show 1 ≤ n + 1 by omega)
    rw [add_sub_cancel_right] at this
    rw [gram_succ _ _ hn, gram_succ _ _ hn, ih]
    linear_combination (-gram g0 (jacB a b) n) * this

theorem jacG_up1 (hF : IsLibm F) (ha : -1 < a) (hb : -1 < b) : jacG F (a + 1) b = jf a b 0 * jacG F a b := by
  unfold jacG jf
  have h1 := ne_of_gt (hF.gamma_pos (a + b + 2) (by linarith))
  have h2 : a + b + 2 ≠ 0 := by linarith
  rw [if_pos rfl, hF.gamma_succ (a + 1) (by linarith), show a + 1 + b + 1 = a + b + 1 + 1 by ring, hF.pow2_succ, show a + 1 + b + 2 = a + b + 2 + 1 by ring, hF.gamma_succ (a + b + 2) (by linarith)]
  field_simp

/-- The normalised polynomials with their positive factors. -/
theorem Jac_eval (hF : IsLibm F) (ha : -1 < a) (hb : -1 < b) (l : Int) (x : K) :
    (Jac F true a b l).eval x = posS F.sqrt (jacG F a b) (jacB a b) l * (jacobi a b l).eval x := by
  unfold Jac scaled
  rw [eval_mul, eval_C]
  congr 1
  unfold jacS
  refine scale_posS hF.sqrt (jacG_pos hF ha hb) (fun n h => jacB_pos ha hb h) ?_
  unfold lead
  exact Finset.prod_pos (fun i hi => jacR_pos ha hb (Finset.mem_Ico.1 hi).1)

theorem posS_sq (hF : IsLibm F) {g : K} {bb : Int → K} (hg : 0 < g) (hb : ∀ n, 1 ≤ n → 0 < bb n) (l : Int) : 0 < posS F.sqrt g bb l ∧ posS F.sqrt g bb l * posS F.sqrt g bb l * gram g bb l = 1 := by
  refine ⟨posS_pos hF.sqrt hg hb l, ?_⟩
  have h := gram_pos hg hb l
  have h2 := (hF.sqrt _ (le_of_lt h)).2
  have h3 := ne_of_gt (sqrt_pos hF.sqrt h)
  unfold posS
  rw [one_div, ← mul_inv, h2, inv_mul_cancel₀ (ne_of_gt h)]

/-- One parameter grows by two, the gap is one: triangle, disk and spin-weighted tables. -/
theorem ladder_jac (hF : IsLibm F) (ha : -1 < a) (hb : -1 < b) {t : Int} {c s : Int → K} (hs : ∀ l, 0 ≤ l → l ≤ t → 0 ≤ s l) (hc : ∀ l, 0 ≤ l → l ≤ t → 0 ≤ c l)
    (es : ∀ l : Int, 0 ≤ l → l ≤ t → s l * s l * ((l + a + 2) * (l + a + b + 2)) = (l + 1) * (l + b + 1))
    (ec : ∀ l : Int, 0 ≤ l → l ≤ t → c l * c l * ((l + a + 2) * (l + a + b + 2)) = (a + 1) * (2 * l + a + b + 3)) (x : K) :
    ∃ u, Ladder 1 t c s (fun l => (Jac F true a b l).eval x) (fun l => (1 - x) * (Jac F true (a + 2) b l).eval x) u := by
  have hb' : ∀ n, 1 ≤ n → 0 < jacB a b n := fun n h => jacB_pos ha hb h
  have hb'' : ∀ n, 1 ≤ n → 0 < jacB (a + 1 + 1) b n := fun n h => jacB_pos (by linarith) hb h
  have pos : ∀ l : Int, 0 ≤ l → 0 < (l : K) + a + 2 ∧ 0 < (l : K) + a + b + 2 ∧ 0 < 2 * (l : K) + a + b + 2 ∧ 0 < 2 * (l : K) + a + b + 3 := by
    intro l hl
    have : (0 : K) ≤ l := by exact_mod_cast hl
    refine ⟨?_, ?_, ?_, ?_⟩ <;> linarith
  have fe' : ∀ l : Int, 0 ≤ l → jf (a + 1) b l * ((2 * l + a + b + 2) * (2 * l + a + b + 3)) = 2 * ((l + a + 2) * (l + a + b + 2)) := by
    intro l hl
    obtain ⟨p1, p2, p3, p4⟩ := pos l hl
    unfold jf
    split_ifs with h
    · subst h
      rw [show a + 1 + b + 2 = a + b + 3 by ring]
      push_cast at *
      have : a + b + 3 ≠ 0 := by linarith
      field_simp
      ring
    · unfold kF
      rw [show 2 * (l : K) + (a + 1 + b) + 1 = 2 * l + a + b + 2 by ring, show 2 * (l : K) + (a + 1 + b) + 2 = 2 * l + a + b + 3 by ring]
      generalize hv : 2 * (l : K) + a + b + 2 = v at *
      generalize hw : 2 * (l : K) + a + b + 3 = w at *
      field_simp
      ring
  have fe : ∀ l : Int, 1 ≤ l → jf a b l * ((2 * l + a + b + 1) * (2 * l + a + b + 2)) = 2 * ((l + a + 1) * (l + a + b + 1)) := by
    intro l hl
    have h1 : (1 : K) ≤ l := by exact_mod_cast hl
    unfold jf kF
    rw [if_neg (by omega)]
    rw [show 2 * (l : K) + (a + b) + 1 = 2 * l + a + b + 1 by ring, show 2 * (l : K) + (a + b) + 2 = 2 * l + a + b + 2 by ring]
    have n1 : 2 * (l : K) + a + b + 1 ≠ 0 := by linarith
    have n2 : 2 * (l : K) + a + b + 2 ≠ 0 := by linarith
    generalize hv : 2 * (l : K) + a + b + 1 = v at *
    generalize hw : 2 * (l : K) + a + b + 2 = w at *
    field_simp
    ring
  have re : ∀ l : Int, 0 ≤ l → jr a b (l + 1) * ((2 * l + a + b + 2) * (2 * l + a + b + 3)) = -(2 * ((l + 1) * (l + b + 1))) := by
    intro l hl
    obtain ⟨p1, p2, p3, p4⟩ := pos l hl
    unfold jr kR
    push_cast
    rw [show 2 * ((l : K) + 1) + (a + b) = 2 * l + a + b + 2 by ring, show 2 * (l : K) + a + b + 2 + 1 = 2 * l + a + b + 3 by ring]
    generalize hv : 2 * (l : K) + a + b + 2 = v at *
    generalize hw : 2 * (l : K) + a + b + 3 = w at *
    field_simp
    rw [← hv]
    ring
  have fc : ∀ l : Int, 0 ≤ l → l ≤ t → jf (a + 1) b l * (c l * c l) * (2 * l + a + b + 2) = 2 * (a + 1) := by
    intro l hl ht
    obtain ⟨p1, p2, p3, p4⟩ := pos l hl
    refine mul_right_cancel₀ (ne_of_gt (mul_pos p4 (mul_pos p1 p2))) ?_
    linear_combination (c l * c l * ((l + a + 2) * (l + a + b + 2))) * fe' l hl + (2 * ((l + a + 2) * (l + a + b + 2))) * ec l hl ht
  have hL := ladder_of (g := 1) (t := t) (by norm_num) (c := c) (s := s) (S := posS F.sqrt (jacG F a b) (jacB a b)) (T := posS F.sqrt (jacG F (a + 1 + 1) b) (jacB (a + 1 + 1) b))
    (r := jr a b) (f := jf a b) (f' := jf (a + 1) b) (G := gram (jacG F a b) (jacB a b)) (P := fun n => (jacobi a b n).eval x) (Q := fun n => (jacobi (a + 1) b n).eval x)
    (H := fun n => (jacobi (a + 1 + 1) b n).eval x) (w := 1 - x)
    (fun n hn => by
      rw [jacobi_raise1 ha hb hn, eval_add, eval_mul, eval_C]
      split_ifs with h
      · obtain rfl : n = 0 := by omega
        rw [jr_zero, zero_mul]
      · rfl)
    (fun n hn => by
      have := congrArg (eval x) (jacobi_lower1 (a := a + 1) (b := b) (by linarith) hb hn)
      simpa only [eval_mul, eval_sub, eval_one, eval_X, eval_add, eval_neg, eval_C] using this)
    hs hc (fun l l0 l1 => by
      obtain ⟨p1, p2, p3, p4⟩ := pos l l0
      refine mul_right_cancel₀ (ne_of_gt (mul_pos p1 p2)) ?_
      linear_combination es l l0 l1 + ec l l0 l1)
    (fun l l0 => jf_pos ha hb l0) (fun l l0 => jf_pos (by linarith) hb l0) (fun l l0 => gram_pos (jacG_pos hF ha hb) hb' l) (fun l l0 => posS_sq hF (jacG_pos hF ha hb) hb' l)
    (fun l l0 => by
      have := posS_sq hF (jacG_pos hF (show -1 < a + 1 + 1 by linarith) hb) hb'' l
      refine ⟨this.1, ?_⟩
      have e : gram (jacG F (a + 1 + 1) b) (jacB (a + 1 + 1) b) l = jf (a + 1) b l * jf a b l * gram (jacG F a b) (jacB a b) l := by
        rw [jacG_up1 hF (by linarith) hb, gram_up1 (by linarith) hb l0, jacG_up1 hF ha hb, gram_up1 ha hb l0, mul_assoc]
      rw [← e]
      exact this.2)
    (fun l l0 => by
      rw [gram_succ _ _ l0, mul_comm (gram _ _ _)]
      congr 1
      obtain ⟨p1, p2, p3, p4⟩ := pos l l0
      have r0 := re l l0
      refine mul_right_cancel₀ (ne_of_gt (mul_pos p3 p4)) ?_
      have r1 : -jr a b (l + 1) * jf a b l * ((2 * l + a + b + 2) * (2 * l + a + b + 3)) = 2 * ((l + 1) * (l + b + 1)) * jf a b l := by linear_combination (-jf a b l) * r0
      rw [r1]
      rcases eq_or_lt_of_le l0 with h | h
      · subst h
        rw [show (0 : Int) + 1 = 1 from rfl]
        unfold jacB jf
        rw [if_pos rfl, if_pos rfl]
        push_cast at *
        have n1 : a + b + 2 ≠ 0 := by linarith
        have n2 : a + b + 3 ≠ 0 := by linarith
        field_simp
        ring
      · have f0 := fe l h
        have h1 : (1 : K) ≤ l := by exact_mod_cast (show 1 ≤ l by omega)
        have p0 : 0 < 2 * (l : K) + a + b + 1 := by linarith
        refine mul_right_cancel₀ (ne_of_gt (mul_pos p0 p3)) ?_
        have r2 : 2 * ((l + 1) * (l + b + 1)) * jf a b l * ((2 * l + a + b + 1) * (2 * l + a + b + 2)) = 2 * ((l + 1) * (l + b + 1)) * (2 * ((l + a + 1) * (l + a + b + 1))) := by linear_combination (2 * ((l + 1) * (l + b + 1))) * f0
        rw [r2]
        unfold jacB
        rw [if_neg (by omega)]
        push_cast
        rw [show 2 * ((l : K) + 1) + a + b = 2 * l + a + b + 2 by ring, show 2 * (l : K) + a + b + 2 - 1 = 2 * l + a + b + 1 by ring, show 2 * (l : K) + a + b + 2 + 1 = 2 * l + a + b + 3 by ring]
        generalize hu : 2 * (l : K) + a + b + 1 = u at *
        generalize hv : 2 * (l : K) + a + b + 2 = v at *
        generalize hw : 2 * (l : K) + a + b + 3 = w at *
        field_simp
        ring)
    (fun l l0 l1 l2 => by
      obtain rfl : l = 0 := by omega
      obtain ⟨p1, p2, p3, p4⟩ := pos 0 l0
      refine mul_right_cancel₀ (ne_of_gt p3) ?_
      rw [fc 0 l0 l2]
      unfold jf
      rw [if_pos rfl]
      have n1 : a + b + 2 ≠ 0 := by linarith
      push_cast
      rw [show 2 * (0 : K) + a + b + 2 = a + b + 2 by ring]
      field_simp)
    (fun l l0 l1 => by
      obtain ⟨p1, p2, p3, p4⟩ := pos l l0
      obtain ⟨q1, q2, q3, q4⟩ := pos (l + 1) (by omega)
      refine mul_right_cancel₀ (ne_of_gt q3) ?_
      rw [fc (l + 1) (by omega) l1]
      have f1 := fe (l + 1) (by omega)
      push_cast at *
      refine mul_right_cancel₀ (ne_of_gt (mul_pos p4 (mul_pos p1 p2))) ?_
      have e := ec l l0 (by omega)
      linear_combination (c l * c l * ((l + a + 2) * (l + a + b + 2))) * f1 + 2 * ((l + a + 2) * (l + a + b + 2)) * e)
    (fun l l0 l1 => by
      obtain ⟨p1, p2, p3, p4⟩ := pos l l0
      refine mul_right_cancel₀ (ne_of_gt (mul_pos (mul_pos p3 p4) (mul_pos p1 p2))) ?_
      linear_combination (s l * s l * ((l + a + 2) * (l + a + b + 2))) * fe' l l0 + (2 * ((l + a + 2) * (l + a + b + 2))) * es l l0 l1 + ((l + a + 2) * (l + a + b + 2)) * re l l0)
  refine ⟨_, hL.congr (by norm_num) (fun _ _ _ => rfl) (fun _ _ _ => rfl) (fun l _ => Jac_eval hF ha hb l x) (fun l _ => ?_)⟩
  rw [show a + 2 = a + 1 + 1 by ring, Jac_eval hF (by linarith) hb]
  ring

/-- Both parameters grow by two, the gap is two: sphere and rectangularized disk. -/
theorem ladder_sym (hF : IsLibm F) (ha : -1 / 2 < a) {t : Int} {c s : Int → K} (hs : ∀ l, 0 ≤ l → l ≤ t → 0 ≤ s l) (hc : ∀ l, 0 ≤ l → l ≤ t → 0 ≤ c l)
    (es : ∀ l : Int, 0 ≤ l → l ≤ t → s l * s l * ((l + 2 * a + 3) * (l + 2 * a + 4)) = (l + 1) * (l + 2))
    (ec : ∀ l : Int, 0 ≤ l → l ≤ t → c l * c l * ((l + 2 * a + 3) * (l + 2 * a + 4)) = (2 * a + 2) * (2 * l + 2 * a + 5)) (x : K) :
    ∃ u, Ladder 2 t c s (fun l => (Jac F true a a l).eval x) (fun l => (1 - x ^ 2) * (Jac F true (a + 2) (a + 2) l).eval x) u := by
  have ha1 : -1 < a := by linarith
  have ha2 : -1 < a + 1 := by linarith
  have ha3 : -1 < a + 1 + 1 := by linarith
  have hb' : ∀ n, 1 ≤ n → 0 < jacB a a n := fun n h => jacB_pos ha1 ha1 h
  have hb'' : ∀ n, 1 ≤ n → 0 < jacB (a + 1 + 1) (a + 1 + 1) n := fun n h => jacB_pos ha3 ha3 h
  have pos : ∀ l : Int, 0 ≤ l → 0 < (l : K) + 2 * a + 3 ∧ 0 < (l : K) + 2 * a + 4 ∧ 0 < 2 * (l : K) + 2 * a + 3 ∧ 0 < 2 * (l : K) + 2 * a + 5 := by
    intro l hl
    have : (0 : K) ≤ l := by exact_mod_cast hl
    refine ⟨?_, ?_, ?_, ?_⟩ <;> linarith
  have fe : ∀ {a : K}, -1 / 2 < a → ∀ l : Int, 0 ≤ l → jacLb a a l * ((2 * l + 2 * a + 1) * (2 * l + 2 * a + 3)) = (l + 2 * a + 1) * (l + 2 * a + 2) := by
    intro a ha l hl
    have h0 : (0 : K) ≤ l := by exact_mod_cast hl
    have n1 : (l : K) + a + 1 / 2 ≠ 0 := by linarith
    have n2 : (l : K) + a + 3 / 2 ≠ 0 := by linarith
    rw [symLb (by linarith) hl n1, show 2 * (l : K) + 2 * a + 1 = 2 * (l + a + 1 / 2) by ring, show 2 * (l : K) + 2 * a + 3 = 2 * (l + a + 3 / 2) by ring]
    generalize (l : K) + a + 1 / 2 = v at *
    generalize (l : K) + a + 3 / 2 = w at *
    field_simp
    ring
  have fe' : ∀ l : Int, 0 ≤ l → jacLb (a + 1) (a + 1) l * ((2 * l + 2 * a + 3) * (2 * l + 2 * a + 5)) = (l + 2 * a + 3) * (l + 2 * a + 4) := by
    intro l hl
    have := fe (a := a + 1) (by linarith) l hl
    linear_combination this
  have re : ∀ l : Int, 0 ≤ l → symR (a + 1 / 2) (l + 2) * ((2 * l + 2 * a + 3) * (2 * l + 2 * a + 5)) = -((l + 1) * (l + 2)) := by
    intro l hl
    obtain ⟨p1, p2, p3, p4⟩ := pos l hl
    unfold symR
    push_cast
    rw [show 4 * ((l : K) + 2 + (a + 1 / 2)) * (l + 2 + (a + 1 / 2) - 1) = (2 * l + 2 * a + 5) * (2 * l + 2 * a + 3) by ring]
    generalize 2 * (l : K) + 2 * a + 5 = v at *
    generalize 2 * (l : K) + 2 * a + 3 = w at *
    field_simp
    ring
  have fc : ∀ l : Int, 0 ≤ l → l ≤ t → jacLb (a + 1) (a + 1) l * (c l * c l) * (2 * l + 2 * a + 3) = 2 * a + 2 := by
    intro l hl ht
    obtain ⟨p1, p2, p3, p4⟩ := pos l hl
    refine mul_right_cancel₀ (ne_of_gt (mul_pos p4 (mul_pos p1 p2))) ?_
    linear_combination (c l * c l * ((l + 2 * a + 3) * (l + 2 * a + 4))) * fe' l hl + ((l + 2 * a + 3) * (l + 2 * a + 4)) * ec l hl ht
  have hL := ladder_of (g := 2) (t := t) (by norm_num) (c := c) (s := s) (S := posS F.sqrt (jacG F a a) (jacB a a)) (T := posS F.sqrt (jacG F (a + 1 + 1) (a + 1 + 1)) (jacB (a + 1 + 1) (a + 1 + 1)))
    (r := symR (a + 1 / 2)) (f := jacLb a a) (f' := jacLb (a + 1) (a + 1)) (G := gram (jacG F a a) (jacB a a)) (P := fun n => (jacobi a a n).eval x)
    (Q := fun n => (jacobi (a + 1) (a + 1) n).eval x) (H := fun n => (jacobi (a + 1 + 1) (a + 1 + 1) n).eval x) (w := 1 - x ^ 2)
    (fun n hn => by
      have e := sym_raise (mu := a + 1 / 2) (by linarith) hn
      rw [show a + 1 / 2 - 1 / 2 = a by ring, show a + 1 / 2 + 1 / 2 = a + 1 by ring] at e
      rw [e, eval_add, eval_mul, eval_C]
      split_ifs with h
      · rcases (show n = 0 ∨ n = 1 by omega) with rfl | rfl <;> (unfold symR; push_cast; simp)
      · rfl)
    (fun n hn => by
      have := congrArg (eval x) (jacobi_lower (α := a + 1) (β := a + 1) ha2 ha2 hn)
      rw [symLa, map_zero, zero_mul, add_zero] at this
      simpa only [eval_mul, eval_sub, eval_one, eval_X, eval_pow, eval_add, eval_neg, eval_C] using this)
    hs hc (fun l l0 l1 => by
      obtain ⟨p1, p2, p3, p4⟩ := pos l l0
      refine mul_right_cancel₀ (ne_of_gt (mul_pos p1 p2)) ?_
      linear_combination es l l0 l1 + ec l l0 l1)
    (fun l l0 => jacLb_pos ha1 ha1 l0) (fun l l0 => jacLb_pos ha2 ha2 l0) (fun l l0 => gram_pos (jacG_pos hF ha1 ha1) hb' l) (fun l l0 => posS_sq hF (jacG_pos hF ha1 ha1) hb' l)
    (fun l l0 => by
      have := posS_sq hF (jacG_pos hF ha3 ha3) hb'' l
      refine ⟨this.1, ?_⟩
      have e : gram (jacG F (a + 1 + 1) (a + 1 + 1)) (jacB (a + 1 + 1) (a + 1 + 1)) l = jacLb (a + 1) (a + 1) l * jacLb a a l * gram (jacG F a a) (jacB a a) l := by
        rw [jacG_up hF ha2 ha2, gram_up ha2 ha2 l0, jacG_up hF ha1 ha1, gram_up ha1 ha1 l0, mul_assoc]
      rw [← e]
      exact this.2)
    (fun l l0 => by
      have e := symRLb (mu := a + 1 / 2) (by linarith) (j := l + 2) (by omega) (by linarith)
      rw [show a + 1 / 2 - 1 / 2 = a by ring, show l + 2 - 2 = l by omega, show l + 2 - 1 = l + 1 by omega] at e
      rw [show l + 2 = l + 1 + 1 by omega, gram_succ _ _ (by omega), gram_succ _ _ l0]
      rw [show l + 2 = l + 1 + 1 by omega] at e
      linear_combination (-gram (jacG F a a) (jacB a a) l) * e)
    (fun l l0 l1 l2 => by
      obtain ⟨p1, p2, p3, p4⟩ := pos l l0
      refine mul_right_cancel₀ (ne_of_gt p3) ?_
      rw [fc l l0 l2]
      have f0 := fe ha l l0
      rcases (show l = 0 ∨ l = 1 by omega) with rfl | rfl
      · push_cast at *
        refine mul_right_cancel₀ (show 2 * a + 1 ≠ 0 by linarith) ?_
        linear_combination f0
      · push_cast at *
        refine mul_right_cancel₀ (show 2 * a + 3 ≠ 0 by linarith) ?_
        linear_combination f0)
    (fun l l0 l1 => by
      obtain ⟨p1, p2, p3, p4⟩ := pos l l0
      obtain ⟨q1, q2, q3, q4⟩ := pos (l + 2) (by omega)
      refine mul_right_cancel₀ (ne_of_gt q3) ?_
      rw [fc (l + 2) (by omega) l1]
      have f1 := fe ha (l + 2) (by omega)
      push_cast at *
      refine mul_right_cancel₀ (ne_of_gt (mul_pos p4 (mul_pos p1 p2))) ?_
      have e := ec l l0 (by omega)
      linear_combination (c l * c l * ((l + 2 * a + 3) * (l + 2 * a + 4))) * f1 + ((l + 2 * a + 3) * (l + 2 * a + 4)) * e)
    (fun l l0 l1 => by
      obtain ⟨p1, p2, p3, p4⟩ := pos l l0
      refine mul_right_cancel₀ (ne_of_gt (mul_pos (mul_pos p3 p4) (mul_pos p1 p2))) ?_
      linear_combination (s l * s l * ((l + 2 * a + 3) * (l + 2 * a + 4))) * fe' l l0 + ((l + 2 * a + 3) * (l + 2 * a + 4)) * es l l0 l1 + ((l + 2 * a + 3) * (l + 2 * a + 4)) * re l l0)
  refine ⟨_, hL.congr (by norm_num) (fun _ _ _ => rfl) (fun _ _ _ => rfl) (fun l _ => Jac_eval hF ha1 ha1 l x) (fun l _ => ?_)⟩
  rw [show a + 2 = a + 1 + 1 by ring, Jac_eval hF ha3 ha3]
  ring

/-! ## Reflection -/

theorem jacA_flip (n : Int) : jacA b a n = -jacA a b n := by
  unfold jacA
  split_ifs
  · rw [show b + a + 2 = a + b + 2 by ring]; ring
  · rw [show 2 * (n : K) + b + a = 2 * n + a + b by ring]; ring

theorem jacB_flip (n : Int) : jacB b a n = jacB a b n := by
  unfold jacB
  split_ifs
  · rw [show b + a + 2 = a + b + 2 by ring, show b + a + 3 = a + b + 3 by ring]; ring
  · rw [show 2 * (n : K) + b + a = 2 * n + a + b by ring]; ring

theorem jacR_flip (n : Int) : jacR b a n = jacR a b n := by
  unfold jacR
  split_ifs
  · rw [show b + a + 2 = a + b + 2 by ring]
  · rw [show 2 * (n : K) + b + a = 2 * n + a + b by ring, show (n : K) + b + a = n + a + b by ring]

theorem jacobi_flip (x : K) {n : Int} (hn : 0 ≤ n) : (jacobi b a n).eval x = (-1) ^ n.toNat * (jacobi a b n).eval (-x) := by
  unfold jacobi
  refine two_step (P := fun n => (monic (jacA b a) (jacB b a) n).eval x = (-1) ^ n.toNat * (monic (jacA a b) (jacB a b) n).eval (-x)) ?_ (fun n n0 ih ih' => ?_) hn
  · rw [monic_zero, monic_zero]; simp
  · rw [monic_succ n0, monic_succ n0, eval_sub, eval_mul, eval_mul, eval_sub, eval_sub, eval_mul, eval_mul, eval_sub, ih, show (n + 1).toNat = n.toNat + 1 by omega, jacA_flip, jacB_flip]
    simp only [eval_X, eval_C]
    rcases eq_or_lt_of_le n0 with h | h
    · rw [monic_neg (show n - 1 < 0 by omega), monic_neg (show n - 1 < 0 by omega), pow_succ]
      simp only [eval_zero, mul_zero, sub_zero]
      ring
    · rw [ih' (by omega)]
      obtain ⟨k, hk⟩ : ∃ k : ℕ, n.toNat = k + 1 := ⟨n.toNat - 1, by omega⟩
      rw [show (n - 1).toNat = k by omega, hk, pow_succ, pow_succ]
      ring

theorem Jac_flip (F : Libm K) (norm : Bool) (x : K) {n : Int} (hn : 0 ≤ n) : (Jac F norm b a n).eval x = (-1) ^ n.toNat * (Jac F norm a b n).eval (-x) := by
  unfold Jac scaled
  rw [eval_mul, eval_mul, eval_C, eval_C, jacobi_flip x hn]
  have e : jacS F norm b a = jacS F norm a b := by
    unfold jacS
    rw [show jacR b a = jacR a b from funext jacR_flip, show jacB b a = jacB a b from funext jacB_flip]
    congr 1
    unfold jacG
    rw [show b + a + 1 = a + b + 1 by ring, show b + a + 2 = a + b + 2 by ring]
    ring
  rw [e]
  ring

end FT.Poly

