import Verif.Lemmas.Pencil

/-!
# Jacobi polynomials whose first parameter differs by one

Raising and lowering relations of the monic polynomials, and what they mean for the factors that make them orthonormal.
-/

set_option linter.unusedSectionVars false

namespace FT.Poly
open Polynomial
variable {K : Type*} [Field K]

/-- Multiplication by `1 - x` lowers a parameter. -/
theorem monic_lower1 {a b a' b' f : Int → K} (h0 : f 0 = 1 - a 0) (e1 : ∀ n, 0 ≤ n → f (n + 1) = f n + a' n - a (n + 1))
    (e2 : ∀ n, 0 ≤ n → b (n + 1) = f n * (a n - a' n) + if n = 0 then 0 else b' n) (e3 : ∀ n, 1 ≤ n → f n * b n = b' n * f (n - 1)) {n : Int} (hn : 0 ≤ n) :
    (1 - X) * monic a' b' n = -monic a b (n + 1) + C (f n) * monic a b n := by
  refine two_step (P := fun n => (1 - X) * monic a' b' n = -monic a b (n + 1) + C (f n) * monic a b n) ?_ (fun n n0 ih ih' => ?_) hn
  · rw [monic_zero, zero_add, monic_one, monic_zero, h0, C_sub, map_one]; ring
  · rw [monic_succ (a := a') (b := b') n0, monic_succ (a := a) (b := b) (show 0 ≤ n + 1 by omega), add_sub_cancel_right]
    have m1 := monic_succ (a := a) (b := b) n0
    have E1 := congrArg C (e1 n n0)
    have E2 := congrArg C (e2 n n0)
    simp only [C_add, C_sub, C_mul] at E1 E2
    rcases eq_or_lt_of_le n0 with h | h
    · subst h
      rw [if_pos rfl, map_zero] at E2
      rw [monic_neg (show (0 : Int) - 1 < 0 by norm_num)] at *
      have z : monic a b 0 = 1 := monic_zero
      have z' : monic a' b' 0 = 1 := monic_zero
      simp only [z, z', mul_zero, sub_zero] at *
      linear_combination (X - C (a' 0)) * ih - monic a b (0 + 1) * E1 - E2 - C (f 0) * m1
    · have E3 := congrArg C (e3 n (by omega))
      simp only [C_mul] at E3
      rw [if_neg (by omega)] at E2
      have i2 := ih' (by omega)
      rw [sub_add_cancel] at i2
      linear_combination (X - C (a' n)) * ih - C (b' n) * i2 - monic a b (n + 1) * E1 - monic a b n * E2 - C (f n) * m1 + monic a b (n - 1) * E3

/-! ## The coefficients, as functions of `t = 2n + α + β` -/

def kA (a b t : K) : K := (b - a) * (a + b) / (t * (t + 2))
def kB (a b t : K) : K := (t - a - b) * (t + a - b) * (t - a + b) * (t + a + b) / (4 * t * t * (t - 1) * (t + 1))
def kR (a b t : K) : K := -((t - a - b) * (t - a + b)) / (2 * t * (t + 1))
def kF (a b t : K) : K := ((t + a - b + 2) * (t + a + b + 2)) / (2 * (t + 1) * (t + 2))

section identities
variable [CharZero K] {a b t : K}

theorem kR_e1 (h0 : t ≠ 0) (h1 : t + 1 ≠ 0) (h2 : t + 2 ≠ 0) (h3 : t + 3 ≠ 0) : kR a b (t + 2) = kA (a + 1) b (t + 1) - kA a b t + kR a b t := by
  unfold kR kA; rw [show t + 2 + 1 = t + 3 by ring, show t + 1 + 2 = t + 3 by ring]; field_simp; ring

theorem kR_e2 (h0 : t ≠ 0) (g1 : t - 1 ≠ 0) (h1 : t + 1 ≠ 0) (h2 : t + 2 ≠ 0) : kB (a + 1) b (t + 1) + kR a b t * (kA (a + 1) b (t - 1) - kA a b t) - kB a b t = 0 := by
  unfold kR kA kB; rw [show t - 1 + 2 = t + 1 by ring, show t + 1 - 1 = t by ring, show t + 1 + 1 = t + 2 by ring]; field_simp; ring

theorem kR_e3 (h0 : t ≠ 0) (g1 : t - 1 ≠ 0) (g2 : t - 2 ≠ 0) (h1 : t + 1 ≠ 0) : kR a b t * kB (a + 1) b (t - 1) = kB a b t * kR a b (t - 2) := by
  unfold kR kB; rw [show t - 2 + 1 = t - 1 by ring, show t - 1 + 1 = t by ring, show t - 1 - 1 = t - 2 by ring]; field_simp; ring

theorem kF_e1 (h1 : t + 1 ≠ 0) (h2 : t + 2 ≠ 0) (h3 : t + 3 ≠ 0) (h4 : t + 4 ≠ 0) : kF a b (t + 2) = kF a b t + kA (a + 1) b (t + 1) - kA a b (t + 2) := by
  unfold kF kA; rw [show t + 2 + 1 = t + 3 by ring, show t + 2 + 2 = t + 4 by ring, show t + 1 + 2 = t + 3 by ring]; field_simp; ring

theorem kF_e2 (h0 : t ≠ 0) (h1 : t + 1 ≠ 0) (h2 : t + 2 ≠ 0) (h3 : t + 3 ≠ 0) : kB a b (t + 2) = kF a b t * (kA a b t - kA (a + 1) b (t + 1)) + kB (a + 1) b (t + 1) := by
  unfold kF kA kB
  rw [show t + 1 + 2 = t + 3 by ring, show t + 2 - 1 = t + 1 by ring, show t + 2 + 1 = t + 3 by ring, show t + 1 - 1 = t by ring, show t + 1 + 1 = t + 2 by ring]
  field_simp; ring

theorem kF_e3 (h0 : t ≠ 0) (g1 : t - 1 ≠ 0) (h1 : t + 1 ≠ 0) (h2 : t + 2 ≠ 0) : kF a b t * kB a b t = kB (a + 1) b (t + 1) * kF a b (t - 2) := by
  unfold kF kB
  rw [show t - 2 + 1 = t - 1 by ring, show t - 2 + 2 = t by ring, show t + 1 - 1 = t by ring, show t + 1 + 1 = t + 2 by ring]
  field_simp; ring

end identities

theorem kA_eq (a b t : K) : kA a b t = gA (a + b) (a - b) t := by
  unfold kA gA
  congr 1
  ring

theorem kB_eq (a b t : K) : kB a b t = gB (a + b) (a - b) t := by
  unfold kB gB
  congr 1
  ring

section ordered
variable [LinearOrder K] [IsStrictOrderedRing K] {a b : K}

/-- Coefficients of the two relations. -/
def jr (a b : K) (n : Int) : K := kR a b (2 * n + (a + b))
def jf (a b : K) (n : Int) : K := if n = 0 then 2 * (a + 1) / (a + b + 2) else kF a b (2 * n + (a + b))

theorem jacA_k {n : Int} (h : n ≠ 0) : jacA a b n = kA a b (2 * n + (a + b)) := by rw [jacA_eq (.inl h), kA_eq]
theorem jacB_k {n : Int} (h : n ≠ 1) : jacB a b n = kB a b (2 * n + (a + b)) := by rw [jacB_eq (.inl h), kB_eq]
theorem jacA_k1 {n : Int} (h : n ≠ 0) : jacA (a + 1) b n = kA (a + 1) b (2 * n + (a + b) + 1) := by
  rw [jacA_k h]
  congr 1
  ring
theorem jacB_k1 (ha : -1 < a) (hb : -1 < b) (n : Int) : jacB (a + 1) b n = kB (a + 1) b (2 * n + (a + b) + 1) := by
  rw [jacB_eq (.inr ⟨by linarith, by linarith, by linarith⟩), kB_eq]
  congr 1
  ring

theorem jr_zero : jr a b 0 = 0 := by unfold jr kR; push_cast; simp
theorem jr_one : jr a b 1 = -(2 * (2 + 2 * b)) / (2 * (a + b + 2) * (a + b + 3)) := by
  unfold jr kR
  push_cast
  congr 1 <;> ring
theorem jf_one : jf a b 1 = kF a b (a + b + 2) := by
  unfold jf
  rw [if_neg (by norm_num)]
  congr 1
  push_cast
  ring
theorem jacA_one : jacA a b 1 = (b - a) * (a + b) / ((a + b + 2) * (a + b + 4)) := by
  unfold jacA
  rw [if_neg (by norm_num)]
  push_cast
  congr 1
  ring

theorem jacobi_raise1 (ha : -1 < a) (hb : -1 < b) {n : Int} (hn : 0 ≤ n) : jacobi a b n = jacobi (a + 1) b n + C (jr a b n) * jacobi (a + 1) b (n - 1) := by
  have h2 : a + b + 2 ≠ 0 := by linarith
  have h3 : a + b + 3 ≠ 0 := by linarith
  have h4 : a + b + 4 ≠ 0 := by linarith
  have := monic_raise (a := jacA a b) (b := jacB a b) (a' := jacA (a + 1) b) (b' := jacB (a + 1) b) (r := jr a b) (t := fun _ => 0) ?_ rfl rfl (fun n hn => ?_) (fun n hn => ?_) (fun n hn => ?_)
    (fun n _ => by simp) hn
  · rw [map_zero, zero_mul, add_zero] at this
    exact this
  · unfold jr kR; push_cast; simp
  · rcases eq_or_lt_of_le hn with h | h
    · subst h
      rw [jr_zero, show (0 : Int) + 1 = 1 from rfl, jr_one]
      unfold jacA
      rw [if_pos rfl, if_pos rfl, show a + 1 + b + 2 = a + b + 3 by ring]
      generalize hv : a + b + 3 = v at *
      generalize hw : a + b + 2 = w at *
      have : v = w + 1 := by rw [← hv, ← hw]; ring
      have hb' : b = w - a - 2 := by rw [← hw]; ring
      subst this hb'
      field_simp
      ring
    · have := m_pos ha hb (show 1 ≤ n by omega)
      rw [jacA_k1 (by omega), jacA_k (by omega)]
      unfold jr
      rw [← kR_e1 (by linarith) (by linarith) (by linarith) (by linarith)]
      congr 1; push_cast; ring
  · rcases eq_or_lt_of_le hn with h | h
    · subst h
      rw [jr_one, jacA_one, show (1 : Int) - 1 = 0 from rfl]
      unfold jacA jacB
      rw [if_pos rfl, if_pos rfl, if_pos rfl, show a + 1 + b + 2 = a + b + 3 by ring, show a + 1 + b + 3 = a + b + 4 by ring]
      generalize hv : a + b + 3 = v at *
      generalize hu : a + b + 4 = u at *
      generalize hw : a + b + 2 = w at *
      have e1 : v = w + 1 := by rw [← hv, ← hw]; ring
      have e2 : u = w + 2 := by rw [← hu, ← hw]; ring
      have hb' : b = w - a - 2 := by rw [← hw]; ring
      subst e1 e2 hb'
      field_simp
      ring
    · have := m_pos2 ha hb (show 2 ≤ n by omega)
      have e := kR_e2 (a := a) (b := b) (t := 2 * n + (a + b)) (by linarith) (by linarith) (by linarith) (by linarith)
      rw [jacA_k1 (by omega), jacA_k (by omega), jacB_k1 ha hb, jacB_k (by omega)]
      unfold jr
      rw [show 2 * ((n - 1 : Int) : K) + (a + b) + 1 = 2 * n + (a + b) - 1 by push_cast; ring]
      linear_combination -e
  · have := m_pos2 ha hb (show 2 ≤ n by omega)
    have e := kR_e3 (a := a) (b := b) (t := 2 * n + (a + b)) (by linarith) (by linarith) (by linarith) (by linarith)
    rw [jacB_k1 ha hb, jacB_k (by omega), zero_mul, add_zero]
    unfold jr
    rw [show 2 * ((n - 1 : Int) : K) + (a + b) + 1 = 2 * n + (a + b) - 1 by push_cast; ring, show 2 * ((n - 1 : Int) : K) + (a + b) = 2 * n + (a + b) - 2 by push_cast; ring]
    exact e

theorem jf_mul (ha : -1 < a) (hb : -1 < b) {n : Int} (hn : 1 ≤ n) : jf a b n * jacB a b n = jacB (a + 1) b n * jf a b (n - 1) := by
  have h2 : a + b + 2 ≠ 0 := by linarith
  have h3 : a + b + 3 ≠ 0 := by linarith
  have h4 : a + b + 4 ≠ 0 := by linarith
  rcases eq_or_lt_of_le hn with h | h
  · subst h
    rw [jf_one, show (1 : Int) - 1 = 0 from rfl]
    unfold jf jacB kF
    rw [if_pos rfl, if_pos rfl, if_pos rfl, show a + b + 2 + 1 = a + b + 3 by ring, show a + 1 + b + 2 = a + b + 3 by ring, show a + 1 + b + 3 = a + b + 4 by ring,
      show a + b + 2 + 2 = a + b + 4 by ring]
    generalize hv : a + b + 3 = v at *
    generalize hu : a + b + 4 = u at *
    generalize hw : a + b + 2 = w at *
    have e1 : v = w + 1 := by rw [← hv, ← hw]; ring
    have e2 : u = w + 2 := by rw [← hu, ← hw]; ring
    have hb' : b = w - a - 2 := by rw [← hw]; ring
    subst e1 e2 hb'
    field_simp
    ring
  · have := m_pos2 ha hb (show 2 ≤ n by omega)
    have e := kF_e3 (a := a) (b := b) (t := 2 * n + (a + b)) (by linarith) (by linarith) (by linarith) (by linarith)
    rw [jacB_k1 ha hb, jacB_k (by omega)]
    unfold jf
    rw [if_neg (by omega), if_neg (by omega), show 2 * ((n - 1 : Int) : K) + (a + b) = 2 * n + (a + b) - 2 by push_cast; ring]
    exact e

theorem jacobi_lower1 (ha : -1 < a) (hb : -1 < b) {n : Int} (hn : 0 ≤ n) : (1 - X) * jacobi (a + 1) b n = -jacobi a b (n + 1) + C (jf a b n) * jacobi a b n := by
  have h2 : a + b + 2 ≠ 0 := by linarith
  have h3 : a + b + 3 ≠ 0 := by linarith
  have h4 : a + b + 4 ≠ 0 := by linarith
  refine monic_lower1 ?_ (fun n hn => ?_) (fun n hn => ?_) (fun n hn => jf_mul ha hb hn) hn
  · unfold jf jacA
    rw [if_pos rfl, if_pos rfl]
    field_simp
    ring
  · rcases eq_or_lt_of_le hn with h | h
    · subst h
      rw [show (0 : Int) + 1 = 1 from rfl, jf_one, jacA_one]
      unfold jf kF jacA
      rw [if_pos rfl, if_pos rfl, show a + b + 2 + 1 = a + b + 3 by ring, show a + 1 + b + 2 = a + b + 3 by ring, show a + b + 2 + 2 = a + b + 4 by ring]
      generalize hv : a + b + 3 = v at *
      generalize hu : a + b + 4 = u at *
      generalize hw : a + b + 2 = w at *
      have e1 : v = w + 1 := by rw [← hv, ← hw]; ring
      have e2 : u = w + 2 := by rw [← hu, ← hw]; ring
      have hb' : b = w - a - 2 := by rw [← hw]; ring
      subst e1 e2 hb'
      field_simp
      ring
    · have := m_pos ha hb (show 1 ≤ n by omega)
      have e := kF_e1 (a := a) (b := b) (t := 2 * n + (a + b)) (by linarith) (by linarith) (by linarith) (by linarith)
      rw [jacA_k1 (by omega), jacA_k (by omega)]
      unfold jf
      rw [if_neg (by omega), if_neg (by omega), show 2 * ((n + 1 : Int) : K) + (a + b) = 2 * n + (a + b) + 2 by push_cast; ring]
      exact e
  · rcases eq_or_lt_of_le hn with h | h
    · subst h
      unfold jf jacA jacB
      rw [if_pos (by norm_num), if_pos rfl, if_pos rfl, if_pos rfl, if_pos rfl]
      rw [show a + 1 + b + 2 = a + b + 3 by ring]
      generalize hv : a + b + 3 = v at *
      generalize hw : a + b + 2 = w at *
      have e1 : v = w + 1 := by rw [← hv, ← hw]; ring
      have hb' : b = w - a - 2 := by rw [← hw]; ring
      subst e1 hb'
      field_simp
      ring
    · have := m_pos ha hb (show 1 ≤ n by omega)
      have e := kF_e2 (a := a) (b := b) (t := 2 * n + (a + b)) (by linarith) (by linarith) (by linarith) (by linarith)
      rw [if_neg (by omega), jacA_k1 (by omega), jacA_k (by omega), jacB_k1 ha hb, jacB_k (by omega)]
      unfold jf
      rw [if_neg (by omega), show 2 * ((n + 1 : Int) : K) + (a + b) = 2 * n + (a + b) + 2 by push_cast; ring]
      exact e

end ordered
end FT.Poly
