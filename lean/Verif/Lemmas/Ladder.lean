import Verif.Lemmas.Rotations
import Verif.Lemmas.Accum
import Mathlib.Order.Interval.Finset.Basic
import Mathlib.Data.Int.Interval
import Mathlib.Algebra.Order.Field.Basic
import Mathlib.Tactic.Linarith
import Mathlib.Tactic.Positivity

/-!
# Rotations that change the basis of an expansion

One layer of rotations turns the coefficients with respect to `h` into the coefficients with respect to `p`, when there is an intermediate family `u` related to both.
-/

namespace FT
section sums
variable {K : Type*} [CommRing K]

/-- The relations behind a layer of rotations with the pairs `(k, k + g)`, `0 ≤ k ≤ t`. -/
structure Ladder (g t : Int) (c s p h u : Int → K) : Prop where
  base : ∀ l, 0 ≤ l → l < g → u l = p l
  high : ∀ k, 0 ≤ k → k ≤ t → h k = c k * u k - s k * p (k + g)
  mid : ∀ k, 0 ≤ k → k ≤ t → u (k + g) = s k * u k + c k * p (k + g)

/-- The basis in which the column is expanded when the rotations with first row at least `k` are done. -/
def ladBasis (g : Int) (p h u : Int → K) (k i : Int) : K := if i < k then h i else if i < k + g then u i else p i

theorem rows_inj {S : Int} (hS : 0 < S) {o i k : Int} (h : o + i * S = o + k * S) : i = k := by
  have : i * S = k * S := by omega
  exact Int.eq_of_mul_eq_mul_right (by omega) this

theorem sum_rot {n S o k g : Int} {s c : K} {v b b' : Int → K} (hS : 0 < S) (hg : 0 < g) (hk : 0 ≤ k) (hkg : k + g < n)
    (h1 : v (o + k * S) * b k + v (o + (k + g) * S) * b (k + g) =
      (c * v (o + k * S) + s * v (o + (k + g) * S)) * b' k + (c * v (o + (k + g) * S) - s * v (o + k * S)) * b' (k + g))
    (h2 : ∀ i, 0 ≤ i → i < n → i ≠ k → i ≠ k + g → v (o + i * S) * b i = v (o + i * S) * b' i) :
    ∑ i ∈ Finset.Ico 0 n, rotV s c (o + k * S) (o + (k + g) * S) v (o + i * S) * b' i = ∑ i ∈ Finset.Ico 0 n, v (o + i * S) * b i := by
  have hp : k ∈ Finset.Ico 0 n := Finset.mem_Ico.2 ⟨hk, by omega⟩
  have hq : k + g ∈ (Finset.Ico 0 n).erase k := Finset.mem_erase.2 ⟨by omega, Finset.mem_Ico.2 ⟨by omega, hkg⟩⟩
  rw [← Finset.add_sum_erase _ _ hp, ← Finset.add_sum_erase _ _ hq, ← Finset.add_sum_erase (Finset.Ico 0 n) (fun i => v (o + i * S) * b i) hp,
    ← Finset.add_sum_erase _ (fun i => v (o + i * S) * b i) hq, rotV_fst (row_ne hS hg o), rotV_snd]
  have : ∑ i ∈ ((Finset.Ico 0 n).erase k).erase (k + g), rotV s c (o + k * S) (o + (k + g) * S) v (o + i * S) * b' i =
      ∑ i ∈ ((Finset.Ico 0 n).erase k).erase (k + g), v (o + i * S) * b i := by
    refine Finset.sum_congr rfl (fun i hi => ?_)
    simp only [Finset.mem_erase, Finset.mem_Ico] at hi
    rw [rotV_of_ne (fun e => hi.2.1 (rows_inj hS e)) (fun e => hi.1 (rows_inj hS e))]
    exact (h2 i hi.2.2.1 hi.2.2.2 hi.2.1 hi.1).symm
  rw [this]
  linear_combination -h1

variable {G : Geom} {RP : RotPlan K} {o S : Int}

theorem layer_sum (hG : GeomOK G) (h : InB G RP) {j : Int} (hj : 0 ≤ j) {p hh u : Int → K}
    (hL : Ladder G.g (G.top RP.n j) (fun k => RP.c.val (G.ix RP.n k j)) (fun k => RP.s.val (G.ix RP.n k j)) p hh u) {A : Buf K} (hA : Fits RP.n o S A)
    (hz : ∀ i, 0 ≤ i → G.top RP.n j < i → i < RP.n → A.val (o + i * S) = 0) :
    ∃ A', forDown (G.top RP.n j) 0 (fun k => rotAt G RP o S k j) A = some A' ∧ A'.size = A.size ∧
      (∀ i, 0 ≤ i → G.top RP.n j + G.g < i → i < RP.n → A'.val (o + i * S) = 0) ∧
      ∑ i ∈ Finset.Ico 0 RP.n, A'.val (o + i * S) * p i = ∑ i ∈ Finset.Ico 0 RP.n, A.val (o + i * S) * hh i := by
  have hg := hG.g
  have htop := hG.top RP.n j hj
  by_cases ht : G.top RP.n j < 0
  · refine ⟨A, ?_, rfl, fun i h0 h1 h2 => hz i h0 (by omega) h2, ?_⟩
    · unfold forDown
      rw [show (G.top RP.n j - 0 + 1).toNat = 0 by omega]
      rfl
    · refine Finset.sum_congr rfl (fun i hi => ?_)
      rw [Finset.mem_Ico] at hi
      rw [hz i hi.1 (by omega) hi.2, zero_mul, zero_mul]
  · obtain ⟨A', e, hs, hz', hsum⟩ := forDown_spec (lo := 0) (hi := G.top RP.n j) (body := fun k => rotAt G RP o S k j) (s := A)
      (fun k B => B.size = A.size ∧ (∀ i, 0 ≤ i → G.top RP.n j + G.g < i → i < RP.n → B.val (o + i * S) = 0) ∧
        ∑ i ∈ Finset.Ico 0 RP.n, B.val (o + i * S) * ladBasis G.g p hh u (k + 1) i = ∑ i ∈ Finset.Ico 0 RP.n, A.val (o + i * S) * hh i)
      ⟨rfl, fun i h0 h1 h2 => hz i h0 (by omega) h2, Finset.sum_congr rfl (fun i hi => by
        rw [Finset.mem_Ico] at hi
        unfold ladBasis
        by_cases h1 : i < G.top RP.n j + 1
        · rw [if_pos h1]
        · rw [hz i hi.1 (by omega) hi.2, zero_mul, zero_mul])⟩
      (fun k h0 h1 B hB => by
        obtain ⟨hs, hz', hsum⟩ := hB
        have hB' : Fits RP.n o S B := by unfold Fits at *; rw [hs]; exact hA
        obtain ⟨a, b⟩ := op_rows hG hB' hj h0 h1
        refine ⟨⟨B.size, rotV (RP.s.val (G.ix RP.n k j)) (RP.c.val (G.ix RP.n k j)) (o + k * S) (o + (k + G.g) * S) B.val⟩, ?_, hs, fun i i0 i1 i2 => ?_, ?_⟩
        · show rotAt G RP o S k j B = _
          rw [rotAt_eq hG h hj h0 h1, applyGivens_of a b]
        · show rotV _ _ _ _ B.val (o + i * S) = 0
          rw [rotV_of_ne (fun e => by have := rows_inj hA.1 e; omega) (fun e => by have := rows_inj hA.1 e; omega)]
          exact hz' i i0 i1 i2
        · rw [← hsum]
          show ∑ i ∈ Finset.Ico 0 RP.n, rotV _ _ _ _ B.val (o + i * S) * _ = _
          refine sum_rot hA.1 hg h0 (by omega) ?_ (fun i i0 i1 i2 i3 => ?_)
          · have e1 := hL.high k h0 h1
            have e2 := hL.mid k h0 h1
            unfold ladBasis
            rw [if_pos (show k < k + 1 by omega), if_neg (show ¬k + G.g < k + 1 by omega), if_pos (show k + G.g < k + 1 + G.g by omega), if_neg (show ¬k < k - 1 + 1 by omega),
              if_pos (show k < k - 1 + 1 + G.g by omega), if_neg (show ¬k + G.g < k - 1 + 1 by omega), if_neg (show ¬k + G.g < k - 1 + 1 + G.g by omega), e1, e2]
            ring
          · congr 1
            unfold ladBasis
            by_cases a1 : i < k
            · rw [if_pos (show i < k + 1 by omega), if_pos (show i < k - 1 + 1 by omega)]
            · rw [if_neg (show ¬i < k + 1 by omega), if_neg (show ¬i < k - 1 + 1 by omega)]
              by_cases a2 : i < k + G.g
              · rw [if_pos (show i < k + 1 + G.g by omega), if_pos (show i < k - 1 + 1 + G.g by omega)]
              · rw [if_neg (show ¬i < k + 1 + G.g by omega), if_neg (show ¬i < k - 1 + 1 + G.g by omega)])
    refine ⟨A', e, hs, hz', ?_⟩
    rw [← hsum]
    refine Finset.sum_congr rfl (fun i hi => ?_)
    rw [Finset.mem_Ico] at hi
    unfold ladBasis
    rw [if_neg (by omega)]
    by_cases h1 : i < G.g
    · rw [if_pos (by omega), hL.base i hi.1 h1]
    · rw [if_neg (by omega)]

/-- The whole kernel turns the coefficients of an expansion in the functions of order `m2` into those of the expansion of the same sum in the functions of order `m1`. -/
theorem kernelHi2lo_sum (hG : GeomOK G) (h : InB G RP) {m1 m2 : Int} (hm : 0 ≤ m1) (hm2 : m1 ≤ m2) (hd : G.jst ∣ m2 - m1) {φ : Int → Int → K}
    (hL : ∀ j, m1 ≤ j → j < m2 → ∃ u, Ladder G.g (G.top RP.n j) (fun k => RP.c.val (G.ix RP.n k j)) (fun k => RP.s.val (G.ix RP.n k j)) (φ j) (φ (j + G.jst)) u)
    {A : Buf K} (hA : Fits RP.n o S A) (hz : ∀ i, 0 ≤ i → G.top RP.n m2 + G.g < i → i < RP.n → A.val (o + i * S) = 0) :
    ∃ A', kernelHi2lo G RP m1 m2 o S A = some A' ∧ A'.size = A.size ∧
      (∀ i, 0 ≤ i → G.top RP.n m1 + G.g < i → i < RP.n → A'.val (o + i * S) = 0) ∧
      ∑ i ∈ Finset.Ico 0 RP.n, A'.val (o + i * S) * φ m1 i = ∑ i ∈ Finset.Ico 0 RP.n, A.val (o + i * S) * φ m2 i := by
  obtain ⟨d, hd⟩ := hd
  have hst := hG.jst
  have hd0 : 0 ≤ d := by
    by_contra hc
    have : G.jst * d < 0 := Int.mul_neg_of_pos_of_neg hst (by omega)
    omega
  have hcount : stepCount m1 (m2 - G.jst + 1) G.jst = d.toNat := by
    unfold stepCount
    rw [show m2 - G.jst + 1 - m1 + G.jst - 1 = G.jst * d by omega, Int.mul_ediv_cancel_left _ (by omega)]
  unfold kernelHi2lo forStepDown
  rw [hcount]
  obtain ⟨A', e, hs, hz', hsum⟩ := loop_spec (n := d.toNat) (s := A) (body := fun t => (fun j => forDown (G.top RP.n j) 0 (fun k => rotAt G RP o S k j)) (m2 - G.jst - G.jst * (t : Int)))
    (fun t B => B.size = A.size ∧ (∀ i, 0 ≤ i → G.top RP.n (m2 - G.jst * (t : Int)) + G.g < i → i < RP.n → B.val (o + i * S) = 0) ∧
      ∑ i ∈ Finset.Ico 0 RP.n, B.val (o + i * S) * φ (m2 - G.jst * (t : Int)) i = ∑ i ∈ Finset.Ico 0 RP.n, A.val (o + i * S) * φ m2 i)
    ⟨rfl, by simpa using hz, by simp⟩
    (fun t ht B hB => by
      obtain ⟨hs, hz', hsum⟩ := hB
      have hB' : Fits RP.n o S B := by unfold Fits at *; rw [hs]; exact hA
      have e1 : m2 - G.jst - G.jst * (t : Int) = m2 - G.jst * (t : Int) - G.jst := by ring
      have e2 : m2 - G.jst * ((t + 1 : Nat) : Int) = m2 - G.jst * (t : Int) - G.jst := by push_cast; ring
      have hle : G.jst * ((t : Int) + 1) ≤ G.jst * d := Int.mul_le_mul_of_nonneg_left (by omega) (by omega)
      have hge : 0 ≤ G.jst * (t : Int) := Int.mul_nonneg (by omega) (by omega)
      have hjm : m1 ≤ m2 - G.jst * (t : Int) - G.jst := by
        have : G.jst * ((t : Int) + 1) = G.jst * t + G.jst := by ring
        omega
      have hshift := hG.top_shift RP.n (m2 - G.jst * (t : Int))
      obtain ⟨u, hu⟩ := hL (m2 - G.jst * (t : Int) - G.jst) hjm (by omega)
      rw [sub_add_cancel] at hu
      obtain ⟨B', e, hs', hz'', hsum'⟩ := layer_sum (o := o) (S := S) hG h (by omega) hu hB' (fun i i0 i1 i2 => hz' i i0 (by omega) i2)
      refine ⟨B', ?_, hs'.trans hs, ?_, ?_⟩
      · show forDown (G.top RP.n (m2 - G.jst - G.jst * (t : Int))) 0 (fun k => rotAt G RP o S k (m2 - G.jst - G.jst * (t : Int))) B = _
        rw [e1]
        exact e
      · rw [e2]
        exact hz''
      · rw [e2]
        exact hsum'.trans hsum)
  have ed : m2 - G.jst * ((d.toNat : Nat) : Int) = m1 := by rw [Int.toNat_of_nonneg hd0]; omega
  rw [ed] at hz' hsum
  exact ⟨A', e, hs, hz', hsum⟩

end sums

section coeffs
variable {K : Type*} [Field K] [LinearOrder K] [IsStrictOrderedRing K]

/-- When the relations between the three families hold: `P_n = Q_n + r_n Q_{n-g}`, `w H_n = -Q_{n+g} + f'_n Q_n`, with normalisation factors `S`, `T` of `P` and `H`. -/
theorem ladder_of {g t : Int} (hg : 0 < g) {c s S T r f f' G P Q H : Int → K} {w : K}
    (hP : ∀ n, 0 ≤ n → P n = Q n + (if n < g then 0 else r n * Q (n - g))) (hH : ∀ n, 0 ≤ n → w * H n = -Q (n + g) + f' n * Q n)
    (hs : ∀ l, 0 ≤ l → l ≤ t → 0 ≤ s l) (hc : ∀ l, 0 ≤ l → l ≤ t → 0 ≤ c l) (hu : ∀ l, 0 ≤ l → l ≤ t → s l * s l + c l * c l = 1)
    (hf : ∀ l, 0 ≤ l → 0 < f l) (hf' : ∀ l, 0 ≤ l → 0 < f' l) (hG : ∀ l, 0 ≤ l → 0 < G l) (hS : ∀ l, 0 ≤ l → 0 < S l ∧ S l * S l * G l = 1)
    (hT : ∀ l, 0 ≤ l → 0 < T l ∧ T l * T l * (f' l * f l * G l) = 1)
    (hA : ∀ l, 0 ≤ l → G (l + g) = -r (l + g) * f l * G l)
    (hB0 : ∀ l, 0 ≤ l → l < g → l ≤ t → f l = f' l * (c l * c l)) (hB : ∀ l, 0 ≤ l → l + g ≤ t → c l * c l * f (l + g) = f' (l + g) * (c (l + g) * c (l + g)))
    (hC : ∀ l, 0 ≤ l → l ≤ t → s l * s l * f' l = -r (l + g)) :
    Ladder g t c s (fun l => S l * P l) (fun l => T l * (w * H l)) (fun l => (if l < g then S l else c (l - g) * S l) * Q l) := by
  have hii : ∀ l, 0 ≤ l → l ≤ t → T l = s l * S (l + g) := by
    intro l l0 l1
    have ht := hT l l0
    have hS' := hS (l + g) (by omega)
    refine (mul_self_inj_of_nonneg (le_of_lt ht.1) (mul_nonneg (hs l l0 l1) (le_of_lt hS'.1))).1 ?_
    have hpos : 0 < f' l * f l * G l := by have := hf l l0; have := hf' l l0; have := hG l l0; positivity
    refine mul_right_cancel₀ (ne_of_gt hpos) ?_
    rw [ht.2, ← hS'.2, hA l l0, ← hC l l0 l1]
    ring
  have hiii : ∀ l, 0 ≤ l → l ≤ t → T l * f' l * c l = (if l < g then S l else c (l - g) * S l) := by
    intro l l0 l1
    have ht := hT l l0
    have hS' := hS l l0
    have f0 := hf l l0
    have f1 := hf' l l0
    have g0 := hG l l0
    have c0 := hc l l0 l1
    have hκ : 0 ≤ (if l < g then S l else c (l - g) * S l) := by
      split_ifs with h
      · exact le_of_lt hS'.1
      · exact mul_nonneg (hc _ (by omega) (by omega)) (le_of_lt hS'.1)
    refine (mul_self_inj_of_nonneg (mul_nonneg (mul_nonneg (le_of_lt ht.1) (le_of_lt f1)) c0) hκ).1 ?_
    refine mul_right_cancel₀ (ne_of_gt (mul_pos f0 g0)) ?_
    have e : T l * f' l * c l * (T l * f' l * c l) * (f l * G l) = f' l * (c l * c l) := by linear_combination (f' l * (c l * c l)) * ht.2
    rw [e]
    split_ifs with h
    · rw [← hB0 l l0 h l1]
      linear_combination -f l * hS'.2
    · have := hB (l - g) (by omega) (by omega)
      rw [sub_add_cancel] at this
      rw [← this]
      linear_combination -(c (l - g) * c (l - g) * f l) * hS'.2
  refine ⟨fun l l0 l1 => ?_, fun k k0 k1 => ?_, fun k k0 k1 => ?_⟩
  · simp only [if_pos l1, hP l l0, add_zero]
  · have e1 := hii k k0 k1
    have e2 := hiii k k0 k1
    have e3 := hC k k0 k1
    have e4 := hu k k0 k1
    rw [← e2, hP (k + g) (by omega), hH k k0, if_neg (by omega), add_sub_cancel_right]
    rw [e1]
    have e5 : r (k + g) = -(s k * s k * f' k) := by rw [e3]; ring
    rw [e5]
    linear_combination (-(s k * S (k + g) * f' k * Q k)) * e4
  · have e1 := hii k k0 k1
    have e2 := hiii k k0 k1
    have e3 := hC k k0 k1
    rw [← e2, hP (k + g) (by omega), if_neg (by omega), if_neg (by omega), add_sub_cancel_right, e1]
    have e5 : r (k + g) = -(s k * s k * f' k) := by rw [e3]; ring
    rw [e5]
    ring

end coeffs
end FT
