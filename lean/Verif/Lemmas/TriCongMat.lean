import Verif.Model.TriCong
import Verif.Lemmas.TriEigRow
import Verif.Props.TriEigSpec

/-! # Lemmas for C69: column operations on two neighbouring columns and the bilinear forms they transform -/

namespace FT
open FT.Props
variable {K : Type*} [Field K]

/-- Columns `p`, `p + 1` replaced by linear combinations. -/
def lin2 (p : Int) (x y z t : K) (u : Int → K) (j : Int) : K := if j = p then x * u p + y * u (p + 1) else if j = p + 1 then z * u p + t * u (p + 1) else u j

theorem lin2_l {p : Int} {x y z t : K} {u : Int → K} : lin2 p x y z t u p = x * u p + y * u (p + 1) := if_pos rfl
theorem lin2_r {p : Int} {x y z t : K} {u : Int → K} : lin2 p x y z t u (p + 1) = z * u p + t * u (p + 1) := by
  unfold lin2; rw [if_neg (by omega), if_pos rfl]
theorem lin2_o {p j : Int} {x y z t : K} {u : Int → K} (h1 : j ≠ p) (h2 : j ≠ p + 1) : lin2 p x y z t u j = u j := by
  unfold lin2; rw [if_neg h1, if_neg h2]

/-- `Wᵀ M W`. -/
noncomputable def bil (n : Int) (M W : Int → Int → K) (j k : Int) : K := ∑ r ∈ Finset.Ico 0 n, W r j * ∑ s ∈ Finset.Ico 0 n, M r s * W s k

theorem sum_lin2 {n : Int} (g : Int → K) (W : Int → Int → K) (p : Int) (x y z t : K) (j : Int) :
    ∑ r ∈ Finset.Ico 0 n, g r * lin2 p x y z t (W r) j = lin2 p x y z t (fun j => ∑ r ∈ Finset.Ico 0 n, g r * W r j) j := by
  unfold lin2
  split
  · rw [Finset.mul_sum, Finset.mul_sum, ← Finset.sum_add_distrib]
    exact Finset.sum_congr rfl fun r _ => by ring
  · split
    · rw [Finset.mul_sum, Finset.mul_sum, ← Finset.sum_add_distrib]
      exact Finset.sum_congr rfl fun r _ => by ring
    · rfl

theorem bil_lin2 {n : Int} (M W : Int → Int → K) (p : Int) (x y z t : K) (j k : Int) :
    bil n M (fun r => lin2 p x y z t (W r)) j k = lin2 p x y z t (fun j => lin2 p x y z t (fun k => bil n M W j k) k) j := by
  have e1 : ∀ j k, bil n M (fun r => lin2 p x y z t (W r)) j k = lin2 p x y z t (fun k => ∑ r ∈ Finset.Ico 0 n, lin2 p x y z t (W r) j * ∑ s ∈ Finset.Ico 0 n, M r s * W s k) k := fun j k => by
    unfold bil
    simp only [sum_lin2]
  have e2 : ∀ j k, ∑ r ∈ Finset.Ico 0 n, lin2 p x y z t (W r) j * (∑ s ∈ Finset.Ico 0 n, M r s * W s k) = lin2 p x y z t (fun j => bil n M W j k) j := fun j k => by
    unfold bil
    rw [Finset.sum_congr rfl fun r _ => mul_comm _ _, sum_lin2]
    congr 1
    funext j
    exact Finset.sum_congr rfl fun r _ => mul_comm _ _
  rw [e1]
  simp only [e2]
  unfold lin2
  split <;> split <;> (try split) <;> (try split) <;> ring

/-- The two-sided operation on a symmetric matrix, entry by entry. -/
theorem conj2 {n p : Int} {x y z t : K} {S S' : Int → Int → K} (p0 : 0 ≤ p) (p1 : p + 1 < n) (hS : ∀ j k, S j k = S k j) (hS' : ∀ j k, S' j k = S' k j)
    (ho : ∀ j k, 0 ≤ j → j < n → 0 ≤ k → k < n → j ≠ p → j ≠ p + 1 → k ≠ p → k ≠ p + 1 → S j k = S' j k)
    (h1 : ∀ k, 0 ≤ k → k < n → k ≠ p → k ≠ p + 1 → x * S p k + y * S (p + 1) k = S' p k) (h2 : ∀ k, 0 ≤ k → k < n → k ≠ p → k ≠ p + 1 → z * S p k + t * S (p + 1) k = S' (p + 1) k)
    (h3 : x * (x * S p p + y * S p (p + 1)) + y * (x * S p (p + 1) + y * S (p + 1) (p + 1)) = S' p p)
    (h4 : x * (z * S p p + t * S p (p + 1)) + y * (z * S p (p + 1) + t * S (p + 1) (p + 1)) = S' p (p + 1))
    (h5 : z * (z * S p p + t * S p (p + 1)) + t * (z * S p (p + 1) + t * S (p + 1) (p + 1)) = S' (p + 1) (p + 1)) {j k : Int} (j0 : 0 ≤ j) (j1 : j < n) (k0 : 0 ≤ k) (k1 : k < n) :
    lin2 p x y z t (fun j => lin2 p x y z t (fun k => S j k) k) j = S' j k := by
  by_cases ja : j = p
  · subst ja
    rw [lin2_l]
    by_cases ka : k = j
    · subst ka
      rw [lin2_l, lin2_l, hS (k + 1) k, h3]
    · by_cases kb : k = j + 1
      · subst kb
        rw [lin2_r, lin2_r, hS (j + 1) j, h4]
      · rw [lin2_o ka kb, lin2_o ka kb]
        exact h1 k k0 k1 ka kb
  · by_cases jb : j = p + 1
    · subst jb
      rw [lin2_r]
      by_cases ka : k = p
      · subst ka
        rw [lin2_l, lin2_l, hS (k + 1) k, hS' (k + 1) k, ← h4]; ring
      · by_cases kb : k = p + 1
        · subst kb
          rw [lin2_r, lin2_r, hS (p + 1) p, h5]
        · rw [lin2_o ka kb, lin2_o ka kb]
          exact h2 k k0 k1 ka kb
    · rw [lin2_o ja jb]
      by_cases ka : k = p
      · subst ka
        rw [lin2_l, hS j k, hS j (k + 1), h1 j j0 j1 ja jb, hS']
      · by_cases kb : k = p + 1
        · subst kb
          rw [lin2_r, hS j p, hS j (p + 1), h2 j j0 j1 ja jb, hS']
        · rw [lin2_o ka kb]
          exact ho j k j0 j1 k0 k1 ja jb ka kb

/-- A tridiagonal matrix with a bulge at `(q - 1, q + 1)`. -/
def bul (a b : Int → K) (q : Int) (w : K) (i j : Int) : K := if i = j then a i else if j = i + 1 then b i else if i = j + 1 then b j else if i = q - 1 ∧ j = q + 1 ∨ j = q - 1 ∧ i = q + 1 then w else 0

theorem bul_d {a b : Int → K} {q : Int} {w : K} {i j : Int} (h : i = j) : bul a b q w i j = a i := if_pos h
theorem bul_u {a b : Int → K} {q : Int} {w : K} {i j : Int} (h : j = i + 1) : bul a b q w i j = b i := by unfold bul; rw [if_neg (by omega), if_pos h]
theorem bul_l {a b : Int → K} {q : Int} {w : K} {i j : Int} (h : i = j + 1) : bul a b q w i j = b j := by unfold bul; rw [if_neg (by omega), if_neg (by omega), if_pos h]
theorem bul_w {a b : Int → K} {q : Int} {w : K} {i j : Int} (h : i = q - 1 ∧ j = q + 1 ∨ j = q - 1 ∧ i = q + 1) : bul a b q w i j = w := by
  unfold bul; rw [if_neg (by omega), if_neg (by omega), if_neg (by omega), if_pos h]
theorem bul_z {a b : Int → K} {q : Int} {w : K} {i j : Int} (h : i + 1 < j ∨ j + 1 < i) (h2 : ¬ (i = q - 1 ∧ j = q + 1 ∨ j = q - 1 ∧ i = q + 1)) : bul a b q w i j = 0 := by
  unfold bul; rw [if_neg (by omega), if_neg (by omega), if_neg (by omega), if_neg h2]

theorem bul_symm {a b : Int → K} {q : Int} {w : K} (i j : Int) : bul a b q w i j = bul a b q w j i := by
  rcases lt_trichotomy (i + 1) j with h | h | h
  · by_cases h2 : i = q - 1 ∧ j = q + 1
    · rw [bul_w (Or.inl h2), bul_w (Or.inr h2)]
    · rw [bul_z (Or.inl h) (by omega), bul_z (Or.inr h) (by omega)]
  · rw [bul_u h.symm, bul_l h.symm]
  · rcases lt_trichotomy i (j + 1) with h' | h' | h'
    · rw [show i = j by omega]
    · rw [bul_l h', bul_u h']
    · by_cases h2 : j = q - 1 ∧ i = q + 1
      · rw [bul_w (Or.inr h2), bul_w (Or.inl h2)]
      · rw [bul_z (Or.inr h') (by omega), bul_z (Or.inl h') (by omega)]

/-- No bulge. -/
theorem bul_zero {a b : Int → K} {q : Int} (i j : Int) : bul a b q 0 i j = triMat a b i j := by
  unfold bul triMat
  rw [ite_self]

theorem bul_out {a b : Int → K} {w : K} {i j : Int} (i0 : 0 ≤ i) (j0 : 0 ≤ j) : bul a b 0 w i j = triMat a b i j := by
  unfold bul triMat
  rw [if_neg (c := i = 0 - 1 ∧ j = 0 + 1 ∨ j = 0 - 1 ∧ i = 0 + 1) (by omega)]

theorem bul_far0 {a b : Int → K} {q : Int} {i j : Int} (h : i + 1 < j ∨ j + 1 < i) : bul a b q 0 i j = 0 := by rw [bul_zero, triMat_far h]

theorem bul_congr {n : Int} {a b a' b' : Int → K} {q : Int} {w : K} (ha : ∀ i, 0 ≤ i → i < n → a i = a' i) (hb : ∀ i, 0 ≤ i → i < n - 1 → b i = b' i) {i j : Int} (i0 : 0 ≤ i) (i1 : i < n) (j0 : 0 ≤ j)
    (j1 : j < n) : bul a b q w i j = bul a' b' q w i j := by
  unfold bul
  split
  · exact ha i i0 i1
  · split
    · exact hb i i0 (by omega)
    · split
      · exact hb j j0 (by omega)
      · rfl

/-- The elementary step: columns `i`, `i + 1` with `c`, `d`. -/
theorem conj_elem {n i : Int} (i0 : 0 ≤ i) (i1 : i + 1 < n) {a b a' b' : Int → K} {c d : K} (hc : c ≠ 0)
    (ha : ∀ j, j ≠ i → j ≠ i + 1 → a' j = a j) (hai : a' i = a i / (c * c)) (ha1 : a' (i + 1) = a (i + 1) + d * (a' i * d - 2 * (b i / c)))
    (hb : ∀ j, j ≠ i → j ≠ i - 1 → b' j = b j) (hbi : b' i = b i / c - a' i * d) (hb1 : 0 < i → b' (i - 1) = b (i - 1) / c) {w : K} (hw : 0 < i → w = -(b' (i - 1)) * d)
    {j k : Int} (j0 : 0 ≤ j) (j1 : j < n) (k0 : 0 ≤ k) (k1 : k < n) :
    lin2 i (1 / c) 0 (-(d / c)) 1 (fun j => lin2 i (1 / c) 0 (-(d / c)) 1 (fun k => bul a b 0 0 j k) k) j = bul a' b' i w j k := by
  refine conj2 i0 i1 bul_symm bul_symm (fun j k j0 j1 k0 k1 ja jb ka kb => ?_) (fun k k0 k1 ka kb => ?_) (fun k k0 k1 ka kb => ?_) ?_ ?_ ?_ j0 j1 k0 k1
  · rcases lt_trichotomy j k with h | h | h
    · by_cases h2 : k = j + 1
      · rw [bul_u h2, bul_u h2, hb j ja (by omega)]
      · rw [bul_far0 (by omega), bul_z (by omega) (by omega)]
    · rw [bul_d h, bul_d h, ha j ja jb]
    · by_cases h2 : j = k + 1
      · rw [bul_l h2, bul_l h2, hb k ka (by omega)]
      · rw [bul_far0 (by omega), bul_z (by omega) (by omega)]
  · by_cases h : i = k + 1
    · rw [bul_l h, bul_far0 (by omega), bul_l h, show k = i - 1 by omega, hb1 (by omega)]; ring
    · rw [bul_far0 (by omega), bul_z (i := i) (by omega) (by omega)]; ring
  · by_cases h : i = k + 1
    · rw [bul_l h, bul_far0 (by omega), bul_w (by omega), hw (by omega), hb1 (by omega), show k = i - 1 by omega]; ring
    · rw [bul_far0 (i := i) (by omega)]
      by_cases h2 : k = i + 1 + 1
      · rw [bul_u h2, bul_u h2, hb _ (by omega) (by omega)]; ring
      · rw [bul_far0 (by omega), bul_z (by omega) (by omega)]; ring
  · rw [bul_d rfl, bul_u rfl, bul_d rfl, bul_d rfl, hai]
    field_simp
    ring
  · rw [bul_d rfl, bul_u rfl, bul_d rfl, bul_u rfl, hbi, hai]
    field_simp
    ring
  · rw [bul_d rfl, bul_u rfl, bul_d rfl, bul_d rfl, ha1, hai]
    field_simp
    ring

/-- A rotation of the columns `p`, `p + 1` moves the bulge one up. -/
theorem conj_rot {n p : Int} (p0 : 0 ≤ p) (p1 : p + 1 < n) {a b a' b' : Int → K} {co si r w w' : K} (hcs : co * co + si * si = 1) (hr : b (p + 1) = co * r) (hw : w = -si * r)
    (ha : ∀ j, j ≠ p → j ≠ p + 1 → a' j = a j) (ha1 : a' (p + 1) = co * (co * a (p + 1) - si * b p) - si * (co * b p - si * a p))
    (ha0 : a' p = co * (co * a p + si * b p) + si * (co * b p + si * a (p + 1))) (hb : ∀ j, j ≠ p → j ≠ p + 1 → j ≠ p - 1 → b' j = b j)
    (hb0 : b' p = co * (co * b p + si * a (p + 1)) - si * (co * a p + si * b p)) (hb1 : b' (p + 1) = r) (hbm : 0 < p → b' (p - 1) = co * b (p - 1)) (hw' : 0 < p → w' = -si * b (p - 1))
    {j k : Int} (j0 : 0 ≤ j) (j1 : j < n) (k0 : 0 ≤ k) (k1 : k < n) :
    lin2 p co si (-si) co (fun j => lin2 p co si (-si) co (fun k => bul a b (p + 1) w j k) k) j = bul a' b' p w' j k := by
  refine conj2 p0 p1 bul_symm bul_symm (fun j k j0 j1 k0 k1 ja jb ka kb => ?_) (fun k k0 k1 ka kb => ?_) (fun k k0 k1 ka kb => ?_) ?_ ?_ ?_ j0 j1 k0 k1
  · rcases lt_trichotomy j k with h | h | h
    · by_cases h2 : k = j + 1
      · rw [bul_u h2, bul_u h2, hb j ja jb (by omega)]
      · rw [bul_z (by omega) (by omega), bul_z (by omega) (by omega)]
    · rw [bul_d h, bul_d h, ha j ja jb]
    · by_cases h2 : j = k + 1
      · rw [bul_l h2, bul_l h2, hb k ka kb (by omega)]
      · rw [bul_z (by omega) (by omega), bul_z (by omega) (by omega)]
  · by_cases h : p = k + 1
    · rw [bul_l h, bul_z (by omega) (by omega), bul_l h, show k = p - 1 by omega, hbm (by omega)]; ring
    · by_cases h2 : k = p + 1 + 1
      · rw [bul_w (by omega), bul_u h2, bul_z (by omega) (by omega), hr, hw]; ring
      · rw [bul_z (by omega) (by omega), bul_z (by omega) (by omega), bul_z (by omega) (by omega)]; ring
  · by_cases h : p = k + 1
    · rw [bul_l h, bul_z (by omega) (by omega), bul_w (by omega), hw' (by omega), show k = p - 1 by omega]; ring
    · by_cases h2 : k = p + 1 + 1
      · rw [bul_w (by omega), bul_u h2, bul_u h2, hb1, hr, hw]; linear_combination r * hcs
      · rw [bul_z (by omega) (by omega), bul_z (by omega) (by omega), bul_z (by omega) (by omega)]; ring
  · rw [bul_d rfl, bul_u rfl, bul_d rfl, bul_d rfl, ha0]
  · rw [bul_d rfl, bul_u rfl, bul_d rfl, bul_u rfl, hb0]; ring
  · rw [bul_d rfl, bul_u rfl, bul_d rfl, bul_d rfl, ha1]; ring

/-! ## The second matrix -/

/-- The diagonal of the second matrix when `i` columns are done. -/
def cgGA (c d : Int → K) (i j : Int) : K := if j < i then 1 else if j = i then c j * c j else c j * c j + d (j - 1) * d (j - 1)
/-- Its off-diagonal. -/
def cgGB (c d : Int → K) (i j : Int) : K := if j < i then 0 else c j * d j

theorem gram_elem {n i : Int} (i0 : 0 ≤ i) (i1 : i + 1 < n) {c d : Int → K} (hc : c i ≠ 0) {j k : Int} (j0 : 0 ≤ j) (j1 : j < n) (k0 : 0 ≤ k) (k1 : k < n) :
    lin2 i (1 / c i) 0 (-(d i / c i)) 1 (fun j => lin2 i (1 / c i) 0 (-(d i / c i)) 1 (fun k => bul (cgGA c d i) (cgGB c d i) 0 0 j k) k) j = bul (cgGA c d (i + 1)) (cgGB c d (i + 1)) 0 0 j k := by
  have ga : ∀ j, j ≠ i → j ≠ i + 1 → cgGA c d (i + 1) j = cgGA c d i j := fun j h1 h2 => by
    unfold cgGA
    by_cases h : j < i
    · rw [if_pos h, if_pos (by omega)]
    · rw [if_neg h, if_neg (by omega), if_neg h1, if_neg h2]
  have gi : cgGA c d i i = c i * c i := by unfold cgGA; rw [if_neg (by omega), if_pos rfl]
  have gi1 : cgGA c d (i + 1) i = 1 := by unfold cgGA; rw [if_pos (by omega)]
  have g1 : cgGA c d i (i + 1) = c (i + 1) * c (i + 1) + d i * d i := by unfold cgGA; rw [if_neg (by omega), if_neg (by omega), show i + 1 - 1 = i by omega]
  have g11 : cgGA c d (i + 1) (i + 1) = c (i + 1) * c (i + 1) := by unfold cgGA; rw [if_neg (by omega), if_pos rfl]
  have gb : ∀ j, j ≠ i → cgGB c d (i + 1) j = cgGB c d i j := fun j h1 => by
    unfold cgGB
    by_cases h : j < i
    · rw [if_pos h, if_pos (by omega)]
    · rw [if_neg h, if_neg (by omega)]
  have bi : cgGB c d i i = c i * d i := by unfold cgGB; rw [if_neg (by omega)]
  have bi1 : cgGB c d (i + 1) i = 0 := by unfold cgGB; rw [if_pos (by omega)]
  have bm : cgGB c d i (i - 1) = 0 := by unfold cgGB; rw [if_pos (by omega)]
  have hw : bul (cgGA c d (i + 1)) (cgGB c d (i + 1)) 0 0 j k = bul (cgGA c d (i + 1)) (cgGB c d (i + 1)) i 0 j k := by rw [bul_zero, bul_zero]
  rw [hw]
  refine conj_elem i0 i1 hc ga ?_ ?_ (fun j h1 _ => gb j h1) ?_ (fun _ => ?_) (fun _ => ?_) j0 j1 k0 k1
  · rw [gi, gi1, div_self (mul_ne_zero hc hc)]
  · rw [g1, g11, gi1, bi]; field_simp; ring
  · rw [bi, bi1, gi1]; field_simp; ring
  · rw [gb _ (by omega), bm, zero_div]
  · rw [gb _ (by omega), bm]; ring

/-- A rotation of columns that are done changes nothing. -/
theorem gram_rot {n i p : Int} (p0 : 0 ≤ p) (p1 : p + 1 < n) (pi : p + 1 < i) {c d : Int → K} {co si : K} (hcs : co * co + si * si = 1) {j k : Int} (j0 : 0 ≤ j) (j1 : j < n) (k0 : 0 ≤ k) (k1 : k < n) :
    lin2 p co si (-si) co (fun j => lin2 p co si (-si) co (fun k => bul (cgGA c d i) (cgGB c d i) 0 0 j k) k) j = bul (cgGA c d i) (cgGB c d i) 0 0 j k := by
  have ga : ∀ j, j < i → cgGA c d i j = 1 := fun j h => if_pos h
  have gb : ∀ j, j < i → cgGB c d i j = 0 := fun j h => if_pos h
  have z : ∀ q k, q = p ∨ q = p + 1 → k ≠ q → bul (cgGA c d i) (cgGB c d i) 0 0 q k = 0 := fun q k hq hk => by
    rcases lt_trichotomy q k with h | h | h
    · by_cases h2 : k = q + 1
      · rw [bul_u h2, gb _ (by omega)]
      · exact bul_far0 (by omega)
    · exact absurd h.symm hk
    · by_cases h2 : q = k + 1
      · rw [bul_l h2, gb _ (by omega)]
      · exact bul_far0 (by omega)
  have h0 := z p (p + 1) (Or.inl rfl) (by omega)
  have d0 : bul (cgGA c d i) (cgGB c d i) 0 0 p p = 1 := by rw [bul_d rfl, ga _ (by omega)]
  have d1 : bul (cgGA c d i) (cgGB c d i) 0 0 (p + 1) (p + 1) = 1 := by rw [bul_d rfl, ga _ (by omega)]
  refine conj2 p0 p1 bul_symm bul_symm (fun j k _ _ _ _ _ _ _ _ => rfl) (fun k k0 k1 ka kb => ?_) (fun k k0 k1 ka kb => ?_) ?_ ?_ ?_ j0 j1 k0 k1
  · rw [z p k (Or.inl rfl) ka, z (p + 1) k (Or.inr rfl) kb]; ring
  · rw [z p k (Or.inl rfl) ka, z (p + 1) k (Or.inr rfl) kb]; ring
  · rw [h0, d0, d1]; linear_combination hcs
  · rw [h0, d0, d1]; ring
  · rw [h0, d0, d1]; linear_combination hcs

/-- The last column. -/
theorem gram_last {n : Int} (n2 : 2 ≤ n) {c d : Int → K} (hc : c (n - 1) ≠ 0) {j k : Int} (j0 : 0 ≤ j) (j1 : j < n) (k0 : 0 ≤ k) (k1 : k < n) :
    lin2 (n - 2) 1 0 0 (1 / c (n - 1)) (fun j => lin2 (n - 2) 1 0 0 (1 / c (n - 1)) (fun k => bul (cgGA c d (n - 1)) (cgGB c d (n - 1)) 0 0 j k) k) j = if j = k then 1 else 0 := by
  have ga : ∀ j, j < n - 1 → cgGA c d (n - 1) j = 1 := fun j h => if_pos h
  have gl : cgGA c d (n - 1) (n - 1) = c (n - 1) * c (n - 1) := by unfold cgGA; rw [if_neg (by omega), if_pos rfl]
  have gb : ∀ j, j < n - 1 → cgGB c d (n - 1) j = 0 := fun j h => if_pos h
  have z : ∀ q k, q < n → k < n → k ≠ q → bul (cgGA c d (n - 1)) (cgGB c d (n - 1)) 0 0 q k = 0 := fun q k hq hk' hk => by
    rcases lt_trichotomy q k with h | h | h
    · by_cases h2 : k = q + 1
      · rw [bul_u h2, gb _ (by omega)]
      · exact bul_far0 (by omega)
    · exact absurd h.symm hk
    · by_cases h2 : q = k + 1
      · rw [bul_l h2, gb _ (by omega)]
      · exact bul_far0 (by omega)
  have dd : ∀ q, q < n - 1 → bul (cgGA c d (n - 1)) (cgGB c d (n - 1)) 0 0 q q = 1 := fun q hq => by rw [bul_d rfl, ga _ hq]
  have hl : n - 2 + 1 = n - 1 := by omega
  refine conj2 (S' := fun j k => if j = k then 1 else 0) (by omega) (by omega) bul_symm (fun j k => by simp only [eq_comm]) (fun j k _ j1 _ k1 ja jb ka kb => ?_) (fun k k0 k1 ka kb => ?_) (fun k k0 k1 ka kb => ?_) ?_ ?_ ?_ j0 j1 k0 k1
  · by_cases h : j = k
    · rw [if_pos h, h, dd _ (by omega)]
    · rw [if_neg h, z j k j1 k1 (fun e => h e.symm)]
  · rw [z (n - 2) k (by omega) k1 ka, if_neg (fun e => ka e.symm)]; ring
  · rw [z (n - 2) k (by omega) k1 ka, z (n - 2 + 1) k (by omega) k1 kb, if_neg (fun e => kb e.symm)]; ring
  · rw [dd _ (by omega), if_pos rfl]; ring
  · rw [z (n - 2) (n - 2 + 1) (by omega) (by omega) (by omega), if_neg (by omega)]; ring
  · rw [z (n - 2) (n - 2 + 1) (by omega) (by omega) (by omega), if_pos rfl, hl, bul_d (i := n - 1) rfl, gl]; field_simp; ring

/-- The last column of the first matrix. -/
theorem conj_last {n : Int} (n2 : 2 ≤ n) {a b a' b' : Int → K} {c : K} (hc : c ≠ 0) (ha : ∀ j, j ≠ n - 1 → a' j = a j) (ha1 : a' (n - 1) = a (n - 1) / (c * c)) (hb : ∀ j, j ≠ n - 2 → b' j = b j)
    (hb1 : b' (n - 2) = b (n - 2) / c) {j k : Int} (j0 : 0 ≤ j) (j1 : j < n) (k0 : 0 ≤ k) (k1 : k < n) :
    lin2 (n - 2) 1 0 0 (1 / c) (fun j => lin2 (n - 2) 1 0 0 (1 / c) (fun k => bul a b 0 0 j k) k) j = bul a' b' 0 0 j k := by
  have hl : n - 2 + 1 = n - 1 := by omega
  refine conj2 (by omega) (by omega) bul_symm bul_symm (fun j k j0 j1 k0 k1 ja jb ka kb => ?_) (fun k k0 k1 ka kb => ?_) (fun k k0 k1 ka kb => ?_) ?_ ?_ ?_ j0 j1 k0 k1
  · rcases lt_trichotomy j k with h | h | h
    · by_cases h2 : k = j + 1
      · rw [bul_u h2, bul_u h2, hb j ja]
      · rw [bul_far0 (by omega), bul_far0 (by omega)]
    · rw [bul_d h, bul_d h, ha j (by omega)]
    · by_cases h2 : j = k + 1
      · rw [bul_l h2, bul_l h2, hb k ka]
      · rw [bul_far0 (by omega), bul_far0 (by omega)]
  · by_cases h : n - 2 = k + 1
    · rw [bul_l h, bul_l h, hb k (by omega)]; ring
    · rw [bul_far0 (i := n - 2) (by omega), bul_far0 (i := n - 2) (by omega)]; ring
  · rw [bul_far0 (i := n - 2 + 1) (by omega), bul_far0 (i := n - 2 + 1) (by omega)]; ring
  · rw [bul_d (i := n - 2) rfl, bul_d (i := n - 2) rfl, ha _ (by omega)]; ring
  · rw [bul_u rfl, bul_u rfl, hb1]; ring
  · rw [bul_d (i := n - 2 + 1) rfl, bul_d (i := n - 2 + 1) (a := a') rfl, hl, ha1]; field_simp; ring

end FT
