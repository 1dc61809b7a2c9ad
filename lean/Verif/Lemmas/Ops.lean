import Verif.Lemmas.JacScale
import Verif.Lemmas.Fill

/-! # Matrices with five diagonals -/

set_option linter.unusedSectionVars false

namespace FT.Poly
open Polynomial
variable {K : Type*} [Field K]

theorem sum_five {M : Type*} [AddCommMonoid M] (f : Int → M) (j : Int) : ∑ i ∈ Finset.Ico (j - 2) (j + 3), f i = f (j - 2) + (f (j - 1) + (f j + (f (j + 1) + f (j + 2)))) := by
  rw [sum_Ico_pred (by omega), sum_Ico_pred (by omega), sum_Ico_pred (by omega), sum_Ico_pred (by omega), sum_Ico_pred (by omega),
    show j - 2 + 1 + 1 + 1 + 1 + 1 = j + 3 by ring, show j - 2 + 1 + 1 + 1 + 1 = j + 2 by ring, show j - 2 + 1 + 1 + 1 = j + 1 by ring, show j - 2 + 1 + 1 = j by ring,
    show j - 2 + 1 = j - 1 by ring, Finset.Ico_self, Finset.sum_empty, add_zero]

theorem isMatrix_mk {T : K[X] → K[X]} {p q : Int → K[X]} {M : Int → Int → K} (hq : ∀ i, i < 0 → q i = 0) (hz : ∀ i j, ¬ (j - 2 ≤ i ∧ i ≤ j + 2) → M i j = 0)
    (h : ∀ j, 0 ≤ j → T (p j) = C (M (j - 2) j) * q (j - 2) + (C (M (j - 1) j) * q (j - 1) + (C (M j j) * q j + (C (M (j + 1) j) * q (j + 1) + C (M (j + 2) j) * q (j + 2))))) : IsMatrix T p q M := by
  intro j hj
  refine ⟨fun i hi => hz i j (by omega), ?_⟩
  rw [h j hj, ← sum_five (fun i => C (M i j) * q i) j]
  rcases le_or_gt 0 (j - 2) with h2 | h2
  · exact (sum_Ico_shrink (fun k k0 k1 hk => by rw [hz k j (by omega), map_zero, zero_mul]) (by omega) le_rfl).symm
  · exact sum_Ico_shrink (fun k k0 k1 hk => by rw [hq k (by omega), mul_zero]) (by omega) le_rfl

/-- A matrix given by its diagonals: `g d j` is the entry in row `j + d` of column `j`. -/
def diags (g : Int → Int → K) (i j : Int) : K := if j - 2 ≤ i ∧ i ≤ j + 2 then g (i - j) j else 0

theorem diags_out {g : Int → Int → K} {i j : Int} (h : ¬ (j - 2 ≤ i ∧ i ≤ j + 2)) : diags g i j = 0 := if_neg h

theorem isMatrix_diags {T : K[X] → K[X]} {p q : Int → K[X]} {g : Int → Int → K} (hq : ∀ i, i < 0 → q i = 0)
    (h : ∀ j, 0 ≤ j → T (p j) = C (g (-2) j) * q (j - 2) + (C (g (-1) j) * q (j - 1) + (C (g 0 j) * q j + (C (g 1 j) * q (j + 1) + C (g 2 j) * q (j + 2))))) : IsMatrix T p q (diags g) :=
  isMatrix_mk hq (fun _ _ h => diags_out h) fun j hj => by
    rw [h j hj]
    unfold diags
    rw [if_pos (by omega), if_pos (by omega), if_pos (by omega), if_pos (by omega), if_pos (by omega), show j - 2 - j = -2 by ring, show j - 1 - j = -1 by ring, sub_self, add_sub_cancel_left,
      add_sub_cancel_left]

theorem monic_neg' (a b : Int → K) (i : Int) (h : i < 0) : monic a b i = 0 := monic_neg h

theorem scaled_neg {s : Int → K} {p : Int → K[X]} (hp : ∀ i, i < 0 → p i = 0) (i : Int) (h : i < 0) : scaled s p i = 0 := by unfold scaled; rw [hp i h, mul_zero]

/-! ## Scaled relations and their storage -/

theorem isMatrix_scaled {T : K[X] → K[X]} {p q : Int → K[X]} {s t : Int → K} {k g : Int → Int → K} (hq : ∀ i, i < 0 → q i = 0) (hT : ∀ c p, T (C c * p) = C c * T p)
    (h : ∀ j, 0 ≤ j → T (p j) = C (k (-2) j) * q (j - 2) + (C (k (-1) j) * q (j - 1) + (C (k 0 j) * q j + (C (k 1 j) * q (j + 1) + C (k 2 j) * q (j + 2)))))
    (hg : ∀ d j, 0 ≤ j → 0 ≤ j + d → s j * k d j = t (j + d) * g d j) : IsMatrix T (scaled s p) (scaled t q) (diags g) := by
  refine isMatrix_diags (scaled_neg hq) fun j hj => ?_
  have key : ∀ d, C (g d j) * scaled t q (j + d) = C (s j) * (C (k d j) * q (j + d)) := fun d => by
    unfold scaled
    rcases lt_or_ge (j + d) 0 with h' | h'
    · rw [hq _ h']; ring
    · rw [← mul_assoc, ← mul_assoc, ← C_mul, ← C_mul, hg d j hj h', mul_comm (g d j)]
  have e2 := key (-2)
  have e1 := key (-1)
  have e0 := key 0
  rw [← sub_eq_add_neg] at e2 e1
  rw [add_zero] at e0
  rw [e2, e1, e0, key 1, key 2]
  conv_lhs => unfold scaled
  rw [hT, h j hj]
  ring

theorem fill_cut {m n l u : Int} {body : Int → Banded K → Option (Banded K)} {g : Int → Int → K} (hg : ∀ d j, ¬ (-u ≤ d ∧ d ≤ l) → g d j = 0)
    (hb : ∀ j A a', 0 ≤ j → j < n → Props.Stores A m n l u a' → (∀ p, a' p j = 0) →
      ∃ A', body j A = some A' ∧ Props.Stores A' m n l u fun p q => if q = j ∧ Props.band m n l u p q then diags g p j else a' p q) :
    ∃ A, forUp 0 n body (callocBanded m n l u) = some A ∧ Props.Stores A m n l u (cut m n (diags g)) := by
  obtain ⟨A, e, h⟩ := fill (v := diags g) (Props.C14_calloc m n l u) hb
  refine ⟨A, e, h.to fun i j => ?_⟩
  unfold cut
  by_cases h1 : (0 ≤ i ∧ i < m) ∧ (0 ≤ j ∧ j < n)
  · rw [if_pos h1]
    by_cases h2 : Props.band m n l u i j
    · rw [if_pos ⟨h1.2, h2⟩]
    · rw [if_neg (by tauto)]
      unfold diags
      split_ifs
      · exact (hg _ _ (by unfold Props.band at h2; omega)).symm
      · rfl
  · rw [if_neg h1, if_neg]
    rintro ⟨-, h⟩
    exact h1 ⟨h.1, h.2.1⟩

theorem diags_band {l u : Int} {g : Int → Int → K} (hg : ∀ d j, ¬ (-u ≤ d ∧ d ≤ l) → g d j = 0) (i j : Int) (h : ¬ (j - u ≤ i ∧ i ≤ j + l)) : diags g i j = 0 := by
  unfold diags
  split_ifs
  · exact hg _ _ (by omega)
  · rfl

/-- Three diagonals. -/
def g3 (d0 d1 d2 : Int) (w0 w1 w2 : Int → K) (d j : Int) : K := if d = d2 then w2 j else if d = d1 then w1 j else if d = d0 then w0 j else 0

theorem fill3 {m n l u d0 d1 d2 : Int} (w0 w1 w2 : Int → K) (h0 : -u ≤ d0 ∧ d0 ≤ l) (h1 : -u ≤ d1 ∧ d1 ≤ l) (h2 : -u ≤ d2 ∧ d2 ≤ l) (hl : l ≤ 2) (hu : u ≤ 2) :
    ∃ A, forUp 0 n (fun j A => (A.set (w0 j) (j + d0) j).bind fun A => (A.set (w1 j) (j + d1) j).bind fun A => A.set (w2 j) (j + d2) j) (callocBanded m n l u) = some A ∧
      Props.Stores A m n l u (cut m n (diags (g3 d0 d1 d2 w0 w1 w2))) ∧ ∀ i j, ¬ (j - u ≤ i ∧ i ≤ j + l) → diags (g3 d0 d1 d2 w0 w1 w2) i j = 0 := by
  have hg : ∀ d j, ¬ (-u ≤ d ∧ d ≤ l) → g3 d0 d1 d2 w0 w1 w2 d j = 0 := fun d j h => by unfold g3; split_ifs <;> first | rfl | omega
  obtain ⟨A, e, h⟩ := fill_cut (m := m) (n := n) (body := fun j A => (A.set (w0 j) (j + d0) j).bind fun A => (A.set (w1 j) (j + d1) j).bind fun A => A.set (w2 j) (j + d2) j) hg fun j A a j0 j1 hA hz => sets3 hA fun p hp => by
      unfold diags g3
      simp only [hz]
      unfold Props.band at hp
      split_ifs <;> first | rfl | omega
  exact ⟨A, e, h, diags_band hg⟩

theorem op3 {T : K[X] → K[X]} {p q : Int → K[X]} {s t : Int → K} {d0 d1 d2 : Int} {w0 w1 w2 : Int → K} (k0 k1 k2 : Int → K) (hq : ∀ i, i < 0 → q i = 0) (hT : ∀ c p, T (C c * p) = C c * T p)
    (h : ∀ j, 0 ≤ j → T (p j) = C (g3 d0 d1 d2 k0 k1 k2 (-2) j) * q (j - 2) + (C (g3 d0 d1 d2 k0 k1 k2 (-1) j) * q (j - 1) + (C (g3 d0 d1 d2 k0 k1 k2 0 j) * q j +
      (C (g3 d0 d1 d2 k0 k1 k2 1 j) * q (j + 1) + C (g3 d0 d1 d2 k0 k1 k2 2 j) * q (j + 2)))))
    (e0 : ∀ j, 0 ≤ j → 0 ≤ j + d0 → s j * k0 j = t (j + d0) * w0 j) (e1 : ∀ j, 0 ≤ j → 0 ≤ j + d1 → s j * k1 j = t (j + d1) * w1 j)
    (e2 : ∀ j, 0 ≤ j → 0 ≤ j + d2 → s j * k2 j = t (j + d2) * w2 j) : IsMatrix T (scaled s p) (scaled t q) (diags (g3 d0 d1 d2 w0 w1 w2)) := by
  refine isMatrix_scaled hq hT h fun d j hj hd => ?_
  unfold g3
  split_ifs with a b c
  · subst a; exact e2 j hj hd
  · subst b; exact e1 j hj hd
  · subst c; exact e0 j hj hd
  · rw [mul_zero, mul_zero]

/-- Two diagonals. -/
def g2 (d0 d1 : Int) (w0 w1 : Int → K) (d j : Int) : K := if d = d1 then w1 j else if d = d0 then w0 j else 0

theorem fill2 {m n l u d0 d1 : Int} (w0 w1 : Int → K) (h0 : -u ≤ d0 ∧ d0 ≤ l) (h1 : -u ≤ d1 ∧ d1 ≤ l) (hl : l ≤ 2) (hu : u ≤ 2) :
    ∃ A, forUp 0 n (fun j A => (A.set (w0 j) (j + d0) j).bind fun A => A.set (w1 j) (j + d1) j) (callocBanded m n l u) = some A ∧
      Props.Stores A m n l u (cut m n (diags (g2 d0 d1 w0 w1))) ∧ ∀ i j, ¬ (j - u ≤ i ∧ i ≤ j + l) → diags (g2 d0 d1 w0 w1) i j = 0 := by
  have hg : ∀ d j, ¬ (-u ≤ d ∧ d ≤ l) → g2 d0 d1 w0 w1 d j = 0 := fun d j h => by unfold g2; split_ifs <;> first | rfl | omega
  obtain ⟨A, e, h⟩ := fill_cut (m := m) (n := n) (body := fun j A => (A.set (w0 j) (j + d0) j).bind fun A => A.set (w1 j) (j + d1) j) hg fun j A a j0 j1 hA hz => sets2 hA fun p hp => by
      unfold diags g2
      simp only [hz]
      unfold Props.band at hp
      split_ifs <;> first | rfl | omega
  exact ⟨A, e, h, diags_band hg⟩

theorem op2 {T : K[X] → K[X]} {p q : Int → K[X]} {s t : Int → K} {d0 d1 : Int} {w0 w1 : Int → K} (k0 k1 : Int → K) (hq : ∀ i, i < 0 → q i = 0) (hT : ∀ c p, T (C c * p) = C c * T p)
    (h : ∀ j, 0 ≤ j → T (p j) = C (g2 d0 d1 k0 k1 (-2) j) * q (j - 2) + (C (g2 d0 d1 k0 k1 (-1) j) * q (j - 1) + (C (g2 d0 d1 k0 k1 0 j) * q j +
      (C (g2 d0 d1 k0 k1 1 j) * q (j + 1) + C (g2 d0 d1 k0 k1 2 j) * q (j + 2)))))
    (e0 : ∀ j, 0 ≤ j → 0 ≤ j + d0 → s j * k0 j = t (j + d0) * w0 j) (e1 : ∀ j, 0 ≤ j → 0 ≤ j + d1 → s j * k1 j = t (j + d1) * w1 j) :
    IsMatrix T (scaled s p) (scaled t q) (diags (g2 d0 d1 w0 w1)) := by
  refine isMatrix_scaled hq hT h fun d j hj hd => ?_
  unfold g2
  split_ifs with a b
  · subst a; exact e1 j hj hd
  · subst b; exact e0 j hj hd
  · rw [mul_zero, mul_zero]

end FT.Poly
