import Verif.Props.Banded

/-! # Banded matrices filled column by column -/

set_option linter.unusedSectionVars false

namespace FT
open FT.Props
variable {K : Type*} [Zero K] {m n l u : Int} {A : Banded K} {a : Int → Int → K}

theorem _root_.FT.Props.Stores.to {a' : Int → Int → K} (h : Stores A m n l u a) (e : ∀ i j, a i j = a' i j) : Stores A m n l u a' := by
  rwa [show a' = a from funext fun i => funext fun j => (e i j).symm]

theorem _root_.FT.Props.StoresT.to {T : TB K} {b : Int} {a' : Int → Int → K} (h : StoresT T n b a) (e : ∀ i j, a i j = a' i j) : StoresT T n b a' := by
  rwa [show a' = a from funext fun i => funext fun j => (e i j).symm]

theorem sets1 (h : Stores A m n l u a) {j i0 : Int} {w0 : K} {v : Int → K} (hv : ∀ p, band m n l u p j → v p = if p = i0 then w0 else a p j) :
    ∃ A', A.set w0 i0 j = some A' ∧ Stores A' m n l u fun p q => if q = j ∧ band m n l u p q then v p else a p q := by
  obtain ⟨A1, e1, h1⟩ := C14_set h w0 i0 j
  refine ⟨A1, e1, h1.to fun p q => ?_⟩
  by_cases hq : q = j
  · subst hq
    by_cases hb : band m n l u p q
    · rw [show (if q = q ∧ band m n l u p q then v p else a p q) = v p from if_pos ⟨rfl, hb⟩, hv p hb]
      by_cases e : p = i0
      · subst e; rw [if_pos ⟨⟨rfl, rfl⟩, hb⟩, if_pos rfl]
      · rw [if_neg (fun h => e h.1.1), if_neg e]
    · rw [if_neg (show ¬ ((p = i0 ∧ q = q) ∧ band m n l u i0 q) from by rintro ⟨⟨rfl, -⟩, h⟩; exact hb h), if_neg (fun h => hb h.2)]
  · rw [if_neg (by tauto), if_neg (by tauto)]

theorem sets2 (h : Stores A m n l u a) {j i0 i1 : Int} {w0 w1 : K} {v : Int → K} (hv : ∀ p, band m n l u p j → v p = if p = i1 then w1 else if p = i0 then w0 else a p j) :
    ∃ A', ((A.set w0 i0 j).bind fun A => A.set w1 i1 j) = some A' ∧ Stores A' m n l u fun p q => if q = j ∧ band m n l u p q then v p else a p q := by
  obtain ⟨A1, e1, h1⟩ := sets1 h (v := fun p => if p = i0 then w0 else a p j) (fun p _ => rfl)
  obtain ⟨A2, e2, h2⟩ := sets1 h1 (j := j) (i0 := i1) (w0 := w1) (v := v) (fun p hb => by rw [hv p hb]; split_ifs <;> first | rfl | tauto)
  refine ⟨A2, by rw [e1]; exact e2, h2.to fun p q => ?_⟩
  split_ifs <;> first | rfl | tauto

theorem sets3 (h : Stores A m n l u a) {j i0 i1 i2 : Int} {w0 w1 w2 : K} {v : Int → K}
    (hv : ∀ p, band m n l u p j → v p = if p = i2 then w2 else if p = i1 then w1 else if p = i0 then w0 else a p j) :
    ∃ A', ((A.set w0 i0 j).bind fun A => (A.set w1 i1 j).bind fun A => A.set w2 i2 j) = some A' ∧ Stores A' m n l u fun p q => if q = j ∧ band m n l u p q then v p else a p q := by
  obtain ⟨A1, e1, h1⟩ := sets1 h (v := fun p => if p = i0 then w0 else a p j) (fun p _ => rfl)
  obtain ⟨A2, e2, h2⟩ := sets2 h1 (j := j) (i0 := i1) (i1 := i2) (w0 := w1) (w1 := w2) (v := v) (fun p hb => by rw [hv p hb]; split_ifs <;> first | rfl | tauto)
  refine ⟨A2, by rw [e1]; exact e2, h2.to fun p q => ?_⟩
  split_ifs <;> first | rfl | tauto

/-- A loop over columns, each pass of which fills one column. -/
theorem fill {lo hi : Int} {body : Int → Banded K → Option (Banded K)} {v : Int → Int → K} (h : Stores A m n l u a)
    (hb : ∀ j A a', lo ≤ j → j < hi → Stores A m n l u a' → (∀ p, a' p j = a p j) →
      ∃ A', body j A = some A' ∧ Stores A' m n l u fun p q => if q = j ∧ band m n l u p q then v p j else a' p q) :
    ∃ A', forUp lo hi body A = some A' ∧ Stores A' m n l u fun p q => if (lo ≤ q ∧ q < hi) ∧ band m n l u p q then v p q else a p q := by
  obtain ⟨A', e, p⟩ := forUp_spec (lo := lo) (hi := hi) (body := body) (s := A) (fun k A => Stores A m n l u fun p q => if (lo ≤ q ∧ q < k) ∧ band m n l u p q then v p q else a p q)
    (h.to fun p q => by rw [if_neg (by omega)])
    (fun j j0 j1 A hA => by
      obtain ⟨A', e, h'⟩ := hb j A _ j0 j1 hA (fun p => by rw [if_neg (by omega)])
      refine ⟨A', e, h'.to fun p q => ?_⟩
      by_cases hq : q = j
      · subst hq
        by_cases hb : band m n l u p q
        · rw [if_pos ⟨rfl, hb⟩, if_pos ⟨by omega, hb⟩]
        · rw [if_neg (by tauto), if_neg (by tauto), if_neg (by tauto)]
      · rw [if_neg (by tauto)]
        by_cases hc : (lo ≤ q ∧ q < j) ∧ band m n l u p q
        · rw [if_pos hc, if_pos ⟨by omega, hc.2⟩]
        · rw [if_neg hc, if_neg]
          rintro ⟨h1, h2⟩; exact hc ⟨by omega, h2⟩)
  refine ⟨A', e, p.to fun p q => ?_⟩
  by_cases hc : (lo ≤ q ∧ q < hi) ∧ band m n l u p q
  · rw [if_pos hc, if_pos ⟨by omega, hc.2⟩]
  · rw [if_neg hc, if_neg]
    rintro ⟨h1, h2⟩; exact hc ⟨by omega, h2⟩

/-! The same for triangular banded matrices. -/

section tri
variable {T : TB K} {b : Int}

theorem sets1T (h : StoresT T n b a) {j i0 : Int} {w0 : K} {v : Int → K} (hv : ∀ p, band n n 0 b p j → v p = if p = i0 then w0 else a p j) :
    ∃ A', T.set w0 i0 j = some A' ∧ StoresT A' n b fun p q => if q = j ∧ band n n 0 b p q then v p else a p q := by
  obtain ⟨A1, e1, h1⟩ := C14_set_tri h w0 i0 j
  refine ⟨A1, e1, h1.to fun p q => ?_⟩
  by_cases hq : q = j
  · subst hq
    by_cases hb : band n n 0 b p q
    · rw [show (if q = q ∧ band n n 0 b p q then v p else a p q) = v p from if_pos ⟨rfl, hb⟩, hv p hb]
      by_cases e : p = i0
      · subst e; rw [if_pos ⟨⟨rfl, rfl⟩, hb⟩, if_pos rfl]
      · rw [if_neg (fun h => e h.1.1), if_neg e]
    · rw [if_neg (show ¬ ((p = i0 ∧ q = q) ∧ band n n 0 b i0 q) from by rintro ⟨⟨rfl, -⟩, h⟩; exact hb h), if_neg (fun h => hb h.2)]
  · rw [if_neg (by tauto), if_neg (by tauto)]

theorem sets2T (h : StoresT T n b a) {j i0 i1 : Int} {w0 w1 : K} {v : Int → K} (hv : ∀ p, band n n 0 b p j → v p = if p = i1 then w1 else if p = i0 then w0 else a p j) :
    ∃ A', ((T.set w0 i0 j).bind fun A => A.set w1 i1 j) = some A' ∧ StoresT A' n b fun p q => if q = j ∧ band n n 0 b p q then v p else a p q := by
  obtain ⟨A1, e1, h1⟩ := sets1T h (v := fun p => if p = i0 then w0 else a p j) (fun p _ => rfl)
  obtain ⟨A2, e2, h2⟩ := sets1T h1 (j := j) (i0 := i1) (w0 := w1) (v := v) (fun p hb => by rw [hv p hb]; split_ifs <;> first | rfl | tauto)
  refine ⟨A2, by rw [e1]; exact e2, h2.to fun p q => ?_⟩
  split_ifs <;> first | rfl | tauto

theorem fillT {lo hi : Int} {body : Int → TB K → Option (TB K)} {v : Int → Int → K} (h : StoresT T n b a)
    (hb : ∀ j A a', lo ≤ j → j < hi → StoresT A n b a' → (∀ p, a' p j = a p j) →
      ∃ A', body j A = some A' ∧ StoresT A' n b fun p q => if q = j ∧ band n n 0 b p q then v p j else a' p q) :
    ∃ A', forUp lo hi body T = some A' ∧ StoresT A' n b fun p q => if (lo ≤ q ∧ q < hi) ∧ band n n 0 b p q then v p q else a p q := by
  obtain ⟨A', e, p⟩ := forUp_spec (lo := lo) (hi := hi) (body := body) (s := T) (fun k A => StoresT A n b fun p q => if (lo ≤ q ∧ q < k) ∧ band n n 0 b p q then v p q else a p q)
    (h.to fun p q => by rw [if_neg (by omega)])
    (fun j j0 j1 A hA => by
      obtain ⟨A', e, h'⟩ := hb j A _ j0 j1 hA (fun p => by rw [if_neg (by omega)])
      refine ⟨A', e, h'.to fun p q => ?_⟩
      by_cases hq : q = j
      · subst hq
        by_cases hb : band n n 0 b p q
        · rw [if_pos ⟨rfl, hb⟩, if_pos ⟨by omega, hb⟩]
        · rw [if_neg (by tauto), if_neg (by tauto), if_neg (by tauto)]
      · rw [if_neg (by tauto)]
        by_cases hc : (lo ≤ q ∧ q < j) ∧ band n n 0 b p q
        · rw [if_pos hc, if_pos ⟨by omega, hc.2⟩]
        · rw [if_neg hc, if_neg]
          rintro ⟨h1, h2⟩; exact hc ⟨by omega, h2⟩)
  refine ⟨A', e, p.to fun p q => ?_⟩
  by_cases hc : (lo ≤ q ∧ q < hi) ∧ band n n 0 b p q
  · rw [if_pos hc, if_pos ⟨by omega, hc.2⟩]
  · rw [if_neg hc, if_neg]
    rintro ⟨h1, h2⟩; exact hc ⟨by omega, h2⟩

end tri
end FT
