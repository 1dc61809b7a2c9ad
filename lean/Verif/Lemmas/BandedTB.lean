import Verif.Lemmas.Banded
import Verif.Lemmas.Loop

/-! # Lemmas on triangular banded storage: get, set, view, realloc, conversions -/

namespace FT
variable {K : Type*}

namespace TB

/-- The data of the matrix lies inside its allocation. -/
def WF (A : TB K) : Prop := 0 ≤ A.o ∧ A.o + A.n * (A.b + 1) ≤ A.D.size

def slot (A : TB K) (i j : Int) : Int := A.o + (i + (j + 1) * A.b)

def ent [Zero K] (A : TB K) (i j : Int) : K := if A.InBand i j then A.D.val (A.slot i j) else 0

variable {A B C : TB K} {i j i' j' : Int} {v : K}

theorem slot_eq (A : TB K) (i j : Int) : A.slot i j = A.o + ((A.b + i - j) + j * (A.b + 1)) := by unfold slot; ring

theorem slot_in (h : A.WF) (hb : A.InBand i j) : A.o ≤ A.slot i j ∧ A.slot i j < A.o + A.n * (A.b + 1) ∧ 0 ≤ A.slot i j ∧ A.slot i j < A.D.size := by
  unfold InBand at hb
  unfold WF at h
  rw [slot_eq]
  have := slot_lt (n := A.n) (w := A.b + 1) (q := A.b + i - j) (j := j) (by omega) (by omega) (by omega) (by omega)
  omega

theorem slot_inj' (hb : A.InBand i j) (hb' : A.InBand i' j') (h : A.slot i j = A.slot i' j') : i = i' ∧ j = j' := by
  rw [slot_eq, slot_eq] at h
  unfold InBand at hb hb'
  have := FT.slot_inj (w := A.b + 1) (q := A.b + i - j) (q' := A.b + i' - j') (j := j) (j' := j') (by omega) (by omega) (by omega) (by omega) (by omega)
  omega

theorem get_eq [Zero K] (h : A.WF) (i j : Int) : A.get i j = some (A.ent i j) := by
  unfold get ent
  by_cases hb : A.InBand i j
  · have := slot_in h hb
    rw [if_pos hb, if_pos hb]
    exact Buf.rd_of this.2.2.1 this.2.2.2
  · rw [if_neg hb, if_neg hb]

theorem set_out (hb : ¬ A.InBand i j) : A.set v i j = some A := if_neg hb

theorem set_eq (h : A.WF) (hb : A.InBand i j) : A.set v i j = some ⟨A.o, A.n, A.b, A.D.size, Function.update A.D.val (A.slot i j) v⟩ := by
  have := slot_in h hb
  unfold set
  rw [if_pos hb, show A.o + (i + (j + 1) * A.b) = A.slot i j from rfl, Buf.wr_of this.2.2.1 this.2.2.2]; rfl

theorem ent_update [Zero K] (hb : A.InBand i j) (i' j' : Int) :
    ent ⟨A.o, A.n, A.b, A.D.size, Function.update A.D.val (A.slot i j) v⟩ i' j' = if i' = i ∧ j' = j then v else A.ent i' j' := by
  by_cases hb' : A.InBand i' j'
  · refine (if_pos hb').trans ?_
    show Function.update A.D.val (A.slot i j) v (A.slot i' j') = _
    by_cases he : i' = i ∧ j' = j
    · rw [if_pos he, he.1, he.2, Function.update_self]
    · rw [if_neg he, Function.update_of_ne, ent, if_pos hb']
      intro hne
      exact he (slot_inj' hb' hb hne)
  · refine (if_neg hb').trans ?_
    by_cases he : i' = i ∧ j' = j
    · exfalso; apply hb'; rw [he.1, he.2]; exact hb
    · rw [if_neg he, ent, if_neg hb']

end TB

/-- `for j < n: for i < w: D[f(i,j)] = S[g(i,j)]` with injective targets. -/
theorem copy_spec {n w : Int} {S D : Buf K} {f g : Int → Int → Int}
    (hg : ∀ i j, 0 ≤ i → i < w → 0 ≤ j → j < n → 0 ≤ g i j ∧ g i j < S.size)
    (hf : ∀ i j, 0 ≤ i → i < w → 0 ≤ j → j < n → 0 ≤ f i j ∧ f i j < D.size)
    (hinj : ∀ i j i' j', 0 ≤ i → i < w → 0 ≤ j → j < n → 0 ≤ i' → i' < w → 0 ≤ j' → j' < n → f i j = f i' j' → i = i' ∧ j = j') :
    ∃ D', forUp 0 n (fun j => forUp 0 w fun i D => (S.rd (g i j)).bind fun v => D.wr (f i j) v) D = some D' ∧ D'.size = D.size ∧
      (∀ i j, 0 ≤ i → i < w → 0 ≤ j → j < n → D'.val (f i j) = S.val (g i j)) ∧
      ∀ p, (∀ i j, 0 ≤ i → i < w → 0 ≤ j → j < n → p ≠ f i j) → D'.val p = D.val p := by
  obtain ⟨D', e, p⟩ := forUp_spec (body := fun j => forUp 0 w fun i D => (S.rd (g i j)).bind fun v => D.wr (f i j) v) (lo := 0) (hi := n) (s := D)
    (fun J D' => D'.size = D.size ∧ (∀ i j, 0 ≤ i → i < w → 0 ≤ j → j < J → j < n → D'.val (f i j) = S.val (g i j)) ∧
      ∀ p, (∀ i j, 0 ≤ i → i < w → 0 ≤ j → j < n → p ≠ f i j) → D'.val p = D.val p)
    ⟨rfl, fun i j _ _ _ _ => by omega, fun _ _ => rfl⟩
    (fun J J0 J1 D1 h1 => by
      obtain ⟨D', e, p⟩ := forUp_spec (body := fun i D => (S.rd (g i J)).bind fun v => D.wr (f i J) v) (lo := 0) (hi := w) (s := D1)
        (fun I D' => D'.size = D.size ∧ (∀ i j, 0 ≤ i → i < w → 0 ≤ j → (j < J ∨ (j = J ∧ i < I)) → D'.val (f i j) = S.val (g i j)) ∧
          ∀ p, (∀ i j, 0 ≤ i → i < w → 0 ≤ j → j < n → p ≠ f i j) → D'.val p = D.val p)
        ⟨h1.1, fun i j a b c d => h1.2.1 i j a b c (by omega) (by omega), h1.2.2⟩
        (fun I I0 I1 D2 h2 => by
          have a := hg I J I0 I1 J0 J1
          have b := hf I J I0 I1 J0 J1
          refine ⟨⟨D2.size, Function.update D2.val (f I J) (S.val (g I J))⟩, ?_, h2.1, fun i j i0 i1 j0 hd => ?_, fun p hp => ?_⟩
          · simp only [Buf.rd_of a.1 a.2, Option.bind_some]
            exact Buf.wr_of b.1 (by rw [h2.1]; exact b.2)
          · by_cases he : i = I ∧ j = J
            · simp only [he.1, he.2, Function.update_self]
            · simp only
              rw [Function.update_of_ne]
              · exact h2.2.1 i j i0 i1 j0 (by omega)
              · intro hne
                exact he (hinj _ _ _ _ i0 i1 j0 (by omega) I0 I1 J0 J1 hne)
          · simp only
            rw [Function.update_of_ne (hp I J I0 I1 J0 J1)]
            exact h2.2.2 p hp)
      exact ⟨D', e, p.1, fun i j a b c d h => p.2.1 i j a b c (by omega), p.2.2⟩)
  exact ⟨D', e, p.1, fun i j a b c d => p.2.1 i j a b c (by omega) d, p.2.2⟩

section
variable [Zero K] {A : TB K}

theorem TB.realloc_grow (h : A.WF) (hn : 0 ≤ A.n) (hA : 0 ≤ A.b + 1) {b : Int} (hb : A.b < b) :
    ∃ A', A.realloc b = some A' ∧ A'.WF ∧ A'.n = A.n ∧ A'.b = b ∧ ∀ i j, A'.ent i j = A.ent i j := by
  have hs : ((callocB (A.n * (b + 1)) : Buf K).size : Int) = A.n * (b + 1) := Int.toNat_of_nonneg (Int.mul_nonneg hn (by omega))
  obtain ⟨D', e, hsz, hin, hout⟩ := copy_spec (n := A.n) (w := A.b + 1) (S := A.D) (D := callocB (A.n * (b + 1))) (f := fun i j => i + b - A.b + j * (b + 1))
    (g := fun i j => A.o + (i + j * (A.b + 1)))
    (fun i j i0 i1 j0 j1 => by have := slot_lt i0 i1 j0 j1; have := h.1; have := h.2; omega)
    (fun i j i0 i1 j0 j1 => by
      have := slot_lt (n := A.n) (w := b + 1) (q := i + b - A.b) (j := j) (by omega) (by omega) j0 j1
      rw [hs]; omega)
    (fun i j i' j' i0 i1 j0 j1 i0' i1' j0' j1' he => by
      have := slot_inj (w := b + 1) (q := i + b - A.b) (q' := i' + b - A.b) (by omega) (by omega) (by omega) (by omega) he
      omega)
  refine ⟨⟨0, A.n, b, D'⟩, ?_, ⟨le_refl _, ?_⟩, rfl, rfl, fun i j => ?_⟩
  · unfold TB.realloc
    rw [if_pos hb, e]; rfl
  · simp only [hsz, hs]; omega
  · by_cases hI : (⟨0, A.n, b, D'⟩ : TB K).InBand i j
    · rw [ent, if_pos hI]
      unfold InBand at hI
      simp only at hI
      by_cases hI' : A.InBand i j
      · rw [ent, if_pos hI', slot_eq, slot_eq]
        unfold InBand at hI'
        have := hin (A.b + i - j) j (by omega) (by omega) (by omega) (by omega)
        rw [← this]
        congr 1
        simp only
        omega
      · rw [ent, if_neg hI', slot_eq]
        refine (hout _ fun i2 j2 a1 a2 a3 a4 hne => ?_).trans rfl
        simp only [zero_add] at hne
        have := slot_inj (w := b + 1) (q := b + i - j) (q' := i2 + b - A.b) (by omega) (by omega) (by omega) (by omega) hne
        apply hI'
        unfold InBand
        omega
    · rw [ent, if_neg hI, ent, if_neg]
      intro hI'
      apply hI
      unfold InBand at *
      simp only
      omega

theorem TB.realloc_shrink (h : A.WF) (hn : 0 ≤ A.n) {b : Int} (hb0 : 0 ≤ b + 1) (hb : b < A.b) :
    ∃ A', A.realloc b = some A' ∧ A'.WF ∧ A'.n = A.n ∧ A'.b = b ∧ ∀ i j, A'.ent i j = if j - i ≤ b then A.ent i j else 0 := by
  have hs : ((callocB (A.n * (b + 1)) : Buf K).size : Int) = A.n * (b + 1) := Int.toNat_of_nonneg (Int.mul_nonneg hn (by omega))
  obtain ⟨D', e, hsz, hin, hout⟩ := copy_spec (n := A.n) (w := b + 1) (S := A.D) (D := callocB (A.n * (b + 1))) (f := fun i j => i + j * (b + 1))
    (g := fun i j => A.o + (i + A.b - b + j * (A.b + 1)))
    (fun i j i0 i1 j0 j1 => by
      have := slot_lt (n := A.n) (w := A.b + 1) (q := i + A.b - b) (j := j) (by omega) (by omega) j0 j1
      have := h.1; have := h.2; omega)
    (fun i j i0 i1 j0 j1 => by
      have := slot_lt i0 i1 j0 j1
      rw [hs]; omega)
    (fun i j i' j' i0 i1 j0 j1 i0' i1' j0' j1' he => slot_inj i0 i1 i0' i1' he)
  refine ⟨⟨0, A.n, b, D'⟩, ?_, ⟨le_refl _, ?_⟩, rfl, rfl, fun i j => ?_⟩
  · unfold TB.realloc
    rw [if_neg (by omega), if_pos hb, e]; rfl
  · simp only [hsz, hs]; omega
  · by_cases hI : (⟨0, A.n, b, D'⟩ : TB K).InBand i j
    · rw [ent, if_pos hI]
      unfold InBand at hI
      simp only at hI
      have hI' : A.InBand i j := by unfold InBand; omega
      rw [if_pos (by omega), ent, if_pos hI', slot_eq, slot_eq]
      have := hin (b + i - j) j (by omega) (by omega) (by omega) (by omega)
      simp only [zero_add]
      rw [this]
      congr 1
      omega
    · rw [ent, if_neg hI]
      split_ifs with hd
      · rw [ent, if_neg]
        intro hI'
        apply hI
        unfold InBand at *
        simp only
        omega
      · rfl

theorem TB.ent_view (A : TB K) {s t : Int} (h0 : 0 ≤ s) (h1 : t ≤ A.n) {i j : Int} (i0 : 0 ≤ i) (j0 : 0 ≤ j) (ht : i < t - s) (jt : j < t - s) :
    (A.view s t).ent i j = A.ent (i + s) (j + s) := by
  have hI : (A.view s t).InBand i j ↔ A.InBand (i + s) (j + s) := by
    unfold InBand TB.view; simp only; omega
  unfold ent
  by_cases hb : (A.view s t).InBand i j
  · rw [if_pos hb, if_pos (hI.1 hb), slot_eq, slot_eq]
    show A.D.val _ = A.D.val _
    congr 1
    unfold TB.view
    simp only
    ring
  · rw [if_neg hb, if_neg (mt hI.2 hb)]

omit [Zero K] in
theorem TB.view_slot (A : TB K) (s t i j : Int) : (A.view s t).slot i j = A.slot (i + s) (j + s) := by
  rw [slot_eq, slot_eq]; unfold TB.view; simp only; ring

omit [Zero K] in
theorem TB.view_wf (h : A.WF) (hb : 0 ≤ A.b + 1) {s t : Int} (h0 : 0 ≤ s) (hst : s ≤ t) (h1 : t ≤ A.n) : (A.view s t).WF := by
  have a := h.1
  have b := h.2
  have c : 0 ≤ s * (A.b + 1) := Int.mul_nonneg h0 hb
  have d : t * (A.b + 1) ≤ A.n * (A.b + 1) := Int.mul_le_mul_of_nonneg_right h1 hb
  refine ⟨?_, ?_⟩ <;> unfold TB.view <;> simp only
  · omega
  · have : (t - s) * (A.b + 1) = t * (A.b + 1) - s * (A.b + 1) := by ring
    omega

theorem TB.ent_toBanded (A : TB K) (ho : A.o = 0) (i j : Int) : A.toBanded.ent i j = A.ent i j := by
  have hI : A.toBanded.InBand i j ↔ A.InBand i j := by unfold Banded.InBand InBand TB.toBanded; simp only; omega
  unfold Banded.ent ent
  by_cases hb : A.InBand i j
  · rw [if_pos hb, if_pos (hI.2 hb)]
    show A.D.val _ = A.D.val _
    congr 1
    unfold slot TB.toBanded
    simp only [ho]
    ring
  · rw [if_neg hb, if_neg (mt hI.1 hb)]

theorem Banded.toTB_ok {A : Banded K} (h : A.WF) (hn : 0 ≤ A.n) (hm : A.m = A.n) (hu : 0 ≤ A.u + 1) (hw : 0 ≤ A.l + A.u + 1) :
    ∃ T, A.toTB = some T ∧ T.WF ∧ T.n = A.n ∧ T.b = A.u ∧ ∀ i j, T.ent i j = if i ≤ j then A.ent i j else 0 := by
  unfold Banded.toTB
  by_cases hl : A.l = 0
  · rw [if_pos hl]
    refine ⟨_, rfl, ⟨le_refl _, ?_⟩, rfl, rfl, fun i j => ?_⟩
    · unfold WF at h
      rw [hl] at h
      simp only [zero_add] at *
      exact h
    · have hI : (⟨0, A.n, A.u, A.D⟩ : TB K).InBand i j ↔ i ≤ j ∧ A.InBand i j := by
        unfold InBand TB.InBand; simp only; omega
      by_cases hb : (⟨0, A.n, A.u, A.D⟩ : TB K).InBand i j
      · rw [TB.ent, if_pos hb, if_pos (hI.1 hb).1, ent, if_pos (hI.1 hb).2]
        unfold TB.slot
        simp only [hl]
        congr 1; ring
      · rw [TB.ent, if_neg hb]
        split_ifs with hij
        · rw [ent, if_neg fun hc => hb (hI.2 ⟨hij, hc⟩)]
        · rfl
  · rw [if_neg hl]
    have hs : ((callocB ((A.u + 1) * A.n) : Buf K).size : Int) = A.n * (A.u + 1) := by
      rw [mul_comm]; exact Int.toNat_of_nonneg (Int.mul_nonneg hn (by omega))
    obtain ⟨D', e, hsz, hin, hout⟩ := copy_spec (n := A.n) (w := A.u + 1 + min 0 A.l) (S := A.D) (D := callocB ((A.u + 1) * A.n)) (f := fun i j => i + j * (A.u + 1))
      (g := fun i j => i + j * (A.l + A.u + 1))
      (fun i j i0 i1 j0 j1 => by
        have := slot_lt (n := A.n) (w := A.l + A.u + 1) (q := i) (j := j) (by omega) (by omega) j0 j1
        unfold WF at h; omega)
      (fun i j i0 i1 j0 j1 => by
        have := slot_lt (n := A.n) (w := A.u + 1) (q := i) (j := j) (by omega) (by omega) j0 j1
        rw [hs]; omega)
      (fun i j i' j' i0 i1 j0 j1 i0' i1' j0' j1' he => slot_inj i0 (by omega) i0' (by omega) he)
    rw [e]
    refine ⟨_, rfl, ⟨le_refl _, ?_⟩, rfl, rfl, fun i j => ?_⟩
    · simp only [hsz, hs]; omega
    · by_cases hb : (⟨0, A.n, A.u, D'⟩ : TB K).InBand i j
      · rw [TB.ent, if_pos hb, TB.slot_eq]
        unfold TB.InBand at hb
        simp only [zero_add] at hb ⊢
        rw [if_pos (by omega)]
        by_cases hq : A.InBand i j
        · rw [ent, if_pos hq, Banded.slot_eq]
          unfold InBand at hq
          exact hin (A.u + i - j) j (by omega) (by omega) (by omega) (by omega)
        · rw [ent, if_neg hq]
          refine (hout _ fun i2 j2 a1 a2 a3 a4 hne => ?_).trans rfl
          have := slot_inj (w := A.u + 1) (q := A.u + i - j) (q' := i2) (by omega) (by omega) (by omega) (by omega) hne
          apply hq
          unfold InBand
          omega
      · rw [TB.ent, if_neg hb]
        split_ifs with hij
        · rw [ent, if_neg]
          intro hc
          apply hb
          unfold InBand TB.InBand at *
          simp only
          omega
        · rfl

end

end FT
