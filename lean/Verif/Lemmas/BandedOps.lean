import Verif.Lemmas.Banded

/-! # Lemmas on the banded matrix operations -/

namespace FT
variable {K : Type*} [CommRing K]
open Banded

theorem mix_update {x : Buf K} {i : Int} {y : Int → K} {v : K} (h0 : 0 ≤ i) (h : v = y i) :
    (⟨(mix x 0 i y).size, Function.update (mix x 0 i y).val i v⟩ : Buf K) = mix x 0 (i + 1) y := by
  subst h
  refine Buf.ext' rfl fun j => ?_
  show Function.update (mix x 0 i y).val i (y i) j = (mix x 0 (i + 1) y).val j
  by_cases hj : j = i
  · subst hj; rw [Function.update_self]; exact (if_pos (by omega)).symm
  · rw [Function.update_of_ne hj]; unfold mix; simp only; split_ifs <;> first | rfl | omega

theorem ent_zero {A : Banded K} {i j : Int} (h : ¬ A.InBand i j) : A.ent i j = 0 := if_neg h

/-- The sum over the band is the full sum. -/
theorem band_sum {A : Banded K} {i : Int} (f : Int → K) :
    ∑ j ∈ Finset.Ico (max 0 (i - A.l)) (min A.n (i + A.u + 1)), A.ent i j * f j = ∑ j ∈ Finset.Ico 0 A.n, A.ent i j * f j := by
  apply Finset.sum_subset
  · intro k hk; rw [Finset.mem_Ico] at *; omega
  · intro k hk hk'
    rw [Finset.mem_Ico] at *
    rw [ent_zero, zero_mul]
    unfold InBand; omega

theorem gbmv_eq {alpha beta : K} {A : Banded K} {x y : Buf K} (hA : A.WF) (hm : 0 ≤ A.m) (hx : A.n ≤ x.size) (hy : A.m ≤ y.size) :
    gbmv alpha A x beta y = some (mix y 0 A.m fun i => alpha * (∑ j ∈ Finset.Ico 0 A.n, A.ent i j * x.val j) + beta * y.val i) := by
  unfold gbmv
  rw [sweepUp_eq (fun i => beta * y.val i) (le_refl _) hy fun i i0 i1 => by
    rw [Buf.rd_of i0 (by rw [mix_size]; omega), mix_val_out (by omega)]; rfl]
  simp only [Option.bind_some]
  set y' := mix y 0 A.m fun i => beta * y.val i with hy'
  obtain ⟨Z, e, p⟩ := forUp_spec (body := fun i => forUp (max 0 (i - A.l)) (min A.n (i + A.u + 1)) fun j y =>
      (y.rd i).bind fun v => (A.get i j).bind fun a => (x.rd j).bind fun w => y.wr i (v + alpha * a * w)) (lo := 0) (hi := A.m) (s := y')
    (fun I Z => Z = mix y' 0 I fun i => alpha * (∑ j ∈ Finset.Ico 0 A.n, A.ent i j * x.val j) + beta * y.val i)
    (mix_empty _ (le_refl _) _).symm
    (fun i i0 i1 Z hZ => by
      subst hZ
      refine ⟨_, accAt (i := i) (g := fun j => alpha * A.ent i j * x.val j) fun j Y j0 j1 hY => ?_, mix_update i0 ?_⟩
      · have hs : i < (Y.size : Int) := by rw [hY, mix_size, hy', mix_size]; omega
        simp only [Buf.rd_of i0 hs, get_eq hA, Buf.rd_of (b := x) (i := j) (by omega) (by omega), Option.bind_some, Buf.wr_of i0 hs]
      · rw [mix_val_out (by omega), hy', mix_val_in i0 i1, add_comm, ← band_sum, Finset.mul_sum]
        congr 1
        exact Finset.sum_congr rfl fun j _ => by ring)
  rw [e, p, max_eq_right hm]
  congr 1
  refine Buf.ext' rfl fun j => ?_
  unfold mix
  simp only [hy', mix]
  split_ifs <;> rfl

theorem gbmm_eq {alpha beta : K} {A B C : Banded K} (hA : A.WF) (hB : B.WF) (hC : C.WF) (h1 : C.m = A.m) (h2 : B.m = A.n) (h3 : C.n = B.n)
    (h4 : A.l + B.l ≤ C.l) (h5 : A.u + B.u ≤ C.u) :
    ∃ C', gbmm alpha A B beta C = some C' ∧ C'.WF ∧ SameDim C' C ∧
      ∀ i j, 0 ≤ i → i < C.m → 0 ≤ j → j < C.n → C'.ent i j = alpha * (∑ k ∈ Finset.Ico 0 A.n, A.ent i k * B.ent k j) + beta * C.ent i j := by
  unfold gbmm
  rw [if_neg (by omega), if_neg (by omega)]
  obtain ⟨C', e, p⟩ := Upd.cols (C0 := C) (n := B.n) (y := fun i j => alpha * (∑ k ∈ Finset.Ico 0 A.n, A.ent i k * B.ent k j) + beta * C.ent i j)
    (R := fun a b => max 0 (b - C.u) ≤ a ∧ a < min A.m (b + C.l + 1))
    (body := fun j => forUp (max 0 (j - C.u)) (min A.m (j + C.l + 1)) fun i C =>
      (accUp (max (max 0 (i - A.l)) (j - B.u)) (min (min A.n (i + A.u + 1)) (j + B.l + 1)) 0 fun k =>
        (A.get i k).bind fun a => (B.get k j).map fun b => a * b).bind fun ab =>
      (C.get i j).bind fun c => C.set (alpha * ab + beta * c) i j) hC
    (fun j C1 j0 j1 p => by
      obtain ⟨C', e, q⟩ := p.col (lo := max 0 (j - C.u)) (hi := min A.m (j + C.l + 1)) (j := j)
        (f := fun i C => (accUp (max (max 0 (i - A.l)) (j - B.u)) (min (min A.n (i + A.u + 1)) (j + B.l + 1)) 0 fun k =>
          (A.get i k).bind fun a => (B.get k j).map fun b => a * b).bind fun ab => (C.get i j).bind fun c => some (alpha * ab + beta * c))
        (fun i a b => by unfold InBand; omega)
        (fun i C2 a b u => by
          rw [accUp_eq (g := fun k => A.ent i k * B.ent k j) fun k _ _ => by rw [get_eq hA, get_eq hB]; rfl, Option.bind_some, get_eq u.wf, Option.bind_some, u.ent, if_neg (by omega), zero_add]
          congr 3
          apply Finset.sum_subset
          · intro k hk; rw [Finset.mem_Ico] at *; omega
          · intro k hk hk'
            rw [Finset.mem_Ico] at *
            by_cases hh : A.InBand i k
            · rw [ent_zero (A := B), mul_zero]
              unfold InBand at *; omega
            · rw [ent_zero hh, zero_mul])
      refine ⟨C', ?_, q.congr fun a b => ?_⟩
      · rw [← e]
        refine forUp_congr fun i _ _ s => ?_
        simp only [Option.bind_assoc, Option.bind_some]
      · constructor
        · rintro (⟨x0, x1, x2⟩ | ⟨rfl, x1, x2⟩)
          · exact ⟨x0, by omega, x2⟩
          · exact ⟨j0, by omega, x1, x2⟩
        · rintro ⟨x0, x1, x2⟩
          by_cases hb : b = j
          · subst hb; exact Or.inr ⟨rfl, x2.1, x2.2⟩
          · exact Or.inl ⟨x0, by omega, x2⟩)
  refine ⟨C', e, p.wf, p.dim, fun i j i0 i1 j0 j1 => ?_⟩
  rw [p.ent]
  split_ifs with hs
  · rfl
  · have hz : C.ent i j = 0 := ent_zero (by unfold InBand; omega)
    rw [hz, mul_zero, add_zero]
    rw [Finset.sum_eq_zero, mul_zero]
    intro k hk
    rw [Finset.mem_Ico] at hk
    by_cases hh : A.InBand i k
    · rw [ent_zero (A := B), mul_zero]
      unfold InBand at *; omega
    · rw [ent_zero hh, zero_mul]

/-- Full columns of a banded matrix, `i` from `max(0, j-u)` to `min(m, j+l+1)`, with `f` depending on the old entry only. -/
theorem fill_eq {C : Banded K} (hC : C.WF) {y : Int → Int → K} {f : Int → Int → Banded K → Option K}
    (hf : ∀ i j C1, 0 ≤ i → i < C.m → 0 ≤ j → j < C.n → C1.WF → SameDim C1 C → C1.ent i j = C.ent i j → f i j C1 = some (y i j))
    (hz : ∀ i j, 0 ≤ i → i < C.m → 0 ≤ j → j < C.n → ¬ C.InBand i j → y i j = 0) :
    ∃ C', forUp 0 C.n (fun j => forUp (max 0 (j - C.u)) (min C.m (j + C.l + 1)) fun i C => (f i j C).bind fun v => C.set v i j) C = some C' ∧ C'.WF ∧ SameDim C' C ∧
      ∀ i j, 0 ≤ i → i < C.m → 0 ≤ j → j < C.n → C'.ent i j = y i j := by
  obtain ⟨C', e, p⟩ := Upd.cols (C0 := C) (n := C.n) (y := y)
    (R := fun a b => max 0 (b - C.u) ≤ a ∧ a < min C.m (b + C.l + 1))
    (body := fun j => forUp (max 0 (j - C.u)) (min C.m (j + C.l + 1)) fun i C => (f i j C).bind fun v => C.set v i j) hC
    (fun j C1 j0 j1 p => by
      obtain ⟨C', e, q⟩ := p.col (lo := max 0 (j - C.u)) (hi := min C.m (j + C.l + 1)) (j := j) (f := fun i C => f i j C)
        (fun i a b => by unfold InBand; omega)
        (fun i C2 a b u => hf i j C2 (by omega) (by omega) j0 j1 u.wf u.dim (by rw [u.ent, if_neg (by omega)]))
      refine ⟨C', e, q.congr fun a b => ?_⟩
      constructor
      · rintro (⟨x0, x1, x2⟩ | ⟨rfl, x1, x2⟩)
        · exact ⟨x0, by omega, x2⟩
        · exact ⟨j0, by omega, x1, x2⟩
      · rintro ⟨x0, x1, x2⟩
        by_cases hb : b = j
        · subst hb; exact Or.inr ⟨rfl, x2.1, x2.2⟩
        · exact Or.inl ⟨x0, by omega, x2⟩)
  refine ⟨C', e, p.wf, p.dim, fun i j i0 i1 j0 j1 => ?_⟩
  rw [p.ent]
  split_ifs with hs
  · rfl
  · have hb : ¬ C.InBand i j := by unfold InBand; omega
    rw [ent_zero hb, hz i j i0 i1 j0 j1 hb]

theorem bandedAdd_eq {alpha beta : K} {A B C : Banded K} (hA : A.WF) (hB : B.WF) (hC : C.WF) (h1 : A.m = C.m) (h2 : B.m = C.m) (h3 : A.n = C.n) (h4 : B.n = C.n)
    (h5 : A.l ≤ C.l) (h6 : B.l ≤ C.l) (h7 : A.u ≤ C.u) (h8 : B.u ≤ C.u) :
    ∃ C', bandedAdd alpha A beta B C = some C' ∧ C'.WF ∧ SameDim C' C ∧
      ∀ i j, 0 ≤ i → i < C.m → 0 ≤ j → j < C.n → C'.ent i j = alpha * A.ent i j + beta * B.ent i j := by
  unfold bandedAdd
  rw [if_neg (by omega), if_neg (by omega)]
  obtain ⟨C', e, r⟩ := fill_eq hC (y := fun i j => alpha * A.ent i j + beta * B.ent i j)
    (f := fun i j _ => (A.get i j).bind fun a => (B.get i j).bind fun b => some (alpha * a + beta * b))
    (fun i j C1 _ _ _ _ _ _ _ => by rw [get_eq hA, get_eq hB]; rfl)
    (fun i j i0 i1 j0 j1 hb => by
      rw [ent_zero (A := A), ent_zero (A := B), mul_zero, mul_zero, add_zero] <;> (unfold InBand at *; omega))
  refine ⟨C', ?_, r⟩
  rw [← e]
  refine forUp_congr fun j _ _ s => forUp_congr fun i _ _ s => ?_
  simp only [Option.bind_assoc, Option.bind_some]

theorem bandedAddIn_eq {alpha beta : K} {B C : Banded K} (hB : B.WF) (hC : C.WF) (h2 : B.m = C.m) (h4 : B.n = C.n) (h6 : B.l ≤ C.l) (h8 : B.u ≤ C.u) :
    ∃ C', bandedAddIn alpha beta B C = some C' ∧ C'.WF ∧ SameDim C' C ∧
      ∀ i j, 0 ≤ i → i < C.m → 0 ≤ j → j < C.n → C'.ent i j = alpha * C.ent i j + beta * B.ent i j := by
  unfold bandedAddIn
  rw [if_neg (by omega), if_neg (by omega)]
  obtain ⟨C', e, r⟩ := fill_eq hC (y := fun i j => alpha * C.ent i j + beta * B.ent i j)
    (f := fun i j C => (C.get i j).bind fun a => (B.get i j).bind fun b => some (alpha * a + beta * b))
    (fun i j C1 _ _ _ _ w _ h => by rw [get_eq w, get_eq hB, h]; rfl)
    (fun i j i0 i1 j0 j1 hb => by
      rw [ent_zero (A := B), ent_zero hb, mul_zero, mul_zero, add_zero]; (unfold InBand at *; omega))
  refine ⟨C', ?_, r⟩
  rw [← e]
  refine forUp_congr fun j _ _ s => forUp_congr fun i _ _ s => ?_
  simp only [Option.bind_assoc, Option.bind_some]

theorem scalingAdd_eq {alpha beta : K} {A : Banded K} (hA : A.WF) (hm : A.m = A.n) (hl : 0 ≤ A.l) (hu : 0 ≤ A.u) :
    ∃ A', scalingAdd alpha A beta = some A' ∧ A'.WF ∧ SameDim A' A ∧
      ∀ i j, 0 ≤ i → i < A.n → 0 ≤ j → j < A.n → A'.ent i j = alpha * A.ent i j + if i = j then beta else 0 := by
  unfold scalingAdd
  rw [if_neg (by omega)]
  obtain ⟨C', e, p⟩ := Upd.cols (C0 := A) (n := A.n) (y := fun i j => alpha * A.ent i j + if i = j then beta else 0)
    (R := fun a b => max 0 (b - A.u) ≤ a ∧ a < min A.m (b + A.l + 1))
    (body := fun j A => (forUp (max 0 (j - A.u)) j (fun i A => (A.get i j).bind fun v => A.set (alpha * v) i j) A).bind fun A =>
      ((A.get j j).bind fun v => A.set (alpha * v + beta) j j).bind fun A =>
      forUp (j + 1) (min A.m (j + A.l + 1)) (fun i A => (A.get i j).bind fun v => A.set (alpha * v) i j) A) hA
    (fun j C1 j0 j1 p => by
      obtain ⟨C2, e2, q2⟩ := p.col (lo := max 0 (j - A.u)) (hi := j) (j := j) (f := fun i C => (C.get i j).bind fun v => some (alpha * v))
        (fun i a b => by unfold InBand; omega)
        (fun i C2 a b u => by rw [get_eq u.wf, u.ent, if_neg (by omega), if_neg (by omega)]; simp)
      obtain ⟨C3, e3, q3⟩ := q2.set (i := j) (j := j) (by unfold InBand; omega)
      obtain ⟨C4, e4, q4⟩ := q3.col (lo := j + 1) (hi := min A.m (j + A.l + 1)) (j := j) (f := fun i C => (C.get i j).bind fun v => some (alpha * v))
        (fun i a b => by unfold InBand; omega)
        (fun i C2 a b u => by rw [get_eq u.wf, u.ent, if_neg (by omega), if_neg (by omega)]; simp)
      simp only [Option.bind_assoc, Option.bind_some] at e2 e4
      refine ⟨C4, ?_, q4.congr fun a b => ?_⟩
      · simp only [p.dim.2.2.2, e2, Option.bind_some, get_eq q2.wf]
        rw [q2.ent, if_neg (by omega)]
        simp only [if_true] at e3
        simp only [e3, Option.bind_some, q3.dim.1, q3.dim.2.2.1]
        exact e4
      · by_cases hb : b = j
        · subst hb; omega
        · omega)
  refine ⟨C', e, p.wf, p.dim, fun i j i0 i1 j0 j1 => ?_⟩
  rw [p.ent]
  split_ifs with hs h h
  · rfl
  · rfl
  · exfalso; omega
  · have hb : ¬ A.InBand i j := by unfold InBand; omega
    rw [ent_zero hb, mul_zero, add_zero]

end FT
