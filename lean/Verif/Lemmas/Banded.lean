import Verif.Model.Banded
import Verif.Lemmas.Accum

/-! # Lemmas on banded storage -/

namespace FT
variable {K : Type*}

theorem slot_lt {n w q j : Int} (q0 : 0 ≤ q) (qw : q < w) (j0 : 0 ≤ j) (jn : j < n) : 0 ≤ q + j * w ∧ q + j * w < n * w := by
  have h1 : (j + 1) * w ≤ n * w := Int.mul_le_mul_of_nonneg_right (by omega) (by omega)
  have h2 : (j + 1) * w = j * w + w := by ring
  have h3 : 0 ≤ j * w := Int.mul_nonneg j0 (by omega)
  omega

theorem slot_inj {w q j q' j' : Int} (q0 : 0 ≤ q) (qw : q < w) (q0' : 0 ≤ q') (qw' : q' < w) (h : q + j * w = q' + j' * w) : q = q' ∧ j = j' := by
  have hw : 0 < w := by omega
  have e1 : (q + j * w) / w = j := by rw [Int.add_mul_ediv_right _ _ hw.ne', Int.ediv_eq_zero_of_lt q0 qw, zero_add]
  have e2 : (q' + j' * w) / w = j' := by rw [Int.add_mul_ediv_right _ _ hw.ne', Int.ediv_eq_zero_of_lt q0' qw', zero_add]
  have : j = j' := by rw [← e1, ← e2, h]
  subst this
  exact ⟨by omega, rfl⟩

namespace Banded

/-- The allocation is large enough (as made by `malloc_banded`, `calloc_banded`). -/
def WF (A : Banded K) : Prop := A.n * (A.l + A.u + 1) ≤ A.D.size

def ent [Zero K] (A : Banded K) (i j : Int) : K := if A.InBand i j then A.D.val (A.u + i + j * (A.l + A.u)) else 0

variable {A B C : Banded K} {i j i' j' : Int} {v : K}

theorem slot_eq (A : Banded K) (i j : Int) : A.u + i + j * (A.l + A.u) = (A.u + i - j) + j * (A.l + A.u + 1) := by ring

theorem slot_in (h : A.WF) (hb : A.InBand i j) : 0 ≤ A.u + i + j * (A.l + A.u) ∧ A.u + i + j * (A.l + A.u) < A.D.size := by
  unfold InBand at hb
  unfold WF at h
  rw [slot_eq]
  have := slot_lt (n := A.n) (w := A.l + A.u + 1) (q := A.u + i - j) (j := j) (by omega) (by omega) (by omega) (by omega)
  omega

theorem get_eq [Zero K] (h : A.WF) (i j : Int) : A.get i j = some (A.ent i j) := by
  unfold get ent
  by_cases hb : A.InBand i j
  · rw [if_pos hb, if_pos hb, Buf.rd_of (slot_in h hb).1 (slot_in h hb).2]
  · rw [if_neg hb, if_neg hb]

/-- Same dimensions. -/
def SameDim (A B : Banded K) : Prop := A.m = B.m ∧ A.n = B.n ∧ A.l = B.l ∧ A.u = B.u

theorem SameDim.inBand (h : SameDim A B) : A.InBand i j ↔ B.InBand i j := by
  obtain ⟨h1, h2, h3, h4⟩ := h
  unfold InBand; rw [h1, h2, h3, h4]

theorem set_out (hb : ¬ A.InBand i j) : A.set v i j = some A := if_neg hb

theorem set_in [Zero K] (h : A.WF) (hb : A.InBand i j) : ∃ A', A.set v i j = some A' ∧ A'.WF ∧ SameDim A' A ∧ A'.D.size = A.D.size ∧
    ∀ i' j', A'.ent i' j' = if i' = i ∧ j' = j then v else A.ent i' j' := by
  have hs := slot_in h hb
  refine ⟨⟨A.m, A.n, A.l, A.u, A.D.size, Function.update A.D.val (A.u + i + j * (A.l + A.u)) v⟩, ?_, h, ⟨rfl, rfl, rfl, rfl⟩, rfl, fun i' j' => ?_⟩
  · unfold set
    rw [if_pos hb, Buf.wr_of hs.1 hs.2]; rfl
  · by_cases hb' : A.InBand i' j'
    · refine (if_pos hb').trans ?_
      show Function.update A.D.val (A.u + i + j * (A.l + A.u)) v (A.u + i' + j' * (A.l + A.u)) = _
      by_cases he : i' = i ∧ j' = j
      · rw [if_pos he, he.1, he.2, Function.update_self]
      · rw [if_neg he, Function.update_of_ne, ent, if_pos hb']
        intro hne
        rw [slot_eq, slot_eq] at hne
        unfold InBand at hb hb'
        have := slot_inj (by omega) (by omega) (by omega) (by omega) hne
        omega
    · refine (if_neg hb').trans ?_
      by_cases he : i' = i ∧ j' = j
      · exfalso; apply hb'; rw [he.1, he.2]; exact hb
      · rw [if_neg he, ent, if_neg hb']

end Banded

open Banded
open Classical in
/-- `C` is `C0` with the entries in `S` replaced by `y`. -/
structure Upd [Zero K] (C0 C : Banded K) (S : Int → Int → Prop) (y : Int → Int → K) : Prop where
  wf : C.WF
  dim : SameDim C C0
  ent : ∀ i j, C.ent i j = if S i j then y i j else C0.ent i j

section
variable [Zero K] {C0 C : Banded K} {S : Int → Int → Prop} {y : Int → Int → K}

theorem Upd.refl (h : C0.WF) (hS : ∀ i j, ¬ S i j) : Upd C0 C0 S y := ⟨h, ⟨rfl, rfl, rfl, rfl⟩, fun i j => (if_neg (hS i j)).symm⟩

theorem Upd.congr {T : Int → Int → Prop} (h : Upd C0 C S y) (hT : ∀ i j, S i j ↔ T i j) : Upd C0 C T y :=
  ⟨h.wf, h.dim, fun i j => by rw [h.ent]; by_cases hs : S i j
                              · rw [if_pos hs, if_pos ((hT i j).1 hs)]
                              · rw [if_neg hs, if_neg (mt (hT i j).2 hs)]⟩

theorem Upd.set (h : Upd C0 C S y) {i j : Int} (hb : C0.InBand i j) : ∃ C', C.set (y i j) i j = some C' ∧ Upd C0 C' (fun a b => S a b ∨ (a = i ∧ b = j)) y := by
  obtain ⟨C', e, w, d, -, g⟩ := Banded.set_in (v := y i j) h.wf (h.dim.inBand.2 hb)
  refine ⟨C', e, w, ⟨d.1.trans h.dim.1, d.2.1.trans h.dim.2.1, d.2.2.1.trans h.dim.2.2.1, d.2.2.2.trans h.dim.2.2.2⟩, fun a b => ?_⟩
  rw [g, h.ent]
  by_cases he : a = i ∧ b = j
  · rw [if_pos he, if_pos (Or.inr he), he.1, he.2]
  · rw [if_neg he]
    by_cases hs : S a b
    · rw [if_pos hs, if_pos (Or.inl hs)]
    · rw [if_neg hs, if_neg (by tauto)]

/-- One column, rows `lo … hi-1`. -/
theorem Upd.col (h : Upd C0 C S y) {lo hi j : Int} {f : Int → Banded K → Option K} (hb : ∀ i, lo ≤ i → i < hi → C0.InBand i j)
    (hf : ∀ i C, lo ≤ i → i < hi → Upd C0 C (fun a b => S a b ∨ (b = j ∧ lo ≤ a ∧ a < i)) y → f i C = some (y i j)) :
    ∃ C', forUp lo hi (fun i C => (f i C).bind fun v => C.set v i j) C = some C' ∧ Upd C0 C' (fun a b => S a b ∨ (b = j ∧ lo ≤ a ∧ a < hi)) y := by
  obtain ⟨C', e, p⟩ := forUp_spec (body := fun i C => (f i C).bind fun v => C.set v i j) (lo := lo) (hi := hi) (s := C)
    (fun i C => Upd C0 C (fun a b => S a b ∨ (b = j ∧ lo ≤ a ∧ a < i)) y) (h.congr fun a b => by constructor <;> [exact Or.inl; rintro (h | h)] <;> [exact h; omega])
    (fun i l u C p => by
      obtain ⟨C', e, p'⟩ := p.set (hb i l u)
      refine ⟨C', by simp only [hf i C l u p, Option.bind_some, e], p'.congr fun a b => ?_⟩
      rw [or_assoc]
      apply or_congr_right
      omega)
  refine ⟨C', e, p.congr fun a b => or_congr_right ?_⟩
  omega

/-- All columns. -/
theorem Upd.cols {n : Int} {body : Int → Banded K → Option (Banded K)} {R : Int → Int → Prop}
    (h0 : C0.WF) (hbody : ∀ j C, 0 ≤ j → j < n → Upd C0 C (fun a b => 0 ≤ b ∧ b < j ∧ R a b) y → ∃ C', body j C = some C' ∧ Upd C0 C' (fun a b => 0 ≤ b ∧ b < j + 1 ∧ R a b) y) :
    ∃ C', forUp 0 n body C0 = some C' ∧ Upd C0 C' (fun a b => 0 ≤ b ∧ b < n ∧ R a b) y := by
  obtain ⟨C', e, p⟩ := forUp_spec (body := body) (lo := 0) (hi := n) (s := C0) (fun j C => Upd C0 C (fun a b => 0 ≤ b ∧ b < j ∧ R a b) y)
    (Upd.refl h0 fun i j => by omega) (fun j l u C p => hbody j C l u p)
  refine ⟨C', e, p.congr fun a b => ?_⟩
  rw [show (0 ≤ b ∧ b < max 0 n ∧ R a b) ↔ (0 ≤ b ∧ b < n) ∧ R a b by rw [← and_assoc]; apply and_congr_left; omega, and_assoc]

end

end FT
