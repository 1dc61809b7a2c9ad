import Verif.Lemmas.HeapSpec
/-
C42: views of triangular banded matrices.
-/
namespace FT.Props.C42
open FT.Heap

/-- `X(view_triangular_banded)`: the view is a new block whose data are those of the matrix from column `start` on (the columns have `b+1` entries), with `stop - start`
columns and the same bandwidth; nothing else changes, and freeing the view gives the heap from before, the matrix with its data included. -/
theorem C42_view (start stop b oa : Int) (ia da : Nat) (ca : Cell) (h : Heap) (hw : h.WF)
    (ma : h.cell ia = some ca) (fd : ca.val (.fld .data) = .ptr da oa) (fb : ca.val (.fld .b) = .int b) :
    ∃ i c h1 h2, viewTB (.ptr ia 0) start stop h = some (.ptr i 0, h1) ∧ h.cell i = none ∧ h1.cell i = some c ∧
      c.val (.fld .data) = .ptr da (oa + start * (b + 1)) ∧ c.val (.fld .n) = .int (stop - start) ∧
      c.val (.fld .b) = .int b ∧ (∀ j, j ≠ i → h1.cell j = h.cell j) ∧
      free (.ptr i 0) h1 = some ((), h2) ∧ h2.cell = h.cell := by
  obtain ⟨R, S⟩ := sat_of_wf hw
  have mR := (S.cell ia ca).1 ma
  suffices H : WP (viewTB (.ptr ia 0) start stop) h fun p h1 => ∃ i c, p = .ptr i 0 ∧ Sat h1 ({(i, c)} + R) ∧ c.tag = .libc ∧
      c.val (.fld .data) = .ptr da (oa + start * (b + 1)) ∧ c.val (.fld .n) = .int (stop - start) ∧ c.val (.fld .b) = .int b by
    obtain ⟨p, h1, e, i, c, rfl, S1, tc, d, n, bb⟩ := H
    obtain ⟨_, h2, e2, r⟩ := wp_free' (Q := fun _ h2 => h2.cell = h.cell) S1 rfl tc fun h' S2 => S.unique S2
    have off : ∀ j, j ≠ i → h1.cell j = h.cell j := fun j hj => Option.ext fun x => by
      rw [S1.cell, S.cell, Multiset.mem_add, Multiset.mem_singleton]
      exact ⟨fun H => H.resolve_left fun E => hj (congrArg Prod.fst E), Or.inr⟩
    refine ⟨i, c, h1, h2, e, Option.eq_none_iff_forall_ne_some.2 fun c' E => S1.notin c' ((S.cell _ _).1 E), S1.get, d, n, bb, off, e2, r⟩
  unfold viewTB
  hss
  exact wp_pure ⟨_, _, rfl, by assumption, by tg, by getv, by getv, by getv⟩

/-- A heap holding a matrix with 5 columns and bandwidth 2. -/
def heap5 : Heap := ⟨2, fun i => match i with
  | 0 => some ⟨.libc, 1, fun k => match k with
    | .fld .data => .ptr 1 0
    | .fld .n => .int 5
    | .fld .b => .int 2
    | _ => .junk⟩
  | 1 => some ⟨.libc, 15, fun _ => .int 0⟩
  | _ => none⟩

/-- The view of the columns 2 to 4: the data start 6 entries further on. -/
example : ∃ i c h1, viewTB (.ptr 0 0) 2 5 heap5 = some (.ptr i 0, h1) ∧ h1.cell i = some c ∧
    c.val (.fld .data) = .ptr 1 6 ∧ c.val (.fld .n) = .int 3 := by
  obtain ⟨i, c, h1, h2, e, _, f, g, k, _⟩ := C42_view 2 5 2 0 0 1 _ heap5
    (fun i hi => match i, hi with | _ + 2, _ => rfl) rfl rfl rfl
  exact ⟨i, c, h1, e, f, g, k⟩

end FT.Props.C42
