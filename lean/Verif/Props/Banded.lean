import Verif.Lemmas.BandedTB
import Verif.Lemmas.BandedTri
import Verif.Lemmas.BandedClenshaw
import Mathlib.Tactic.NormNum

/-!
# C14-C17 and the operator part of C31: banded matrices

The specification of a banded matrix is the function from indices to entries that the accessor `get` shows: `Stores A m n l u a`.
Storage offsets do not appear in the statements.
-/

namespace FT.Props
open FT
variable {K : Type*}

/-- The band of an `m × n` matrix with `l` subdiagonals and `u` superdiagonals. -/
def band (m n l u i j : Int) : Prop := (0 ≤ i ∧ i < m) ∧ (0 ≤ j ∧ j < n) ∧ j ≤ i + u ∧ i ≤ j + l

instance (m n l u i j : Int) : Decidable (band m n l u i j) := by unfold band; infer_instance

/-- `A` has the given dimensions, its array is at least as long as the allocation the library makes, and every read - inside or
outside of the band and of the matrix - succeeds and gives `a i j`. -/
structure Stores [Zero K] (A : Banded K) (m n l u : Int) (a : Int → Int → K) : Prop where
  dims : A.m = m ∧ A.n = n ∧ A.l = l ∧ A.u = u
  alloc : n * (l + u + 1) ≤ A.D.size
  get : ∀ i j, A.get i j = some (a i j)

/-- The same for a triangular banded matrix: `n × n`, `b` superdiagonals. -/
structure StoresT [Zero K] (A : TB K) (n b : Int) (a : Int → Int → K) : Prop where
  dims : A.n = n ∧ A.b = b
  alloc : 0 ≤ A.o ∧ A.o + n * (b + 1) ≤ A.D.size
  get : ∀ i j, A.get i j = some (a i j)

section basic
variable [Zero K]

theorem Stores.wf {A : Banded K} {m n l u a} (h : Stores A m n l u a) : A.WF := by
  unfold Banded.WF; obtain ⟨rfl, rfl, rfl, rfl⟩ := h.dims; exact h.alloc

theorem Stores.ent {A : Banded K} {m n l u a} (h : Stores A m n l u a) (i j : Int) : A.ent i j = a i j := by
  have := h.get i j; rw [Banded.get_eq h.wf] at this; exact Option.some.inj this

theorem Stores.mk' {A : Banded K} {m n l u} {a : Int → Int → K} (d : A.m = m ∧ A.n = n ∧ A.l = l ∧ A.u = u) (w : A.WF) (e : ∀ i j, A.ent i j = a i j) : Stores A m n l u a := by
  refine ⟨d, ?_, fun i j => by rw [Banded.get_eq w, e]⟩
  obtain ⟨rfl, rfl, rfl, rfl⟩ := d; exact w

theorem Stores.inBand {A : Banded K} {m n l u a} (h : Stores A m n l u a) (i j : Int) : A.InBand i j ↔ band m n l u i j := by
  obtain ⟨rfl, rfl, rfl, rfl⟩ := h.dims; unfold Banded.InBand band; omega

theorem StoresT.wf {A : TB K} {n b a} (h : StoresT A n b a) : A.WF := by
  unfold TB.WF; obtain ⟨rfl, rfl⟩ := h.dims; exact h.alloc

theorem StoresT.ent {A : TB K} {n b a} (h : StoresT A n b a) (i j : Int) : A.ent i j = a i j := by
  have := h.get i j; rw [TB.get_eq h.wf] at this; exact Option.some.inj this

theorem StoresT.mk' {A : TB K} {n b} {a : Int → Int → K} (d : A.n = n ∧ A.b = b) (w : A.WF) (e : ∀ i j, A.ent i j = a i j) : StoresT A n b a := by
  refine ⟨d, ?_, fun i j => by rw [TB.get_eq w, e]⟩
  obtain ⟨rfl, rfl⟩ := d; exact w

theorem StoresT.inBand {A : TB K} {n b a} (h : StoresT A n b a) (i j : Int) : A.InBand i j ↔ band n n 0 b i j := by
  obtain ⟨rfl, rfl⟩ := h.dims; unfold TB.InBand band; omega

/-- **C14** Whatever is stored, entries outside of the band or of the matrix read as zero. -/
theorem C14_zero_outside {A : Banded K} {m n l u a} (h : Stores A m n l u a) {i j : Int} (hb : ¬ band m n l u i j) : a i j = 0 := by
  rw [← h.ent]; exact if_neg (mt (h.inBand i j).1 hb)

theorem C14_zero_outside_tri {A : TB K} {n b a} (h : StoresT A n b a) {i j : Int} (hb : ¬ band n n 0 b i j) : a i j = 0 := by
  rw [← h.ent]; exact if_neg (mt (h.inBand i j).1 hb)

/-- **C14** A freshly allocated matrix stores zero, for every size and bandwidth, negative bandwidths included. -/
theorem C14_calloc (m n l u : Int) : Stores (callocBanded m n l u : Banded K) m n l u fun _ _ => 0 :=
  .mk' ⟨rfl, rfl, rfl, rfl⟩ (by unfold Banded.WF callocBanded callocB; simp only; omega) fun i j => by unfold Banded.ent callocBanded callocB; simp

/-- **C14** Writing one entry never leaves the allocation, changes that entry if it is in the band, and changes nothing else. -/
theorem C14_set {A : Banded K} {m n l u a} (h : Stores A m n l u a) (v : K) (i j : Int) :
    ∃ A', A.set v i j = some A' ∧ Stores A' m n l u (fun p q => if (p = i ∧ q = j) ∧ band m n l u i j then v else a p q) := by
  by_cases hb : band m n l u i j
  · obtain ⟨A', e, w, d, -, g⟩ := Banded.set_in (v := v) h.wf ((h.inBand i j).2 hb)
    refine ⟨A', e, .mk' ?_ w fun p q => ?_⟩
    · obtain ⟨h1, h2, h3, h4⟩ := h.dims; exact ⟨d.1.trans h1, d.2.1.trans h2, d.2.2.1.trans h3, d.2.2.2.trans h4⟩
    · rw [g, h.ent]; simp only [hb, and_true]
  · refine ⟨A, Banded.set_out (mt (h.inBand i j).1 hb), ?_⟩
    simpa only [hb, and_false, if_false] using h

theorem C14_set_tri {A : TB K} {n b a} (h : StoresT A n b a) (v : K) (i j : Int) :
    ∃ A', A.set v i j = some A' ∧ StoresT A' n b (fun p q => if (p = i ∧ q = j) ∧ band n n 0 b i j then v else a p q) := by
  by_cases hb : band n n 0 b i j
  · have hI := (h.inBand i j).2 hb
    refine ⟨_, TB.set_eq h.wf hI, .mk' h.dims h.wf fun p q => ?_⟩
    rw [TB.ent_update hI, h.ent]; simp only [hb, and_true]
  · refine ⟨A, TB.set_out (mt (h.inBand i j).1 hb), ?_⟩
    simpa only [hb, and_false, if_false] using h

/-- The entry at `(p, q)` after the writes `ws`, oldest first: the last in-band write to that position, or the initial value. -/
def written (ok : Int → Int → Prop) [∀ i j, Decidable (ok i j)] (ws : List (K × Int × Int)) (a : Int → Int → K) : Int → Int → K :=
  ws.foldl (fun a w p q => if (p = w.2.1 ∧ q = w.2.2) ∧ ok w.2.1 w.2.2 then w.1 else a p q) a

/-- **C14** Every history of writes gives the matrix in which each position holds its last write. -/
theorem C14_history {m n l u : Int} (ws : List (K × Int × Int)) {A : Banded K} {a} (h : Stores A m n l u a) :
    ∃ A', ws.foldlM (fun A w => A.set w.1 w.2.1 w.2.2) A = some A' ∧ Stores A' m n l u (written (band m n l u) ws a) := by
  induction ws generalizing A a with
  | nil => exact ⟨A, rfl, h⟩
  | cons w ws ih =>
    obtain ⟨A1, e, h1⟩ := C14_set h w.1 w.2.1 w.2.2
    obtain ⟨A2, e2, h2⟩ := ih h1
    exact ⟨A2, by rw [List.foldlM_cons, e]; exact e2, h2⟩

theorem C14_history_tri {n b : Int} (ws : List (K × Int × Int)) {A : TB K} {a} (h : StoresT A n b a) :
    ∃ A', ws.foldlM (fun A w => A.set w.1 w.2.1 w.2.2) A = some A' ∧ StoresT A' n b (written (band n n 0 b) ws a) := by
  induction ws generalizing A a with
  | nil => exact ⟨A, rfl, h⟩
  | cons w ws ih =>
    obtain ⟨A1, e, h1⟩ := C14_set_tri h w.1 w.2.1 w.2.2
    obtain ⟨A2, e2, h2⟩ := ih h1
    exact ⟨A2, by rw [List.foldlM_cons, e]; exact e2, h2⟩

/-- **C14** Converting between the two storage schemes keeps the entries (the strictly lower triangle is dropped on the way to triangular storage). -/
theorem C14_to_banded {A : TB K} {n b a} (h : StoresT A n b a) (own : A.o = 0) : Stores A.toBanded n n 0 b a :=
  .mk' ⟨h.dims.1, h.dims.1, rfl, h.dims.2⟩ (by have := h.wf.2; unfold Banded.WF TB.toBanded; simp only [zero_add]; omega)
    fun i j => by rw [TB.ent_toBanded A own, h.ent]

theorem C14_to_triangular {A : Banded K} {n l u a} (h : Stores A n n l u a) (hn : 0 ≤ n) (hu : 0 ≤ u + 1) (hw : 0 ≤ l + u + 1) :
    ∃ T, A.toTB = some T ∧ StoresT T n u fun i j => if i ≤ j then a i j else 0 := by
  obtain ⟨d1, d2, d3, d4⟩ := h.dims
  obtain ⟨T, e, w, t1, t2, t3⟩ := Banded.toTB_ok h.wf (by omega) (by omega) (by omega) (by omega)
  exact ⟨T, e, .mk' ⟨by omega, by omega⟩ w fun i j => by rw [t3, h.ent]⟩

/-- **C15** Growing the bandwidth keeps every entry. -/
theorem C15_grow_partial {A : TB K} {n b b' : Int} {a} (h : StoresT A n b a) (hn : 0 ≤ n) (hb : 0 ≤ b + 1) (hlt : b < b') :
    ∃ A', A.realloc b' = some A' ∧ StoresT A' n b' a := by
  obtain ⟨d1, d2⟩ := h.dims
  obtain ⟨T, e, w, t1, t2, t3⟩ := TB.realloc_grow h.wf (by omega) (by omega) (b := b') (by omega)
  exact ⟨T, e, .mk' ⟨by omega, t2⟩ w fun i j => by rw [t3, h.ent]⟩

/-- **C15** Shrinking keeps the entries of the new band. -/
theorem C15_shrink_partial {A : TB K} {n b b' : Int} {a} (h : StoresT A n b a) (hn : 0 ≤ n) (hb : 0 ≤ b' + 1) (hlt : b' < b) :
    ∃ A', A.realloc b' = some A' ∧ StoresT A' n b' fun i j => if j - i ≤ b' then a i j else 0 := by
  obtain ⟨d1, d2⟩ := h.dims
  obtain ⟨T, e, w, t1, t2, t3⟩ := TB.realloc_shrink h.wf (by omega) hb (by omega)
  exact ⟨T, e, .mk' ⟨by omega, t2⟩ w fun i j => by rw [t3, h.ent]⟩

/-- **C15** (what the code does in the remaining case) Reallocating to the bandwidth the matrix already has erases it. -/
theorem C15_same_erases (A : TB K) {n b : Int} {a} (h : StoresT A n b a) :
    ∃ A', A.realloc b = some A' ∧ StoresT A' n b fun _ _ => 0 := by
  obtain ⟨rfl, rfl⟩ := h.dims
  refine ⟨⟨0, A.n, A.b, callocB (A.n * (A.b + 1))⟩, by unfold TB.realloc; rw [if_neg (by omega), if_neg (by omega)]; rfl, .mk' ⟨rfl, rfl⟩ ⟨le_refl _, ?_⟩ fun i j => ?_⟩
  · show (0 : Int) + A.n * (A.b + 1) ≤ ((A.n * (A.b + 1)).toNat : Int); omega
  · unfold TB.ent callocB; simp

/-- **C15** Hence "reallocation keeps the entries of the new band" fails: any nonzero entry is a counterexample. -/
theorem C15_same_not_preserved {A : TB K} {n b : Int} {a} (h : StoresT A n b a) {i j : Int} (hij : a i j ≠ 0) :
    ∃ A', A.realloc b = some A' ∧ A'.get i j ≠ A.get i j := by
  obtain ⟨A', e, h'⟩ := C15_same_erases A h
  exact ⟨A', e, by rw [h'.get, h.get]; intro hh; exact hij (Option.some.inj hh).symm⟩

/-- Sequence of reallocations. -/
theorem C15_sequence_partial {n : Int} (hn : 0 ≤ n) (bs : List Int) : ∀ {A : TB K} {b : Int} {a}, StoresT A n b a → 0 ≤ b + 1 → (∀ c ∈ bs, 0 ≤ c + 1) → (b :: bs).IsChain (· ≠ ·) →
    ∃ A', bs.foldlM (fun A c => A.realloc c) A = some A' ∧ StoresT A' n (bs.getLastD b) fun i j => if ∀ c ∈ bs, j - i ≤ c then a i j else 0 := by
  induction bs with
  | nil => intro A b a h _ _ _; exact ⟨A, rfl, by simpa using h⟩
  | cons c bs ih =>
    intro A b a h hb hc hne
    obtain ⟨hbc, hch⟩ := List.isChain_cons_cons.1 hne
    have hc0 := hc c List.mem_cons_self
    have key : ∃ A', A.realloc c = some A' ∧ StoresT A' n c fun i j => if j - i ≤ c then a i j else 0 := by
      rcases lt_or_gt_of_ne hbc with hlt | hlt
      · obtain ⟨A', e, h'⟩ := C15_grow_partial h hn hb hlt
        refine ⟨A', e, h'.dims, h'.alloc, fun i j => ?_⟩
        rw [h'.get]
        by_cases hij : j - i ≤ c
        · rw [if_pos hij]
        · rw [if_neg hij, C14_zero_outside_tri h (by unfold band; omega)]
      · exact C15_shrink_partial h hn hc0 hlt
    obtain ⟨A1, e1, h1⟩ := key
    obtain ⟨A2, e2, h2⟩ := ih h1 hc0 (fun d hd => hc d (List.mem_cons_of_mem _ hd)) hch
    have hg : (c :: bs).getLastD b = bs.getLastD c := by cases bs <;> rfl
    refine ⟨A2, by rw [List.foldlM_cons, e1]; exact e2, by rw [hg]; exact h2.dims, by rw [hg]; exact h2.alloc, fun i j => ?_⟩
    · rw [h2.get]
      simp only [List.forall_mem_cons]
      by_cases h1 : j - i ≤ c <;> simp [h1]

/-- **C16** Entries read through a view are the entries of the parent shifted by `start`; outside of the view they read as zero. -/
theorem C16_view_get {A : TB K} {n b a} (h : StoresT A n b a) (hb : 0 ≤ b + 1) {s t : Int} (h0 : 0 ≤ s) (hst : s ≤ t) (h1 : t ≤ n) :
    StoresT (A.view s t) (t - s) b fun i j => if (0 ≤ i ∧ i < t - s) ∧ (0 ≤ j ∧ j < t - s) then a (i + s) (j + s) else 0 := by
  obtain ⟨rfl, rfl⟩ := h.dims
  refine .mk' ⟨rfl, rfl⟩ (TB.view_wf h.wf hb h0 hst h1) fun i j => ?_
  by_cases hi : (0 ≤ i ∧ i < t - s) ∧ (0 ≤ j ∧ j < t - s)
  · rw [if_pos hi, TB.ent_view A h0 h1 hi.1.1 hi.2.1 hi.1.2 hi.2.2, h.ent]
  · rw [if_neg hi]; refine if_neg fun hb => hi ?_
    unfold TB.InBand TB.view at hb; simp only at hb; omega

/-- **C16** A write through a view appears in the parent at the shifted position, and nowhere else. -/
theorem C16_view_set {A : TB K} {n b a} (h : StoresT A n b a) (hb : 0 ≤ b + 1) {s t : Int} (h0 : 0 ≤ s) (hst : s ≤ t) (h1 : t ≤ n) (v : K) (i j : Int) :
    ∃ V, (A.view s t).set v i j = some V ∧
      StoresT { A with D := V.D } n b fun p q => if (p = i + s ∧ q = j + s) ∧ band (t - s) (t - s) 0 b i j then v else a p q := by
  obtain ⟨rfl, rfl⟩ := h.dims
  have hv := C16_view_get h hb h0 hst h1
  by_cases hbd : band (t - s) (t - s) 0 A.b i j
  · have hI := (hv.inBand i j).2 hbd
    refine ⟨_, TB.set_eq hv.wf hI, ?_⟩
    have hI' : A.InBand (i + s) (j + s) := by unfold band at hbd; unfold TB.InBand; omega
    refine .mk' ⟨rfl, rfl⟩ h.wf fun p q => ?_
    rw [TB.view_slot]
    refine (TB.ent_update hI' p q).trans ?_
    rw [h.ent]; simp only [hbd, and_true]
  · refine ⟨_, TB.set_out (mt (hv.inBand i j).1 hbd), ?_⟩
    simp only [hbd, and_false, if_false]
    exact h

end basic

section products
variable [CommRing K]

/-- **C17** Matrix-vector product: the first `m` entries of `y` become `α (A x)_i + β y_i`; the rest of `y` is untouched. -/
theorem C17_gbmv {A : Banded K} {m n l u a} (h : Stores A m n l u a) (alpha beta : K) {x y : Buf K} (hm : 0 ≤ m) (hx : n ≤ x.size) (hy : m ≤ y.size) :
    ∃ y', gbmv alpha A x beta y = some y' ∧ y'.size = y.size ∧
      (∀ i, 0 ≤ i → i < m → y'.val i = alpha * (∑ j ∈ Finset.Ico 0 n, a i j * x.val j) + beta * y.val i) ∧
      ∀ i, m ≤ i → y'.val i = y.val i := by
  obtain ⟨rfl, rfl, rfl, rfl⟩ := h.dims
  refine ⟨_, gbmv_eq h.wf hm hx hy, rfl, fun i i0 i1 => ?_, fun i i1 => mix_val_out (by omega)⟩
  rw [mix_val_in i0 i1]; simp only [h.ent]

/-- **C17** Matrix-matrix product. -/
theorem C17_gbmm {A B C : Banded K} {m k n la ua lb ub lc uc : Int} {a b c} (hA : Stores A m k la ua a) (hB : Stores B k n lb ub b) (hC : Stores C m n lc uc c)
    (hl : la + lb ≤ lc) (hu : ua + ub ≤ uc) (alpha beta : K) :
    ∃ C' c', gbmm alpha A B beta C = some C' ∧ Stores C' m n lc uc c' ∧
      ∀ i j, 0 ≤ i → i < m → 0 ≤ j → j < n → c' i j = alpha * (∑ q ∈ Finset.Ico 0 k, a i q * b q j) + beta * c i j := by
  obtain ⟨rfl, rfl, rfl, rfl⟩ := hA.dims
  obtain ⟨b1, rfl, rfl, rfl⟩ := hB.dims
  obtain ⟨c1, c2, rfl, rfl⟩ := hC.dims
  obtain ⟨C', e, w, d, g⟩ := gbmm_eq (alpha := alpha) (beta := beta) hA.wf hB.wf hC.wf c1 b1 c2 hl hu
  refine ⟨C', C'.ent, e, .mk' ⟨d.1.trans c1, d.2.1.trans c2, d.2.2.1, d.2.2.2⟩ w fun _ _ => rfl, fun i j i0 i1 j0 j1 => ?_⟩
  rw [g i j i0 (by omega) j0 (by omega)]; simp only [hA.ent, hB.ent, hC.ent]

/-- **C17** Sum of banded matrices. -/
theorem C17_add {A B C : Banded K} {m n la ua lb ub lc uc : Int} {a b c} (hA : Stores A m n la ua a) (hB : Stores B m n lb ub b) (hC : Stores C m n lc uc c)
    (hl : max la lb ≤ lc) (hu : max ua ub ≤ uc) (alpha beta : K) :
    ∃ C', bandedAdd alpha A beta B C = some C' ∧ Stores C' m n lc uc fun i j => alpha * a i j + beta * b i j := by
  obtain ⟨a1, a2, rfl, rfl⟩ := hA.dims
  obtain ⟨b1, b2, rfl, rfl⟩ := hB.dims
  obtain ⟨rfl, rfl, rfl, rfl⟩ := hC.dims
  obtain ⟨C', e, w, d, g⟩ := bandedAdd_eq (alpha := alpha) (beta := beta) hA.wf hB.wf hC.wf a1 b1 a2 b2 (by omega) (by omega) (by omega) (by omega)
  have hs : Stores C' C.m C.n C.l C.u C'.ent := .mk' ⟨d.1, d.2.1, d.2.2.1, d.2.2.2⟩ w fun _ _ => rfl
  refine ⟨C', e, .mk' ⟨d.1, d.2.1, d.2.2.1, d.2.2.2⟩ w fun i j => ?_⟩
  by_cases hb : band C.m C.n C.l C.u i j
  · have hb' := hb
    unfold band at hb'
    rw [g i j (by omega) (by omega) (by omega) (by omega), hA.ent, hB.ent]
  · rw [C14_zero_outside hs hb, C14_zero_outside hA (by unfold band at *; omega), C14_zero_outside hB (by unfold band at *; omega)]; ring

/-- **C17** Uniform scaling: `A ← α A + β I`. -/
theorem C17_scaling {A : Banded K} {n l u a} (h : Stores A n n l u a) (hl : 0 ≤ l) (hu : 0 ≤ u) (alpha beta : K) :
    ∃ A' a', scalingAdd alpha A beta = some A' ∧ Stores A' n n l u a' ∧
      ∀ i j, 0 ≤ i → i < n → 0 ≤ j → j < n → a' i j = alpha * a i j + if i = j then beta else 0 := by
  obtain ⟨h1, rfl, rfl, rfl⟩ := h.dims
  obtain ⟨C', e, w, d, g⟩ := scalingAdd_eq (alpha := alpha) (beta := beta) h.wf h1 hl hu
  refine ⟨C', C'.ent, e, .mk' ⟨d.1.trans h1, d.2.1, d.2.2.1, d.2.2.2⟩ w fun _ _ => rfl, fun i j i0 i1 j0 j1 => ?_⟩
  rw [g i j i0 i1 j0 j1, h.ent]

/-- **C17** In-place multiplication by a shifted tridiagonal matrix, `B ← (α A + β I) B`, where `B` is so far confined to a narrower band `l, u`. -/
theorem C17_tridiagonal {A B : Banded K} {n l u lb ub : Int} {a b} (hA : Stores A n n 1 1 a) (hB : Stores B n n lb ub b) (hl : l < lb) (hu : u < ub) (hl1 : -1 ≤ l) (hu1 : -1 ≤ u)
    (hband : ∀ i j, ¬ band n n l u i j → b i j = 0) (alpha beta : K) :
    ∃ B' b', tridiagMul alpha A beta B l u = some B' ∧ Stores B' n n lb ub b' ∧
      ∀ i j, 0 ≤ i → i < n → 0 ≤ j → j < n → b' i j = alpha * (∑ k ∈ Finset.Ico 0 n, a i k * b k j) + beta * b i j := by
  obtain ⟨a1, rfl, a3, a4⟩ := hA.dims
  obtain ⟨b1, b2, rfl, rfl⟩ := hB.dims
  obtain ⟨C', e, w, d, g⟩ := tridiagMul_eq (alpha := alpha) (beta := beta) hA.wf hB.wf a1 (by omega) (by omega) a3 a4 hl hu hl1 hu1
    fun i j hij => by rw [hB.ent]; exact hband i j (by unfold band; omega)
  refine ⟨C', C'.ent, e, .mk' ⟨d.1.trans b1, d.2.1.trans b2, d.2.2.1, d.2.2.2⟩ w fun _ _ => rfl, fun i j i0 i1 j0 j1 => ?_⟩
  rw [g i j i0 (by omega) j0 (by omega), b2]; simp only [hA.ent, hB.ent]

/-- **C31** (operator version) Evaluating a series of `n ≥ 1` orthogonal polynomials at a tridiagonal matrix `X` returns
`φ₀ Σ_k c_k p_k(X)`, where `p_0 = I`, `p_1 = A_0 X + B_0 I`, `p_{k+1} = (A_k X + B_k I) p_k - C_k p_{k-1}` as products of `m × m` matrices. -/
theorem C31_operator {n m : Nat} (hn : 1 ≤ n) {c A B C : Buf K} {incc : Int} {X : Banded K} {x} {phi0 : K} (hX : Stores X m m 1 1 x)
    (hA : (n : Int) ≤ A.size) (hB : (n : Int) ≤ B.size) (hC : (n : Int) + 1 ≤ C.size) (hc : ∀ k : Int, 0 ≤ k → k < n → 0 ≤ k * incc ∧ k * incc < c.size) :
    ∃ R r, opClenshaw n c incc A B C X phi0 = some R ∧ Stores R m m R.l R.u r ∧
      (Matrix.of fun i j : Fin m => r i j) = phi0 • ∑ k ∈ Finset.range n, c.val (k * incc) •
        opSeq (fun k => A.val k) (fun k => B.val k) (fun k => C.val k) (Matrix.of fun i j : Fin m => x i j) k := by
  obtain ⟨d1, d2, d3, d4⟩ := hX.dims
  obtain ⟨R, e, w, r1, r2, hr⟩ := opClenshaw_eq hn (phi0 := phi0) hX.wf d1 d2 d3 d4 hA hB hC hc
  refine ⟨R, R.ent, e, .mk' ⟨r1, r2, rfl, rfl⟩ w fun _ _ => rfl, ?_⟩
  have : toM m X = Matrix.of fun i j : Fin m => x i j := by ext i j; exact hX.ent _ _
  rw [← this]; exact hr

end products

/-! Non-trivial instances of the hypotheses. -/

/-- The 3 × 3 tridiagonal matrix with rows (4 7 0), (2 5 8), (0 3 6). -/
def tri3 : Banded Int := ⟨3, 3, 1, 1, Buf.ofList [0, 4, 2, 7, 5, 3, 8, 6, 0]⟩

def tri3Entry (i j : Int) : Int :=
  if i = 0 ∧ j = 0 then 4 else if i = 1 ∧ j = 0 then 2 else if i = 0 ∧ j = 1 then 7 else if i = 1 ∧ j = 1 then 5 else if i = 2 ∧ j = 1 then 3
  else if i = 1 ∧ j = 2 then 8 else if i = 2 ∧ j = 2 then 6 else 0

theorem tri3_stores : Stores tri3 3 3 1 1 tri3Entry := by
  refine ⟨⟨rfl, rfl, rfl, rfl⟩, by decide, fun i j => ?_⟩
  by_cases hb : tri3.InBand i j
  · have h := hb
    unfold Banded.InBand tri3 at h
    simp only at h
    have hi : i = 0 ∨ i = 1 ∨ i = 2 := by omega
    have hj : j = 0 ∨ j = 1 ∨ j = 2 := by omega
    rcases hi with rfl | rfl | rfl <;> rcases hj with rfl | rfl | rfl <;> rfl
  · unfold Banded.get
    rw [if_neg hb]
    unfold Banded.InBand tri3 at hb
    simp only at hb
    unfold tri3Entry
    simp only [show ¬ (i = 0 ∧ j = 0) by omega, show ¬ (i = 1 ∧ j = 0) by omega, show ¬ (i = 0 ∧ j = 1) by omega, show ¬ (i = 1 ∧ j = 1) by omega,
      show ¬ (i = 2 ∧ j = 1) by omega, show ¬ (i = 1 ∧ j = 2) by omega, show ¬ (i = 2 ∧ j = 2) by omega, if_false]

/-- Upper bidiagonal 3 × 3 with diagonal 1 2 3 and superdiagonal 4 5. -/
def bi3 : TB Int := ⟨0, 3, 1, Buf.ofList [0, 1, 4, 2, 5, 3]⟩

theorem bi3_stores : StoresT bi3 3 1 bi3.ent := .mk' ⟨rfl, rfl⟩ (by unfold TB.WF; decide) fun _ _ => rfl

example : ∃ A', tri3.set 9 2 1 = some A' ∧ A'.get 2 1 = some 9 ∧ A'.get 1 2 = some 8 ∧ A'.get 0 2 = some 0 := by
  obtain ⟨A', e, h⟩ := C14_set tri3_stores 9 2 1
  exact ⟨A', e, by rw [h.get]; decide, by rw [h.get]; decide, by rw [h.get]; decide⟩
example : written (band 3 3 1 1) [((1 : Int), 0, 0), (2, 0, 1), (3, 0, 2), (4, 0, 1)] (fun _ _ => 0) 0 1 = 4 := by decide
example : written (band 3 3 1 1) [((1 : Int), 0, 0), (2, 0, 1), (3, 0, 2), (4, 0, 1)] (fun _ _ => 0) 0 2 = 0 := by decide
/-- A negative lower bandwidth: the strictly upper bidiagonal shape of a derivative operator. -/
example : ∃ A', (callocBanded 2 3 (-1) 1 : Banded Int).set 5 0 1 = some A' ∧ A'.get 0 1 = some 5 ∧ A'.get 0 0 = some 0 := by
  obtain ⟨A', e, h⟩ := C14_set (C14_calloc 2 3 (-1) 1) (5 : Int) 0 1
  exact ⟨A', e, by rw [h.get]; decide, by rw [h.get]; decide⟩
example : ∃ T, tri3.toTB = some T ∧ T.get 0 1 = some 7 ∧ T.get 1 0 = some 0 := by
  obtain ⟨T, e, h⟩ := C14_to_triangular tri3_stores (by decide) (by decide) (by decide)
  exact ⟨T, e, by rw [h.get]; decide, by rw [h.get]; decide⟩
example : ∃ A', bi3.realloc 2 = some A' ∧ A'.get 1 2 = some 5 := by
  obtain ⟨A', e, h⟩ := C15_grow_partial bi3_stores (by decide) (by decide) (b' := 2) (by decide)
  exact ⟨A', e, by rw [h.get]; decide⟩
example : ∃ A', bi3.realloc 0 = some A' ∧ A'.get 1 2 = some 0 ∧ A'.get 1 1 = some 2 := by
  obtain ⟨A', e, h⟩ := C15_shrink_partial bi3_stores (by decide) (b' := 0) (by decide) (by decide)
  exact ⟨A', e, by rw [h.get]; decide, by rw [h.get]; decide⟩
example : ∃ A', bi3.realloc 1 = some A' ∧ A'.get 1 1 ≠ bi3.get 1 1 := C15_same_not_preserved bi3_stores (by decide)
example : (1 :: [2, 0, 3] : List Int).IsChain (· ≠ ·) := by decide
example : (bi3.view 1 3).get 0 1 = some 5 := by rw [(C16_view_get bi3_stores (by decide) (by decide) (by decide) (by decide)).get]; decide
example : ∃ V, (bi3.view 1 3).set 8 0 1 = some V ∧ ({ bi3 with D := V.D } : TB Int).get 1 2 = some 8 ∧ ({ bi3 with D := V.D } : TB Int).get 0 1 = some 4 := by
  obtain ⟨V, e, h⟩ := C16_view_set bi3_stores (by decide) (s := 1) (t := 3) (by decide) (by decide) (by decide) 8 0 1
  exact ⟨V, e, by rw [h.get]; decide, by rw [h.get]; decide⟩
example : ∃ y', gbmv 2 tri3 (Buf.ofList [1, 1, 1]) 10 (Buf.ofList [1, 0, 0]) = some y' ∧ y'.toList = [32, 30, 18] := ⟨_, rfl, by decide⟩
example : ∃ C', gbmm 1 tri3 tri3 0 (callocBanded 3 3 2 2) = some C' ∧ C'.get 0 2 = some 56 := by
  obtain ⟨C', c', e, h, g⟩ := C17_gbmm tri3_stores tri3_stores (C14_calloc 3 3 2 2) (by decide) (by decide) 1 0
  exact ⟨C', e, by rw [h.get, g 0 2 (by decide) (by decide) (by decide) (by decide)]; decide⟩
example : ∃ C', bandedAdd 2 tri3 3 tri3 (callocBanded 3 3 1 2) = some C' ∧ C'.get 0 1 = some 35 := by
  obtain ⟨C', e, h⟩ := C17_add tri3_stores tri3_stores (C14_calloc 3 3 1 2) (by decide) (by decide) 2 3
  exact ⟨C', e, by rw [h.get]; decide⟩
/-- `C31_operator` for `n = 2`, `X = tri3`: `φ₀ (c₀ I + c₁ (A₀ X + B₀ I))`. -/
example : ∃ R, opClenshaw 2 (Buf.ofList [1, 10]) 1 (Buf.ofList [2, 0]) (Buf.ofList [3, 0]) (Buf.ofList [0, 0, 0]) tri3 (5 : Int) = some R ∧ R.get 1 1 = some 655 := ⟨_, rfl, by decide⟩

end FT.Props
