import Verif.Model.SkewSym
import Verif.Props.Tridiag
import Mathlib.Tactic.Ring
import Mathlib.Tactic.NormNum

/-! # C70: the square of a skew-symmetric tridiagonal matrix splits into two symmetric tridiagonal matrices -/

namespace FT.Props
open FT
variable {K : Type*} [CommRing K]

/-- The columns of a skew-symmetric tridiagonal matrix have two entries. -/
theorem skew_col {n : Int} (b : Int → K) (f : Int → K) {i : Int} (i0 : 0 ≤ i) (i1 : i < n) :
    ∑ r ∈ Finset.Ico 0 n, skewMat b r i * f r = (if 0 < i then b (i - 1) * f (i - 1) else 0) - if i + 1 < n then b i * f (i + 1) else 0 := by
  rw [sum_three i0 i1 _ (fun r r0 r1 hr => by unfold skewMat; rw [if_neg (by omega), if_neg (by omega), zero_mul])]
  have h1 : skewMat b (i - 1) i = b (i - 1) := by unfold skewMat; rw [if_pos (by omega)]
  have h2 : skewMat b i i = 0 := by unfold skewMat; rw [if_neg (by omega), if_neg (by omega)]
  have h3 : skewMat b (i + 1) i = -b i := by unfold skewMat; rw [if_neg (by omega), if_pos rfl]
  rw [h1, h2, h3]
  by_cases h : i + 1 < n
  · rw [if_pos h, if_pos h]; ring
  · rw [if_neg h, if_neg h]; ring

/-- `Aᵀ A` for the skew-symmetric tridiagonal `A`. -/
noncomputable def skewSq (n : Int) (b : Int → K) (i j : Int) : K := ∑ r ∈ Finset.Ico 0 n, skewMat b r i * skewMat b r j

theorem skewSq_eq {n : Int} (b : Int → K) {i j : Int} (i0 : 0 ≤ i) (i1 : i < n) (j0 : 0 ≤ j) (j1 : j < n) : skewSq n b i j =
    if i = j then (if 0 < i then b (i - 1) * b (i - 1) else 0) + (if i + 1 < n then b i * b i else 0)
    else if j = i + 2 then -b i * b (i + 1) else if i = j + 2 then -b j * b (j + 1) else 0 := by
  unfold skewSq
  rw [skew_col b _ i0 i1]
  unfold skewMat
  by_cases h : i = j
  · subst h
    rw [if_pos rfl, if_pos (show i = i - 1 + 1 by omega), if_neg (show ¬ i = i + 1 + 1 by omega), if_pos rfl]
    by_cases h : i + 1 < n
    · rw [if_pos h, if_pos h]; ring
    · rw [if_neg h, if_neg h]; ring
  rw [if_neg h, if_neg (show ¬ j = i - 1 + 1 by omega), if_neg (show ¬ i + 1 = j + 1 by omega)]
  by_cases h2 : j = i + 2
  · subst h2
    rw [if_pos rfl, if_neg (show ¬ i - 1 = i + 2 + 1 by omega), if_pos (show i + 1 < n by omega), if_pos (show i + 2 = i + 1 + 1 by omega)]
    by_cases h : 0 < i
    · rw [if_pos h]; ring
    · rw [if_neg h]; ring
  rw [if_neg h2, if_neg (show ¬ j = i + 1 + 1 by omega)]
  by_cases h3 : i = j + 2
  · subst h3
    rw [if_pos rfl, if_pos (show 0 < j + 2 by omega), if_pos (show j + 2 - 1 = j + 1 by omega), show j + 2 - 1 = j + 1 by omega]
    by_cases h : j + 2 + 1 < n
    · rw [if_pos h]; ring
    · rw [if_neg h]; ring
  rw [if_neg h3, if_neg (show ¬ i - 1 = j + 1 by omega)]
  by_cases h : i + 1 < n <;> by_cases h' : 0 < i <;> simp [h, h']

theorem skewDiagB_eq {n : Int} (n2 : 2 ≤ n) {b a : Buf K} (hb : n - 1 ≤ b.size) (ha : (n + 1) / 2 ≤ a.size) :
    skewDiagB n b a = some (mix a 0 ((n + 1) / 2) fun i => skewSq n b.val (2 * i) (2 * i)) := by
  have hs : ∀ i, 0 ≤ i → i < (n + 1) / 2 → skewSq n b.val (2 * i) (2 * i) = (if 0 < i then b.val (2 * i - 1) * b.val (2 * i - 1) else 0) + (if 2 * i + 1 < n then b.val (2 * i) * b.val (2 * i) else 0) := fun i i0 i1 => by
    rw [skewSq_eq _ (by omega) (by omega) (by omega) (by omega), if_pos rfl]
    simp only [show (0 < 2 * i) = (0 < i) from propext ⟨fun h => by omega, fun h => by omega⟩]
  have e1 : (if 0 < n then (b.rd 0).bind fun v => a.wr 0 (v * v) else some a) = some (mix a 0 1 fun i => skewSq n b.val (2 * i) (2 * i)) := by
    rw [if_pos (by omega), Buf.rd_of (le_refl _) (by omega), Option.bind_some, Buf.wr_of (le_refl _) (by omega)]
    refine congrArg some (Buf.ext' rfl fun j => ?_)
    show Function.update a.val 0 _ j = if 0 ≤ j ∧ j < 1 then _ else _
    by_cases hj : j = 0
    · subst hj
      rw [Function.update_self, if_pos ⟨le_refl _, by omega⟩, hs 0 (le_refl _) (by omega), if_neg (by omega), if_pos (by omega), zero_add]
      rfl
    · rw [Function.update_of_ne hj, if_neg (by omega)]
  have e2 : sweepUp 1 (n / 2) (fun i _ => (b.rd (2 * i - 1)).bind fun p => (b.rd (2 * i)).map fun q => p * p + q * q) (mix a 0 1 fun i => skewSq n b.val (2 * i) (2 * i)) =
      some (mix a 0 (n / 2) fun i => skewSq n b.val (2 * i) (2 * i)) := by
    rw [sweepUp_eq (fun i => skewSq n b.val (2 * i) (2 * i)) (by omega) (by show n / 2 ≤ (a.size : Int); omega) (fun i i0 i1 => by
      rw [Buf.rd_of (by omega) (by omega), Option.bind_some, Buf.rd_of (by omega) (by omega), Option.map_some, hs i (by omega) (by omega), if_pos (by omega), if_pos (by omega)])]
    refine congrArg some (Buf.ext' rfl fun j => ?_)
    show (if 1 ≤ j ∧ j < n / 2 then _ else if 0 ≤ j ∧ j < 1 then _ else _) = if 0 ≤ j ∧ j < n / 2 then _ else _
    by_cases h : 0 ≤ j ∧ j < n / 2
    · rw [if_pos h]
      by_cases h1 : 1 ≤ j
      · rw [if_pos ⟨h1, h.2⟩]
      · rw [if_neg (by omega), if_pos (by omega)]
    · rw [if_neg h, if_neg (by omega), if_neg (by omega)]
  unfold skewDiagB
  rw [e1, Option.bind_some, e2, Option.bind_some]
  by_cases hp : n % 2 = 0
  · rw [if_neg (by omega), show (n + 1) / 2 = n / 2 by omega]
  · rw [if_pos hp, Buf.rd_of (by omega) (by omega), Option.bind_some, Buf.wr_of (by omega) (by show n / 2 < (a.size : Int); omega)]
    refine congrArg some (Buf.ext' rfl fun j => ?_)
    show Function.update (fun j => if 0 ≤ j ∧ j < n / 2 then _ else a.val j) (n / 2) _ j = if 0 ≤ j ∧ j < (n + 1) / 2 then _ else _
    by_cases hj : j = n / 2
    · subst hj
      rw [Function.update_self, if_pos (by omega), hs _ (by omega) (by omega), if_pos (by omega), if_neg (by omega), add_zero, show 2 * (n / 2) - 1 = n - 2 by omega]
    · rw [Function.update_of_ne hj]
      by_cases h : 0 ≤ j ∧ j < n / 2
      · rw [if_pos h, if_pos (by omega)]
      · rw [if_neg h, if_neg (by omega)]

theorem skewDiagC_eq {n : Int} (n2 : 2 ≤ n) {b a : Buf K} (hb : n - 1 ≤ b.size) (ha : n / 2 ≤ a.size) :
    skewDiagC n b a = some (mix a 0 (n / 2) fun i => skewSq n b.val (2 * i + 1) (2 * i + 1)) := by
  have hs : ∀ i, 0 ≤ i → i < n / 2 → skewSq n b.val (2 * i + 1) (2 * i + 1) = b.val (2 * i) * b.val (2 * i) + (if 2 * i + 2 < n then b.val (2 * i + 1) * b.val (2 * i + 1) else 0) := fun i i0 i1 => by
    rw [skewSq_eq _ (by omega) (by omega) (by omega) (by omega), if_pos rfl, if_pos (by omega), show 2 * i + 1 - 1 = 2 * i by omega, show 2 * i + 1 + 1 = 2 * i + 2 by omega]
  unfold skewDiagC
  rw [sweepUp_eq (fun i => skewSq n b.val (2 * i + 1) (2 * i + 1)) (by omega) (by omega) (fun i i0 i1 => by
    rw [Buf.rd_of (by omega) (by omega), Option.bind_some, Buf.rd_of (by omega) (by omega), Option.map_some, hs i (by omega) (by omega), if_pos (by omega)]), Option.bind_some]
  by_cases hp : n % 2 = 0
  · rw [if_pos hp, Buf.rd_of (by omega) (by omega), Option.bind_some, Buf.wr_of (by omega) (by show n / 2 - 1 < (a.size : Int); omega)]
    refine congrArg some (Buf.ext' rfl fun j => ?_)
    show Function.update (fun j => if 0 ≤ j ∧ j < (n - 1) / 2 then _ else a.val j) (n / 2 - 1) _ j = if 0 ≤ j ∧ j < n / 2 then _ else _
    by_cases hj : j = n / 2 - 1
    · subst hj
      rw [Function.update_self, if_pos (by omega), hs _ (by omega) (by omega), if_neg (by omega), add_zero, show 2 * (n / 2 - 1) = n - 2 by omega]
    · rw [Function.update_of_ne hj]
      by_cases h : 0 ≤ j ∧ j < (n - 1) / 2
      · rw [if_pos h, if_pos (by omega)]
      · rw [if_neg h, if_neg (by omega)]
  · rw [if_neg hp, show (n - 1) / 2 = n / 2 by omega]

/-- **C70.** For every skew-symmetric tridiagonal matrix `A` of order at least two: `skew_to_symmetric_tridiagonal` stays within its arrays, writes only the `⌈n/2⌉` and `⌊n/2⌋` entries of the
two diagonals and one less of the off-diagonals, and `Aᵀ A` restricted to the even rows and columns is `B`, restricted to the odd ones is `C`, and couples no even row with an odd column. -/
theorem C70_skew_square_partial {n : Int} (n2 : 2 ≤ n) {b : Buf K} (hb : n - 1 ≤ b.size) {B C : SymTri K} (hBa : (n + 1) / 2 ≤ B.a.size) (hBb : (n - 1) / 2 ≤ B.b.size) (hCa : n / 2 ≤ C.a.size)
    (hCb : n / 2 - 1 ≤ C.b.size) :
    ∃ B' C', skewToSym n b B C = some (B', C') ∧ B'.n = B.n ∧ C'.n = C.n ∧
      (∀ i j, 0 ≤ i → i < (n + 1) / 2 → 0 ≤ j → j < (n + 1) / 2 → ∑ r ∈ Finset.Ico 0 n, skewMat b.val r (2 * i) * skewMat b.val r (2 * j) = triMat B'.a.val B'.b.val i j) ∧
      (∀ i j, 0 ≤ i → i < n / 2 → 0 ≤ j → j < n / 2 → ∑ r ∈ Finset.Ico 0 n, skewMat b.val r (2 * i + 1) * skewMat b.val r (2 * j + 1) = triMat C'.a.val C'.b.val i j) ∧
      (∀ i j, 0 ≤ i → i < (n + 1) / 2 → 0 ≤ j → j < n / 2 → ∑ r ∈ Finset.Ico 0 n, skewMat b.val r (2 * i) * skewMat b.val r (2 * j + 1) = 0) ∧
      B'.a.size = B.a.size ∧ B'.b.size = B.b.size ∧ C'.a.size = C.a.size ∧ C'.b.size = C.b.size ∧
      (∀ i, ¬ (0 ≤ i ∧ i < (n + 1) / 2) → B'.a.val i = B.a.val i) ∧ (∀ i, ¬ (0 ≤ i ∧ i < (n - 1) / 2) → B'.b.val i = B.b.val i) ∧
      (∀ i, ¬ (0 ≤ i ∧ i < n / 2) → C'.a.val i = C.a.val i) ∧ ∀ i, ¬ (0 ≤ i ∧ i < n / 2 - 1) → C'.b.val i = C.b.val i := by
  have eB : skewOffB n b B.b = some (mix B.b 0 ((n - 1) / 2) fun i => -b.val (2 * i) * b.val (2 * i + 1)) :=
    sweepUp_eq _ (le_refl _) (by omega) fun i i0 i1 => by rw [Buf.rd_of (by omega) (by omega), Option.bind_some, Buf.rd_of (by omega) (by omega), Option.map_some]
  have eC : skewOffC n b C.b = some (mix C.b 0 (n / 2 - 1) fun i => -b.val (2 * i + 1) * b.val (2 * i + 2)) :=
    sweepUp_eq _ (le_refl _) (by omega) fun i i0 i1 => by rw [Buf.rd_of (by omega) (by omega), Option.bind_some, Buf.rd_of (by omega) (by omega), Option.map_some]
  refine ⟨⟨B.n, mix B.a 0 ((n + 1) / 2) fun i => skewSq n b.val (2 * i) (2 * i), mix B.b 0 ((n - 1) / 2) fun i => -b.val (2 * i) * b.val (2 * i + 1)⟩,
    ⟨C.n, mix C.a 0 (n / 2) fun i => skewSq n b.val (2 * i + 1) (2 * i + 1), mix C.b 0 (n / 2 - 1) fun i => -b.val (2 * i + 1) * b.val (2 * i + 2)⟩, ?_, rfl, rfl, fun i j i0 i1 j0 j1 => ?_,
    fun i j i0 i1 j0 j1 => ?_, fun i j i0 i1 j0 j1 => ?_, rfl, rfl, rfl, rfl, fun i h => mix_val_out h, fun i h => mix_val_out h, fun i h => mix_val_out h, fun i h => mix_val_out h⟩
  · unfold skewToSym
    rw [skewDiagB_eq n2 hb hBa, Option.bind_some, eB, Option.bind_some, skewDiagC_eq n2 hb hCa, Option.bind_some, eC, Option.map_some]
  · show skewSq n b.val (2 * i) (2 * j) = _
    dsimp only
    by_cases h : i = j
    · subst h
      rw [triMat_diag, mix_val_in i0 i1]
    rw [skewSq_eq _ (by omega) (by omega) (by omega) (by omega), if_neg (by omega)]
    by_cases h2 : j = i + 1
    · rw [if_pos (by omega), triMat_sup h2, mix_val_in i0 (by omega)]
    rw [if_neg (by omega)]
    by_cases h3 : i = j + 1
    · rw [if_pos (by omega), triMat_sub h3, mix_val_in j0 (by omega)]
    rw [if_neg (by omega), triMat_far (by omega)]
  · show skewSq n b.val (2 * i + 1) (2 * j + 1) = _
    dsimp only
    by_cases h : i = j
    · subst h
      rw [triMat_diag, mix_val_in i0 i1]
    rw [skewSq_eq _ (by omega) (by omega) (by omega) (by omega), if_neg (by omega)]
    by_cases h2 : j = i + 1
    · rw [if_pos (by omega), triMat_sup h2, mix_val_in i0 (by omega), show 2 * i + 1 + 1 = 2 * i + 2 by omega]
    rw [if_neg (by omega)]
    by_cases h3 : i = j + 1
    · rw [if_pos (by omega), triMat_sub h3, mix_val_in j0 (by omega), show 2 * j + 1 + 1 = 2 * j + 2 by omega]
    rw [if_neg (by omega), triMat_far (by omega)]
  · show skewSq n b.val (2 * i) (2 * j + 1) = _
    rw [skewSq_eq _ (by omega) (by omega) (by omega) (by omega), if_neg (by omega), if_neg (by omega), if_neg (by omega)]

/-- **C70**, defect: a skew-symmetric matrix of order one has no superdiagonal, and the first entry of it is read all the same. -/
theorem C70_order_one_defect {b : Buf K} (hb : b.size = 0) (B C : SymTri K) : skewToSym 1 b B C = none := by
  unfold skewToSym skewDiagB
  rw [if_pos (by omega), Buf.rd_oob (by rw [hb]; omega)]
  rfl

/-- **C70**, defect: for the empty matrix the entry `b[-2]` is read. -/
theorem C70_empty_defect (b : Buf K) (B C : SymTri K) : skewToSym 0 b B C = none := by
  unfold skewToSym
  have h : skewDiagC 0 b C.a = none := by
    unfold skewDiagC
    rw [show sweepUp 0 ((0 - 1) / 2) _ C.a = some C.a from rfl, Option.bind_some, if_pos (by omega), Buf.rd_oob (by omega)]
    rfl
  rw [h]
  simp only [Option.bind_none, Option.bind_fun_none]

/-! ## Examples -/

example : ∃ B' C', skewToSym 5 (⟨4, fun i => i + 1⟩ : Buf Int) ⟨3, ⟨3, fun _ => 9⟩, ⟨2, fun _ => 9⟩⟩ ⟨2, ⟨2, fun _ => 9⟩, ⟨1, fun _ => 9⟩⟩ = some (B', C') ∧ B'.a.val 1 = 13 ∧ B'.a.val 2 = 16 ∧ C'.b.val 0 = -6 := by
  refine ⟨_, _, rfl, ?_, ?_, ?_⟩ <;> rfl

example : ∃ B' C', skewToSym 5 (⟨4, fun i => i + 1⟩ : Buf Rat) ⟨3, ⟨3, fun _ => 9⟩, ⟨2, fun _ => 9⟩⟩ ⟨2, ⟨2, fun _ => 9⟩, ⟨1, fun _ => 9⟩⟩ = some (B', C') ∧
    ∀ i j, 0 ≤ i → i < 3 → 0 ≤ j → j < 3 → ∑ r ∈ Finset.Ico 0 5, skewMat (fun i : Int => (i : Rat) + 1) r (2 * i) * skewMat (fun i : Int => (i : Rat) + 1) r (2 * j) = triMat B'.a.val B'.b.val i j := by
  obtain ⟨B', C', h1, _, _, h2, _⟩ := C70_skew_square_partial (n := 5) (by norm_num) (b := (⟨4, fun i => i + 1⟩ : Buf Rat)) (by norm_num) (B := ⟨3, ⟨3, fun _ => 9⟩, ⟨2, fun _ => 9⟩⟩)
    (C := ⟨2, ⟨2, fun _ => 9⟩, ⟨1, fun _ => 9⟩⟩) (by norm_num) (by norm_num) (by norm_num) (by norm_num)
  exact ⟨B', C', h1, h2⟩

example : skewToSym 1 (⟨0, fun i => i + 1⟩ : Buf Rat) ⟨1, ⟨1, fun _ => 9⟩, ⟨0, fun _ => 9⟩⟩ ⟨0, ⟨0, fun _ => 9⟩, ⟨0, fun _ => 9⟩⟩ = none := C70_order_one_defect rfl _ _

end FT.Props
