import Verif.Props.Banded
import Verif.Lemmas.TriDense
import Mathlib.Algebra.Order.Ring.Rat

/-!
# C18: triangular multiply and solve

The specification is the dense matrix: `Multiplies f n a` and `SolvesSystem f n a` do not mention bands, slots or loops.
-/

namespace FT.Props
open FT
variable {K : Type*}

/-- `f` replaces the first `n` entries of its argument by `a x`, and leaves the others. -/
def Multiplies [CommRing K] (f : Buf K → Option (Buf K)) (n : Int) (a : Int → Int → K) : Prop :=
  ∀ x : Buf K, n ≤ x.size → ∃ y, f x = some y ∧ y.size = x.size ∧ (∀ i, 0 ≤ i → i < n → y.val i = ∑ k ∈ Finset.Ico 0 n, a i k * x.val k) ∧
    ∀ i, ¬ (0 ≤ i ∧ i < n) → y.val i = x.val i

/-- `f` replaces the first `n` entries of its argument `x` by the solution `y` of `a y = x`. -/
def SolvesSystem [CommRing K] (f : Buf K → Option (Buf K)) (n : Int) (a : Int → Int → K) : Prop :=
  ∀ x : Buf K, n ≤ x.size → ∃ y, f x = some y ∧ y.size = x.size ∧ (∀ i, 0 ≤ i → i < n → ∑ k ∈ Finset.Ico 0 n, a i k * y.val k = x.val i) ∧
    ∀ i, ¬ (0 ≤ i ∧ i < n) → y.val i = x.val i

/-- `f` and `g` undo each other, in both orders, on every vector of at least `n` entries. -/
def Undo (f g : Buf K → Option (Buf K)) (n : Int) : Prop :=
  ∀ x : Buf K, n ≤ x.size → (∃ y, f x = some y ∧ g y = some x) ∧ ∃ y, g x = some y ∧ f y = some x

/-- The matrix an operation with the given `TRANS` character works with. -/
def opEnt (tr : Char) (a : Int → Int → K) (i j : Int) : K := if tr = 'N' then a i j else a j i

/-- The upper and the lower triangle, diagonal included. -/
def upperPart [Zero K] (a : Int → Int → K) (i j : Int) : K := if i ≤ j then a i j else 0
def lowerPart [Zero K] (a : Int → Int → K) (i j : Int) : K := if j ≤ i then a i j else 0

theorem multiplies_of [CommRing K] {f : Buf K → Option (Buf K)} {n : Int} {a : Int → Int → K}
    (h : ∀ x : Buf K, n ≤ x.size → f x = some (mix x 0 n fun i => ∑ k ∈ Finset.Ico 0 n, a i k * x.val k)) : Multiplies f n a :=
  fun x hx => ⟨_, h x hx, rfl, fun i i0 i1 => mix_val_in i0 i1, fun i hi => mix_val_out hi⟩

theorem solves_of [CommRing K] {f : Buf K → Option (Buf K)} {n : Int} {a : Int → Int → K}
    (he : ∀ x : Buf K, n ≤ x.size → ∃ y, Solves n a y x.val) (h : ∀ (x : Buf K) y, n ≤ x.size → Solves n a y x.val → f x = some (mix x 0 n y)) : SolvesSystem f n a := by
  intro x hx
  obtain ⟨y, hy⟩ := he x hx
  refine ⟨_, h x y hx hy, rfl, fun i i0 i1 => ?_, fun i hi => mix_val_out hi⟩
  rw [← hy i i0 i1]
  exact sum_Ico_congr fun k k0 k1 => by rw [mix_val_in k0 k1]

theorem mix_mix {x : Buf K} {n : Int} {y z : Int → K} (h : ∀ i, 0 ≤ i → i < n → z i = x.val i) : mix (mix x 0 n y) 0 n z = x :=
  Buf.ext' rfl fun i => by
    by_cases hi : 0 ≤ i ∧ i < n
    · rw [mix_val_in hi.1 hi.2, h i hi.1 hi.2]
    · rw [mix_val_out hi, mix_val_out hi]

theorem undo_of [CommRing K] {f g : Buf K → Option (Buf K)} {n : Int} {a : Int → Int → K}
    (hf : ∀ x : Buf K, n ≤ x.size → f x = some (mix x 0 n fun i => ∑ k ∈ Finset.Ico 0 n, a i k * x.val k))
    (he : ∀ x : Buf K, n ≤ x.size → ∃ y, Solves n a y x.val) (h : ∀ (x : Buf K) y, n ≤ x.size → Solves n a y x.val → g x = some (mix x 0 n y)) : Undo f g n := by
  intro x hx
  constructor
  · refine ⟨_, hf x hx, ?_⟩
    rw [h (mix x 0 n fun i => ∑ k ∈ Finset.Ico 0 n, a i k * x.val k) x.val hx fun i i0 i1 => by rw [mix_val_in i0 i1]]
    congr 1
    exact mix_mix fun _ _ _ => rfl
  · obtain ⟨y, hy⟩ := he x hx
    refine ⟨_, h x y hx hy, ?_⟩
    rw [hf (mix x 0 n y) hx]
    congr 1
    refine mix_mix fun i i0 i1 => ?_
    rw [← hy i i0 i1]
    exact sum_Ico_congr fun k k0 k1 => by rw [mix_val_in k0 k1]

section mul
variable [CommRing K]

theorem tb_slot {A : TB K} {n b a} (h : StoresT A n b a) {i k : Int} (hb : band n n 0 b i k) : A.D.rd (A.o + (i + (k + 1) * A.b)) = some (a i k) := by
  have := h.get i k; unfold TB.get at this; rwa [if_pos ((h.inBand i k).2 hb)] at this

theorem b_slot {A : Banded K} {m n l u a} (h : Stores A m n l u a) {i k : Int} (hb : band m n l u i k) : A.D.rd (A.u + i + k * (A.l + A.u)) = some (a i k) := by
  have := h.get i k; unfold Banded.get at this; rwa [if_pos ((h.inBand i k).2 hb)] at this

theorem tbmvN {A : TB K} {n b a} (h : StoresT A n b a) (hb : 0 ≤ b) (x : Buf K) (hx : n ≤ x.size) :
    tbmv 'N' A x = some (mix x 0 n fun i => ∑ k ∈ Finset.Ico 0 n, a i k * x.val k) := by
  unfold tbmv
  obtain ⟨d1, d2⟩ := h.dims
  rw [if_pos rfl, d1, d2]
  exact mulUpper_eq hx (fun i _ _ => min_le_right _ _) (fun i k i0 i1 k0 k1 => by rw [← d2]; exact tb_slot h (by unfold band; omega))
    (fun i k i0 i1 k0 k1 => C14_zero_outside_tri h (by unfold band; omega)) (fun i k i0 i1 k0 k1 => C14_zero_outside_tri h (by unfold band; omega))

theorem tbmvT {A : TB K} {n b a} (h : StoresT A n b a) (hb : 0 ≤ b) (x : Buf K) (hx : n ≤ x.size) :
    tbmv 'T' A x = some (mix x 0 n fun i => ∑ k ∈ Finset.Ico 0 n, a k i * x.val k) := by
  unfold tbmv
  obtain ⟨d1, d2⟩ := h.dims
  rw [if_neg (by decide), if_pos rfl, d1, d2]
  exact mulLower_eq (c := fun i k => a k i) hx (fun i _ _ => le_max_right _ _) (fun i k i0 i1 k0 k1 => by rw [← d2]; exact tb_slot h (by unfold band; omega))
    (fun i k i0 i1 k0 k1 => C14_zero_outside_tri h (by unfold band; omega)) (fun i k i0 i1 k0 k1 => C14_zero_outside_tri h (by unfold band; omega))

theorem brmvN {R : Banded K} {m n l u a} (h : Stores R m n l u a) (hm : n ≤ m) (hl : 0 ≤ l) (hu : 0 ≤ u) (x : Buf K) (hx : n ≤ x.size) :
    brmv 'N' R x = some (mix x 0 n fun i => ∑ k ∈ Finset.Ico 0 n, upperPart a i k * x.val k) := by
  unfold brmv
  obtain ⟨d1, d2, d3, d4⟩ := h.dims
  rw [if_pos rfl, d2]
  exact mulUpper_eq (c := upperPart a) hx (fun i _ _ => min_le_right _ _)
    (fun i k i0 i1 k0 k1 => by unfold upperPart; rw [if_pos k0]; exact b_slot h (by unfold band; omega))
    (fun i k i0 i1 k0 k1 => if_neg (by omega)) (fun i k i0 i1 k0 k1 => by unfold upperPart; rw [C14_zero_outside h (by unfold band; omega), ite_self])

theorem brmvT {R : Banded K} {m n l u a} (h : Stores R m n l u a) (hm : n ≤ m) (hl : 0 ≤ l) (hu : 0 ≤ u) (x : Buf K) (hx : n ≤ x.size) :
    brmv 'T' R x = some (mix x 0 n fun i => ∑ k ∈ Finset.Ico 0 n, upperPart a k i * x.val k) := by
  unfold brmv
  obtain ⟨d1, d2, d3, d4⟩ := h.dims
  rw [if_neg (by decide), if_pos rfl, d2]
  exact mulLower_eq (c := fun i k => upperPart a k i) hx (fun i _ _ => le_max_right _ _)
    (fun i k i0 i1 k0 k1 => by unfold upperPart; rw [if_pos k1]; exact b_slot h (by unfold band; omega))
    (fun i k i0 i1 k0 k1 => if_neg (by omega)) (fun i k i0 i1 k0 k1 => by unfold upperPart; rw [C14_zero_outside h (by unfold band; omega), ite_self])

theorem blmvN {R : Banded K} {m n l u a} (h : Stores R m n l u a) (hm : n ≤ m) (hl : 0 ≤ l) (hu : 0 ≤ u) (x : Buf K) (hx : n ≤ x.size) :
    blmv 'N' R x = some (mix x 0 n fun i => ∑ k ∈ Finset.Ico 0 n, lowerPart a i k * x.val k) := by
  unfold blmv
  obtain ⟨d1, d2, d3, d4⟩ := h.dims
  rw [if_pos rfl, d2]
  exact mulLower_eq (c := lowerPart a) hx (fun i _ _ => le_max_right _ _)
    (fun i k i0 i1 k0 k1 => by unfold lowerPart; rw [if_pos k1]; exact b_slot h (by unfold band; omega))
    (fun i k i0 i1 k0 k1 => if_neg (by omega)) (fun i k i0 i1 k0 k1 => by unfold lowerPart; rw [C14_zero_outside h (by unfold band; omega), ite_self])

theorem blmvT {R : Banded K} {m n l u a} (h : Stores R m n l u a) (hm : n ≤ m) (hl : 0 ≤ l) (hu : 0 ≤ u) (x : Buf K) (hx : n ≤ x.size) :
    blmv 'T' R x = some (mix x 0 n fun i => ∑ k ∈ Finset.Ico 0 n, lowerPart a k i * x.val k) := by
  unfold blmv
  obtain ⟨d1, d2, d3, d4⟩ := h.dims
  rw [if_neg (by decide), if_pos rfl, d2]
  exact mulUpper_eq (c := fun i k => lowerPart a k i) hx (fun i _ _ => min_le_right _ _)
    (fun i k i0 i1 k0 k1 => by unfold lowerPart; rw [if_pos k0]; exact b_slot h (by unfold band; omega))
    (fun i k i0 i1 k0 k1 => if_neg (by omega)) (fun i k i0 i1 k0 k1 => by unfold lowerPart; rw [C14_zero_outside h (by unfold band; omega), ite_self])

/-- **C18** Triangular banded product, plain and transposed. -/
theorem C18_tbmv {A : TB K} {n b a} (h : StoresT A n b a) (hb : 0 ≤ b) {tr : Char} (ht : tr = 'N' ∨ tr = 'T') : Multiplies (tbmv tr A) n (opEnt tr a) := by
  rcases ht with rfl | rfl
  · exact multiplies_of (tbmvN h hb)
  · exact multiplies_of (tbmvT h hb)

/-- **C18** Products with the triangular factor of a banded QR factorisation. -/
theorem C18_brmv {R : Banded K} {m n l u a} (h : Stores R m n l u a) (hm : n ≤ m) (hl : 0 ≤ l) (hu : 0 ≤ u) {tr : Char} (ht : tr = 'N' ∨ tr = 'T') :
    Multiplies (brmv tr R) n (opEnt tr (upperPart a)) := by
  rcases ht with rfl | rfl
  · exact multiplies_of (brmvN h hm hl hu)
  · exact multiplies_of (brmvT h hm hl hu)

/-- **C18** Products with the triangular factor of a banded QL factorisation. -/
theorem C18_blmv {R : Banded K} {m n l u a} (h : Stores R m n l u a) (hm : n ≤ m) (hl : 0 ≤ l) (hu : 0 ≤ u) {tr : Char} (ht : tr = 'N' ∨ tr = 'T') :
    Multiplies (blmv tr R) n (opEnt tr (lowerPart a)) := by
  rcases ht with rfl | rfl
  · exact multiplies_of (blmvN h hm hl hu)
  · exact multiplies_of (blmvT h hm hl hu)

/-- **C18** Dense triangular product: `A` is column-major with leading dimension `LDA ≥ n`; the strictly lower triangle is not read. -/
theorem C18_trmv {A : Buf K} {n LDA : Int} (hL : n ≤ LDA) (hA : n * LDA ≤ A.size) {tr : Char} (ht : tr = 'N' ∨ tr = 'T') :
    Multiplies (trmv tr n A LDA) n (opEnt tr (upperPart fun i j => A.val (i + j * LDA))) := by
  rcases ht with rfl | rfl
  · exact multiplies_of fun x hx => trmvN_eq ⟨hL, hA⟩ hx
  · exact multiplies_of fun x hx => trmvT_eq ⟨hL, hA⟩ hx

/-- The bidiagonal matrix with diagonal `c` and superdiagonal `d`. -/
def bidiag (c d : Int → K) (i j : Int) : K := if j = i then c i else if j = i + 1 then d i else 0

/-- **C18** Bidiagonal product. -/
theorem C18_bdmv {c d : Buf K} {n : Int} (hn : 1 ≤ n) (hc : n ≤ c.size) (hd : n - 1 ≤ d.size) {tr : Char} (ht : tr = 'N' ∨ tr = 'T') :
    Multiplies (bdmv tr n c d) n (opEnt tr (bidiag c.val d.val)) := by
  rcases ht with rfl | rfl
  · exact multiplies_of fun x hx => bdmvN_eq hn hc hd hx
  · exact multiplies_of fun x hx => bdmvT_eq hn hc hd hx

end mul

section solve
variable [Field K] [DecidableEq K]

theorem upper_exists {n : Int} {a : Int → Int → K} (hd : ∀ i, 0 ≤ i → i < n → a i i ≠ 0) (hl : ∀ i k, k < i → a i k = 0) :
    (∀ x : Buf K, n ≤ x.size → ∃ y, Solves n a y x.val) ∧ ∀ x : Buf K, n ≤ x.size → ∃ y, Solves n (fun i k => a k i) y x.val :=
  ⟨fun _ hx => tri_exists hx hd fun i k _ _ _ h => hl i k h, fun _ hx => tri_exists_lower hx hd fun i k _ _ h _ => hl k i h⟩

theorem lower_exists {n : Int} {a : Int → Int → K} (hd : ∀ i, 0 ≤ i → i < n → a i i ≠ 0) (hl : ∀ i k, i < k → a i k = 0) :
    (∀ x : Buf K, n ≤ x.size → ∃ y, Solves n a y x.val) ∧ ∀ x : Buf K, n ≤ x.size → ∃ y, Solves n (fun i k => a k i) y x.val :=
  ⟨fun _ hx => tri_exists_lower hx hd fun i k _ _ h _ => hl i k h, fun _ hx => tri_exists hx hd fun i k _ _ _ h => hl k i h⟩

theorem tri_zero {A : TB K} {n b a} (h : StoresT A n b a) (i k : Int) (hk : k < i) : a i k = 0 := C14_zero_outside_tri h (by unfold band; omega)

theorem tbsvN {A : TB K} {n b a} (h : StoresT A n b a) (hb : 0 ≤ b) (hd : ∀ i, 0 ≤ i → i < n → a i i ≠ 0) (x : Buf K) (y : Int → K) (hx : n ≤ x.size) (hy : Solves n a y x.val) :
    tbsv 'N' A x = some (mix x 0 n y) := by
  unfold tbsv
  obtain ⟨d1, d2⟩ := h.dims
  rw [if_pos rfl, d1, d2]
  exact solveUpper_of hx (fun i _ _ => by constructor <;> omega) (fun i k i0 i1 k0 k1 => by rw [← d2]; exact tb_slot h (by unfold band; omega)) hd
    (fun i k i0 i1 k0 k1 => tri_zero h i k k1) (fun i k i0 i1 k0 k1 => C14_zero_outside_tri h (by unfold band; omega)) hy

theorem tbsvT {A : TB K} {n b a} (h : StoresT A n b a) (hb : 0 ≤ b) (hd : ∀ i, 0 ≤ i → i < n → a i i ≠ 0) (x : Buf K) (y : Int → K) (hx : n ≤ x.size)
    (hy : Solves n (fun i k => a k i) y x.val) : tbsv 'T' A x = some (mix x 0 n y) := by
  unfold tbsv
  obtain ⟨d1, d2⟩ := h.dims
  rw [if_neg (by decide), if_pos rfl, d1, d2]
  exact solveLower_of (c := fun i k => a k i) hx (fun i _ _ => by constructor <;> omega) (fun i k i0 i1 k0 k1 => by rw [← d2]; exact tb_slot h (by unfold band; omega)) hd
    (fun i k i0 i1 k0 k1 => tri_zero h k i k0) (fun i k i0 i1 k0 k1 => C14_zero_outside_tri h (by unfold band; omega)) hy

/-- **C18** Triangular banded solve: solves the system and undoes the product, in both orders. -/
theorem C18_tbsv {A : TB K} {n b a} (h : StoresT A n b a) (hb : 0 ≤ b) (hd : ∀ i, 0 ≤ i → i < n → a i i ≠ 0) {tr : Char} (ht : tr = 'N' ∨ tr = 'T') :
    SolvesSystem (tbsv tr A) n (opEnt tr a) ∧ Undo (tbmv tr A) (tbsv tr A) n := by
  have he := upper_exists hd (tri_zero h)
  rcases ht with rfl | rfl
  · exact ⟨solves_of he.1 (tbsvN h hb hd), undo_of (tbmvN h hb) he.1 (tbsvN h hb hd)⟩
  · exact ⟨solves_of he.2 (tbsvT h hb hd), undo_of (tbmvT h hb) he.2 (tbsvT h hb hd)⟩

/-- **C18** Shifted solve with `A - γB`, two triangular banded matrices of possibly different bandwidth. -/
theorem C18_tssv {A B : TB K} {n b b' a a'} (hA : StoresT A n b a) (hB : StoresT B n b' a') (hb : 0 ≤ b ∨ 0 ≤ b') {gamma : K} (hd : ∀ i, 0 ≤ i → i < n → a i i - gamma * a' i i ≠ 0)
    {tr : Char} (ht : tr = 'N' ∨ tr = 'T') : SolvesSystem (tssv tr A B gamma) n (opEnt tr fun i j => a i j - gamma * a' i j) := by
  have hl : ∀ i k, k < i → a i k - gamma * a' i k = 0 := fun i k hk => by rw [tri_zero hA i k hk, tri_zero hB i k hk, mul_zero, sub_zero]
  have he := upper_exists (a := fun i j => a i j - gamma * a' i j) hd hl
  have hg : ∀ i k, ((A.get i k).bind fun p => (B.get i k).map fun q => p - gamma * q) = some (a i k - gamma * a' i k) := fun i k => by rw [hA.get, hB.get]; rfl
  obtain ⟨d1, d2⟩ := hA.dims
  obtain ⟨e1, e2⟩ := hB.dims
  rcases ht with rfl | rfl
  · refine solves_of he.1 fun x y hx hy => ?_
    unfold tssv
    rw [if_pos rfl, d1, d2, e2]
    exact solveUpper_of (c := fun i j => a i j - gamma * a' i j) hx (fun i _ _ => by constructor <;> omega) (fun i k _ _ _ _ => hg i k) hd (fun i k _ _ _ h => hl i k h)
      (fun i k i0 i1 k0 k1 => by
        rw [C14_zero_outside_tri hA (by unfold band; omega), C14_zero_outside_tri hB (by unfold band; omega), mul_zero, sub_zero]) hy
  · refine solves_of he.2 fun x y hx hy => ?_
    unfold tssv
    rw [if_neg (by decide), if_pos rfl, d1, d2, e2]
    exact solveLower_of (c := fun i j => a j i - gamma * a' j i) hx (fun i _ _ => by constructor <;> omega) (fun i k _ _ _ _ => hg k i) hd (fun i k _ _ h _ => hl k i h)
      (fun i k i0 i1 k0 k1 => by
        rw [C14_zero_outside_tri hA (by unfold band; omega), C14_zero_outside_tri hB (by unfold band; omega), mul_zero, sub_zero]) hy

/-- **C18** Solves with the triangular factor of a banded QR factorisation. -/
theorem C18_brsv {R : Banded K} {m n l u a} (h : Stores R m n l u a) (hm : n ≤ m) (hl : 0 ≤ l) (hu : 0 ≤ u) (hd : ∀ i, 0 ≤ i → i < n → a i i ≠ 0) {tr : Char} (ht : tr = 'N' ∨ tr = 'T') :
    SolvesSystem (brsv tr R) n (opEnt tr (upperPart a)) ∧ Undo (brmv tr R) (brsv tr R) n := by
  have hd' : ∀ i, 0 ≤ i → i < n → upperPart a i i ≠ 0 := fun i i0 i1 => by unfold upperPart; rw [if_pos (le_refl _)]; exact hd i i0 i1
  have he := upper_exists hd' fun i k hk => if_neg (by omega)
  obtain ⟨d1, d2, d3, d4⟩ := h.dims
  rcases ht with rfl | rfl
  · have hs : ∀ (x : Buf K) y, n ≤ x.size → Solves n (upperPart a) y x.val → brsv 'N' R x = some (mix x 0 n y) := by
      intro x y hx hy
      unfold brsv
      rw [if_pos rfl, d2]
      exact solveUpper_of hx (fun i _ _ => by constructor <;> omega) (fun i k i0 i1 k0 k1 => by unfold upperPart; rw [if_pos k0]; exact b_slot h (by unfold band; omega)) hd'
        (fun i k i0 i1 k0 k1 => if_neg (by omega)) (fun i k i0 i1 k0 k1 => by unfold upperPart; rw [C14_zero_outside h (by unfold band; omega), ite_self]) hy
    exact ⟨solves_of he.1 hs, undo_of (brmvN h hm hl hu) he.1 hs⟩
  · have hs : ∀ (x : Buf K) y, n ≤ x.size → Solves n (fun i k => upperPart a k i) y x.val → brsv 'T' R x = some (mix x 0 n y) := by
      intro x y hx hy
      unfold brsv
      rw [if_neg (by decide), if_pos rfl, d2]
      exact solveLower_of (c := fun i k => upperPart a k i) hx (fun i _ _ => by constructor <;> omega)
        (fun i k i0 i1 k0 k1 => by unfold upperPart; rw [if_pos k1]; exact b_slot h (by unfold band; omega)) hd'
        (fun i k i0 i1 k0 k1 => if_neg (by omega)) (fun i k i0 i1 k0 k1 => by unfold upperPart; rw [C14_zero_outside h (by unfold band; omega), ite_self]) hy
    exact ⟨solves_of he.2 hs, undo_of (brmvT h hm hl hu) he.2 hs⟩

/-- **C18** Solves with the triangular factor of a banded QL factorisation. -/
theorem C18_blsv {R : Banded K} {m n l u a} (h : Stores R m n l u a) (hm : n ≤ m) (hl : 0 ≤ l) (hu : 0 ≤ u) (hd : ∀ i, 0 ≤ i → i < n → a i i ≠ 0) {tr : Char} (ht : tr = 'N' ∨ tr = 'T') :
    SolvesSystem (blsv tr R) n (opEnt tr (lowerPart a)) ∧ Undo (blmv tr R) (blsv tr R) n := by
  have hd' : ∀ i, 0 ≤ i → i < n → lowerPart a i i ≠ 0 := fun i i0 i1 => by unfold lowerPart; rw [if_pos (le_refl _)]; exact hd i i0 i1
  have he := lower_exists hd' fun i k hk => if_neg (by omega)
  obtain ⟨d1, d2, d3, d4⟩ := h.dims
  rcases ht with rfl | rfl
  · have hs : ∀ (x : Buf K) y, n ≤ x.size → Solves n (lowerPart a) y x.val → blsv 'N' R x = some (mix x 0 n y) := by
      intro x y hx hy
      unfold blsv
      rw [if_pos rfl, d2]
      exact solveLower_of hx (fun i _ _ => by constructor <;> omega) (fun i k i0 i1 k0 k1 => by unfold lowerPart; rw [if_pos k1]; exact b_slot h (by unfold band; omega)) hd'
        (fun i k i0 i1 k0 k1 => if_neg (by omega)) (fun i k i0 i1 k0 k1 => by unfold lowerPart; rw [C14_zero_outside h (by unfold band; omega), ite_self]) hy
    exact ⟨solves_of he.1 hs, undo_of (blmvN h hm hl hu) he.1 hs⟩
  · have hs : ∀ (x : Buf K) y, n ≤ x.size → Solves n (fun i k => lowerPart a k i) y x.val → blsv 'T' R x = some (mix x 0 n y) := by
      intro x y hx hy
      unfold blsv
      rw [if_neg (by decide), if_pos rfl, d2]
      exact solveUpper_of (c := fun i k => lowerPart a k i) hx (fun i _ _ => by constructor <;> omega)
        (fun i k i0 i1 k0 k1 => by unfold lowerPart; rw [if_pos k0]; exact b_slot h (by unfold band; omega)) hd'
        (fun i k i0 i1 k0 k1 => if_neg (by omega)) (fun i k i0 i1 k0 k1 => by unfold lowerPart; rw [C14_zero_outside h (by unfold band; omega), ite_self]) hy
    exact ⟨solves_of he.2 hs, undo_of (blmvT h hm hl hu) he.2 hs⟩

/-- **C18** Dense triangular solve. -/
theorem C18_trsv {A : Buf K} {n LDA : Int} (hL : n ≤ LDA) (hA : n * LDA ≤ A.size) (hd : ∀ i, 0 ≤ i → i < n → A.val (i + i * LDA) ≠ 0) {tr : Char} (ht : tr = 'N' ∨ tr = 'T') :
    SolvesSystem (trsv tr n A LDA) n (opEnt tr (upperPart fun i j => A.val (i + j * LDA))) ∧ Undo (trmv tr n A LDA) (trsv tr n A LDA) n := by
  have hd' : ∀ i, 0 ≤ i → i < n → triU A LDA i i ≠ 0 := fun i i0 i1 => by unfold triU; rw [if_pos (le_refl _)]; exact hd i i0 i1
  have he := upper_exists hd' fun i k hk => if_neg (by omega)
  have ok : TriOk n A LDA := ⟨hL, hA⟩
  rcases ht with rfl | rfl
  · exact ⟨solves_of he.1 fun x y hx hy => trsvN_of ok hx hd' hy, undo_of (fun x hx => trmvN_eq ok hx) he.1 fun x y hx hy => trsvN_of ok hx hd' hy⟩
  · exact ⟨solves_of he.2 fun x y hx hy => trsvT_of ok hx hd' hy, undo_of (fun x hx => trmvT_eq ok hx) he.2 fun x y hx hy => trsvT_of ok hx hd' hy⟩

/-- **C18** Bidiagonal solve. -/
theorem C18_bdsv {c d : Buf K} {n : Int} (hn : 1 ≤ n) (hc : n ≤ c.size) (hd : n - 1 ≤ d.size) (h0 : ∀ i, 0 ≤ i → i < n → c.val i ≠ 0) {tr : Char} (ht : tr = 'N' ∨ tr = 'T') :
    SolvesSystem (bdsv tr n c d) n (opEnt tr (bidiag c.val d.val)) ∧ Undo (bdmv tr n c d) (bdsv tr n c d) n := by
  have hd' : ∀ i, 0 ≤ i → i < n → biU c d i i ≠ 0 := fun i i0 i1 => by unfold biU; rw [if_pos rfl]; exact h0 i i0 i1
  have he := upper_exists hd' fun i k hk => by unfold biU; rw [if_neg (by omega), if_neg (by omega)]
  rcases ht with rfl | rfl
  · exact ⟨solves_of he.1 fun x y hx hy => bdsvN_of hn hc hd hx h0 hy, undo_of (fun x hx => bdmvN_eq hn hc hd hx) he.1 fun x y hx hy => bdsvN_of hn hc hd hx h0 hy⟩
  · exact ⟨solves_of he.2 fun x y hx hy => bdsvT_of hn hc hd hx h0 hy, undo_of (fun x hx => bdmvT_eq hn hc hd hx) he.2 fun x y hx hy => bdsvT_of hn hc hd hx h0 hy⟩

/-- **C18** Any other `TRANS` character leaves the vector alone. -/
theorem C18_other {tr : Char} (h1 : tr ≠ 'N') (h2 : tr ≠ 'T') (A : TB K) (R : Banded K) (D c d x : Buf K) (n LDA : Int) :
    tbmv tr A x = some x ∧ tbsv tr A x = some x ∧ brmv tr R x = some x ∧ brsv tr R x = some x ∧ blmv tr R x = some x ∧ blsv tr R x = some x ∧
      trmv tr n D LDA x = some x ∧ trsv tr n D LDA x = some x ∧ bdmv tr n c d x = some x ∧ bdsv tr n c d x = some x := by
  simp [tbmv, tbsv, brmv, brsv, blmv, blsv, trmv, trsv, bdmv, bdsv, h1, h2]

end solve

/-! Instances. -/

/-- Upper bidiagonal 3 × 3 with diagonal 1 2 4 and superdiagonal 4 5, over the rationals. -/
def biQ : TB Rat := ⟨0, 3, 1, Buf.ofList [0, 1, 4, 2, 5, 4]⟩
def bi3i : TB Int := ⟨0, 3, 1, Buf.ofList [0, 1, 4, 2, 5, 4]⟩
theorem biQ_stores : StoresT biQ 3 1 biQ.ent := .mk' ⟨rfl, rfl⟩ (by unfold TB.WF; decide) fun _ _ => rfl
theorem biQ_diag : ∀ i, 0 ≤ i → i < 3 → biQ.ent i i ≠ 0 := by
  intro i h0 h1
  have : i = 0 ∨ i = 1 ∨ i = 2 := by omega
  rcases this with rfl | rfl | rfl <;> decide

example : Multiplies (tbmv 'T' biQ) 3 (opEnt 'T' biQ.ent) := C18_tbmv biQ_stores (by decide) (Or.inr rfl)
example : (tbmv 'N' bi3i (Buf.ofList [1, 2, 3])).map Buf.toList = some [9, 19, 12] := by decide
example : (tbmv 'T' bi3i (Buf.ofList [1, 2, 3])).map Buf.toList = some [1, 8, 22] := by decide
example : Undo (tbmv 'N' biQ) (tbsv 'N' biQ) 3 := (C18_tbsv biQ_stores (by decide) biQ_diag (Or.inl rfl)).2
example : SolvesSystem (tssv 'N' biQ biQ 3) 3 (opEnt 'N' fun i j => biQ.ent i j - 3 * biQ.ent i j) :=
  C18_tssv biQ_stores biQ_stores (Or.inl (by decide)) (fun i h0 h1 h => biQ_diag i h0 h1 (by linarith)) (Or.inl rfl)
/-- The tridiagonal matrix with rows (4 7 0), (2 5 8), (0 3 6) over the rationals. -/
def tri3Q : Banded Rat := ⟨3, 3, 1, 1, Buf.ofList [0, 4, 2, 7, 5, 3, 8, 6, 0]⟩
theorem tri3Q_stores : Stores tri3Q 3 3 1 1 tri3Q.ent := .mk' ⟨rfl, rfl, rfl, rfl⟩ (by unfold Banded.WF; decide) fun _ _ => rfl
theorem tri3Q_diag : ∀ i, 0 ≤ i → i < 3 → tri3Q.ent i i ≠ 0 := by
  intro i h0 h1
  have : i = 0 ∨ i = 1 ∨ i = 2 := by omega
  rcases this with rfl | rfl | rfl <;> decide
example : Undo (brmv 'N' tri3Q) (brsv 'N' tri3Q) 3 := (C18_brsv tri3Q_stores (by decide) (by decide) (by decide) tri3Q_diag (Or.inl rfl)).2
example : Undo (blmv 'T' tri3Q) (blsv 'T' tri3Q) 3 := (C18_blsv tri3Q_stores (by decide) (by decide) (by decide) tri3Q_diag (Or.inr rfl)).2
example : (brmv 'N' tri3 (Buf.ofList [1, 1, 1])).map Buf.toList = some [11, 13, 6] := by decide
example : (blmv 'N' tri3 (Buf.ofList [1, 1, 1])).map Buf.toList = some [4, 7, 9] := by decide
/-- A 2 × 2 upper triangular matrix in columns of length 3; the entry below the diagonal and the padding are ignored. -/
example : (trmv 'N' 2 (Buf.ofList [(2 : Int), 99, 88, 3, 5, 77]) 3 (Buf.ofList [1, 10])).map Buf.toList = some [32, 50] := by decide
example : Undo (trmv 'T' 2 (Buf.ofList [(2 : Rat), 99, 88, 3, 5, 77]) 3) (trsv 'T' 2 (Buf.ofList [(2 : Rat), 99, 88, 3, 5, 77]) 3) 2 :=
  (C18_trsv (by decide) (by decide) (by
    intro i h0 h1
    have : i = 0 ∨ i = 1 := by omega
    rcases this with rfl | rfl <;> decide) (Or.inr rfl)).2
example : (bdmv 'T' 3 (Buf.ofList [(1 : Int), 2, 4]) (Buf.ofList [4, 5]) (Buf.ofList [1, 2, 3])).map Buf.toList = some [1, 8, 22] := by decide
example : Undo (bdmv 'N' 1 (Buf.ofList [(3 : Rat)]) (Buf.ofList [])) (bdsv 'N' 1 (Buf.ofList [(3 : Rat)]) (Buf.ofList [])) 1 :=
  (C18_bdsv (by decide) (by decide) (by decide) (by
    intro i h0 h1
    have : i = 0 := by omega
    subst this; decide) (Or.inl rfl)).2

end FT.Props
