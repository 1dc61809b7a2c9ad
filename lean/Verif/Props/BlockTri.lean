import Verif.Props.Tri
import Verif.Lemmas.BlockDense

/-!
# C44: block triangular multiply and solve

A 2 by 2 block matrix of order `2 n` is specified by its entries `a I J`; the routines are compared with products by that dense matrix, as in C18.
-/

set_option linter.unusedSectionVars false

namespace FT.Props
open FT
variable {K : Type*}

/-- The matrix of order `2 n` whose block `(i, j)` has the entries `(i, j)` of four matrices. -/
def interleave (a00 a01 a10 a11 : Int → Int → K) (I J : Int) : K :=
  if I % 2 = 0 then if J % 2 = 0 then a00 (I / 2) (J / 2) else a01 (I / 2) (J / 2) else if J % 2 = 0 then a10 (I / 2) (J / 2) else a11 (I / 2) (J / 2)

/-- The entries on and above the diagonal blocks. -/
def blockUpper [Zero K] (a : Int → Int → K) (I J : Int) : K := if I / 2 ≤ J / 2 then a I J else 0

/-- Every diagonal block is invertible. -/
def InvertibleBlocks [CommRing K] (n : Int) (a : Int → Int → K) : Prop :=
  ∀ i, 0 ≤ i → i < n → a (2 * i) (2 * i) * a (2 * i + 1) (2 * i + 1) - a (2 * i) (2 * i + 1) * a (2 * i + 1) (2 * i) ≠ 0

/-- `A` holds the matrix `a` of order `2 n` with block bandwidth `b`. -/
structure StoresB [CommRing K] (A : BTB K) (n b : Int) (a : Int → Int → K) : Prop where
  dims : A.n = n ∧ A.b = b
  s00 : StoresT A.d00 n b fun i j => a (2 * i) (2 * j)
  s01 : StoresT A.d01 n b fun i j => a (2 * i) (2 * j + 1)
  s10 : StoresT A.d10 n b fun i j => a (2 * i + 1) (2 * j)
  s11 : StoresT A.d11 n b fun i j => a (2 * i + 1) (2 * j + 1)

section mul
variable [CommRing K]

theorem StoresB.blk {A : BTB K} {n b a} (h : StoresB A n b a) (i k : Int) : A.blk i k = some (blkOf a i k) := by
  unfold BTB.blk
  rw [h.s00.get, Option.bind_some, h.s01.get, Option.bind_some, h.s10.get, Option.bind_some, h.s11.get]
  rfl

theorem StoresB.zero {A : BTB K} {n b a} (h : StoresB A n b a) {i k : Int} (hb : ¬ band n n 0 b i k) : BZ a i k :=
  ⟨C14_zero_outside_tri h.s00 hb, C14_zero_outside_tri h.s01 hb, C14_zero_outside_tri h.s10 hb, C14_zero_outside_tri h.s11 hb⟩

theorem blkT {A : BTB K} {n b a} (h : StoresB A n b a) (i k : Int) : (A.blk k i).map M2.tr = some (blkOf (fun i k => a k i) i k) := by
  rw [h.blk]; rfl

theorem zeroT {A : BTB K} {n b a} (h : StoresB A n b a) {i k : Int} (hb : ¬ band n n 0 b k i) : BZ (fun i k => a k i) i k := by
  obtain ⟨h1, h2, h3, h4⟩ := h.zero hb; exact ⟨h1, h3, h2, h4⟩

theorem btbmvN {A : BTB K} {n b a} (h : StoresB A n b a) (hb : 0 ≤ b) (x : Buf K) (hx : 2 * n ≤ x.size) :
    btbmv 'N' A x = some (mix x 0 (2 * n) fun i => ∑ k ∈ Finset.Ico 0 (2 * n), a i k * x.val k) := by
  unfold btbmv
  obtain ⟨d1, d2⟩ := h.dims
  rw [if_pos rfl, d1, d2]
  exact bmulUpper_eq hx (fun i => min_le_right _ _) (fun i k _ _ _ => h.blk i k) (fun i k i0 i1 k0 k1 hk => h.zero (by unfold band; omega))

theorem btbmvT {A : BTB K} {n b a} (h : StoresB A n b a) (hb : 0 ≤ b) (x : Buf K) (hx : 2 * n ≤ x.size) :
    btbmv 'T' A x = some (mix x 0 (2 * n) fun i => ∑ k ∈ Finset.Ico 0 (2 * n), a k i * x.val k) := by
  unfold btbmv
  obtain ⟨d1, d2⟩ := h.dims
  rw [if_neg (by decide), if_pos rfl, d1, d2]
  exact bmulLower_eq (c := fun i k => a k i) hx (fun i => le_max_right _ _) (fun i k _ _ _ => blkT h i k) (fun i k i0 i1 k0 k1 hk => zeroT h (by unfold band; omega))

/-- **C44** Grouping four triangular banded matrices of the same order gives the interleaved matrix, whatever their bandwidths (they are widened to a common one).
The four matrices are separate allocations. -/
theorem C44_create {d00 d01 d10 d11 : TB K} {n b00 b01 b10 b11 : Int} {a00 a01 a10 a11 : Int → Int → K} (h00 : StoresT d00 n b00 a00) (h01 : StoresT d01 n b01 a01)
    (h10 : StoresT d10 n b10 a10) (h11 : StoresT d11 n b11 a11) (hn : 0 ≤ n) (hb : -1 ≤ b00 ∧ -1 ≤ b01 ∧ -1 ≤ b10 ∧ -1 ≤ b11) :
    ∃ A, BTB.create d00 d01 d10 d11 = some A ∧ StoresB A n (max (max b00 b01) (max b10 b11)) (interleave a00 a01 a10 a11) := by
  have widen : ∀ {T : TB K} {b' : Int} {a} (B : Int), StoresT T n b' a → -1 ≤ b' → b' ≤ B → ∃ T', (if T.b ≠ B then T.realloc B else some T) = some T' ∧ StoresT T' n B a := by
    intro T b' a B h h0 h1
    rw [h.dims.2]
    by_cases e : b' = B
    · subst e; exact ⟨T, if_neg (by simp), h⟩
    · rw [if_pos e]; exact C15_grow_partial h hn (by omega) (by omega)
  obtain ⟨t00, e00, s00⟩ := widen (max (max b00 b01) (max b10 b11)) h00 hb.1 (by omega)
  obtain ⟨t01, e01, s01⟩ := widen (max (max b00 b01) (max b10 b11)) h01 hb.2.1 (by omega)
  obtain ⟨t10, e10, s10⟩ := widen (max (max b00 b01) (max b10 b11)) h10 hb.2.2.1 (by omega)
  obtain ⟨t11, e11, s11⟩ := widen (max (max b00 b01) (max b10 b11)) h11 hb.2.2.2 (by omega)
  refine ⟨⟨n, max (max b00 b01) (max b10 b11), t00, t01, t10, t11⟩, ?_, ⟨rfl, rfl⟩, ?_, ?_, ?_, ?_⟩
  · unfold BTB.create
    rw [h00.dims.1, h01.dims.1, h10.dims.1, h11.dims.1]
    dsimp only
    rw [if_neg (by simp)]
    have m : max (max d00.b d01.b) (max d10.b d11.b) = max (max b00 b01) (max b10 b11) := by rw [h00.dims.2, h01.dims.2, h10.dims.2, h11.dims.2]
    rw [m, e00, Option.bind_some, e01, Option.bind_some, e10, Option.bind_some, e11]; rfl
  · convert s00 using 3 with i j; unfold interleave; rw [if_pos (by omega), if_pos (by omega)]; congr 1 <;> omega
  · convert s01 using 3 with i j; unfold interleave; rw [if_pos (by omega), if_neg (by omega)]; congr 1 <;> omega
  · convert s10 using 3 with i j; unfold interleave; rw [if_neg (by omega), if_pos (by omega)]; congr 1 <;> omega
  · convert s11 using 3 with i j; unfold interleave; rw [if_neg (by omega), if_neg (by omega)]; congr 1 <;> omega

/-- **C44** Four matrices of different orders are refused. -/
theorem C44_create_refused {d00 d01 d10 d11 : TB K} (h : ¬ (d01.n = d00.n ∧ d10.n = d00.n ∧ d11.n = d00.n)) : BTB.create d00 d01 d10 d11 = none := by
  unfold BTB.create
  exact if_pos (by tauto)

/-- **C44** Reading entry `(I, J)`. -/
theorem C44_get {A : BTB K} {n b a} (h : StoresB A n b a) {I J : Int} (hI : 0 ≤ I) (hJ : 0 ≤ J) : A.get I J = some (a I J) := by
  unfold BTB.get BTB.data
  rw [if_neg (by omega), Option.bind_some]
  split_ifs with h1 h2 h2
  · rw [h.s00.get, show 2 * (I / 2) = I by omega, show 2 * (J / 2) = J by omega]
  · rw [h.s01.get, show 2 * (I / 2) = I by omega, show 2 * (J / 2) + 1 = J by omega]
  · rw [h.s10.get, show 2 * (I / 2) + 1 = I by omega, show 2 * (J / 2) = J by omega]
  · rw [h.s11.get, show 2 * (I / 2) + 1 = I by omega, show 2 * (J / 2) + 1 = J by omega]

/-- **C44** Conversion to one triangular banded matrix keeps the entries on and above the diagonal, whatever the new storage held before. -/
theorem C44_convert {A : BTB K} {n b a} (h : StoresB A n b a) (hn : 0 ≤ n) (hb : 0 ≤ b) (junk : Int → K) : ∃ B, A.toTB junk = some B ∧ StoresT B (2 * n) (2 * b + 1) (upperPart a) := by
  obtain ⟨d1, d2⟩ := h.dims
  unfold BTB.toTB
  rw [d1, d2]
  let B0 : TB K := ⟨0, 2 * n, 2 * b + 1, ⟨(2 * n * (2 * b + 1 + 1)).toNat, junk⟩⟩
  have h0 : StoresT B0 (2 * n) (2 * b + 1) B0.ent := .mk' ⟨rfl, rfl⟩ ⟨le_refl _, by
    have : 0 ≤ 2 * n * (2 * b + 1 + 1) := Int.mul_nonneg (by omega) (by omega)
    show (0 : Int) + 2 * n * (2 * b + 1 + 1) ≤ ((2 * n * (2 * b + 1 + 1)).toNat : Int); omega⟩ fun _ _ => rfl
  obtain ⟨B, e, c, s, p⟩ := forUp_spec (lo := 0) (hi := 2 * n) (s := B0)
    (body := fun j B => forUp (max (j - 2 * b - 1) 0) (j + 1) (fun k B => (A.get k j).bind fun v => B.set v k j) B)
    (fun J B => ∃ c, StoresT B (2 * n) (2 * b + 1) c ∧ ∀ i j, j < J → band (2 * n) (2 * n) 0 (2 * b + 1) i j → c i j = a i j)
    ⟨_, h0, fun i j hj hb => by unfold band at hb; omega⟩
    (fun j j0 j1 B hB => by
      obtain ⟨c, s, p⟩ := hB
      obtain ⟨B', e, c', s', p', q'⟩ := forUp_spec (lo := max (j - 2 * b - 1) 0) (hi := j + 1) (s := B)
        (body := fun k B => (A.get k j).bind fun v => B.set v k j)
        (fun I B => ∃ c', StoresT B (2 * n) (2 * b + 1) c' ∧ (∀ i j', j' < j → band (2 * n) (2 * n) 0 (2 * b + 1) i j' → c' i j' = a i j') ∧
          ∀ i, i < I → band (2 * n) (2 * n) 0 (2 * b + 1) i j → c' i j = a i j)
        ⟨c, s, p, fun i hi hb => by unfold band at hb; omega⟩
        (fun k k0 k1 B hB => by
          obtain ⟨c', s', p', q'⟩ := hB
          obtain ⟨B', e, s''⟩ := C14_set_tri s' (a k j) k j
          refine ⟨B', by rw [C44_get h (by omega) j0]; exact e, _, s'', fun i j' hj hb => ?_, fun i hi hb => ?_⟩
          · rw [if_neg (by omega)]; exact p' i j' hj hb
          · by_cases hik : i = k
            · subst hik; rw [if_pos ⟨⟨rfl, rfl⟩, hb⟩]
            · rw [if_neg (by omega)]; exact q' i (by omega) hb)
      refine ⟨B', e, c', s', fun i j' hj hb => ?_⟩
      by_cases hjj : j' = j
      · subst hjj; exact q' i (by unfold band at hb; omega) hb
      · exact p' i j' (by omega) hb)
  refine ⟨B, e, ?_⟩
  have hc : c = upperPart a := funext fun i => funext fun j => by
    by_cases hij : band (2 * n) (2 * n) 0 (2 * b + 1) i j
    · rw [p i j (by unfold band at hij; omega) hij]
      unfold upperPart
      rw [if_pos (by unfold band at hij; omega)]
    · rw [C14_zero_outside_tri s hij]
      unfold upperPart
      split_ifs with hle
      · have hz : ¬ band n n 0 b (i / 2) (j / 2) := by unfold band at *; omega
        obtain ⟨z1, z2, z3, z4⟩ := h.zero hz
        rcases Int.emod_two_eq_zero_or_one i with hi | hi <;> rcases Int.emod_two_eq_zero_or_one j with hj | hj
        · rw [show 2 * (i / 2) = i by omega, show 2 * (j / 2) = j by omega] at z1; exact z1.symm
        · rw [show 2 * (i / 2) = i by omega, show 2 * (j / 2) + 1 = j by omega] at z2; exact z2.symm
        · rw [show 2 * (i / 2) + 1 = i by omega, show 2 * (j / 2) = j by omega] at z3; exact z3.symm
        · rw [show 2 * (i / 2) + 1 = i by omega, show 2 * (j / 2) + 1 = j by omega] at z4; exact z4.symm
      · rfl
  rw [← hc]; exact s

/-- **C44** Block triangular banded product, plain and transposed. -/
theorem C44_btbmv {A : BTB K} {n b a} (h : StoresB A n b a) (hb : 0 ≤ b) {tr : Char} (ht : tr = 'N' ∨ tr = 'T') : Multiplies (btbmv tr A) (2 * n) (opEnt tr a) := by
  rcases ht with rfl | rfl
  · exact multiplies_of (btbmvN h hb)
  · exact multiplies_of (btbmvT h hb)

/-- **C44** Dense block triangular product: `A` is column-major with leading dimension `LDA ≥ 2 n`; the blocks below the diagonal are not read. -/
theorem C44_btrmv {A : Buf K} {n LDA : Int} (hL : 2 * n ≤ LDA) (hA : 2 * n * LDA ≤ A.size) {tr : Char} (ht : tr = 'N' ∨ tr = 'T') :
    Multiplies (btrmv tr n A LDA) (2 * n) (opEnt tr (blockUpper fun i j => A.val (i + j * LDA))) := by
  rcases ht with rfl | rfl
  · exact multiplies_of fun x hx => btrmvN_eq ⟨hL, hA⟩ hx
  · exact multiplies_of fun x hx => btrmvT_eq ⟨hL, hA⟩ hx

end mul

section solve
variable [Field K] [DecidableEq K]

theorem btbsvN {A : BTB K} {n b a} (h : StoresB A n b a) (hb : 0 ≤ b) (hd : InvertibleBlocks n a) (x : Buf K) (y : Int → K) (hx : 2 * n ≤ x.size) (hy : Solves (2 * n) a y x.val) :
    btbsv 'N' A x = some (mix x 0 (2 * n) y) := by
  unfold btbsv
  obtain ⟨d1, d2⟩ := h.dims
  rw [if_pos rfl, d1, d2]
  exact bsolveUpper_of hx (fun i => min_le_right _ _) (fun i k _ _ _ => h.blk i k) (fun i k i0 i1 k0 k1 hk hk' => h.zero (by unfold band; omega))
    (fun i i0 i1 => by rw [h.blk, Option.bind_some]; exact M2.inv_inv (hd i i0 i1)) hy

theorem btbsvT {A : BTB K} {n b a} (h : StoresB A n b a) (hb : 0 ≤ b) (hd : InvertibleBlocks n a) (x : Buf K) (y : Int → K) (hx : 2 * n ≤ x.size)
    (hy : Solves (2 * n) (fun i k => a k i) y x.val) : btbsv 'T' A x = some (mix x 0 (2 * n) y) := by
  unfold btbsv
  obtain ⟨d1, d2⟩ := h.dims
  rw [if_neg (by decide), if_pos rfl, d1, d2]
  exact bsolveLower_of (c := fun i k => a k i) hx (fun i => le_max_right _ _) (fun i k _ _ _ => blkT h i k) (fun i k i0 i1 k0 k1 hk hk' => zeroT h (by unfold band; omega))
    (fun i i0 i1 => by rw [h.blk, Option.bind_some]; exact M2.inv_tr (hd i i0 i1)) hy

theorem block_exists {n : Int} {a : Int → Int → K} (hd : InvertibleBlocks n a) (hz : ∀ i k, k < i → BZ a i k) :
    (∀ x : Buf K, 2 * n ≤ x.size → ∃ y, Solves (2 * n) a y x.val) ∧ ∀ x : Buf K, 2 * n ≤ x.size → ∃ y, Solves (2 * n) (fun i k => a k i) y x.val :=
  ⟨fun x _ => btri_exists x.val hd fun i k _ h _ => hz i k h,
   fun x _ => btri_exists_lower x.val (fun i i0 i1 => by
      have := hd i i0 i1; intro h; apply this; unfold M2.det blkOf at h; rw [← h]; dsimp only; ring)
    fun i k _ h _ => by obtain ⟨h1, h2, h3, h4⟩ := hz k i h; exact ⟨h1, h3, h2, h4⟩⟩

/-- **C44** Block triangular banded solve. -/
theorem C44_btbsv {A : BTB K} {n b a} (h : StoresB A n b a) (hb : 0 ≤ b) (hd : InvertibleBlocks n a) {tr : Char} (ht : tr = 'N' ∨ tr = 'T') : SolvesSystem (btbsv tr A) (2 * n) (opEnt tr a) := by
  obtain ⟨e1, e2⟩ := block_exists hd fun i k hik => h.zero (by unfold band; omega)
  rcases ht with rfl | rfl
  · exact solves_of e1 (btbsvN h hb hd)
  · exact solves_of e2 (btbsvT h hb hd)

/-- **C44** Block triangular banded products and solves undo each other, in both orders. -/
theorem C44_banded {A : BTB K} {n b a} (h : StoresB A n b a) (hb : 0 ≤ b) (hd : InvertibleBlocks n a) {tr : Char} (ht : tr = 'N' ∨ tr = 'T') : Undo (btbmv tr A) (btbsv tr A) (2 * n) := by
  obtain ⟨e1, e2⟩ := block_exists hd fun i k hik => h.zero (by unfold band; omega)
  rcases ht with rfl | rfl
  · exact undo_of (btbmvN h hb) e1 (btbsvN h hb hd)
  · exact undo_of (btbmvT h hb) e2 (btbsvT h hb hd)

theorem dense_inv {A : Buf K} {n LDA : Int} (hd : InvertibleBlocks n fun i j => A.val (i + j * LDA)) : InvertibleBlocks n (triB A LDA) := fun i i0 i1 => by
  unfold triB
  rw [if_pos (by omega), if_pos (by omega), if_pos (by omega), if_pos (by omega)]
  exact hd i i0 i1

/-- **C44** Dense block triangular solve. -/
theorem C44_btrsv {A : Buf K} {n LDA : Int} (hL : 2 * n ≤ LDA) (hA : 2 * n * LDA ≤ A.size) (hd : InvertibleBlocks n fun i j => A.val (i + j * LDA)) {tr : Char} (ht : tr = 'N' ∨ tr = 'T') :
    SolvesSystem (btrsv tr n A LDA) (2 * n) (opEnt tr (blockUpper fun i j => A.val (i + j * LDA))) := by
  obtain ⟨e1, e2⟩ := block_exists (dense_inv hd) fun i k hik => triB_zero hik
  rcases ht with rfl | rfl
  · exact solves_of e1 fun x y hx hy => btrsvN_of ⟨hL, hA⟩ hx (dense_inv hd) hy
  · exact solves_of e2 fun x y hx hy => btrsvT_of ⟨hL, hA⟩ hx (dense_inv hd) hy

/-- **C44** Dense block triangular products and solves undo each other, in both orders. -/
theorem C44_dense {A : Buf K} {n LDA : Int} (hL : 2 * n ≤ LDA) (hA : 2 * n * LDA ≤ A.size) (hd : InvertibleBlocks n fun i j => A.val (i + j * LDA)) {tr : Char} (ht : tr = 'N' ∨ tr = 'T') :
    Undo (btrmv tr n A LDA) (btrsv tr n A LDA) (2 * n) := by
  obtain ⟨e1, e2⟩ := block_exists (dense_inv hd) fun i k hik => triB_zero hik
  rcases ht with rfl | rfl
  · exact undo_of (fun x hx => btrmvN_eq ⟨hL, hA⟩ hx) e1 fun x y hx hy => btrsvN_of ⟨hL, hA⟩ hx (dense_inv hd) hy
  · exact undo_of (fun x hx => btrmvT_eq ⟨hL, hA⟩ hx) e2 fun x y hx hy => btrsvT_of ⟨hL, hA⟩ hx (dense_inv hd) hy

theorem bindNone {α : Type*} {β : Type*} (o : Option α) : (o.bind fun _ => (none : Option β)) = none := by cases o <;> rfl

theorem singular_none {A : BTB K} {n b a} (h : StoresB A n b a) {i : Int} (hs : a (2 * i) (2 * i) * a (2 * i + 1) (2 * i + 1) - a (2 * i) (2 * i + 1) * a (2 * i + 1) (2 * i) = 0) :
    (A.blk i i).bind M2.inv = none := by
  rw [h.blk, Option.bind_some]
  unfold M2.inv blkOf
  dsimp only
  rw [hs]
  unfold divC
  rw [if_pos rfl]
  rfl

/-- **C44** A singular diagonal block makes the banded solve divide by zero, for every right-hand side: no vector is returned. -/
theorem C44_singular {A : BTB K} {n b a} (h : StoresB A n b a) {i : Int} (i0 : 0 ≤ i) (i1 : i < n)
    (hs : a (2 * i) (2 * i) * a (2 * i + 1) (2 * i + 1) - a (2 * i) (2 * i + 1) * a (2 * i + 1) (2 * i) = 0) {tr : Char} (ht : tr = 'N' ∨ tr = 'T') (x : Buf K) : btbsv tr A x = none := by
  have hn := h.dims.1
  have hb := singular_none h hs
  unfold btbsv
  rcases ht with rfl | rfl
  · rw [if_pos rfl]
    unfold pairDown forDown
    refine loop_none (n - 1 - i).toNat (by omega) fun s _ => ?_
    rw [show A.n - 1 - ((n - 1 - i).toNat : Int) = i by omega]
    simp only [hb, Option.bind_none, bindNone]
  · rw [if_neg (by decide), if_pos rfl]
    unfold pairUp forUp
    refine loop_none i.toNat (by omega) fun s _ => ?_
    rw [show 0 + (i.toNat : Int) = i by omega]
    simp only [hb, Option.bind_none, Option.map_none, bindNone]

end solve

/-- Order 2, bandwidth 1: diagonal blocks `[0 1; 1 2]` and `[1 1; 1 2]`; neither diagonal alone is invertible. -/
def b00 : TB ℚ := ⟨0, 2, 1, Buf.ofList [7, 0, 3, 1]⟩
def b01 : TB ℚ := ⟨0, 2, 0, Buf.ofList [1, 1]⟩
def b10 : TB ℚ := ⟨0, 2, 1, Buf.ofList [7, 1, -2, 1]⟩
def b11 : TB ℚ := ⟨0, 2, 0, Buf.ofList [2, 2]⟩

theorem b_stores : StoresT b00 2 1 b00.ent ∧ StoresT b01 2 0 b01.ent ∧ StoresT b10 2 1 b10.ent ∧ StoresT b11 2 0 b11.ent :=
  ⟨.mk' ⟨rfl, rfl⟩ (by unfold TB.WF; decide) fun _ _ => rfl, .mk' ⟨rfl, rfl⟩ (by unfold TB.WF; decide) fun _ _ => rfl,
   .mk' ⟨rfl, rfl⟩ (by unfold TB.WF; decide) fun _ _ => rfl, .mk' ⟨rfl, rfl⟩ (by unfold TB.WF; decide) fun _ _ => rfl⟩

/-- The hypotheses of the banded theorems hold for a matrix made by `create` with bandwidths 1, 0, 1, 0. -/
example : ∃ A, BTB.create b00 b01 b10 b11 = some A ∧ Undo (btbmv 'N' A) (btbsv 'N' A) 4 ∧ Undo (btbmv 'T' A) (btbsv 'T' A) 4 := by
  obtain ⟨h1, h2, h3, h4⟩ := b_stores
  obtain ⟨A, e, s⟩ := C44_create h1 h2 h3 h4 (by omega) (by omega)
  have hd : InvertibleBlocks 2 (interleave b00.ent b01.ent b10.ent b11.ent) := by
    intro i i0 i1
    rcases (by omega : i = 0 ∨ i = 1) with rfl | rfl <;> decide +kernel
  exact ⟨A, e, C44_banded s (by decide) hd (.inl rfl), C44_banded s (by decide) hd (.inr rfl)⟩

/-- The product itself: row 0 is `0 x₀ + x₁ + 3 x₂`. -/
example : ((BTB.create b00 b01 b10 b11).bind fun A => (btbmv 'N' A (Buf.ofList [1, 10, 100, 1000, 5])).map Buf.toList) = some [310, -179, 1100, 2100, 5] := by decide +kernel

/-- Conversion drops what lies below the diagonal inside the diagonal blocks. -/
example : ((BTB.create b00 b01 b10 b11).bind fun A => (A.toTB fun _ => 9).bind fun B => B.get 1 0) = some 0 ∧
    ((BTB.create b00 b01 b10 b11).bind fun A => A.get 1 0) = some 1 := by decide +kernel

/-- A dense matrix meeting the hypotheses, with entries below the diagonal blocks that do not matter. -/
example : Undo (btrmv 'T' 2 (Buf.ofList [0, 1, 5, 5, 1, 2, 5, 5, 3, 4, 1, 1, 0, 6, 1, (2 : ℚ)]) 4) (btrsv 'T' 2 (Buf.ofList [0, 1, 5, 5, 1, 2, 5, 5, 3, 4, 1, 1, 0, 6, 1, (2 : ℚ)]) 4) 4 :=
  C44_dense (by decide) (by decide) (fun i i0 i1 => by rcases (by omega : i = 0 ∨ i = 1) with rfl | rfl <;> decide +kernel) (.inr rfl)

end FT.Props
