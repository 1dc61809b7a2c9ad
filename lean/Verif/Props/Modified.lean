import Verif.Lemmas.Modified
import Verif.Props.Factor
import Verif.Props.Scalar
import Mathlib.Tactic.IntervalCases

/-!
# C46: conversions between a measure and a modified measure

A plan converts coefficients with `mpmv` and back with `mpsv`; `mpmm` and `mpsm` do so for the columns of a matrix, in parallel.
-/

set_option linter.unusedSectionVars false

namespace FT.Props
open FT FT.Prog
variable {K : Type*}

/-- `f` succeeds on vectors of at least `n` entries and changes the first `n` entries at most. -/
def Runs (f : Buf K → Option (Buf K)) (n : Int) : Prop := ∀ x : Buf K, n ≤ x.size → ∃ y, f x = some y ∧ y.size = x.size ∧ ∀ i, ¬ (0 ≤ i ∧ i < n) → y.val i = x.val i

/-- `g` is the adjoint of `f`. -/
def AdjointOn [CommRing K] (f g : Buf K → Option (Buf K)) (n : Int) : Prop :=
  ∀ x y : Buf K, n ≤ x.size → n ≤ y.size → ∃ x' y', f x = some x' ∧ g y = some y' ∧ ∑ i ∈ Finset.Ico 0 n, y.val i * x'.val i = ∑ i ∈ Finset.Ico 0 n, y'.val i * x.val i

section general
variable [CommRing K] {f g f' g' : Buf K → Option (Buf K)} {n : Int} {a : Int → Int → K}

theorem Multiplies.runs (h : Multiplies f n a) : Runs f n := fun x hx => by
  obtain ⟨y, e, s, -, o⟩ := h x hx; exact ⟨y, e, s, o⟩

theorem SolvesSystem.runs (h : SolvesSystem f n a) : Runs f n := fun x hx => by
  obtain ⟨y, e, s, -, o⟩ := h x hx; exact ⟨y, e, s, o⟩

theorem Runs.comp (h : Runs f n) (h' : Runs f' n) : Runs (fun x => (f x).bind f') n := fun x hx => by
  obtain ⟨y, e, s, o⟩ := h x hx
  obtain ⟨z, e', s', o'⟩ := h' y (by rw [s]; exact hx)
  exact ⟨z, by dsimp only; rw [e]; exact e', s'.trans s, fun i hi => (o' i hi).trans (o i hi)⟩

theorem Undo.symm (h : Undo f g n) : Undo g f n := fun x hx => ⟨(h x hx).2, (h x hx).1⟩

theorem Undo.comp (h : Undo f g n) (h' : Undo f' g' n) (hr : Runs f n) (hr' : Runs g' n) : Undo (fun x => (f x).bind f') (fun x => (g' x).bind g) n := fun x hx => by
  constructor
  · obtain ⟨y, e1, e2⟩ := (h x hx).1
    obtain ⟨y', e, s, -⟩ := hr x hx
    rw [e1] at e; cases e
    obtain ⟨z, e3, e4⟩ := (h' y (by rw [s]; exact hx)).1
    exact ⟨z, by dsimp only; rw [e1]; exact e3, by dsimp only; rw [e4]; exact e2⟩
  · obtain ⟨y, e1, e2⟩ := (h' x hx).2
    obtain ⟨y', e, s, -⟩ := hr' x hx
    rw [e1] at e; cases e
    obtain ⟨z, e3, e4⟩ := (h y (by rw [s]; exact hx)).2
    exact ⟨z, by dsimp only; rw [e1]; exact e3, by dsimp only; rw [e4]; exact e2⟩

theorem swap_sum {u v : Int → K} : ∑ i ∈ Finset.Ico 0 n, v i * ∑ k ∈ Finset.Ico 0 n, a i k * u k = ∑ k ∈ Finset.Ico 0 n, (∑ i ∈ Finset.Ico 0 n, a i k * v i) * u k := by
  simp only [Finset.mul_sum, Finset.sum_mul]
  rw [Finset.sum_comm]
  exact Finset.sum_congr rfl fun k _ => Finset.sum_congr rfl fun i _ => by ring

theorem adjoint_mul (h : Multiplies f n a) (h' : Multiplies g n fun i k => a k i) : AdjointOn f g n := fun x y hx hy => by
  obtain ⟨x', e, -, v, -⟩ := h x hx
  obtain ⟨y', e', -, v', -⟩ := h' y hy
  refine ⟨x', y', e, e', ?_⟩
  rw [sum_Ico_congr (g := fun i => y.val i * ∑ k ∈ Finset.Ico 0 n, a i k * x.val k) fun i i0 i1 => by rw [v i i0 i1], swap_sum]
  exact sum_Ico_congr fun k k0 k1 => by rw [v' k k0 k1]

theorem adjoint_solve (h : SolvesSystem f n a) (h' : SolvesSystem g n fun i k => a k i) : AdjointOn f g n := fun x y hx hy => by
  obtain ⟨x', e, -, v, -⟩ := h x hx
  obtain ⟨y', e', -, v', -⟩ := h' y hy
  refine ⟨x', y', e, e', ?_⟩
  rw [sum_Ico_congr (f := fun i => y.val i * x'.val i) (g := fun k => (∑ i ∈ Finset.Ico 0 n, a i k * y'.val i) * x'.val k) fun i i0 i1 => by rw [v' i i0 i1], ← swap_sum]
  exact sum_Ico_congr fun k k0 k1 => by rw [v k k0 k1]

theorem AdjointOn.comp (h : AdjointOn f g n) (h' : AdjointOn f' g' n) (hr : Runs f n) (hr' : Runs g' n) : AdjointOn (fun x => (f x).bind f') (fun x => (g' x).bind g) n := fun x y hx hy => by
  obtain ⟨x1, e1, s1, -⟩ := hr x hx
  obtain ⟨y1, e2, s2, -⟩ := hr' y hy
  obtain ⟨x2, y1', e3, e4, h1⟩ := h' x1 y (by rw [s1]; exact hx) hy
  obtain ⟨x1', y2, e5, e6, h2⟩ := h x y1 hx (by rw [s2]; exact hy)
  rw [e1] at e5; cases e5
  rw [e2] at e4; cases e4
  exact ⟨x2, y2, by dsimp only; rw [e1]; exact e3, by dsimp only; rw [e2]; exact e6, h1.trans h2⟩

end general

section plan
variable [Field K] [DecidableEq K]

/-- The factors of a plan: `R` and, in the rational case, `K`, upper triangular banded matrices of size `n` without zeros on the diagonal. -/
structure PlanOk (P : ModPlan K) (n : Int) (r k : Int → Int → K) : Prop where
  R : ∃ b, 0 ≤ b ∧ StoresT P.R n b r
  Rd : ∀ i, 0 ≤ i → i < n → r i i ≠ 0
  K : 1 ≤ P.nv → ∃ A b, P.K = some A ∧ 0 ≤ b ∧ StoresT A n b k
  Kd : 1 ≤ P.nv → ∀ i, 0 ≤ i → i < n → k i i ≠ 0

variable {P : ModPlan K} {n : Int} {r k : Int → Int → K}

theorem mpmv_poly (h : P.nv < 1) (tr : Char) : mpmv tr P = tbsv tr P.R := by funext x; unfold mpmv; rw [if_pos h]
theorem mpsv_poly (h : P.nv < 1) (tr : Char) : mpsv tr P = tbmv tr P.R := by funext x; unfold mpsv; rw [if_pos h]

theorem rat_eqs (h : ¬ P.nv < 1) {A : TB K} (hA : P.K = some A) :
    (mpmv 'N' P = fun x => (tbsv 'N' A x).bind (tbmv 'N' P.R)) ∧ (mpmv 'T' P = fun x => (tbmv 'T' P.R x).bind (tbsv 'T' A)) ∧
    (mpsv 'N' P = fun x => (tbsv 'N' P.R x).bind (tbmv 'N' A)) ∧ (mpsv 'T' P = fun x => (tbmv 'T' A x).bind (tbsv 'T' P.R)) := by
  refine ⟨?_, ?_, ?_, ?_⟩ <;> funext x <;> simp [mpmv, mpsv, h, hA]

theorem PlanOk.facts (h : PlanOk P n r k) {tr : Char} (ht : tr = 'N' ∨ tr = 'T') :
    Multiplies (tbmv tr P.R) n (opEnt tr r) ∧ SolvesSystem (tbsv tr P.R) n (opEnt tr r) ∧ Undo (tbmv tr P.R) (tbsv tr P.R) n := by
  obtain ⟨b, hb, hR⟩ := h.R
  exact ⟨C18_tbmv hR hb ht, C18_tbsv hR hb h.Rd ht⟩

theorem PlanOk.factsK (h : PlanOk P n r k) (hv : ¬ P.nv < 1) : ∃ A, P.K = some A ∧ ∀ {tr : Char} (_ : tr = 'N' ∨ tr = 'T'),
    Multiplies (tbmv tr A) n (opEnt tr k) ∧ SolvesSystem (tbsv tr A) n (opEnt tr k) ∧ Undo (tbmv tr A) (tbsv tr A) n := by
  obtain ⟨A, b, hA, hb, hK⟩ := h.K (by omega)
  exact ⟨A, hA, fun ht => ⟨C18_tbmv hK hb ht, C18_tbsv hK hb (h.Kd (by omega)) ht⟩⟩

theorem PlanOk.runs (h : PlanOk P n r k) {tr : Char} (ht : tr = 'N' ∨ tr = 'T') : Runs (mpmv tr P) n ∧ Runs (mpsv tr P) n := by
  obtain ⟨h1, h2, -⟩ := h.facts ht
  by_cases hv : P.nv < 1
  · rw [mpmv_poly hv, mpsv_poly hv]; exact ⟨h2.runs, h1.runs⟩
  · obtain ⟨A, hA, hK⟩ := h.factsK hv
    obtain ⟨h3, h4, -⟩ := hK ht
    obtain ⟨e1, e2, e3, e4⟩ := rat_eqs hv hA
    rcases ht with rfl | rfl
    · rw [e1, e3]; exact ⟨h4.runs.comp h1.runs, h2.runs.comp h3.runs⟩
    · rw [e2, e4]; exact ⟨h1.runs.comp h4.runs, h3.runs.comp h2.runs⟩

/-- **C46** Converting and converting back returns the coefficients, in both orders and for both `TRANS` settings, for polynomial and for rational modifications. -/
theorem C46_round_trip (h : PlanOk P n r k) {tr : Char} (ht : tr = 'N' ∨ tr = 'T') : Undo (mpmv tr P) (mpsv tr P) n := by
  obtain ⟨h1, h2, h3⟩ := h.facts ht
  by_cases hv : P.nv < 1
  · rw [mpmv_poly hv, mpsv_poly hv]; exact h3.symm
  · obtain ⟨A, hA, hK⟩ := h.factsK hv
    obtain ⟨h4, h5, h6⟩ := hK ht
    obtain ⟨e1, e2, e3, e4⟩ := rat_eqs hv hA
    rcases ht with rfl | rfl
    · rw [e1, e3]; exact h6.symm.comp h3 h5.runs h2.runs
    · rw [e2, e4]; exact h3.comp h6.symm h1.runs h4.runs

/-- **C46** What the conversions are: `R⁻¹` and `R` for a polynomial modification, `R K⁻¹` and `K R⁻¹` for a rational one. -/
theorem C46_meaning (h : PlanOk P n r k) {x : Buf K} (hx : n ≤ x.size) : ∃ y z, mpmv 'N' P x = some y ∧ mpsv 'N' P x = some z ∧
    (P.nv < 1 → (∀ i, 0 ≤ i → i < n → ∑ j ∈ Finset.Ico 0 n, r i j * y.val j = x.val i) ∧ ∀ i, 0 ≤ i → i < n → z.val i = ∑ j ∈ Finset.Ico 0 n, r i j * x.val j) ∧
    (1 ≤ P.nv → (∃ w : Int → K, (∀ i, 0 ≤ i → i < n → ∑ j ∈ Finset.Ico 0 n, k i j * w j = x.val i) ∧ ∀ i, 0 ≤ i → i < n → y.val i = ∑ j ∈ Finset.Ico 0 n, r i j * w j) ∧
      ∃ w : Int → K, (∀ i, 0 ≤ i → i < n → ∑ j ∈ Finset.Ico 0 n, r i j * w j = x.val i) ∧ ∀ i, 0 ≤ i → i < n → z.val i = ∑ j ∈ Finset.Ico 0 n, k i j * w j) := by
  obtain ⟨h1, h2, -⟩ := h.facts (.inl rfl)
  by_cases hv : P.nv < 1
  · obtain ⟨z, e1, -, v1, -⟩ := h1 x hx
    obtain ⟨y, e2, -, v2, -⟩ := h2 x hx
    exact ⟨y, z, by rw [mpmv_poly hv]; exact e2, by rw [mpsv_poly hv]; exact e1, fun _ => ⟨v2, v1⟩, fun h => by omega⟩
  · obtain ⟨A, hA, hK⟩ := h.factsK hv
    obtain ⟨h4, h5, -⟩ := hK (.inl rfl)
    obtain ⟨e1, -, e3, -⟩ := rat_eqs hv hA
    obtain ⟨w, f1, s1, v1, -⟩ := h5 x hx
    obtain ⟨y, f2, -, v2, -⟩ := h1 w (by rw [s1]; exact hx)
    obtain ⟨w', f3, s3, v3, -⟩ := h2 x hx
    obtain ⟨z, f4, -, v4, -⟩ := h4 w' (by rw [s3]; exact hx)
    exact ⟨y, z, by rw [e1]; dsimp only; rw [f1]; exact f2, by rw [e3]; dsimp only; rw [f3]; exact f4, fun h => absurd h hv, fun _ => ⟨⟨w.val, v1, v2⟩, w'.val, v3, v4⟩⟩

/-- **C46** The conversions with `TRANS` `'T'` are the adjoints of those with `'N'`. -/
theorem C46_adjoint (h : PlanOk P n r k) : AdjointOn (mpmv 'N' P) (mpmv 'T' P) n ∧ AdjointOn (mpsv 'N' P) (mpsv 'T' P) n := by
  obtain ⟨h1, h2, -⟩ := h.facts (.inl rfl)
  obtain ⟨h1', h2', -⟩ := h.facts (.inr rfl)
  have am : AdjointOn (tbmv 'N' P.R) (tbmv 'T' P.R) n := adjoint_mul h1 h1'
  have as : AdjointOn (tbsv 'N' P.R) (tbsv 'T' P.R) n := adjoint_solve h2 h2'
  by_cases hv : P.nv < 1
  · rw [mpmv_poly hv, mpmv_poly hv, mpsv_poly hv, mpsv_poly hv]; exact ⟨as, am⟩
  · obtain ⟨A, hA, hK⟩ := h.factsK hv
    obtain ⟨h3, h4, -⟩ := hK (.inl rfl)
    obtain ⟨h3', h4', -⟩ := hK (.inr rfl)
    have bm : AdjointOn (tbmv 'N' A) (tbmv 'T' A) n := adjoint_mul h3 h3'
    have bs : AdjointOn (tbsv 'N' A) (tbsv 'T' A) n := adjoint_solve h4 h4'
    obtain ⟨e1, e2, e3, e4⟩ := rat_eqs hv hA
    rw [e1, e2, e3, e4]
    exact ⟨bs.comp am h4.runs h1'.runs, as.comp bm h2.runs h3'.runs⟩

/-! ## Columns, in parallel -/

/-- The vector of `n` entries at `x` in the memory `M`. -/
def vec (M : Buf K) (x : Ptr) (n : Int) : Buf K := ⟨n.toNat, fun i => if 0 ≤ i ∧ i < n then M.val (x.at i) else 0⟩

/-- `f` was applied to each of the `N` columns at `B`, which are `LDB` apart, and nothing else changed. -/
def ColumnsBy (f : Buf K → Option (Buf K)) (n : Int) (B : Ptr) (LDB N : Int) (M M' : Buf K) : Prop :=
  M'.size = M.size ∧ (∀ j, 0 ≤ j → j < N → f (vec M (B.add (j * LDB)) n) = some (vec M' (B.add (j * LDB)) n)) ∧ ∀ a, (∀ j, 0 ≤ j → j < N → ¬ (B.add (j * LDB)).In n a) → M'.val a = M.val a

theorem columns_par {f : Buf K → Option (Buf K)} {body : Ptr → Prog K Unit} (n0 : 0 ≤ n) (hf : Runs f n) (hsim : ∀ x : Ptr, Sim x n (body x) f)
    (hacc : ∀ (x : Ptr) (R : Int → Prop), (∀ i, 0 ≤ i → i < n → R (x.at i)) → (body x).Acc R R) {B : Ptr} {LDB N : Int} (hLD : n ≤ LDB) {M : Buf K}
    (hB : ∀ j, 0 ≤ j → j < N → (B.add (j * LDB)).Ok n M.size) {T : Nat} {owner : Int → Nat} (hown : ∀ j, 0 ≤ j → j < N → owner j < T) :
    ParPost T (forThread 0 N owner fun j => body (B.add (j * LDB))) M (ColumnsBy f n B LDB N M) := by
  have hn : ((n.toNat : Nat) : Int) = n := by omega
  refine ParPost.mono (TbEig.cols_par (B := B) (S := fun _ _ => False) (n := n) (Rel := fun u v => f ⟨n.toNat, fun i => if 0 ≤ i ∧ i < n then u i else 0⟩ = some ⟨n.toNat, fun i => if 0 ≤ i ∧ i < n then v i else 0⟩)
    ?_ hLD hown (fun _ _ _ _ _ _ _ _ h => h) (fun _ _ _ _ _ _ h => h.elim) ?_ ?_) ?_
  · intro u v u' v' h hu hv
    have e1 : (fun i => if 0 ≤ i ∧ i < n then u' i else 0) = fun i => if 0 ≤ i ∧ i < n then u i else 0 := by
      funext i; split_ifs with hi
      · exact (hu i hi.1 hi.2).symm
      · rfl
    have e2 : (fun i => if 0 ≤ i ∧ i < n then v' i else 0) = fun i => if 0 ≤ i ∧ i < n then v i else 0 := by
      funext i; split_ifs with hi
      · exact (hv i hi.1 hi.2).symm
      · rfl
    rw [e1, e2]; exact h
  · intro t _ j j0 j1 A hs
    obtain ⟨y, e, s, o⟩ := hf (vec A (B.add (j * LDB)) n) (by unfold vec; dsimp only; omega)
    obtain ⟨A', e', s', v', o'⟩ := hsim (B.add (j * LDB)) A (vec A (B.add (j * LDB)) n) y (by rw [hs]; exact hB j j0 j1) ⟨hn, fun i i0 i1 => if_pos ⟨i0, i1⟩⟩ e
    refine ⟨A', e', s', ?_, fun a ha _ => o' a ha⟩
    show f (vec A (B.add (j * LDB)) n) = _
    rw [e]
    congr 1
    refine Buf.ext' s fun i => ?_
    dsimp only
    split_ifs with hi
    · exact v'.2 i hi.1 hi.2
    · rw [o i hi]; exact if_neg hi
  · intro t _ j _ _ R h _
    exact hacc _ R h
  · intro M' ⟨s, v, o⟩
    exact ⟨s, v, fun a ha => o a ha fun _ _ h => h⟩

theorem PlanOk.dims (h : PlanOk P n r k) : P.R.n = n ∧ ∀ A, 1 ≤ P.nv → P.K = some A → A.n = n := by
  obtain ⟨b, -, hR⟩ := h.R
  refine ⟨hR.dims.1, fun A hv hA => ?_⟩
  obtain ⟨A', b', hA', -, hK⟩ := h.K hv
  rw [hA] at hA'; cases hA'
  exact hK.dims.1

theorem mp_accs (h : PlanOk P n r k) {tr : Char} (x : Ptr) (R : Int → Prop) (hR : ∀ i, 0 ≤ i → i < n → R (x.at i)) : (mpmvP tr P x).Acc R R ∧ (mpsvP tr P x).Acc R R := by
  obtain ⟨d1, d2⟩ := h.dims
  by_cases hv : P.nv < 1
  · unfold mpmvP mpsvP
    rw [if_pos hv, if_pos hv]
    exact ⟨tbsvP_acc (by rw [d1]; exact hR), tbmvP_acc (by rw [d1]; exact hR)⟩
  · exact ⟨mpmvP_acc (by rw [d1]; exact hR) (fun A hA => by rw [d2 A (by omega) hA]; exact hR), mpsvP_acc (by rw [d1]; exact hR) (fun A hA => by rw [d2 A (by omega) hA]; exact hR)⟩

/-- **C46** Columns are independent: whatever the distribution of the columns to threads and the interleaving of the threads, `mpmm` converts each column, `mpsm` converts each column back, and
nothing but the columns changes. -/
theorem C46_columns (h : PlanOk P n r k) (n0 : 0 ≤ n) {tr : Char} (ht : tr = 'N' ∨ tr = 'T') {B : Ptr} {LDB N : Int} (hLD : n ≤ LDB) {M : Buf K}
    (hB : ∀ j, 0 ≤ j → j < N → (B.add (j * LDB)).Ok n M.size) {T : Nat} {owner : Int → Nat} (hown : ∀ j, 0 ≤ j → j < N → owner j < T) :
    ParPost T (mpmmP tr P B LDB N owner) M (ColumnsBy (mpmv tr P) n B LDB N M) ∧ ParPost T (mpsmP tr P B LDB N owner) M (ColumnsBy (mpsv tr P) n B LDB N M) :=
  ⟨columns_par n0 (h.runs ht).1 (fun x => mpmvP_sim tr P) (fun x R hR => (mp_accs h x R hR).1) hLD hB hown,
   columns_par n0 (h.runs ht).2 (fun x => mpsvP_sim tr P) (fun x R hR => (mp_accs h x R hR).2) hLD hB hown⟩

theorem columns_back {f g : Buf K → Option (Buf K)} (hu : Undo f g n) (n0 : 0 ≤ n) {B : Ptr} {LDB N : Int} {M M' M'' : Buf K} (h : ColumnsBy f n B LDB N M M') (h' : ColumnsBy g n B LDB N M' M'') :
    M'' = M := by
  refine Buf.ext' (h'.1.trans h.1) fun a => ?_
  by_cases ha : ∀ j, 0 ≤ j → j < N → ¬ (B.add (j * LDB)).In n a
  · rw [h'.2.2 a ha, h.2.2 a ha]
  · push_neg at ha
    obtain ⟨j, j0, j1, hj⟩ := ha
    obtain ⟨i, i0, i1, rfl⟩ := Ptr.in_iff.1 hj
    obtain ⟨y, e1, e2⟩ := (hu (vec M (B.add (j * LDB)) n) (by unfold vec; dsimp only; omega)).1
    rw [h.2.1 j j0 j1] at e1
    cases e1
    rw [h'.2.1 j j0 j1] at e2
    have := congrArg (fun b : Buf K => b.val i) (Option.some.inj e2)
    simpa [vec, i0, i1] using this

/-- **C46** Converting all columns and then converting them back restores the memory, in both orders, for all schedules of both parallel loops. -/
theorem C46_columns_round_trip (h : PlanOk P n r k) (n0 : 0 ≤ n) {tr : Char} (ht : tr = 'N' ∨ tr = 'T') {B : Ptr} {LDB N : Int} (hLD : n ≤ LDB) {M : Buf K}
    (hB : ∀ j, 0 ≤ j → j < N → (B.add (j * LDB)).Ok n M.size) {T : Nat} {owner owner' : Int → Nat} (hown : ∀ j, 0 ≤ j → j < N → owner j < T) (hown' : ∀ j, 0 ≤ j → j < N → owner' j < T) :
    Regions T [mpmmP tr P B LDB N owner, mpsmP tr P B LDB N owner'] M (fun M' => M' = M) ∧ Regions T [mpsmP tr P B LDB N owner, mpmmP tr P B LDB N owner'] M (fun M' => M' = M) := by
  have hu := C46_round_trip h ht
  refine ⟨(C46_columns h n0 ht hLD hB hown).1.mono fun M' h1 => ?_, (C46_columns h n0 ht hLD hB hown).2.mono fun M' h1 => ?_⟩
  · exact (C46_columns h n0 ht hLD (M := M') (by rw [h1.1]; exact hB) hown').2.mono fun M'' h2 => columns_back hu n0 h1 h2
  · exact (C46_columns h n0 ht hLD (M := M') (by rw [h1.1]; exact hB) hown').1.mono fun M'' h2 => columns_back hu.symm n0 h1 h2

end plan

/-! ## The plan of a polynomial modification -/

section poly
variable [Field K] [LinearOrder K] [IsStrictOrderedRing K]

/-- **C46** If the operator of multiplication by the weight is symmetric and positive definite, the plan of a polynomial modification exists, its factor is invertible, and conversion to
coefficients with respect to the orthonormal polynomials of the modified measure preserves the norm: the Euclidean norm of the result is the weighted norm of the argument. -/
theorem C46_polynomial_plan {sqrt : K → K} (hs : IsSqrt sqrt) {U : Banded K} {n b a} (n0 : 0 ≤ n) (hU : Stores U n n b b a) (hb : 0 ≤ b) (ha : ∀ i j, a i j = a j i) (hd : PosDef n a) {nu nv : Int} (hv : nv < 1) :
    ∃ P r, planPoly sqrt n nu nv U = some P ∧ P.n = n ∧ P.nu = nu ∧ P.nv = nv ∧ PlanOk P n r (fun _ _ => 0) ∧
      (∀ i j, 0 ≤ i → i < n → 0 ≤ j → j < n → ∑ k ∈ Finset.Ico 0 n, r k i * r k j = a i j) ∧
      ∀ x : Buf K, n ≤ x.size → ∃ y, mpsv 'N' P x = some y ∧ mpmv 'N' P y = some x ∧
        ∑ i ∈ Finset.Ico 0 n, y.val i * y.val i = ∑ i ∈ Finset.Ico 0 n, x.val i * ∑ j ∈ Finset.Ico 0 n, a i j * x.val j := by
  obtain ⟨F, f, e, hF, hpos, hfac⟩ := C19_chol_total hs hU hb ha hd
  obtain ⟨R, e', hR⟩ := C14_to_triangular hF n0 (by omega) (by omega)
  have ok : PlanOk (⟨n, nu, nv, R, none⟩ : ModPlan K) n (upperPart f) (fun _ _ => 0) :=
    ⟨⟨b, hb, hR⟩, fun i i0 i1 => by unfold upperPart; rw [if_pos le_rfl]; exact ne_of_gt (hpos i i0 i1), fun h => by dsimp only at h; omega, fun h => by dsimp only at h; omega⟩
  refine ⟨⟨n, nu, nv, R, none⟩, upperPart f, ?_, rfl, rfl, rfl, ok, hfac, fun x hx => ?_⟩
  · unfold planPoly; rw [e, Option.bind_some, e']; rfl
  · obtain ⟨y, e1, e2⟩ := (C46_round_trip ok (.inl rfl) x hx).2
    refine ⟨y, e1, e2, ?_⟩
    obtain ⟨y', e3, -, v, -⟩ := (ok.facts (.inl rfl)).1 x hx
    rw [mpsv_poly (by exact hv)] at e1
    rw [e1] at e3; cases e3
    have v' : ∀ i, 0 ≤ i → i < n → y.val i = ∑ j ∈ Finset.Ico 0 n, upperPart f i j * x.val j := v
    calc ∑ i ∈ Finset.Ico 0 n, y.val i * y.val i = ∑ i ∈ Finset.Ico 0 n, y.val i * ∑ j ∈ Finset.Ico 0 n, upperPart f i j * x.val j := sum_Ico_congr fun i i0 i1 => by rw [← v' i i0 i1]
      _ = ∑ j ∈ Finset.Ico 0 n, (∑ i ∈ Finset.Ico 0 n, upperPart f i j * y.val i) * x.val j := swap_sum
      _ = _ := sum_Ico_congr fun j j0 j1 => by
        rw [mul_comm]
        congr 1
        rw [sum_Ico_congr (g := fun i => ∑ l ∈ Finset.Ico 0 n, upperPart f i j * (upperPart f i l * x.val l)) fun i i0 i1 => by rw [v' i i0 i1, Finset.mul_sum], Finset.sum_comm]
        refine sum_Ico_congr fun l l0 l1 => ?_
        rw [← hfac j l j0 j1 l0 l1, Finset.sum_mul]
        exact Finset.sum_congr rfl fun i _ => by ring

end poly

/-! ## Concrete instances -/

/-- `R = [[2, 1], [0, 3]]` and `K = [[1, 4], [0, 5]]`, bandwidth one. -/
def exR : TB ℚ := ⟨0, 2, 1, .ofList [0, 2, 1, 3]⟩
def exK : TB ℚ := ⟨0, 2, 1, .ofList [0, 1, 4, 5]⟩

theorem exPlan (nv : Int) : PlanOk (⟨2, 1, nv, exR, some exK⟩ : ModPlan ℚ) 2 exR.ent exK.ent :=
  ⟨⟨1, by norm_num, .mk' (A := exR) ⟨rfl, rfl⟩ (by unfold TB.WF; decide) fun _ _ => rfl⟩, fun i i0 i1 => by interval_cases i <;> decide +kernel,
   fun _ => ⟨exK, 1, rfl, by norm_num, .mk' ⟨rfl, rfl⟩ (by unfold TB.WF; decide) fun _ _ => rfl⟩, fun _ i i0 i1 => by interval_cases i <;> decide +kernel⟩

/-- A rational and a polynomial plan. -/
example : Undo (mpmv 'N' (⟨2, 1, 3, exR, some exK⟩ : ModPlan ℚ)) (mpsv 'N' ⟨2, 1, 3, exR, some exK⟩) 2 ∧ Undo (mpmv 'T' (⟨2, 1, 0, exR, some exK⟩ : ModPlan ℚ)) (mpsv 'T' ⟨2, 1, 0, exR, some exK⟩) 2 :=
  ⟨C46_round_trip (exPlan 3) (.inl rfl), C46_round_trip (exPlan 0) (.inr rfl)⟩

example : (mpmv 'N' (⟨2, 1, 3, exR, some exK⟩ : ModPlan ℚ) (.ofList [9, 10, 7])).map Buf.toList = some [4, 6, 7] ∧ (mpsv 'N' (⟨2, 1, 3, exR, some exK⟩ : ModPlan ℚ) (.ofList [4, 6, 7])).map Buf.toList = some [9, 10, 7] ∧
    (mpmv 'T' (⟨2, 1, 3, exR, some exK⟩ : ModPlan ℚ) (.ofList [1, 3, 7])).map Buf.toList = some [2, 2/5, 7] := by decide +kernel

/-- Three columns shared by two threads in a memory of eleven entries. -/
example (M : Buf ℚ) (hM : M.size = 11) : Regions 2 [mpmmP 'N' (⟨2, 1, 3, exR, some exK⟩ : ModPlan ℚ) ⟨1, 9, 0⟩ 3 3 (fun j => (j % 2).toNat), mpsmP 'N' ⟨2, 1, 3, exR, some exK⟩ ⟨1, 9, 0⟩ 3 3 (fun _ => 1)] M (fun M' => M' = M) :=
  (C46_columns_round_trip (exPlan 3) (by norm_num) (.inl rfl) (by norm_num) (fun j j0 j1 => by unfold Ptr.Ok Ptr.add; dsimp only; omega) (fun j j0 j1 => by omega) (fun _ _ _ => by norm_num)).1

/-- The weight operator `[[4, 2], [2, 10]]`. -/
noncomputable def exU : Banded ℝ := ⟨2, 2, 1, 1, ⟨6, fun q => if q = 1 then 4 else if q = 2 then 2 else if q = 3 then 2 else if q = 4 then 10 else 0⟩⟩

example : ∃ P r, planPoly Real.sqrt 2 2 0 exU = some P ∧ PlanOk P 2 r (fun _ _ => 0) := by
  have hst : Stores exU 2 2 1 1 (fun i j => if i = 0 ∧ j = 0 then 4 else if i = 0 ∧ j = 1 then 2 else if i = 1 ∧ j = 0 then 2 else if i = 1 ∧ j = 1 then 10 else 0) := by
    refine .mk' ⟨rfl, rfl, rfl, rfl⟩ (by unfold Banded.WF exU; decide) fun i j => ?_
    by_cases h : (0 ≤ i ∧ i < 2) ∧ 0 ≤ j ∧ j < 2
    · obtain ⟨⟨h1, h2⟩, h3, h4⟩ := h
      interval_cases i <;> interval_cases j <;> norm_num [Banded.ent, Banded.InBand, exU]
    · have hb : ¬ exU.InBand i j := by unfold Banded.InBand exU; dsimp only; omega
      unfold Banded.ent
      rw [if_neg hb, if_neg (by omega), if_neg (by omega), if_neg (by omega), if_neg (by omega)]
  obtain ⟨P, r, e, -, -, -, ok, -⟩ := C46_polynomial_plan (nu := 2) (nv := 0) real_isSqrt (by norm_num) hst (by norm_num) (fun i j => by split_ifs <;> first | rfl | omega) (fun x ⟨i, i0, i1, hi⟩ => by
    have e2 : Finset.Ico (0 : Int) 2 = {0, 1} := by decide
    rw [e2, Finset.sum_pair (by norm_num), Finset.sum_pair (by norm_num), Finset.sum_pair (by norm_num)]
    norm_num
    have hx : x 0 ≠ 0 ∨ x 1 ≠ 0 := by interval_cases i; exact .inl hi; exact .inr hi
    rcases hx with h | h
    · have := mul_self_pos.2 h; nlinarith [mul_self_nonneg (x 0 + 2 * x 1), mul_self_nonneg (x 1)]
    · have := mul_self_pos.2 h; nlinarith [mul_self_nonneg (2 * x 0 + x 1), mul_self_nonneg (x 0)]) (by norm_num)
  exact ⟨P, r, e, ok⟩

end FT.Props
