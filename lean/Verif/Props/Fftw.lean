import Verif.Lemmas.Fftw3
import Mathlib.Data.Int.Cast.Lemmas
import Mathlib.Algebra.CharZero.Defs

/-!
# C40, C41: synthesis and analysis on tensor-product grids

The library's transforms are described here independently of the model: `LineInverse` and `RowInverse` say
that a transform depends on its own data only, is homogeneous, and that its partner undoes it up to the
documented factor.
-/

namespace FT.Props
open FT FT.Model
variable {K : Type*} [Field K] [DecidableEq K]

/-! ## The library's contract -/

/-- `g` undoes the transform `f` of length `n`, up to the factor `k`. -/
structure LineInverse (n : Int) (k : K) (f g : Line K) : Prop where
  locf : ∀ x y, (∀ i, 0 ≤ i → i < n → x i = y i) → ∀ i, 0 ≤ i → i < n → f x i = f y i
  locg : ∀ x y, (∀ i, 0 ≤ i → i < n → x i = y i) → ∀ i, 0 ≤ i → i < n → g x i = g y i
  hom : ∀ t x i, 0 ≤ i → i < n → g (fun j => t * x j) i = t * g x i
  inv : ∀ x i, 0 ≤ i → i < n → g (f x) i = k * x i

/-- The real-to-complex transform `h` and the complex-to-real transform `g` of odd length `M` undo each
other up to the factor `k`; `g` ignores the imaginary part of frequency 0. -/
structure RowInverse (M : Int) (k : K) (g : (Int → K × K) → Int → K) (h : (Int → K) → Int → K × K) : Prop where
  locg : ∀ z z', (∀ j, 0 ≤ j → j < M / 2 + 1 → (z j).1 = (z' j).1) → (∀ j, 1 ≤ j → j < M / 2 + 1 → (z j).2 = (z' j).2) →
    ∀ c, 0 ≤ c → c < M → g z c = g z' c
  loch : ∀ x x', (∀ c, 0 ≤ c → c < M → x c = x' c) → ∀ j, 0 ≤ j → j < M / 2 + 1 → h x j = h x' j
  homg : ∀ t z c, 0 ≤ c → c < M → g (fun j => (t * (z j).1, t * (z j).2)) c = t * g z c
  homh : ∀ t x j, 0 ≤ j → j < M / 2 + 1 → h (fun c => t * x c) j = (t * (h x j).1, t * (h x j).2)
  re : ∀ z j, 0 ≤ j → j < M / 2 + 1 → (h (g z) j).1 = k * (z j).1
  im : ∀ z j, 1 ≤ j → j < M / 2 + 1 → (h (g z) j).2 = k * (z j).2
  gh : ∀ x c, 0 ≤ c → c < M → g (h x) c = k * x c

/-- The constants of the code are reciprocal in pairs, as their names say. -/
structure ConstOk (C : FConst K) : Prop where
  q4 : C.q14 * C.q4 = 1
  q2 : C.q12 * C.q2 = 1
  r2 : C.r12 * C.r2 = 1
  s2 : C.s2 * C.s12 = 1

/-- On every array of `M` columns of length `N`, and whatever the plans' work arrays hold, `g` returns what
`f` was given. -/
def Undone (N M : Int) (f g : Buf K → Buf K → Option (Buf K × Buf K)) : Prop :=
  ∀ X Y Y' : Buf K, (X.size : Int) = N * M → (Y.size : Int) = 2 * (N * (M / 2 + 1)) → (Y'.size : Int) = 2 * (N * (M / 2 + 1)) →
    ∃ X1 Y1 Y2, f X Y = some (X1, Y1) ∧ g X1 Y' = some (X, Y2) ∧ X1.size = X.size

theorem undone_of {N M : Int} (hN : 0 < N) {f g : Buf K → Buf K → Option (Buf K × Buf K)} {v w : (Int → Int → K) → Int → Int → K}
    (hf : MapsP N M f v) (hg : MapsP N M g w) (e : ∀ a, GEq N M (w (v a)) a) : Undone N M f g := by
  intro X Y Y' hX hY hY'
  obtain ⟨X1, Y1, e1, h1, -, o1⟩ := hf X Y _ (Holds.self hX) hY
  obtain ⟨X2, Y2, e2, h2, -, o2⟩ := hg X1 Y' _ h1 hY'
  have : X2 = X := Holds.ext hN (Holds.self hX) (h2.congr (e _)) (o1.trans (by have := h1.1; omega) o2)
  exact ⟨X1, Y1, Y2, e1, by rw [e2, this], by have := h1.1; omega⟩

/-! ## The algebra -/

/-- From coefficients to values: scale, transform the columns, scale, pack, transform the rows. -/
def outG (μ ω : Int → Int → K) (F : Int → Line K) (g : (Int → K × K) → Int → K) (a : Int → Int → K) (c i : Int) : K :=
  g (packG (scaleG ω (colG F (scaleG μ a))) i) c

/-- From values to coefficients. -/
def inG (μ ω : Int → Int → K) (F : Int → Line K) (h : (Int → K) → Int → K × K) (a : Int → Int → K) : Int → Int → K :=
  scaleG μ (colG F (scaleG ω (unpackG fun i j => h (fun c => a c i) j)))

theorem in_out {N M : Int} {k m : K} {μ ω μ' ω' : Int → Int → K} {F F' : Int → Line K} {g : (Int → K × K) → Int → K} {h : (Int → K) → Int → K × K}
    (hM : M % 2 = 1) (hF : ∀ c, LineInverse N k (F c) (F' c)) (R : RowInverse M m g h)
    (hμ : ∀ c i, 0 ≤ c → c < M → 0 ≤ i → i < N → μ c i * μ' c i = 1) (hω : ∀ c i, 0 ≤ c → c < M → 0 ≤ i → i < N → k * (m * (ω c i * ω' c i)) = 1)
    (hk : k ≠ 0) (a : Int → Int → K) : GEq N M (inG μ' ω' F' h (outG μ ω F g a)) a := by
  intro c i c0 c1 i0 i1
  unfold inG
  have e1 : ∀ i, 0 ≤ i → i < N → scaleG ω' (unpackG fun i j => h (fun c => outG μ ω F g a c i) j) c i = k⁻¹ * colG F (scaleG μ a) c i := by
    intro i i0 i1
    have hw : m * (ω c i * ω' c i) = k⁻¹ := by
      have := hω c i c0 c1 i0 i1
      field_simp; rw [← this]; ring
    have : unpackG (fun i j => h (fun c => outG μ ω F g a c i) j) c i = m * (colG F (scaleG μ a) c i * ω c i) := by
      unfold unpackG outG
      by_cases hc : c % 2 = 0
      · rw [if_pos hc, R.re _ _ (by omega) (by omega)]
        unfold packG
        by_cases h0 : c / 2 ≤ 0
        · obtain rfl : c = 0 := by omega
          rw [if_pos h0]; rfl
        · rw [if_neg h0, show 2 * (c / 2) = c by omega]; rfl
      · rw [if_neg hc, R.im _ _ (by omega) (by omega)]
        unfold packG
        rw [if_neg (by omega), show 2 * ((c + 1) / 2) - 1 = c by omega]
        dsimp only [scaleG]
        ring
    unfold scaleG at this ⊢
    rw [this, ← hw]; ring
  have e2 : colG F' (scaleG ω' (unpackG fun i j => h (fun c => outG μ ω F g a c i) j)) c i = scaleG μ a c i := by
    unfold colG
    rw [(hF c).locg _ (fun i => k⁻¹ * F c (scaleG μ a c) i) (fun j j0 j1 => e1 j j0 j1) i i0 i1, (hF c).hom _ _ _ i0 i1, (hF c).inv _ _ i0 i1,
      ← mul_assoc, inv_mul_cancel₀ hk, one_mul]
  unfold scaleG at e2 ⊢
  rw [e2, mul_assoc, hμ c i c0 c1 i0 i1, mul_one]

theorem out_in {N M : Int} {k m : K} {μ ω μ' ω' : Int → Int → K} {F F' : Int → Line K} {g : (Int → K × K) → Int → K} {h : (Int → K) → Int → K × K}
    (hM : M % 2 = 1) (hM0 : 0 < M) (hF : ∀ c, LineInverse N k (F' c) (F c)) (R : RowInverse M m g h)
    (hμ : ∀ c i, 0 ≤ c → c < M → 0 ≤ i → i < N → μ' c i * μ c i = 1) (hω : ∀ c i, 0 ≤ c → c < M → 0 ≤ i → i < N → k * (m * (ω c i * ω' c i)) = 1)
    (hm : m ≠ 0) (a : Int → Int → K) : GEq N M (outG μ ω F g (inG μ' ω' F' h a)) a := by
  intro c i c0 c1 i0 i1
  have key : ∀ c, 0 ≤ c → c < M → scaleG ω (colG F (scaleG μ (inG μ' ω' F' h a))) c i = m⁻¹ * unpackG (fun i j => h (fun c => a c i) j) c i := by
    intro c c0 c1
    have e1 : colG F (scaleG μ (inG μ' ω' F' h a)) c i = k * scaleG ω' (unpackG fun i j => h (fun c => a c i) j) c i := by
      unfold colG
      rw [(hF c).locg _ (F' c (scaleG ω' (unpackG fun i j => h (fun c => a c i) j) c)) (fun j j0 j1 => ?_) i i0 i1, (hF c).inv _ _ i0 i1]
      unfold inG scaleG colG
      rw [mul_assoc, hμ c j c0 c1 j0 j1, mul_one]
    have hw : k * (ω' c i * ω c i) = m⁻¹ := by
      have := hω c i c0 c1 i0 i1
      field_simp; rw [← this]; ring
    unfold scaleG at e1 ⊢
    rw [e1, ← hw]; ring
  unfold outG
  rw [R.locg _ (fun j => (m⁻¹ * (h (fun c => a c i) j).1, m⁻¹ * (h (fun c => a c i) j).2)) (fun j j0 j1 => ?_) (fun j j0 j1 => ?_) c c0 c1, R.homg _ _ _ c0 c1, R.gh _ _ c0 c1,
    ← mul_assoc, inv_mul_cancel₀ hm, one_mul]
  · unfold packG
    by_cases h0 : j ≤ 0
    · obtain rfl : j = 0 := by omega
      rw [if_pos le_rfl, key 0 le_rfl hM0]; rfl
    · rw [if_neg h0]
      dsimp only
      rw [key (2 * j) (by omega) (by omega)]
      unfold unpackG
      rw [if_pos (by omega), show 2 * j / 2 = j by omega]
  · unfold packG
    rw [if_neg (by omega)]
    dsimp only
    rw [key (2 * j - 1) (by omega) (by omega)]
    unfold unpackG
    rw [if_neg (by omega), show (2 * j - 1 + 1) / 2 = j by omega]
    ring

/-! ## Sphere and disk -/

/-- A synthesis plan and an analysis plan for `N × M` arrays, as made by `ft_plan_sph_synthesis` and
`ft_plan_sph_analysis` and their like: FFTW's inverse pairs of column transforms have factor `2N`, its row
transforms factor `M`. -/
structure PlanPair (N M : Int) (S A : ColPlan K) : Prop where
  f0 : LineInverse N ((2 * N : Int) : K) S.f0 A.f0
  f0' : LineInverse N ((2 * N : Int) : K) A.f0 S.f0
  f1 : LineInverse N ((2 * N : Int) : K) S.f1 A.f1
  f1' : LineInverse N ((2 * N : Int) : K) A.f1 S.f1
  row : ∃ g h, S.row = .c2r g ∧ A.row = .r2c h ∧ RowInverse M (M : K) g h

theorem factor_ok [CharZero K] {N M : Int} (hN : 0 < N) (hM0 : 0 < M) {q q' s s' : K} (hq : q * q' = 1) (hs : s * s' = 1) (c i : Int) :
    ((2 * N : Int) : K) * ((M : K) * (edge q s c i * edge (q' / ((2 * N * M : Int) : K)) s' c i)) = 1 := by
  have h1 : (N : K) ≠ 0 := by exact_mod_cast hN.ne'
  have h2 : (M : K) ≠ 0 := by exact_mod_cast hM0.ne'
  unfold edge
  push_cast
  have : (q * if c = 0 then s else 1) * (q' / (2 * N * M) * if c = 0 then s' else 1) = (q * q') * ((if c = 0 then s else 1) * if c = 0 then s' else 1) / (2 * N * M) := by ring
  rw [this, hq, show ((if c = 0 then s else 1) * if c = 0 then s' else 1) = (1 : K) by split_ifs <;> simp [hs]]
  field_simp

theorem mark_ok [CharZero K] (e : Bool) (r c i : Int) : markCols e r (2 : K) c i * markCols e r (1 / 2 : K) c i = 1 := by
  unfold markCols; split_ifs <;> norm_num

section
variable [CharZero K] {N M : Int} {C : FConst K} {S A : ColPlan K} {u u' : Int → K}

theorem size_ne (hN : 0 < N) (hM0 : 0 < M) : ((2 * N * M : Int) : K) ≠ 0 := by
  have : 0 < 2 * N * M := mul_pos (by omega) hM0
  exact_mod_cast this.ne'

/-- Column transforms of the two plans. -/
theorem PlanPair.col (P : PlanPair N M S A) (c : Int) : LineInverse N ((2 * N : Int) : K) (if evenCol c then S.f0 else S.f1) (if evenCol c then A.f0 else A.f1) := by
  split_ifs
  · exact P.f0
  · exact P.f1

theorem PlanPair.col' (P : PlanPair N M S A) (c : Int) : LineInverse N ((2 * N : Int) : K) (if evenCol c then A.f0 else A.f1) (if evenCol c then S.f0 else S.f1) := by
  split_ifs
  · exact P.f0'
  · exact P.f1'

/-- What the four programs for the sphere compute. -/
theorem sph_maps (hN : 0 < N) (hM0 : 0 < M) (hM : M % 2 = 1) (P : PlanPair N M S A) {g : (Int → K × K) → Int → K} {h : (Int → K) → Int → K × K} (eg : S.row = .c2r g) (eh : A.row = .r2c h) (R : RowInverse M (M : K) g h) :
    (MapsP N M (sphSynthesis 'N' C S u N M) (outG (markCols true 0 2) (edge C.q14 C.s2) (fun c => if evenCol c then S.f0 else S.f1) g)) ∧
    (MapsP N M (sphAnalysis 'N' C A u' N M) (inG (markCols true 0 (1 / 2)) (edge (C.q4 / ((2 * N * M : Int) : K)) C.s12) (fun c => if evenCol c then A.f0 else A.f1) h)) ∧
    (MapsP N M (sphSynthesis 'T' C A u' N M) (inG (markCols false (N - 1) (1 / 2)) (edge C.q12 C.s12) (fun c => if evenCol c then A.f0 else A.f1) h)) ∧
    (MapsP N M (sphAnalysis 'T' C S u N M) (outG (markCols false (N - 1) 2) (edge (C.q2 / ((2 * N * M : Int) : K)) C.s2) (fun c => if evenCol c then S.f0 else S.f1) g)) := by
  have dv : ∀ q : K, divC q ((2 * N * M : Int) : K) = some (q / ((2 * N * M : Int) : K)) := fun q => divC_of (size_ne hN hM0)
  have cS := execCols_maps (P := S) (M := M) hN P.f0.locf P.f1.locf
  have cA := execCols_maps (P := A) (M := M) hN P.f0.locg P.f1.locg
  have k0 : ((2 * N : Int) : K) ≠ 0 := by exact_mod_cast (by omega : 2 * N ≠ 0)
  have m0 : (M : K) ≠ 0 := by exact_mod_cast hM0.ne'
  have hd : ∀ j, headPos N j = 0 + j * N := fun j => by unfold headPos; ring
  have tl : ∀ j, tailPos N j = N - 1 + j * N := fun j => by unfold tailPos; ring
  have sN : MapsP N M (sphSynthesis 'N' C S u N M) (outG (markCols true 0 2) (edge C.q14 C.s2) (fun c => if evenCol c then S.f0 else S.f1) g) :=
    MapsP.out (t := C.q14) (clob := u) (C := C) hN hM hM0 R.locg ((markEven_maps hN hM hM0 le_rfl hN (headPos N) hd 2).comp cS) (fun X Y X' e => by
      obtain ⟨X1, e1, e2⟩ := Option.bind_eq_some_iff.1 e
      obtain ⟨X0, e0, e1⟩ := Option.bind_eq_some_iff.1 e1
      simp only [sphSynthesis, if_true, e0, e1, e2, eg, Option.bind_eq_bind, Option.bind_some])
  have aN : MapsP N M (sphAnalysis 'N' C A u' N M) (inG (markCols true 0 (1 / 2)) (edge (C.q4 / ((2 * N * M : Int) : K)) C.s12) (fun c => if evenCol c then A.f0 else A.f1) h) :=
    MapsP.in' (t := C.q4 / ((2 * N * M : Int) : K)) (clob := u') (C := C) hN hM hM0 R.loch (cA.comp (markEven_maps hN hM hM0 le_rfl hN (headPos N) hd (1 / 2))) (fun X Y X1 Y1 X2 e0 e => by
      obtain ⟨X3, e1, e2⟩ := Option.bind_eq_some_iff.1 e
      obtain ⟨X4, e3, e4⟩ := Option.bind_eq_some_iff.1 e2
      simp only [sphAnalysis, if_true, dv, e0, e1, e3, e4, eh, Option.bind_eq_bind, Option.bind_some])
  have sT : MapsP N M (sphSynthesis 'T' C A u' N M) (inG (markCols false (N - 1) (1 / 2)) (edge C.q12 C.s12) (fun c => if evenCol c then A.f0 else A.f1) h) :=
    MapsP.in' (t := C.q12) (clob := u') (C := C) hN hM hM0 R.loch (cA.comp (markOdd_maps hN hM hM0 (by omega) (by omega) (tailPos N) tl (1 / 2))) (fun X Y X1 Y1 X2 e0 e => by
      obtain ⟨X3, e1, e2⟩ := Option.bind_eq_some_iff.1 e
      simp only [sphSynthesis, if_true, e0, e1, e2, eh, Option.bind_eq_bind, Option.bind_some, show ('T' = 'N') = False by decide, if_false])
  have aT : MapsP N M (sphAnalysis 'T' C S u N M) (outG (markCols false (N - 1) 2) (edge (C.q2 / ((2 * N * M : Int) : K)) C.s2) (fun c => if evenCol c then S.f0 else S.f1) g) :=
    MapsP.out (t := C.q2 / ((2 * N * M : Int) : K)) (clob := u) (C := C) hN hM hM0 R.locg ((markOdd_maps hN hM hM0 (by omega) (by omega) (tailPos N) tl 2).comp cS) (fun X Y X' e => by
      obtain ⟨X1, e1, e2⟩ := Option.bind_eq_some_iff.1 e
      simp only [sphAnalysis, if_true, dv, e1, e2, eg, Option.bind_eq_bind, Option.bind_some, show ('T' = 'N') = False by decide, if_false])
  exact ⟨sN, aN, sT, aT⟩

/-- **C41**, sphere.  Given FFTW's contract, analysis returns the coefficients that synthesis was given and
synthesis returns the values that analysis was given, for `TRANS = 'N'` and, with the plans exchanged, for
`TRANS = 'T'`. -/
theorem C41_sphere (hN : 0 < N) (hM0 : 0 < M) (hM : M % 2 = 1) (hC : ConstOk C) (P : PlanPair N M S A) :
    Undone N M (sphSynthesis 'N' C S u N M) (sphAnalysis 'N' C A u' N M) ∧
    Undone N M (sphAnalysis 'N' C A u' N M) (sphSynthesis 'N' C S u N M) ∧
    Undone N M (sphSynthesis 'T' C A u' N M) (sphAnalysis 'T' C S u N M) ∧
    Undone N M (sphAnalysis 'T' C S u N M) (sphSynthesis 'T' C A u' N M) := by
  obtain ⟨g, h, eg, eh, R⟩ := P.row
  have k0 : ((2 * N : Int) : K) ≠ 0 := by exact_mod_cast (by omega : 2 * N ≠ 0)
  have m0 : (M : K) ≠ 0 := by exact_mod_cast hM0.ne'
  obtain ⟨sN, aN, sT, aT⟩ := sph_maps (C := C) (u := u) (u' := u') hN hM0 hM P eg eh R
  refine ⟨undone_of hN sN aN fun a => ?_, undone_of hN aN sN fun a => ?_, undone_of hN sT aT fun a => ?_, undone_of hN aT sT fun a => ?_⟩
  · exact in_out hM P.col R (fun c i _ _ _ _ => mark_ok _ _ c i) (fun c i _ _ _ _ => factor_ok hN hM0 hC.q4 hC.s2 c i) k0 a
  · exact out_in hM hM0 P.col' R (fun c i _ _ _ _ => by rw [mul_comm]; exact mark_ok _ _ c i) (fun c i _ _ _ _ => factor_ok hN hM0 hC.q4 hC.s2 c i) m0 a
  · refine out_in hM hM0 P.col' R (fun c i _ _ _ _ => by rw [mul_comm]; exact mark_ok _ _ c i) (fun c i _ _ _ _ => ?_) m0 a
    rw [mul_comm (edge _ _ _ _)]; exact factor_ok hN hM0 hC.q2 (by rw [mul_comm]; exact hC.s2) c i
  · refine in_out hM P.col R (fun c i _ _ _ _ => mark_ok _ _ c i) (fun c i _ _ _ _ => ?_) k0 a
    rw [mul_comm (edge _ _ _ _)]; exact factor_ok hN hM0 hC.q2 (by rw [mul_comm]; exact hC.s2) c i

theorem mark_inv [CharZero K] (e : Bool) (r c i : Int) : markCols e r (1 / 2 : K) c i * markCols e r (2 : K) c i = 1 := by
  rw [mul_comm]; exact mark_ok e r c i

theorem factor_ok' {N M : Int} (hN : 0 < N) (hM0 : 0 < M) {q q' s s' : K} (hq : q * q' = 1) (hs : s' * s = 1) (c i : Int) :
    ((2 * N : Int) : K) * ((M : K) * (edge (q' / ((2 * N * M : Int) : K)) s' c i * edge q s c i)) = 1 := by
  rw [mul_comm (edge _ _ _ _)]; exact factor_ok hN hM0 hq (by rw [mul_comm]; exact hs) c i

/-- What the four programs for vector fields compute. -/
theorem sphv_maps (hN : 0 < N) (hM0 : 0 < M) (hM : M % 2 = 1) (P : PlanPair N M S A) {g : (Int → K × K) → Int → K} {h : (Int → K) → Int → K × K} (eg : S.row = .c2r g) (eh : A.row = .r2c h) (R : RowInverse M (M : K) g h) :
    (MapsP N M (sphvSynthesis 'N' C S u N M) (outG (markCols false 0 2) (edge C.q14 C.s2) (fun c => if evenCol c then S.f0 else S.f1) g)) ∧
    (MapsP N M (sphvAnalysis 'N' C A u' N M) (inG (markCols false 0 (1 / 2)) (edge (C.q4 / ((2 * N * M : Int) : K)) C.s12) (fun c => if evenCol c then A.f0 else A.f1) h)) ∧
    (MapsP N M (sphvSynthesis 'T' C A u' N M) (inG (markCols true (N - 1) (1 / 2)) (edge C.q12 C.s12) (fun c => if evenCol c then A.f0 else A.f1) h)) ∧
    (MapsP N M (sphvAnalysis 'T' C S u N M) (outG (markCols true (N - 1) 2) (edge (C.q2 / ((2 * N * M : Int) : K)) C.s2) (fun c => if evenCol c then S.f0 else S.f1) g)) := by
  have dv : ∀ q : K, divC q ((2 * N * M : Int) : K) = some (q / ((2 * N * M : Int) : K)) := fun q => divC_of (size_ne hN hM0)
  have cS := execCols_maps (P := S) (M := M) hN P.f0.locf P.f1.locf
  have cA := execCols_maps (P := A) (M := M) hN P.f0.locg P.f1.locg
  have k0 : ((2 * N : Int) : K) ≠ 0 := by exact_mod_cast (by omega : 2 * N ≠ 0)
  have m0 : (M : K) ≠ 0 := by exact_mod_cast hM0.ne'
  have hd : ∀ j, headPos N j = 0 + j * N := fun j => by unfold headPos; ring
  have tl : ∀ j, tailPos N j = N - 1 + j * N := fun j => by unfold tailPos; ring
  have sN : MapsP N M (sphvSynthesis 'N' C S u N M) (outG (markCols false 0 2) (edge C.q14 C.s2) (fun c => if evenCol c then S.f0 else S.f1) g) :=
    MapsP.out (t := C.q14) (clob := u) (C := C) hN hM hM0 R.locg ((markOdd_maps hN hM hM0 le_rfl hN (headPos N) hd 2).comp cS) (fun X Y X' e => by
      obtain ⟨X1, e1, e2⟩ := Option.bind_eq_some_iff.1 e
      simp only [sphvSynthesis, if_true, e1, e2, eg, Option.bind_eq_bind, Option.bind_some])
  have aN : MapsP N M (sphvAnalysis 'N' C A u' N M) (inG (markCols false 0 (1 / 2)) (edge (C.q4 / ((2 * N * M : Int) : K)) C.s12) (fun c => if evenCol c then A.f0 else A.f1) h) :=
    MapsP.in' (t := C.q4 / ((2 * N * M : Int) : K)) (clob := u') (C := C) hN hM hM0 R.loch (cA.comp (markOdd_maps hN hM hM0 le_rfl hN (headPos N) hd (1 / 2))) (fun X Y X1 Y1 X2 e0 e => by
      obtain ⟨X3, e1, e2⟩ := Option.bind_eq_some_iff.1 e
      simp only [sphvAnalysis, if_true, dv, e0, e1, e2, eh, Option.bind_eq_bind, Option.bind_some])
  have tl0 : N - 1 = tailPos N 0 := by unfold tailPos; ring
  have sT : MapsP N M (sphvSynthesis 'T' C A u' N M) (inG (markCols true (N - 1) (1 / 2)) (edge C.q12 C.s12) (fun c => if evenCol c then A.f0 else A.f1) h) :=
    MapsP.in' (t := C.q12) (clob := u') (C := C) hN hM hM0 R.loch (cA.comp (markEven_maps hN hM hM0 (by omega) (by omega) (tailPos N) tl (1 / 2))) (fun X Y X1 Y1 X2 e0 e => by
      obtain ⟨X3, e1, e2⟩ := Option.bind_eq_some_iff.1 e
      obtain ⟨X4, e3, e4⟩ := Option.bind_eq_some_iff.1 e2
      simp only [sphvSynthesis, if_true, e0, e1, e3, e4, eh, Option.bind_eq_bind, Option.bind_some, show ('T' = 'N') = False by decide, if_false])
  have aT : MapsP N M (sphvAnalysis 'T' C S u N M) (outG (markCols true (N - 1) 2) (edge (C.q2 / ((2 * N * M : Int) : K)) C.s2) (fun c => if evenCol c then S.f0 else S.f1) g) :=
    MapsP.out (t := C.q2 / ((2 * N * M : Int) : K)) (clob := u) (C := C) hN hM hM0 R.locg ((markEven_maps hN hM hM0 (by omega) (by omega) (tailPos N) tl 2).comp cS) (fun X Y X' e => by
      obtain ⟨X1, e1, e2⟩ := Option.bind_eq_some_iff.1 e
      obtain ⟨X0, e0, e1⟩ := Option.bind_eq_some_iff.1 e1
      simp only [sphvAnalysis, if_true, dv, e0, e1, e2, eg, Option.bind_eq_bind, Option.bind_some, show ('T' = 'N') = False by decide, if_false])
  exact ⟨sN, aN, sT, aT⟩

/-- **C41**, vector fields on the sphere. -/
theorem C41_sphere_vector (hN : 0 < N) (hM0 : 0 < M) (hM : M % 2 = 1) (hC : ConstOk C) (P : PlanPair N M S A) :
    Undone N M (sphvSynthesis 'N' C S u N M) (sphvAnalysis 'N' C A u' N M) ∧
    Undone N M (sphvAnalysis 'N' C A u' N M) (sphvSynthesis 'N' C S u N M) ∧
    Undone N M (sphvSynthesis 'T' C A u' N M) (sphvAnalysis 'T' C S u N M) ∧
    Undone N M (sphvAnalysis 'T' C S u N M) (sphvSynthesis 'T' C A u' N M) := by
  obtain ⟨g, h, eg, eh, R⟩ := P.row
  have k0 : ((2 * N : Int) : K) ≠ 0 := by exact_mod_cast (by omega : 2 * N ≠ 0)
  have m0 : (M : K) ≠ 0 := by exact_mod_cast hM0.ne'
  obtain ⟨sN, aN, sT, aT⟩ := sphv_maps (C := C) (u := u) (u' := u') hN hM0 hM P eg eh R
  refine ⟨undone_of hN sN aN fun a => ?_, undone_of hN aN sN fun a => ?_, undone_of hN sT aT fun a => ?_, undone_of hN aT sT fun a => ?_⟩
  · exact in_out hM P.col R (fun c i _ _ _ _ => mark_ok _ _ c i) (fun c i _ _ _ _ => factor_ok hN hM0 hC.q4 hC.s2 c i) k0 a
  · exact out_in hM hM0 P.col' R (fun c i _ _ _ _ => mark_inv _ _ c i) (fun c i _ _ _ _ => factor_ok hN hM0 hC.q4 hC.s2 c i) m0 a
  · exact out_in hM hM0 P.col' R (fun c i _ _ _ _ => mark_inv _ _ c i) (fun c i _ _ _ _ => factor_ok' hN hM0 hC.q2 hC.s2 c i) m0 a
  · exact in_out hM P.col R (fun c i _ _ _ _ => mark_ok _ _ c i) (fun c i _ _ _ _ => factor_ok' hN hM0 hC.q2 hC.s2 c i) k0 a

theorem colG_one (F : Int → Line K) (a : Int → Int → K) : colG F (scaleG (fun _ _ => 1) a) = colG F a := by
  have : scaleG (fun _ _ => (1 : K)) a = a := by funext c i; unfold scaleG; rw [mul_one]
  rw [this]

theorem scaleG_one (a : Int → Int → K) : scaleG (fun _ _ => (1 : K)) a = a := by funext c i; unfold scaleG; rw [mul_one]

/-- What the four programs for the disk compute. -/
theorem disk_maps (hN : 0 < N) (hM0 : 0 < M) (hM : M % 2 = 1) (P : PlanPair N M S A) {g : (Int → K × K) → Int → K} {h : (Int → K) → Int → K × K} (eg : S.row = .c2r g) (eh : A.row = .r2c h) (R : RowInverse M (M : K) g h) :
    (MapsP N M (diskSynthesis 'N' C S u N M) (outG (markCols true 0 2) (edge C.q14 C.s2) (fun c => if evenCol c then S.f0 else S.f1) g)) ∧
    (MapsP N M (diskAnalysis 'N' C A u' N M) (inG (markCols true 0 (1 / 2)) (edge (C.q4 / ((2 * N * M : Int) : K)) C.s12) (fun c => if evenCol c then A.f0 else A.f1) h)) ∧
    (MapsP N M (diskSynthesis 'T' C A u' N M) (inG (fun _ _ => 1) (edge C.q12 C.s12) (fun c => if evenCol c then A.f0 else A.f1) h)) ∧
    (MapsP N M (diskAnalysis 'T' C S u N M) (outG (fun _ _ => 1) (edge (C.q2 / ((2 * N * M : Int) : K)) C.s2) (fun c => if evenCol c then S.f0 else S.f1) g)) := by
  have dv : ∀ q : K, divC q ((2 * N * M : Int) : K) = some (q / ((2 * N * M : Int) : K)) := fun q => divC_of (size_ne hN hM0)
  have cS := execCols_maps (P := S) (M := M) hN P.f0.locf P.f1.locf
  have cA := execCols_maps (P := A) (M := M) hN P.f0.locg P.f1.locg
  have k0 : ((2 * N : Int) : K) ≠ 0 := by exact_mod_cast (by omega : 2 * N ≠ 0)
  have m0 : (M : K) ≠ 0 := by exact_mod_cast hM0.ne'
  have hd : ∀ j, headPos N j = 0 + j * N := fun j => by unfold headPos; ring
  have sN : MapsP N M (diskSynthesis 'N' C S u N M) (outG (markCols true 0 2) (edge C.q14 C.s2) (fun c => if evenCol c then S.f0 else S.f1) g) :=
    MapsP.out (t := C.q14) (clob := u) (C := C) hN hM hM0 R.locg ((markEven_maps hN hM hM0 le_rfl hN (headPos N) hd 2).comp cS) (fun X Y X' e => by
      obtain ⟨X1, e1, e2⟩ := Option.bind_eq_some_iff.1 e
      obtain ⟨X0, e0, e1⟩ := Option.bind_eq_some_iff.1 e1
      simp only [diskSynthesis, if_true, e0, e1, e2, eg, Option.bind_eq_bind, Option.bind_some])
  have aN : MapsP N M (diskAnalysis 'N' C A u' N M) (inG (markCols true 0 (1 / 2)) (edge (C.q4 / ((2 * N * M : Int) : K)) C.s12) (fun c => if evenCol c then A.f0 else A.f1) h) :=
    MapsP.in' (t := C.q4 / ((2 * N * M : Int) : K)) (clob := u') (C := C) hN hM hM0 R.loch (cA.comp (markEven_maps hN hM hM0 le_rfl hN (headPos N) hd (1 / 2))) (fun X Y X1 Y1 X2 e0 e => by
      obtain ⟨X3, e1, e2⟩ := Option.bind_eq_some_iff.1 e
      obtain ⟨X4, e3, e4⟩ := Option.bind_eq_some_iff.1 e2
      simp only [diskAnalysis, if_true, dv, e0, e1, e3, e4, eh, Option.bind_eq_bind, Option.bind_some])
  have sT : MapsP N M (diskSynthesis 'T' C A u' N M) (inG (fun _ _ => 1) (edge C.q12 C.s12) (fun c => if evenCol c then A.f0 else A.f1) h) := by
    unfold inG
    simp only [scaleG_one]
    exact MapsP.in' (t := C.q12) (clob := u') (C := C) hN hM hM0 R.loch cA (fun X Y X1 Y1 X2 e0 e => by
      simp only [diskSynthesis, if_true, e0, e, eh, Option.bind_eq_bind, Option.bind_some, show ('T' = 'N') = False by decide, if_false])
  have aT : MapsP N M (diskAnalysis 'T' C S u N M) (outG (fun _ _ => 1) (edge (C.q2 / ((2 * N * M : Int) : K)) C.s2) (fun c => if evenCol c then S.f0 else S.f1) g) := by
    unfold outG
    simp only [scaleG_one]
    exact MapsP.out (t := C.q2 / ((2 * N * M : Int) : K)) (clob := u) (C := C) hN hM hM0 R.locg cS (fun X Y X' e => by
      simp only [diskAnalysis, if_true, dv, e, eg, Option.bind_eq_bind, Option.bind_some, show ('T' = 'N') = False by decide, if_false])
  exact ⟨sN, aN, sT, aT⟩

/-- **C41**, disk. -/
theorem C41_disk (hN : 0 < N) (hM0 : 0 < M) (hM : M % 2 = 1) (hC : ConstOk C) (P : PlanPair N M S A) :
    Undone N M (diskSynthesis 'N' C S u N M) (diskAnalysis 'N' C A u' N M) ∧
    Undone N M (diskAnalysis 'N' C A u' N M) (diskSynthesis 'N' C S u N M) ∧
    Undone N M (diskSynthesis 'T' C A u' N M) (diskAnalysis 'T' C S u N M) ∧
    Undone N M (diskAnalysis 'T' C S u N M) (diskSynthesis 'T' C A u' N M) := by
  obtain ⟨g, h, eg, eh, R⟩ := P.row
  have k0 : ((2 * N : Int) : K) ≠ 0 := by exact_mod_cast (by omega : 2 * N ≠ 0)
  have m0 : (M : K) ≠ 0 := by exact_mod_cast hM0.ne'
  obtain ⟨sN, aN, sT, aT⟩ := disk_maps (C := C) (u := u) (u' := u') hN hM0 hM P eg eh R
  refine ⟨undone_of hN sN aN fun a => ?_, undone_of hN aN sN fun a => ?_, undone_of hN sT aT fun a => ?_, undone_of hN aT sT fun a => ?_⟩
  · exact in_out hM P.col R (fun c i _ _ _ _ => mark_ok _ _ c i) (fun c i _ _ _ _ => factor_ok hN hM0 hC.q4 hC.s2 c i) k0 a
  · exact out_in hM hM0 P.col' R (fun c i _ _ _ _ => mark_inv _ _ c i) (fun c i _ _ _ _ => factor_ok hN hM0 hC.q4 hC.s2 c i) m0 a
  · exact out_in hM hM0 P.col' R (fun c i _ _ _ _ => one_mul 1) (fun c i _ _ _ _ => factor_ok' hN hM0 hC.q2 hC.s2 c i) m0 a
  · exact in_out hM P.col R (fun c i _ _ _ _ => one_mul 1) (fun c i _ _ _ _ => factor_ok' hN hM0 hC.q2 hC.s2 c i) k0 a

/-- The two plans of the annulus: they carry the same weights, none of them zero. -/
structure AnnPair (N M : Int) (S A : AnnPlan K) : Prop where
  f : LineInverse N ((2 * N : Int) : K) S.f A.f
  f' : LineInverse N ((2 * N : Int) : K) A.f S.f
  row : ∃ g h, S.row = .c2r g ∧ A.row = .r2c h ∧ RowInverse M (M : K) g h
  size : N ≤ S.w.size
  same : A.w = S.w
  ne : ∀ i, 0 ≤ i → i < N → S.w.val i ≠ 0

theorem ends_ok (c i : Int) : (if i = 0 then (2 : K) else 1) * (if i = 0 then (1 / 2 : K) else 1) = 1 := by
  split_ifs <;> norm_num

theorem wt_ne {w : Int → K} {c i : Int} (h : w i ≠ 0) : wt w c i ≠ 0 := by
  unfold wt; split_ifs
  · exact one_ne_zero
  · exact h

/-- What the four programs for the annulus compute. -/
theorem ann_maps {S A : AnnPlan K} (hN : 0 < N) (hM0 : 0 < M) (hM : M % 2 = 1) (P : AnnPair N M S A) {g : (Int → K × K) → Int → K} {h : (Int → K) → Int → K × K} (eg : S.row = .c2r g) (eh : A.row = .r2c h) (R : RowInverse M (M : K) g h) :
    (MapsP N M (annSynthesis 'N' C S u N M) (outG (fun _ i => if i = 0 then 2 else 1) (fun c i => wt S.w.val c i * edge C.q14 C.s2 c i) (fun _ => S.f) g)) ∧
    (MapsP N M (annAnalysis 'N' C A u' N M) (inG (fun _ i => if i = 0 then 1 / 2 else 1)
      (fun c i => edge (C.q4 / ((2 * N * M : Int) : K)) C.s12 c i * (wt S.w.val c i)⁻¹) (fun _ => A.f) h)) ∧
    (MapsP N M (annSynthesis 'T' C A u' N M) (inG (fun _ _ => 1) (fun c i => edge C.q12 C.s12 c i * wt S.w.val c i) (fun _ => A.f) h)) ∧
    (MapsP N M (annAnalysis 'T' C S u N M) (outG (fun _ _ => 1) (fun c i => (wt S.w.val c i)⁻¹ * edge (C.q2 / ((2 * N * M : Int) : K)) C.s2 c i) (fun _ => S.f) g)) := by
  have dv : ∀ q : K, divC q ((2 * N * M : Int) : K) = some (q / ((2 * N * M : Int) : K)) := fun q => divC_of (size_ne hN hM0)
  have cS := planAll_maps (f := S.f) (M := M) hN P.f.locf
  have cA := planAll_maps (f := A.f) (M := M) hN P.f.locg
  have k0 : ((2 * N : Int) : K) ≠ 0 := by exact_mod_cast (by omega : 2 * N ≠ 0)
  have m0 : (M : K) ≠ 0 := by exact_mod_cast hM0.ne'
  have mS := mulW_maps (N := N) hM P.size
  have dS := divW_maps (N := N) hM P.size P.ne
  have h2 := scaleHeads_maps (M := M) hN (2 : K)
  have hh := scaleHeads_maps (M := M) hN (1 / 2 : K)
  have sN : MapsP N M (annSynthesis 'N' C S u N M) (outG (fun _ i => if i = 0 then 2 else 1) (fun c i => wt S.w.val c i * edge C.q14 C.s2 c i) (fun _ => S.f) g) := by
    unfold outG
    simp only [← scaleG_comp]
    exact MapsP.out (t := C.q14) (clob := u) (C := C) hN hM hM0 R.locg ((h2.comp cS).comp mS) (fun X Y X' e => by
      obtain ⟨X1, e1, e2⟩ := Option.bind_eq_some_iff.1 e
      obtain ⟨X0, e0, e1⟩ := Option.bind_eq_some_iff.1 e1
      simp only [annSynthesis, if_true, e0, e1, e2, eg, Option.bind_eq_bind, Option.bind_some])
  have aN : MapsP N M (annAnalysis 'N' C A u' N M) (inG (fun _ i => if i = 0 then 1 / 2 else 1)
      (fun c i => edge (C.q4 / ((2 * N * M : Int) : K)) C.s12 c i * (wt S.w.val c i)⁻¹) (fun _ => A.f) h) := by
    unfold inG
    simp only [← scaleG_comp]
    exact MapsP.in' (t := C.q4 / ((2 * N * M : Int) : K)) (clob := u') (C := C) hN hM hM0 R.loch ((dS.comp cA).comp hh) (fun X Y X1 Y1 X2 e0 e => by
      obtain ⟨X3, e1, e2⟩ := Option.bind_eq_some_iff.1 e
      obtain ⟨X4, e3, e4⟩ := Option.bind_eq_some_iff.1 e1
      simp only [annAnalysis, if_true, dv, P.same, e0, e2, e3, e4, eh, Option.bind_eq_bind, Option.bind_some])
  have sT : MapsP N M (annSynthesis 'T' C A u' N M) (inG (fun _ _ => 1) (fun c i => edge C.q12 C.s12 c i * wt S.w.val c i) (fun _ => A.f) h) := by
    unfold inG
    simp only [scaleG_one, ← scaleG_comp]
    exact MapsP.in' (t := C.q12) (clob := u') (C := C) hN hM hM0 R.loch (mS.comp cA) (fun X Y X1 Y1 X2 e0 e => by
      obtain ⟨X3, e1, e2⟩ := Option.bind_eq_some_iff.1 e
      simp only [annSynthesis, if_true, P.same, e0, e1, e2, eh, Option.bind_eq_bind, Option.bind_some, show ('T' = 'N') = False by decide, if_false])
  have aT : MapsP N M (annAnalysis 'T' C S u N M) (outG (fun _ _ => 1) (fun c i => (wt S.w.val c i)⁻¹ * edge (C.q2 / ((2 * N * M : Int) : K)) C.s2 c i) (fun _ => S.f) g) := by
    unfold outG
    simp only [scaleG_one, ← scaleG_comp]
    exact MapsP.out (t := C.q2 / ((2 * N * M : Int) : K)) (clob := u) (C := C) hN hM hM0 R.locg (cS.comp dS) (fun X Y X' e => by
      obtain ⟨X1, e1, e2⟩ := Option.bind_eq_some_iff.1 e
      simp only [annAnalysis, if_true, dv, e1, e2, eg, Option.bind_eq_bind, Option.bind_some, show ('T' = 'N') = False by decide, if_false])
  exact ⟨sN, aN, sT, aT⟩

/-- **C41**, annulus. -/
theorem C41_annulus {S A : AnnPlan K} (hN : 0 < N) (hM0 : 0 < M) (hM : M % 2 = 1) (hC : ConstOk C) (P : AnnPair N M S A) :
    Undone N M (annSynthesis 'N' C S u N M) (annAnalysis 'N' C A u' N M) ∧
    Undone N M (annAnalysis 'N' C A u' N M) (annSynthesis 'N' C S u N M) ∧
    Undone N M (annSynthesis 'T' C A u' N M) (annAnalysis 'T' C S u N M) ∧
    Undone N M (annAnalysis 'T' C S u N M) (annSynthesis 'T' C A u' N M) := by
  obtain ⟨g, h, eg, eh, R⟩ := P.row
  have k0 : ((2 * N : Int) : K) ≠ 0 := by exact_mod_cast (by omega : 2 * N ≠ 0)
  have m0 : (M : K) ≠ 0 := by exact_mod_cast hM0.ne'
  obtain ⟨sN, aN, sT, aT⟩ := ann_maps (C := C) (u := u) (u' := u') hN hM0 hM P eg eh R
  have fN : ∀ c i : Int, 0 ≤ c → c < M → 0 ≤ i → i < N → ((2 * N : Int) : K) * ((M : K) * (wt S.w.val c i * edge C.q14 C.s2 c i * (edge (C.q4 / ((2 * N * M : Int) : K)) C.s12 c i * (wt S.w.val c i)⁻¹))) = 1 := by
    intro c i _ _ i0 i1
    rw [← factor_ok (K := K) hN hM0 hC.q4 hC.s2 c i]
    have := wt_ne (c := c) (P.ne i i0 i1)
    field_simp
  have fT : ∀ c i : Int, 0 ≤ c → c < M → 0 ≤ i → i < N → ((2 * N : Int) : K) * ((M : K) * ((wt S.w.val c i)⁻¹ * edge (C.q2 / ((2 * N * M : Int) : K)) C.s2 c i * (edge C.q12 C.s12 c i * wt S.w.val c i))) = 1 := by
    intro c i _ _ i0 i1
    rw [← factor_ok' (K := K) hN hM0 hC.q2 hC.s2 c i]
    have := wt_ne (c := c) (P.ne i i0 i1)
    field_simp
  refine ⟨undone_of hN sN aN fun a => ?_, undone_of hN aN sN fun a => ?_, undone_of hN sT aT fun a => ?_, undone_of hN aT sT fun a => ?_⟩
  · exact in_out hM (fun _ => P.f) R (fun c i _ _ _ _ => ends_ok c i) fN k0 a
  · exact out_in hM hM0 (fun _ => P.f') R (fun c i _ _ _ _ => by rw [mul_comm]; exact ends_ok c i) fN m0 a
  · exact out_in hM hM0 (fun _ => P.f') R (fun c i _ _ _ _ => one_mul 1) fT m0 a
  · exact in_out hM (fun _ => P.f) R (fun c i _ _ _ _ => one_mul 1) fT k0 a

/-! ## Rectangularised disk -/

/-- On every array of `M` columns of length `N`, `g` returns what `f` was given. -/
def Undone1 (N M : Int) (f g : Buf K → Option (Buf K)) : Prop :=
  ∀ X : Buf K, (X.size : Int) = N * M → ∃ X1, f X = some X1 ∧ g X1 = some X ∧ X1.size = X.size

theorem undone1_of {N M : Int} (hN : 0 < N) {f g : Buf K → Option (Buf K)} {v w : (Int → Int → K) → Int → Int → K}
    (hf : Maps N M f v) (hg : Maps N M g w) (e : ∀ a, GEq N M (w (v a)) a) : Undone1 N M f g := by
  intro X hX
  obtain ⟨X1, e1, h1, o1⟩ := hf X _ (Holds.self hX)
  obtain ⟨X2, e2, h2, o2⟩ := hg X1 _ h1
  have : X2 = X := Holds.ext hN (Holds.self hX) (h2.congr (e _)) (o1.trans (by have := h1.1; omega) o2)
  exact ⟨X1, e1, by rw [e2, this], by have := h1.1; omega⟩

structure RectPair (N M : Int) (S A : RectPlan K) : Prop where
  x1 : LineInverse N ((2 * N : Int) : K) S.x1 A.x1
  x1' : LineInverse N ((2 * N : Int) : K) A.x1 S.x1
  x2 : LineInverse N ((2 * N : Int) : K) S.x2 A.x2
  x2' : LineInverse N ((2 * N : Int) : K) A.x2 S.x2
  y : LineInverse M ((2 * M : Int) : K) S.y A.y
  y' : LineInverse M ((2 * M : Int) : K) A.y S.y

theorem RectPair.col {S A : RectPlan K} (P : RectPair N M S A) (c : Int) : LineInverse N ((2 * N : Int) : K) (if c % 2 = 0 then S.x1 else S.x2) (if c % 2 = 0 then A.x1 else A.x2) := by
  split_ifs
  · exact P.x1
  · exact P.x2

theorem RectPair.col' {S A : RectPlan K} (P : RectPair N M S A) (c : Int) : LineInverse N ((2 * N : Int) : K) (if c % 2 = 0 then A.x1 else A.x2) (if c % 2 = 0 then S.x1 else S.x2) := by
  split_ifs
  · exact P.x1'
  · exact P.x2'

/-- Columns, then rows, undone by rows, then columns. -/
theorem rect_in_out {k m : K} {μ ω μ' ω' : Int → Int → K} {F F' : Int → Line K} {y y' : Line K}
    (hF : ∀ c, LineInverse N k (F c) (F' c)) (hy : LineInverse M m y y') (hk : k ≠ 0)
    (hμ : ∀ c i, 0 ≤ c → c < M → 0 ≤ i → i < N → μ c i * μ' c i = 1) (hω : ∀ c i, 0 ≤ c → c < M → 0 ≤ i → i < N → k * (m * (ω c i * ω' c i)) = 1) (a : Int → Int → K) :
    GEq N M (scaleG μ' (colG F' (scaleG ω' (rowG y' (rowG y (scaleG ω (colG F (scaleG μ a)))))))) a := by
  intro c i c0 c1 i0 i1
  have e1 : ∀ i, 0 ≤ i → i < N → scaleG ω' (rowG y' (rowG y (scaleG ω (colG F (scaleG μ a))))) c i = k⁻¹ * colG F (scaleG μ a) c i := by
    intro i i0 i1
    have hw : m * (ω c i * ω' c i) = k⁻¹ := by
      have := hω c i c0 c1 i0 i1
      field_simp; rw [← this]; ring
    have : rowG y' (rowG y (scaleG ω (colG F (scaleG μ a)))) c i = m * (colG F (scaleG μ a) c i * ω c i) := hy.inv _ c c0 c1
    show _ * _ = _
    rw [this, ← hw]; ring
  have e2 : colG F' (scaleG ω' (rowG y' (rowG y (scaleG ω (colG F (scaleG μ a)))))) c i = scaleG μ a c i := by
    show F' c _ i = _
    rw [(hF c).locg _ (fun i => k⁻¹ * F c (scaleG μ a c) i) (fun j j0 j1 => e1 j j0 j1) i i0 i1, (hF c).hom _ _ _ i0 i1, (hF c).inv _ _ i0 i1,
      ← mul_assoc, inv_mul_cancel₀ hk, one_mul]
  show _ * _ = _
  rw [e2]
  show _ * _ * _ = _
  rw [mul_assoc, hμ c i c0 c1 i0 i1, mul_one]

theorem rect_out_in {k m : K} {μ ω μ' ω' : Int → Int → K} {F F' : Int → Line K} {y y' : Line K}
    (hF : ∀ c, LineInverse N k (F' c) (F c)) (hy : LineInverse M m y' y) (hm : m ≠ 0)
    (hμ : ∀ c i, 0 ≤ c → c < M → 0 ≤ i → i < N → μ' c i * μ c i = 1) (hω : ∀ c i, 0 ≤ c → c < M → 0 ≤ i → i < N → k * (m * (ω c i * ω' c i)) = 1) (a : Int → Int → K) :
    GEq N M (rowG y (scaleG ω (colG F (scaleG μ (scaleG μ' (colG F' (scaleG ω' (rowG y' a)))))))) a := by
  intro c i c0 c1 i0 i1
  have key : ∀ c, 0 ≤ c → c < M → scaleG ω (colG F (scaleG μ (scaleG μ' (colG F' (scaleG ω' (rowG y' a)))))) c i = m⁻¹ * rowG y' a c i := by
    intro c c0 c1
    have e1 : colG F (scaleG μ (scaleG μ' (colG F' (scaleG ω' (rowG y' a))))) c i = k * scaleG ω' (rowG y' a) c i := by
      show F c _ i = _
      rw [(hF c).locg _ (F' c (scaleG ω' (rowG y' a) c)) (fun j j0 j1 => ?_) i i0 i1, (hF c).inv _ _ i0 i1]
      show _ * _ * _ = _
      rw [mul_assoc, hμ c j c0 c1 j0 j1, mul_one]; rfl
    have hw : k * (ω' c i * ω c i) = m⁻¹ := by
      have := hω c i c0 c1 i0 i1
      field_simp; rw [← this]; ring
    show _ * _ = _
    rw [e1, ← hw]
    show k * (_ * _) * _ = _
    ring
  show y _ c = _
  rw [hy.locg _ (fun c => m⁻¹ * y' (fun c => a c i) c) (fun j j0 j1 => key j j0 j1) c c0 c1, hy.hom _ _ _ c0 c1, hy.inv _ _ c0 c1, ← mul_assoc, inv_mul_cancel₀ hm, one_mul]

theorem rect_factor (hN : 0 < N) (hM0 : 0 < M) : ((2 * N : Int) : K) * (((2 * M : Int) : K) * (1 / 4 * (((N * M : Int) : K))⁻¹)) = 1 := by
  have h1 : (N : K) ≠ 0 := by exact_mod_cast hN.ne'
  have h2 : (M : K) ≠ 0 := by exact_mod_cast hM0.ne'
  push_cast
  field_simp
  norm_num

/-- What the four programs for the rectangularised disk compute. -/
theorem rect_maps {S A : RectPlan K} (hN : 0 < N) (hM0 : 0 < M) (P : RectPair N M S A) :
    (Maps N M (rectSynthesis 'N' S N M) (fun a => rowG S.y (scaleG (fun c _ => (if c < 1 then 2 else 1) * (1 / 4)) (colG (fun c => if c % 2 = 0 then S.x1 else S.x2) (scaleG (fun c i => if c % 2 = 0 ∧ i = 0 then 2 else 1) a))))) ∧
    (Maps N M (rectAnalysis 'N' A N M) (fun a => scaleG (fun c i => if c % 2 = 0 ∧ i = 0 then 1 / 2 else 1) (colG (fun c => if c % 2 = 0 then A.x1 else A.x2) (scaleG (fun c _ => ((N * M : Int) : K)⁻¹ * (if c < 1 then 1 / 2 else 1)) (rowG A.y a))))) ∧
    (Maps N M (rectSynthesis 'T' A N M) (fun a => scaleG (fun c i => if c % 2 = 1 ∧ i = N - 1 then 1 / 2 else 1) (colG (fun c => if c % 2 = 0 then A.x1 else A.x2) (scaleG (fun _ _ => 1 / 4) (rowG A.y a))))) ∧
    (Maps N M (rectAnalysis 'T' S N M) (fun a => rowG S.y (scaleG (fun _ _ => ((N * M : Int) : K)⁻¹) (colG (fun c => if c % 2 = 0 then S.x1 else S.x2) (scaleG (fun c i => if c % 2 = 1 ∧ i = N - 1 then 2 else 1) a))))) := by
  have h1 : (N : K) ≠ 0 := by exact_mod_cast hN.ne'
  have h2 : (M : K) ≠ 0 := by exact_mod_cast hM0.ne'
  have k0 : ((2 * N : Int) : K) ≠ 0 := by exact_mod_cast (by omega : 2 * N ≠ 0)
  have m0 : ((2 * M : Int) : K) ≠ 0 := by exact_mod_cast (by omega : 2 * M ≠ 0)
  have nm : ((N * M : Int) : K) ≠ 0 := by push_cast; exact mul_ne_zero h1 h2
  have cS := execRectX_maps (P := S) (M := M) hN P.x1.locf P.x2.locf
  have cA := execRectX_maps (P := A) (M := M) hN P.x1.locg P.x2.locg
  have rS : Maps N M (execRectY S N M) (rowG S.y) := planRows_maps hN hM0 P.y.locf
  have rA : Maps N M (execRectY A N M) (rowG A.y) := planRows_maps hN hM0 P.y.locg
  have hd : ∀ t : K, Maps N M (fun X => forStep 0 M 2 (fun j X => scaleAt (j * N) t X) X) (scaleG fun c i => if c % 2 = 0 ∧ i = 0 then t else 1) :=
    fun t => scaleStep_maps (Or.inl rfl) le_rfl hN (fun j => j * N) (fun j => by ring) t
  have tl : ∀ t : K, Maps N M (fun X => forStep 1 M 2 (fun j X => scaleAt ((j + 1) * N - 1) t X) X) (scaleG fun c i => if c % 2 = 1 ∧ i = N - 1 then t else 1) :=
    fun t => scaleStep_maps (Or.inr rfl) (by omega) (by omega) (fun j => (j + 1) * N - 1) (fun j => by ring) t
  have s1 : ∀ t : K, Maps N M (scaleTo N t) (scaleG fun c _ => if c < 1 then t else 1) := fun t => scaleTo_maps (m := 1) hN (by omega) (by omega) (by ring) t
  have s4 : Maps N M (scaleTo (N * M) (1 / 4 : K)) (scaleG fun _ _ => 1 / 4) :=
    (scaleTo_maps (m := M) hN hM0.le le_rfl rfl _).congr (fun a c i _ c1 _ _ => by unfold scaleG; dsimp only; rw [if_pos c1])
  have sd : Maps N M (divTo (N * M) ((N * M : Int) : K)) (scaleG fun _ _ => ((N * M : Int) : K)⁻¹) :=
    (divTo_maps hN nm).congr (fun a c i _ _ _ _ => by unfold scaleG; dsimp only; rw [div_eq_mul_inv])
  have f := rect_factor (K := K) hN hM0
  have sN : Maps N M (rectSynthesis 'N' S N M) (fun a => rowG S.y (scaleG (fun c _ => (if c < 1 then 2 else 1) * (1 / 4)) (colG (fun c => if c % 2 = 0 then S.x1 else S.x2) (scaleG (fun c i => if c % 2 = 0 ∧ i = 0 then 2 else 1) a)))) := by
    simp only [← scaleG_comp]
    exact (hd 2).comp (cS.comp ((s1 2).comp (s4.comp rS)))
  have aN : Maps N M (rectAnalysis 'N' A N M) (fun a => scaleG (fun c i => if c % 2 = 0 ∧ i = 0 then 1 / 2 else 1) (colG (fun c => if c % 2 = 0 then A.x1 else A.x2) (scaleG (fun c _ => ((N * M : Int) : K)⁻¹ * (if c < 1 then 1 / 2 else 1)) (rowG A.y a)))) := by
    simp only [← scaleG_comp]
    exact rA.comp (sd.comp ((s1 (1 / 2)).comp (cA.comp (hd (1 / 2)))))
  have sT : Maps N M (rectSynthesis 'T' A N M) (fun a => scaleG (fun c i => if c % 2 = 1 ∧ i = N - 1 then 1 / 2 else 1) (colG (fun c => if c % 2 = 0 then A.x1 else A.x2) (scaleG (fun _ _ => 1 / 4) (rowG A.y a)))) :=
    rA.comp (s4.comp (cA.comp (tl (1 / 2))))
  have aT : Maps N M (rectAnalysis 'T' S N M) (fun a => rowG S.y (scaleG (fun _ _ => ((N * M : Int) : K)⁻¹) (colG (fun c => if c % 2 = 0 then S.x1 else S.x2) (scaleG (fun c i => if c % 2 = 1 ∧ i = N - 1 then 2 else 1) a)))) := by
    refine Maps.congr ((tl 2).comp (cS.comp (rS.comp sd))) fun a c i c0 c1 i0 i1 => ?_
    unfold scaleG rowG
    simp only [mul_comm _ (((N * M : Int) : K)⁻¹)]
    rw [P.y'.hom _ _ _ c0 c1]
  exact ⟨sN, aN, sT, aT⟩

/-- **C41**, rectangularised disk. -/
theorem C41_rectdisk {S A : RectPlan K} (hN : 0 < N) (hM0 : 0 < M) (P : RectPair N M S A) :
    Undone1 N M (rectSynthesis 'N' S N M) (rectAnalysis 'N' A N M) ∧ Undone1 N M (rectAnalysis 'N' A N M) (rectSynthesis 'N' S N M) ∧
    Undone1 N M (rectSynthesis 'T' A N M) (rectAnalysis 'T' S N M) ∧ Undone1 N M (rectAnalysis 'T' S N M) (rectSynthesis 'T' A N M) := by
  have h1 : (N : K) ≠ 0 := by exact_mod_cast hN.ne'
  have h2 : (M : K) ≠ 0 := by exact_mod_cast hM0.ne'
  have k0 : ((2 * N : Int) : K) ≠ 0 := by exact_mod_cast (by omega : 2 * N ≠ 0)
  have m0 : ((2 * M : Int) : K) ≠ 0 := by exact_mod_cast (by omega : 2 * M ≠ 0)
  have nm : ((N * M : Int) : K) ≠ 0 := by push_cast; exact mul_ne_zero h1 h2
  have f := rect_factor (K := K) hN hM0
  obtain ⟨sN, aN, sT, aT⟩ := rect_maps hN hM0 P
  have fN : ∀ c : Int, ((2 * N : Int) : K) * (((2 * M : Int) : K) * (((if c < 1 then 2 else 1) * (1 / 4)) * ((((N * M : Int) : K))⁻¹ * (if c < 1 then 1 / 2 else 1)))) = 1 := by
    intro c
    refine Eq.trans ?_ f
    split_ifs
    · ring
    · ring
  refine ⟨undone1_of hN sN aN fun a => ?_, undone1_of hN aN sN fun a => ?_, undone1_of hN sT aT fun a => ?_, undone1_of hN aT sT fun a => ?_⟩
  · exact rect_in_out P.col P.y k0 (fun c i _ _ _ _ => by split_ifs <;> norm_num) (fun c i _ _ _ _ => fN c) a
  · exact rect_out_in P.col' P.y' m0 (fun c i _ _ _ _ => by split_ifs <;> norm_num) (fun c i _ _ _ _ => fN c) a
  · exact rect_out_in P.col' P.y' m0 (fun c i _ _ _ _ => by split_ifs <;> norm_num) (fun c i _ _ _ _ => by rw [mul_comm (((N * M : Int) : K)⁻¹)]; exact f) a
  · exact rect_in_out P.col P.y k0 (fun c i _ _ _ _ => by split_ifs <;> norm_num) (fun c i _ _ _ _ => by rw [mul_comm (((N * M : Int) : K)⁻¹)]; exact f) a

/-! ## Triangle and tetrahedron -/

/-- A linear transform of length `n`. -/
def Linear (n : Int) (f : Line K) : Prop := ∃ A : Int → Int → K, ∀ x i, 0 ≤ i → i < n → f x i = ∑ j ∈ Finset.Ico 0 n, A i j * x j

/-- Linear transforms of length `n` that undo each other up to the factor `2n`. -/
structure CosPair (n : Int) (f g : Line K) : Prop where
  linf : Linear n f
  ling : Linear n g
  gf : ∀ x i, 0 ≤ i → i < n → g (f x) i = ((2 * n : Int) : K) * x i
  fg : ∀ x i, 0 ≤ i → i < n → f (g x) i = ((2 * n : Int) : K) * x i

theorem CosPair.symm {n : Int} {f g : Line K} (h : CosPair n f g) : CosPair n g f := ⟨h.ling, h.linf, h.fg, h.gf⟩

theorem Linear.local {n : Int} {f : Line K} (h : Linear n f) : Local n f := by
  obtain ⟨A, hA⟩ := h; exact MatOf.local hA

theorem Linear.hom {n : Int} {f : Line K} (h : Linear n f) (t : K) (x : Int → K) {i : Int} (i0 : 0 ≤ i) (i1 : i < n) : f (fun j => t * x j) i = t * f x i := by
  obtain ⟨A, hA⟩ := h; exact MatOf.hom hA t x i0 i1

theorem Linear.swap {n m : Int} {f g : Line K} (hf : Linear n f) (hg : Linear m g) (a : Int → Int → K) {c i : Int} (c0 : 0 ≤ c) (c1 : c < n) (i0 : 0 ≤ i) (i1 : i < m) :
    f (fun c => g (a c) i) c = g (fun i => f (fun c => a c i) c) i := by
  obtain ⟨A, hA⟩ := hf; obtain ⟨B, hB⟩ := hg; exact line_swap hA hB a c0 c1 i0 i1

/-- Both axes of the triangle's array. -/
def both (f : Line K × Line K) (a : Int → Int → K) (c i : Int) : K := f.1 (fun c => f.2 (a c) i) c

theorem both_inv {f g : Line K × Line K} (h0 : CosPair N f.1 g.1) (h1 : CosPair M f.2 g.2) (a : Int → Int → K) {c i : Int} (c0 : 0 ≤ c) (c1 : c < N) (i0 : 0 ≤ i) (i1 : i < M) :
    both g (both f a) c i = ((4 * (N * M) : Int) : K) * a c i := by
  unfold both
  have e : ∀ c, 0 ≤ c → c < N → g.2 (fun i => f.1 (fun c => f.2 (a c) i) c) i = ((2 * M : Int) : K) * f.1 (fun c => a c i) c := by
    intro c c0 c1
    rw [h1.ling.local _ (fun i => f.2 (fun i => f.1 (fun c => a c i) c) i) (fun j j0 j1 => h0.linf.swap h1.linf a c0 c1 j0 j1) i i0 i1]
    exact h1.gf _ i i0 i1
  rw [h0.ling.local _ _ (fun c c0 c1 => e c c0 c1) c c0 c1, h0.ling.hom _ _ c0 c1, h0.gf _ c c0 c1]
  push_cast; ring

theorem both_hom {f : Line K × Line K} (h0 : Linear N f.1) (h1 : Linear M f.2) (t : K) (a : Int → Int → K) {c i : Int} (c0 : 0 ≤ c) (c1 : c < N) (i0 : 0 ≤ i) (i1 : i < M) :
    both f (fun c i => t * a c i) c i = t * both f a c i := by
  unfold both
  rw [h0.local _ _ (fun c c0 c1 => h1.hom t (a c) i0 i1) c c0 c1, h0.hom _ _ c0 c1]

theorem both_local {f : Line K × Line K} (h0 : Linear N f.1) (h1 : Linear M f.2) {a b : Int → Int → K} (e : GEq M N a b) : GEq M N (both f a) (both f b) := by
  intro c i c0 c1 i0 i1
  unfold both
  exact h0.local _ _ (fun c c0 c1 => h1.local _ _ (fun i i0 i1 => e c i c0 c1 i0 i1) i i0 i1) c c0 c1

theorem undone1_swap {f g : Buf K → Option (Buf K)} (h : Undone1 M N f g) : Undone1 N M f g := fun X hX => h X (by rw [hX, mul_comm])

theorem half_pow (k : ℕ) : (2 : K) ^ k * (1 / 2 : K) ^ k = 1 := by
  rw [← mul_pow]; norm_num

/-- What the four programs for the triangle compute. -/
theorem tri_maps {f g : Line K × Line K} (hN : 0 < N) (hM0 : 0 < M) (hg : N > 1 ∧ M > 1) (h0 : CosPair N f.1 g.1) (h1 : CosPair M f.2 g.2) :
    (Maps M N (triSynthesis 'N' f N M) (fun a => both f (fun c i => a c i * 2 ^ (sideList N M).count (i + c * M) * (1 / 4)))) ∧
    (Maps M N (triAnalysis 'N' g N M) (fun a c i => both g a c i * (1 / 2) ^ (sideList N M).count (i + c * M) * ((N * M : Int) : K)⁻¹)) ∧
    (Maps M N (triSynthesis 'T' g N M) (fun a => both g (fun c i => a c i * (1 / 4)))) ∧
    (Maps M N (triAnalysis 'T' f N M) (fun a => both f (fun c i => a c i * ((N * M : Int) : K)⁻¹))) := by
  have n1 : (N : K) ≠ 0 := by exact_mod_cast hN.ne'
  have m1 : (M : K) ≠ 0 := by exact_mod_cast hM0.ne'
  have nm : ((N * M : Int) : K) ≠ 0 := by push_cast; exact mul_ne_zero n1 m1
  have fac : ((4 * (N * M) : Int) : K) * (1 / 4 * ((N * M : Int) : K)⁻¹) = 1 := by push_cast; field_simp
  have pS : Maps M N (plan2d f.1 f.2 N M) (both f) := plan2d_maps hN hM0 h0.linf.local h1.linf.local
  have pA : Maps M N (plan2d g.1 g.2 N M) (both g) := plan2d_maps hN hM0 h0.ling.local h1.ling.local
  have s2 := (scaleSides_scales (2 : K) hN hM0).maps
  have sh := (scaleSides_scales (1 / 2 : K) hN hM0).maps
  have s4 := (scaleTo_scales (N * M) (1 / 4 : K)).maps
  have sd := (divTo_scales (N * M) nm).maps
  have sN : Maps M N (triSynthesis 'N' f N M) (fun a => both f (fun c i => a c i * 2 ^ (sideList N M).count (i + c * M) * (1 / 4))) := by
    intro X a hX
    obtain ⟨X', e, r⟩ := (s2.comp (s4.comp pS)) X a hX
    obtain ⟨X1, e1, e2⟩ := Option.bind_eq_some_iff.1 e
    obtain ⟨X2, e3, e4⟩ := Option.bind_eq_some_iff.1 e1
    obtain ⟨X3, e5, e6⟩ := Option.bind_eq_some_iff.1 e2
    exact ⟨X', by simp only [triSynthesis, if_true, if_pos hg, e3, e4, e5, e6, Option.bind_eq_bind, Option.bind_some], r⟩
  have aN : Maps M N (triAnalysis 'N' g N M) (fun a c i => both g a c i * (1 / 2) ^ (sideList N M).count (i + c * M) * ((N * M : Int) : K)⁻¹) := by
    intro X a hX
    obtain ⟨X', e, r⟩ := (pA.comp (sh.comp sd)) X a hX
    obtain ⟨X1, e1, e2⟩ := Option.bind_eq_some_iff.1 e
    obtain ⟨X2, e3, e4⟩ := Option.bind_eq_some_iff.1 e2
    obtain ⟨X3, e5, e6⟩ := Option.bind_eq_some_iff.1 e3
    exact ⟨X', by simp only [triAnalysis, if_true, if_pos hg, e1, e4, e5, e6, Option.bind_eq_bind, Option.bind_some], r⟩
  have sT : Maps M N (triSynthesis 'T' g N M) (fun a => both g (fun c i => a c i * (1 / 4))) := by
    intro X a hX
    obtain ⟨X', e, r⟩ := (s4.comp pA) X a hX
    obtain ⟨X1, e1, e2⟩ := Option.bind_eq_some_iff.1 e
    exact ⟨X', by simp only [triSynthesis, if_true, if_pos hg, e1, e2, Option.bind_eq_bind, Option.bind_some, show ('T' = 'N') = False by decide, if_false], r⟩
  have aT : Maps M N (triAnalysis 'T' f N M) (fun a => both f (fun c i => a c i * ((N * M : Int) : K)⁻¹)) := by
    intro X a hX
    obtain ⟨X', e, r⟩ := (sd.comp pS) X a hX
    obtain ⟨X1, e1, e2⟩ := Option.bind_eq_some_iff.1 e
    exact ⟨X', by simp only [triAnalysis, if_true, if_pos hg, e1, e2, Option.bind_eq_bind, Option.bind_some, show ('T' = 'N') = False by decide, if_false], r⟩
  exact ⟨sN, aN, sT, aT⟩

/-- **C41**, triangle: for `TRANS = 'N'` and, with the plans exchanged, for `TRANS = 'T'`. -/
theorem C41_triangle {f g : Line K × Line K} (hN : 0 < N) (hM0 : 0 < M) (h0 : CosPair N f.1 g.1) (h1 : CosPair M f.2 g.2) :
    Undone1 N M (triSynthesis 'N' f N M) (triAnalysis 'N' g N M) ∧ Undone1 N M (triAnalysis 'N' g N M) (triSynthesis 'N' f N M) ∧
    Undone1 N M (triSynthesis 'T' g N M) (triAnalysis 'T' f N M) ∧ Undone1 N M (triAnalysis 'T' f N M) (triSynthesis 'T' g N M) := by
  by_cases hg : N > 1 ∧ M > 1
  swap
  · have i1 : ∀ X : Buf K, triSynthesis 'N' f N M X = some X := fun X => by simp only [triSynthesis, if_true, if_neg hg]
    have i2 : ∀ X : Buf K, triAnalysis 'N' g N M X = some X := fun X => by simp only [triAnalysis, if_true, if_neg hg]
    have i3 : ∀ X : Buf K, triSynthesis 'T' g N M X = some X := fun X => by simp only [triSynthesis, if_true, if_neg hg, show ('T' = 'N') = False by decide, if_false]
    have i4 : ∀ X : Buf K, triAnalysis 'T' f N M X = some X := fun X => by simp only [triAnalysis, if_true, if_neg hg, show ('T' = 'N') = False by decide, if_false]
    exact ⟨fun X _ => ⟨X, i1 X, i2 X, rfl⟩, fun X _ => ⟨X, i2 X, i1 X, rfl⟩, fun X _ => ⟨X, i3 X, i4 X, rfl⟩, fun X _ => ⟨X, i4 X, i3 X, rfl⟩⟩
  have n1 : (N : K) ≠ 0 := by exact_mod_cast hN.ne'
  have m1 : (M : K) ≠ 0 := by exact_mod_cast hM0.ne'
  have nm : ((N * M : Int) : K) ≠ 0 := by push_cast; exact mul_ne_zero n1 m1
  have fac : ((4 * (N * M) : Int) : K) * (1 / 4 * ((N * M : Int) : K)⁻¹) = 1 := by push_cast; field_simp
  obtain ⟨sN, aN, sT, aT⟩ := tri_maps hN hM0 hg h0 h1
  refine ⟨undone1_swap (undone1_of hM0 sN aN fun a => ?_), undone1_swap (undone1_of hM0 aN sN fun a => ?_), undone1_swap (undone1_of hM0 sT aT fun a => ?_), undone1_swap (undone1_of hM0 aT sT fun a => ?_)⟩
  · intro c i c0 c1 i0 i1
    dsimp only
    rw [both_inv h0 h1 _ c0 c1 i0 i1]
    calc _ = a c i * (2 ^ (sideList N M).count (i + c * M) * (1 / 2) ^ (sideList N M).count (i + c * M)) * (((4 * (N * M) : Int) : K) * (1 / 4 * ((N * M : Int) : K)⁻¹)) := by ring
      _ = a c i := by rw [half_pow, fac, mul_one, mul_one]
  · intro c i c0 c1 i0 i1
    dsimp only
    have e : GEq M N (fun c i => both g a c i * (1 / 2) ^ (sideList N M).count (i + c * M) * ((N * M : Int) : K)⁻¹ * 2 ^ (sideList N M).count (i + c * M) * (1 / 4))
        (fun c i => (1 / 4 * ((N * M : Int) : K)⁻¹) * both g a c i) := by
      intro c i _ _ _ _
      calc _ = (2 ^ (sideList N M).count (i + c * M) * (1 / 2) ^ (sideList N M).count (i + c * M)) * ((1 / 4 * ((N * M : Int) : K)⁻¹) * both g a c i) := by ring
        _ = _ := by rw [half_pow, one_mul]
    rw [both_local h0.linf h1.linf e c i c0 c1 i0 i1, both_hom h0.linf h1.linf _ _ c0 c1 i0 i1, both_inv h0.symm h1.symm _ c0 c1 i0 i1, ← mul_assoc, mul_comm _ ((4 * (N * M) : Int) : K), fac, one_mul]
  · intro c i c0 c1 i0 i1
    have e : GEq M N (fun c i => both g (fun c i => a c i * (1 / 4)) c i * ((N * M : Int) : K)⁻¹) (fun c i => (1 / 4 * ((N * M : Int) : K)⁻¹) * both g a c i) := by
      intro c i c0 c1 i0 i1
      have := both_hom h0.ling h1.ling (1 / 4) a c0 c1 i0 i1
      simp only [mul_comm (1 / 4 : K) (a _ _)] at this
      dsimp only
      rw [this]; ring
    rw [both_local h0.linf h1.linf e c i c0 c1 i0 i1, both_hom h0.linf h1.linf _ _ c0 c1 i0 i1, both_inv h0.symm h1.symm _ c0 c1 i0 i1, ← mul_assoc, mul_comm _ ((4 * (N * M) : Int) : K), fac, one_mul]
  · intro c i c0 c1 i0 i1
    have e : GEq M N (fun c i => both f (fun c i => a c i * ((N * M : Int) : K)⁻¹) c i * (1 / 4)) (fun c i => (1 / 4 * ((N * M : Int) : K)⁻¹) * both f a c i) := by
      intro c i c0 c1 i0 i1
      have := both_hom h0.linf h1.linf (((N * M : Int) : K)⁻¹) a c0 c1 i0 i1
      simp only [mul_comm (((N * M : Int) : K)⁻¹) (a _ _)] at this
      dsimp only
      rw [this]; ring
    rw [both_local h0.ling h1.ling e c i c0 c1 i0 i1, both_hom h0.ling h1.ling _ _ c0 c1 i0 i1, both_inv h0 h1 _ c0 c1 i0 i1, ← mul_assoc, mul_comm _ ((4 * (N * M) : Int) : K), fac, one_mul]

/-- On every array of `N L M` entries, `g` returns what `f` was given. -/
def Undone3 (N L M : Int) (f g : Buf K → Option (Buf K)) : Prop :=
  ∀ X : Buf K, (X.size : Int) = N * L * M → ∃ X1, f X = some X1 ∧ g X1 = some X ∧ X1.size = X.size

theorem undone3_of {N L M : Int} (hL : 0 < L) (hM : 0 < M) {f g : Buf K → Option (Buf K)} {v w : (Int → Int → Int → K) → Int → Int → Int → K}
    (hf : Maps3 N L M f v) (hg : Maps3 N L M g w) (e : ∀ a r t s, 0 ≤ r → r < N → 0 ≤ t → t < L → 0 ≤ s → s < M → w (v a) r t s = a r t s) : Undone3 N L M f g := by
  intro X hX
  obtain ⟨X1, e1, h1, o1⟩ := hf X _ (Holds3.self hX)
  obtain ⟨X2, e2, h2, o2⟩ := hg X1 _ h1
  have : X2 = X := Holds3.ext hL hM (Holds3.self hX) h2 (e _) (o1.trans (by have := h1.1; omega) o2)
  exact ⟨X1, e1, by rw [e2, this], by have := h1.1; omega⟩

/-- The three axes of the tetrahedron's array. -/
def three (f : Line K × Line K × Line K) (a : Int → Int → Int → K) (r t s : Int) : K := f.1 (fun r => f.2.1 (fun t => f.2.2 (a r t) s) t) r

/-- Linear transforms along the three axes that undo each other. -/
structure CosTriple (N L M : Int) (f g : Line K × Line K × Line K) : Prop where
  h0 : CosPair N f.1 g.1
  h1 : CosPair L f.2.1 g.2.1
  h2 : CosPair M f.2.2 g.2.2

theorem CosTriple.symm {N L M : Int} {f g : Line K × Line K × Line K} (h : CosTriple N L M f g) : CosTriple N L M g f := ⟨h.h0.symm, h.h1.symm, h.h2.symm⟩

theorem three_local {L : Int} {f g : Line K × Line K × Line K} (h : CosTriple N L M f g) {a b : Int → Int → Int → K}
    (e : ∀ r t s, 0 ≤ r → r < N → 0 ≤ t → t < L → 0 ≤ s → s < M → a r t s = b r t s) {r t s : Int}
    (r0 : 0 ≤ r) (r1 : r < N) (t0 : 0 ≤ t) (t1 : t < L) (s0 : 0 ≤ s) (s1 : s < M) : three f a r t s = three f b r t s := by
  unfold three
  exact h.h0.linf.local _ _ (fun r r0 r1 => h.h1.linf.local _ _ (fun t t0 t1 => h.h2.linf.local _ _ (fun s s0 s1 => e r t s r0 r1 t0 t1 s0 s1) s s0 s1) t t0 t1) r r0 r1

theorem three_hom {L : Int} {f g : Line K × Line K × Line K} (h : CosTriple N L M f g) (k : K) (a : Int → Int → Int → K) {r t s : Int}
    (r0 : 0 ≤ r) (r1 : r < N) (t0 : 0 ≤ t) (t1 : t < L) (s0 : 0 ≤ s) (s1 : s < M) : three f (fun r t s => k * a r t s) r t s = k * three f a r t s := by
  unfold three
  rw [h.h0.linf.local _ _ (fun r r0 r1 => h.h1.linf.local _ _ (fun t t0 t1 => h.h2.linf.hom k (a r t) s0 s1) t t0 t1) r r0 r1,
    h.h0.linf.local _ _ (fun r r0 r1 => h.h1.linf.hom k (fun t => f.2.2 (a r t) s) t0 t1) r r0 r1, h.h0.linf.hom _ _ r0 r1]

theorem three_inv {L : Int} {f g : Line K × Line K × Line K} (h : CosTriple N L M f g) (a : Int → Int → Int → K) {r t s : Int}
    (r0 : 0 ≤ r) (r1 : r < N) (t0 : 0 ≤ t) (t1 : t < L) (s0 : 0 ≤ s) (s1 : s < M) : three g (three f a) r t s = ((8 * (N * L * M) : Int) : K) * a r t s := by
  -- the last axis: move `f.2.2` outside and cancel it
  have e : ∀ r t, 0 ≤ r → r < N → 0 ≤ t → t < L → g.2.2 (three f a r t) s = ((2 * M : Int) : K) * both (f.1, f.2.1) (fun r t => a r t s) r t := by
    intro r t r0 r1 t0 t1
    have h3 : ∀ s, 0 ≤ s → s < M → three f a r t s = f.2.2 (fun s => both (f.1, f.2.1) (fun r t => a r t s) r t) s := by
      intro s s0 s1
      unfold three both
      dsimp only
      rw [h.h0.linf.local _ (fun r => f.2.2 (fun s => f.2.1 (fun t => a r t s) t) s) (fun r r0 r1 => h.h1.linf.swap h.h2.linf (a r) t0 t1 s0 s1) r r0 r1]
      exact h.h0.linf.swap h.h2.linf (fun r s => f.2.1 (fun t => a r t s) t) r0 r1 s0 s1
    rw [h.h2.ling.local _ _ h3 s s0 s1]
    exact h.h2.gf _ s s0 s1
  have e2 := both_local (M := L) (f := (g.1, g.2.1)) h.h0.ling h.h1.ling (a := fun r t => g.2.2 (three f a r t) s) (fun r t r0 r1 t0 t1 => e r t r0 r1 t0 t1) r t r0 r1 t0 t1
  refine Eq.trans (b := both (g.1, g.2.1) (fun r t => g.2.2 (three f a r t) s) r t) rfl ?_
  rw [e2, both_hom (f := (g.1, g.2.1)) h.h0.ling h.h1.ling _ _ r0 r1 t0 t1, both_inv (f := (f.1, f.2.1)) (g := (g.1, g.2.1)) h.h0 h.h1 _ r0 r1 t0 t1]
  push_cast; ring

/-- What the four programs for the tetrahedron compute. -/
theorem tet_maps {L : Int} {f g : Line K × Line K × Line K} (hN : 0 < N) (hL : 0 < L) (hM0 : 0 < M) (hg : N > 1 ∧ L > 1 ∧ M > 1) (h : CosTriple N L M f g) :
    (Maps3 N L M (tetSynthesis 'N' f N L M) (fun a => three f (fun r t s => a r t s * 2 ^ (faceList N L M).count (s + M * (t + L * r)) * (1 / 8)))) ∧
    (Maps3 N L M (tetAnalysis 'N' g N L M) (fun a r t s => three g a r t s * (1 / 2) ^ (faceList N L M).count (s + M * (t + L * r)) * ((N * L * M : Int) : K)⁻¹)) ∧
    (Maps3 N L M (tetSynthesis 'T' g N L M) (fun a r t s => three g a r t s * (1 / 8))) ∧
    (Maps3 N L M (tetAnalysis 'T' f N L M) (fun a => three f (fun r t s => a r t s * ((N * L * M : Int) : K)⁻¹))) := by
  have n1 : (N : K) ≠ 0 := by exact_mod_cast hN.ne'
  have l1 : (L : K) ≠ 0 := by exact_mod_cast hL.ne'
  have m1 : (M : K) ≠ 0 := by exact_mod_cast hM0.ne'
  have nm : ((N * L * M : Int) : K) ≠ 0 := by push_cast; exact mul_ne_zero (mul_ne_zero n1 l1) m1
  have fac : ((8 * (N * L * M) : Int) : K) * (1 / 8 * ((N * L * M : Int) : K)⁻¹) = 1 := by push_cast; field_simp
  have pS : Maps3 N L M (plan3d f.1 f.2.1 f.2.2 N L M) (three f) := plan3d_maps hN hL hM0 h.h0.linf.local h.h1.linf.local h.h2.linf.local
  have pA : Maps3 N L M (plan3d g.1 g.2.1 g.2.2 N L M) (three g) := plan3d_maps hN hL hM0 h.h0.ling.local h.h1.ling.local h.h2.ling.local
  have s2 := (scaleFaces_scales (2 : K) hN hL hM0).maps3
  have sh := (scaleFaces_scales (1 / 2 : K) hN hL hM0).maps3
  have s8 := (scaleTo_scales (N * L * M) (1 / 8 : K)).maps3
  have sd := (divTo_scales (N * L * M) nm).maps3
  have sN : Maps3 N L M (tetSynthesis 'N' f N L M) (fun a => three f (fun r t s => a r t s * 2 ^ (faceList N L M).count (s + M * (t + L * r)) * (1 / 8))) := by
    intro X a hX
    obtain ⟨X', e, r⟩ := (s2.comp (s8.comp pS)) X a hX
    obtain ⟨X1, e1, e2⟩ := Option.bind_eq_some_iff.1 e
    obtain ⟨X3, e5, e6⟩ := Option.bind_eq_some_iff.1 e2
    exact ⟨X', by simp only [tetSynthesis, if_true, if_pos hg, e1, e5, e6, Option.bind_eq_bind, Option.bind_some], r⟩
  have aN : Maps3 N L M (tetAnalysis 'N' g N L M) (fun a r t s => three g a r t s * (1 / 2) ^ (faceList N L M).count (s + M * (t + L * r)) * ((N * L * M : Int) : K)⁻¹) := by
    intro X a hX
    obtain ⟨X', e, r⟩ := (pA.comp (sh.comp sd)) X a hX
    obtain ⟨X1, e1, e2⟩ := Option.bind_eq_some_iff.1 e
    obtain ⟨X2, e3, e4⟩ := Option.bind_eq_some_iff.1 e2
    exact ⟨X', by simp only [tetAnalysis, if_true, if_pos hg, e1, e3, e4, Option.bind_eq_bind, Option.bind_some], r⟩
  have sT : Maps3 N L M (tetSynthesis 'T' g N L M) (fun a r t s => three g a r t s * (1 / 8)) := by
    intro X a hX
    obtain ⟨X', e, r⟩ := (pA.comp s8) X a hX
    obtain ⟨X1, e1, e2⟩ := Option.bind_eq_some_iff.1 e
    exact ⟨X', by simp only [tetSynthesis, if_true, if_pos hg, e1, e2, Option.bind_eq_bind, Option.bind_some, show ('T' = 'N') = False by decide, if_false], r⟩
  have aT : Maps3 N L M (tetAnalysis 'T' f N L M) (fun a => three f (fun r t s => a r t s * ((N * L * M : Int) : K)⁻¹)) := by
    intro X a hX
    obtain ⟨X', e, r⟩ := (sd.comp pS) X a hX
    obtain ⟨X1, e1, e2⟩ := Option.bind_eq_some_iff.1 e
    exact ⟨X', by simp only [tetAnalysis, if_true, if_pos hg, e1, e2, Option.bind_eq_bind, Option.bind_some, show ('T' = 'N') = False by decide, if_false], r⟩
  exact ⟨sN, aN, sT, aT⟩

/-- **C41**, tetrahedron. -/
theorem C41_tetrahedron {L : Int} {f g : Line K × Line K × Line K} (hN : 0 < N) (hL : 0 < L) (hM0 : 0 < M) (h : CosTriple N L M f g) :
    Undone3 N L M (tetSynthesis 'N' f N L M) (tetAnalysis 'N' g N L M) ∧ Undone3 N L M (tetAnalysis 'N' g N L M) (tetSynthesis 'N' f N L M) ∧
    Undone3 N L M (tetSynthesis 'T' g N L M) (tetAnalysis 'T' f N L M) ∧ Undone3 N L M (tetAnalysis 'T' f N L M) (tetSynthesis 'T' g N L M) := by
  by_cases hg : N > 1 ∧ L > 1 ∧ M > 1
  swap
  · have i1 : ∀ X : Buf K, tetSynthesis 'N' f N L M X = some X := fun X => by simp only [tetSynthesis, if_true, if_neg hg]
    have i2 : ∀ X : Buf K, tetAnalysis 'N' g N L M X = some X := fun X => by simp only [tetAnalysis, if_true, if_neg hg]
    have i3 : ∀ X : Buf K, tetSynthesis 'T' g N L M X = some X := fun X => by simp only [tetSynthesis, if_true, if_neg hg, show ('T' = 'N') = False by decide, if_false]
    have i4 : ∀ X : Buf K, tetAnalysis 'T' f N L M X = some X := fun X => by simp only [tetAnalysis, if_true, if_neg hg, show ('T' = 'N') = False by decide, if_false]
    exact ⟨fun X _ => ⟨X, i1 X, i2 X, rfl⟩, fun X _ => ⟨X, i2 X, i1 X, rfl⟩, fun X _ => ⟨X, i3 X, i4 X, rfl⟩, fun X _ => ⟨X, i4 X, i3 X, rfl⟩⟩
  have n1 : (N : K) ≠ 0 := by exact_mod_cast hN.ne'
  have l1 : (L : K) ≠ 0 := by exact_mod_cast hL.ne'
  have m1 : (M : K) ≠ 0 := by exact_mod_cast hM0.ne'
  have nm : ((N * L * M : Int) : K) ≠ 0 := by push_cast; exact mul_ne_zero (mul_ne_zero n1 l1) m1
  have fac : ((8 * (N * L * M) : Int) : K) * (1 / 8 * ((N * L * M : Int) : K)⁻¹) = 1 := by push_cast; field_simp
  obtain ⟨sN, aN, sT, aT⟩ := tet_maps hN hL hM0 hg h
  refine ⟨undone3_of hL hM0 sN aN ?_, undone3_of hL hM0 aN sN ?_, undone3_of hL hM0 sT aT ?_, undone3_of hL hM0 aT sT ?_⟩
  · intro a r t s r0 r1 t0 t1 s0 s1
    rw [three_inv h _ r0 r1 t0 t1 s0 s1]
    calc _ = a r t s * (2 ^ (faceList N L M).count (s + M * (t + L * r)) * (1 / 2) ^ (faceList N L M).count (s + M * (t + L * r))) *
          (((8 * (N * L * M) : Int) : K) * (1 / 8 * ((N * L * M : Int) : K)⁻¹)) := by ring
      _ = a r t s := by rw [half_pow, fac, mul_one, mul_one]
  · intro a r t s r0 r1 t0 t1 s0 s1
    have e : ∀ r t s : Int, 0 ≤ r → r < N → 0 ≤ t → t < L → 0 ≤ s → s < M →
        three g a r t s * (1 / 2) ^ (faceList N L M).count (s + M * (t + L * r)) * ((N * L * M : Int) : K)⁻¹ * 2 ^ (faceList N L M).count (s + M * (t + L * r)) * (1 / 8) =
          (1 / 8 * ((N * L * M : Int) : K)⁻¹) * three g a r t s := by
      intro r t s _ _ _ _ _ _
      calc _ = (2 ^ (faceList N L M).count (s + M * (t + L * r)) * (1 / 2) ^ (faceList N L M).count (s + M * (t + L * r))) * ((1 / 8 * ((N * L * M : Int) : K)⁻¹) * three g a r t s) := by ring
        _ = _ := by rw [half_pow, one_mul]
    rw [three_local h e r0 r1 t0 t1 s0 s1, three_hom h _ _ r0 r1 t0 t1 s0 s1, three_inv h.symm _ r0 r1 t0 t1 s0 s1, ← mul_assoc, mul_comm _ ((8 * (N * L * M) : Int) : K), fac, one_mul]
  · intro a r t s r0 r1 t0 t1 s0 s1
    have e : ∀ r t s : Int, 0 ≤ r → r < N → 0 ≤ t → t < L → 0 ≤ s → s < M →
        three g a r t s * (1 / 8) * ((N * L * M : Int) : K)⁻¹ = (1 / 8 * ((N * L * M : Int) : K)⁻¹) * three g a r t s := by
      intro r t s _ _ _ _ _ _; ring
    rw [three_local h e r0 r1 t0 t1 s0 s1, three_hom h _ _ r0 r1 t0 t1 s0 s1, three_inv h.symm _ r0 r1 t0 t1 s0 s1, ← mul_assoc, mul_comm _ ((8 * (N * L * M) : Int) : K), fac, one_mul]
  · intro a r t s r0 r1 t0 t1 s0 s1
    have e : ∀ r t s : Int, 0 ≤ r → r < N → 0 ≤ t → t < L → 0 ≤ s → s < M →
        three f (fun r t s => a r t s * ((N * L * M : Int) : K)⁻¹) r t s = ((N * L * M : Int) : K)⁻¹ * three f a r t s := by
      intro r t s r0 r1 t0 t1 s0 s1
      have := three_hom h (((N * L * M : Int) : K)⁻¹) a r0 r1 t0 t1 s0 s1
      simpa only [mul_comm (((N * L * M : Int) : K)⁻¹) (a _ _ _)] using this
    rw [three_local h.symm e r0 r1 t0 t1 s0 s1, three_hom h.symm _ _ r0 r1 t0 t1 s0 s1, three_inv h _ r0 r1 t0 t1 s0 s1]
    calc _ = (((8 * (N * L * M) : Int) : K) * (1 / 8 * ((N * L * M : Int) : K)⁻¹)) * a r t s := by ring
      _ = a r t s := by rw [fac, one_mul]

/-! ## Spin-weighted sphere -/

/-- The complex transform `E` undoes `D` up to the factor `k`. -/
structure DftInverse (M : Int) (k : K) (D E : (Int → K × K) → Int → K × K) : Prop where
  locD : ∀ z z', (∀ j, 0 ≤ j → j < M → z j = z' j) → ∀ c, 0 ≤ c → c < M → D z c = D z' c
  locE : ∀ z z', (∀ j, 0 ≤ j → j < M → z j = z' j) → ∀ c, 0 ≤ c → c < M → E z c = E z' c
  hom : ∀ t z c, 0 ≤ c → c < M → E (fun j => (t * (z j).1, t * (z j).2)) c = (t * (E z c).1, t * (E z c).2)
  inv : ∀ z c, 0 ≤ c → c < M → E (D z) c = (k * (z c).1, k * (z c).2)

structure SpinPair (N M : Int) (S A : SpinPlan K) : Prop where
  spin : A.S = S.S
  f0 : LineInverse N ((2 * N : Int) : K) S.f0 A.f0
  f0' : LineInverse N ((2 * N : Int) : K) A.f0 S.f0
  f1 : LineInverse N ((2 * N : Int) : K) S.f1 A.f1
  f1' : LineInverse N ((2 * N : Int) : K) A.f1 S.f1
  dft : DftInverse M (M : K) S.dft A.dft
  dft' : DftInverse M (M : K) A.dft S.dft

/-- On every pair of complex arrays of `M` columns of length `N`, `g` returns what `f` was given. -/
def UndoneC (N M : Int) (f g : Buf K → Buf K → Option (Buf K × Buf K)) : Prop :=
  ∀ X Y Y' : Buf K, (X.size : Int) = 2 * N * M → (Y.size : Int) = 2 * N * M → (Y'.size : Int) = 2 * N * M →
    ∃ X1 Y1 Y2, f X Y = some (X1, Y1) ∧ g X1 Y' = some (X, Y2) ∧ X1.size = X.size

/-- The operation `f` on complex arrays takes an array holding `a` to one holding `v a`. -/
def MapsS (N M : Int) (f : Buf K → Buf K → Option (Buf K × Buf K)) (v : (Int → Int → K) → Int → Int → K) : Prop :=
  ∀ X Y a, Holds (2 * N) M X a → (Y.size : Int) = 2 * N * M → ∃ X' Y', f X Y = some (X', Y') ∧ Holds (2 * N) M X' (v a) ∧ Out X X'

theorem undoneC_of (hN : 0 < N) {f g : Buf K → Buf K → Option (Buf K × Buf K)} {v w : (Int → Int → K) → Int → Int → K}
    (hf : MapsS N M f v) (hg : MapsS N M g w) (e : ∀ a, GEq (2 * N) M (w (v a)) a) : UndoneC N M f g := by
  intro X Y Y' hX hY hY'
  obtain ⟨X1, Y1, e1, h1, o1⟩ := hf X Y _ (Holds.self hX) hY
  obtain ⟨X2, Y2, e2, h2, o2⟩ := hg X1 Y' _ h1 hY'
  have : X2 = X := Holds.ext (by omega) (Holds.self hX) (h2.congr (e _)) (o1.trans (by have := h1.1; omega) o2)
  exact ⟨X1, Y1, Y2, e1, by rw [e2, this], by have := h1.1; omega⟩

theorem cplx_inverse {k : K} {f g : Line K} (h : LineInverse N k f g) : LineInverse (2 * N) k (cplx f) (cplx g) where
  locf := cplx_local h.locf
  locg := cplx_local h.locg
  hom := by
    intro t x i i0 i1
    unfold cplx
    exact h.hom t _ _ (by omega) (by omega)
  inv := by
    intro x i i0 i1
    unfold cplx
    have e : (fun j => f (fun q => x (2 * q + (2 * j + i % 2) % 2)) ((2 * j + i % 2) / 2)) = f (fun q => x (2 * q + i % 2)) := by
      funext j
      rw [show (2 * j + i % 2) % 2 = i % 2 by omega, show (2 * j + i % 2) / 2 = j by omega]
    rw [e, h.inv _ _ (by omega) (by omega), show 2 * (i / 2) + i % 2 = i by omega]

/-- From coefficients to values: scale, transform the columns, scale, reorder them, transform the rows. -/
def outS (M : Int) (μ : Int → Int → K) (t : K) (F : Int → Line K) (D : (Int → K × K) → Int → K × K) (a : Int → Int → K) : Int → Int → K :=
  ofRows fun i c => D (rowOf (fun c i => scaleG (fun _ _ => t) (colG F (scaleG μ a)) (swapFrom M c) i) i) c

/-- From values to coefficients. -/
def inS (M : Int) (μ : Int → Int → K) (t : K) (F : Int → Line K) (D : (Int → K × K) → Int → K × K) (a : Int → Int → K) : Int → Int → K :=
  scaleG μ (colG F (scaleG (fun _ _ => t) fun c i => ofRows (fun i c => D (rowOf a i) c) (swapTo M c) i))

theorem rowOf_ofRows (z : Int → Int → K × K) (i : Int) : rowOf (ofRows z) i = z i := by
  funext c
  unfold rowOf ofRows
  rw [if_pos (by omega), if_neg (by omega), show 2 * i / 2 = i by omega, show (2 * i + 1) / 2 = i by omega]

theorem ofRows_rowOf (a : Int → Int → K) (c i : Int) : ofRows (fun i c => rowOf a i c) c i = a c i := by
  unfold rowOf ofRows
  dsimp only
  by_cases h : i % 2 = 0
  · rw [if_pos h, show 2 * (i / 2) = i by omega]
  · rw [if_neg h, show 2 * (i / 2) + 1 = i by omega]

theorem swapTo_mem {c : Int} (hM : M % 2 = 1) (c0 : 0 ≤ c) (c1 : c < M) : 0 ≤ swapTo M c ∧ swapTo M c < M := by
  unfold swapTo; split_ifs <;> omega

theorem swapFrom_mem {c : Int} (hM : M % 2 = 1) (c0 : 0 ≤ c) (c1 : c < M) : 0 ≤ swapFrom M c ∧ swapFrom M c < M := by
  unfold swapFrom; split_ifs <;> omega

theorem spin_in_out {k m t t' : K} {μ μ' : Int → Int → K} {F F' : Int → Line K} {D E : (Int → K × K) → Int → K × K} (hM : M % 2 = 1)
    (hF : ∀ c, LineInverse (2 * N) k (F c) (F' c)) (hD : DftInverse M m D E) (hμ : ∀ c i, μ c i * μ' c i = 1) (ht : k * (m * (t * t')) = 1) (hk : k ≠ 0) (a : Int → Int → K) :
    GEq (2 * N) M (inS M μ' t' F' E (outS M μ t F D a)) a := by
  intro c i c0 c1 i0 i1
  have hw : m * (t * t') = k⁻¹ := by field_simp; rw [← ht]; ring
  have e1 : ∀ i, scaleG (fun _ _ => t') (fun c i => ofRows (fun i c => E (rowOf (outS M μ t F D a) i) c) (swapTo M c) i) c i = k⁻¹ * colG F (scaleG μ a) c i := by
    intro i
    have hc := swapTo_mem hM c0 c1
    have : ∀ i, E (D (rowOf (fun c i => scaleG (fun _ _ => t) (colG F (scaleG μ a)) (swapFrom M c) i) i)) (swapTo M c) =
        (m * scaleG (fun _ _ => t) (colG F (scaleG μ a)) c (2 * i), m * scaleG (fun _ _ => t) (colG F (scaleG μ a)) c (2 * i + 1)) := by
      intro i
      rw [hD.inv _ _ hc.1 hc.2]
      unfold rowOf
      dsimp only
      rw [swap_from_to hM c0 c1]
    have e0 : E (rowOf (outS M μ t F D a) (i / 2)) (swapTo M c) =
        (m * scaleG (fun _ _ => t) (colG F (scaleG μ a)) c (2 * (i / 2)), m * scaleG (fun _ _ => t) (colG F (scaleG μ a)) c (2 * (i / 2) + 1)) := by
      rw [← this]; unfold outS; rw [rowOf_ofRows]
    show ofRows _ _ _ * t' = _
    unfold ofRows
    dsimp only
    rw [e0]
    unfold scaleG
    by_cases h : i % 2 = 0
    · rw [if_pos h, show 2 * (i / 2) = i by omega, ← hw]; ring
    · rw [if_neg h, show 2 * (i / 2) + 1 = i by omega, ← hw]; ring
  have e2 : colG F' (scaleG (fun _ _ => t') fun c i => ofRows (fun i c => E (rowOf (outS M μ t F D a) i) c) (swapTo M c) i) c i = scaleG μ a c i := by
    show F' c _ i = _
    rw [(hF c).locg _ (fun i => k⁻¹ * F c (scaleG μ a c) i) (fun j _ _ => e1 j) i i0 i1, (hF c).hom _ _ _ i0 i1, (hF c).inv _ _ i0 i1, ← mul_assoc, inv_mul_cancel₀ hk, one_mul]
  unfold inS
  show _ * _ = _
  rw [e2]
  show _ * _ * _ = _
  rw [mul_assoc, hμ, mul_one]

theorem spin_out_in {k m t t' : K} {μ μ' : Int → Int → K} {F F' : Int → Line K} {D E : (Int → K × K) → Int → K × K} (hM : M % 2 = 1)
    (hF : ∀ c, LineInverse (2 * N) k (F' c) (F c)) (hD : DftInverse M m E D) (hμ : ∀ c i, μ' c i * μ c i = 1) (ht : k * (m * (t * t')) = 1) (hm : m ≠ 0) (a : Int → Int → K) :
    GEq (2 * N) M (outS M μ t F D (inS M μ' t' F' E a)) a := by
  intro c i c0 c1 i0 i1
  have hw : k * (t' * t) = m⁻¹ := by field_simp; rw [← ht]; ring
  have key : ∀ c i, 0 ≤ c → c < M → 0 ≤ i → i < 2 * N → scaleG (fun _ _ => t) (colG F (scaleG μ (inS M μ' t' F' E a))) c i = m⁻¹ * ofRows (fun i c => E (rowOf a i) c) (swapTo M c) i := by
    intro c i c0 c1 i0 i1
    have e1 : colG F (scaleG μ (inS M μ' t' F' E a)) c i = k * (ofRows (fun i c => E (rowOf a i) c) (swapTo M c) i * t') := by
      show F c _ i = _
      rw [(hF c).locg _ (F' c (fun i => ofRows (fun i c => E (rowOf a i) c) (swapTo M c) i * t')) (fun j j0 j1 => ?_) i i0 i1, (hF c).inv _ _ i0 i1]
      unfold inS
      show _ * _ * _ = _
      rw [mul_assoc, hμ, mul_one]; rfl
    show _ * t = _
    rw [e1, ← hw]; ring
  unfold outS
  have e3 : ∀ i, 0 ≤ i → i < N → D (rowOf (fun c i => scaleG (fun _ _ => t) (colG F (scaleG μ (inS M μ' t' F' E a))) (swapFrom M c) i) i) c = rowOf a i c := by
    intro i i0 i1
    rw [hD.locE _ (fun c => (m⁻¹ * (E (rowOf a i) c).1, m⁻¹ * (E (rowOf a i) c).2)) (fun j j0 j1 => ?_) c c0 c1, hD.hom _ _ _ c0 c1, hD.inv _ _ c0 c1]
    · dsimp only
      rw [← mul_assoc, ← mul_assoc, inv_mul_cancel₀ hm, one_mul, one_mul]
    · have hj := swapFrom_mem hM j0 j1
      unfold rowOf
      dsimp only
      rw [key _ (2 * i) hj.1 hj.2 (by omega) (by omega), key _ (2 * i + 1) hj.1 hj.2 (by omega) (by omega), swap_to_from hM j0 j1]
      unfold ofRows
      rw [if_pos (by omega), if_neg (by omega), show 2 * i / 2 = i by omega, show (2 * i + 1) / 2 = i by omega]
      rfl
  unfold ofRows
  dsimp only
  rw [e3 _ (by omega) (by omega)]
  exact ofRows_rowOf a c i

theorem spin_scale (hN : 0 < N) (hM0 : 0 < M) (t : K) : Maps (2 * N) M (scaleTo (2 * N * M) t) (scaleG fun _ _ => t) :=
  (scaleTo_maps (m := M) (by omega) hM0.le le_rfl rfl _).congr (fun a c i _ c1 _ _ => by unfold scaleG; dsimp only; rw [if_pos c1])

/-- What the four programs for spin-weighted functions compute. -/
theorem spin_maps {S A : SpinPlan K} (hN : 0 < N) (hM0 : 0 < M) (hM : M % 2 = 1) (P : SpinPair N M S A) :
    (MapsS N M (spinSynthesis 'N' C S u N M) (outS M (fun c i => markCols (decide (S.S % 2 = 0)) 0 2 c (i / 2)) C.r12 (fun c => cplx (if evenCol c then S.f0 else S.f1)) S.dft)) ∧
    (MapsS N M (spinAnalysis 'N' C A u' N M) (inS M (fun c i => markCols (decide (S.S % 2 = 0)) 0 (1 / 2) c (i / 2)) (C.r2 / ((2 * N * M : Int) : K)) (fun c => cplx (if evenCol c then A.f0 else A.f1)) A.dft)) ∧
    (MapsS N M (spinSynthesis 'C' C A u' N M) (inS M (fun c i => markCols (decide (S.S % 2 ≠ 0)) (N - 1) (1 / 2) c (i / 2)) C.r12 (fun c => cplx (if evenCol c then A.f0 else A.f1)) A.dft)) ∧
    (MapsS N M (spinAnalysis 'C' C S u N M) (outS M (fun c i => markCols (decide (S.S % 2 ≠ 0)) (N - 1) 2 c (i / 2)) (C.r2 / ((2 * N * M : Int) : K)) (fun c => cplx (if evenCol c then S.f0 else S.f1)) S.dft)) := by
  have dv : divC C.r2 ((2 * N * M : Int) : K) = some (C.r2 / ((2 * N * M : Int) : K)) := divC_of (size_ne hN hM0)
  have cS := execColsC_maps (P := S) (M := M) hN P.f0.locf P.f1.locf
  have cA := execColsC_maps (P := A) (M := M) hN P.f0.locg P.f1.locg
  have k0 : ((2 * N : Int) : K) ≠ 0 := by exact_mod_cast (by omega : 2 * N ≠ 0)
  have m0 : (M : K) ≠ 0 := by exact_mod_cast hM0.ne'
  have hd : ∀ j, headPos N j = 0 + j * N := fun j => by unfold headPos; ring
  have tl : ∀ j, tailPos N j = N - 1 + j * N := fun j => by unfold tailPos; ring
  have eN := fun t : K => scaleEndsC_maps (N := N) (decide (S.S % 2 = 0)) hM hM0 le_rfl hN (headPos N) hd t
  have eT := fun t : K => scaleEndsC_maps (N := N) (decide (S.S % 2 ≠ 0)) hM hM0 (by omega) (by omega : N - 1 < N) (tailPos N) tl t
  -- columns, scaling, reordering, rows
  have fwd : ∀ {Q : SpinPlan K} {w : Int → K} {t : K} {f : Buf K → Option (Buf K)} {v} (hf : Maps (2 * N) M f v) (lD : LocalD M Q.dft)
      {prog : Buf K → Buf K → Option (Buf K × Buf K)} (_ : ∀ X Y X1 X2 Y1 X' Y', f X = some X1 → scaleTo (2 * N * M) t X1 = some X2 → colswap N M X2 Y = some Y1 →
        execDft Q.dft w N M Y1 X2 = some (Y', X') → prog X Y = some (X', Y')),
      MapsS N M prog (fun a => ofRows fun i c => Q.dft (rowOf (fun c i => scaleG (fun _ _ => t) (v a) (swapFrom M c) i) i) c) := by
    intro Q w t f v hf lD prog hp X Y a hX hY
    obtain ⟨X1, e1, h1, o1⟩ := hf X a hX
    obtain ⟨X2, e2, h2, o2⟩ := spin_scale hN hM0 t X1 _ h1
    obtain ⟨Y1, e3, h3, o3⟩ := colswap_holds (Y := Y) hM hM0 h2 hY
    obtain ⟨Y2, X3, e4, s4, o4, h4, o5⟩ := execDft_holds (clob := w) (dst := X2) lD h3 h2.1
    exact ⟨X3, Y2, hp X Y X1 X2 Y1 X3 Y2 e1 e2 e3 e4, h4, (o1.trans (by have := hX.1; have := h1.1; omega) o2).trans (by have := hX.1; have := h2.1; omega) o5⟩
  have bwd : ∀ {Q : SpinPlan K} {w : Int → K} {t : K} {f : Buf K → Option (Buf K)} {v} (hf : Maps (2 * N) M f v) (lD : LocalD M Q.dft)
      {prog : Buf K → Buf K → Option (Buf K × Buf K)} (_ : ∀ X Y X1 Y1 X2 X3 X4, execDft Q.dft w N M X Y = some (X1, Y1) → colswapT N M Y1 X1 = some X2 →
        scaleTo (2 * N * M) t X2 = some X3 → f X3 = some X4 → prog X Y = some (X4, Y1)),
      MapsS N M prog (fun a => v (scaleG (fun _ _ => t) fun c i => ofRows (fun i c => Q.dft (rowOf a i) c) (swapTo M c) i)) := by
    intro Q w t f v hf lD prog hp X Y a hX hY
    obtain ⟨X1, Y1, e1, s1, o1, h1, -⟩ := execDft_holds (clob := w) (dst := Y) lD hX hY
    obtain ⟨X2, e2, h2, o2⟩ := colswapT_holds (X := X1) hM hM0 h1 (by rw [s1]; exact hX.1)
    obtain ⟨X3, e3, h3, o3⟩ := spin_scale hN hM0 t X2 _ h2
    obtain ⟨X4, e4, h4, o4⟩ := hf X3 _ h3
    have := hX.1; have := h2.1; have := h3.1
    exact ⟨X4, Y1, hp X Y X1 Y1 X2 X3 X4 e1 e2 e3 e4, h4, ((o1.trans (by omega) o2).trans (by omega) o3).trans (by omega) o4⟩
  have sN : MapsS N M (spinSynthesis 'N' C S u N M) (outS M (fun c i => markCols (decide (S.S % 2 = 0)) 0 2 c (i / 2)) C.r12 (fun c => cplx (if evenCol c then S.f0 else S.f1)) S.dft) :=
    fwd (w := u) ((eN 2).comp cS) P.dft.locD (fun X Y X1 X2 Y1 X' Y' e1 e2 e3 e4 => by
      obtain ⟨X0, e0, e1⟩ := Option.bind_eq_some_iff.1 e1
      simp only [spinSynthesis, if_true, e0, e1, e2, e3, e4, Option.bind_eq_bind, Option.bind_some])
  have aN : MapsS N M (spinAnalysis 'N' C A u' N M) (inS M (fun c i => markCols (decide (S.S % 2 = 0)) 0 (1 / 2) c (i / 2)) (C.r2 / ((2 * N * M : Int) : K)) (fun c => cplx (if evenCol c then A.f0 else A.f1)) A.dft) :=
    bwd (w := u') (cA.comp (eN (1 / 2))) P.dft.locE (fun X Y X1 Y1 X2 X3 X4 e1 e2 e3 e4 => by
      obtain ⟨X0, e0, e4⟩ := Option.bind_eq_some_iff.1 e4
      simp only [spinAnalysis, if_true, dv, P.spin, e0, e1, e2, e3, e4, Option.bind_eq_bind, Option.bind_some])
  have sT : MapsS N M (spinSynthesis 'C' C A u' N M) (inS M (fun c i => markCols (decide (S.S % 2 ≠ 0)) (N - 1) (1 / 2) c (i / 2)) C.r12 (fun c => cplx (if evenCol c then A.f0 else A.f1)) A.dft) :=
    bwd (w := u') (cA.comp (eT (1 / 2))) P.dft.locE (fun X Y X1 Y1 X2 X3 X4 e1 e2 e3 e4 => by
      obtain ⟨X0, e0, e4⟩ := Option.bind_eq_some_iff.1 e4
      simp only [spinSynthesis, if_true, P.spin, e0, e1, e2, e3, e4, Option.bind_eq_bind, Option.bind_some, show ('C' = 'N') = False by decide, if_false])
  have aT : MapsS N M (spinAnalysis 'C' C S u N M) (outS M (fun c i => markCols (decide (S.S % 2 ≠ 0)) (N - 1) 2 c (i / 2)) (C.r2 / ((2 * N * M : Int) : K)) (fun c => cplx (if evenCol c then S.f0 else S.f1)) S.dft) :=
    fwd (w := u) ((eT 2).comp cS) P.dft.locD (fun X Y X1 X2 Y1 X' Y' e1 e2 e3 e4 => by
      obtain ⟨X0, e0, e1⟩ := Option.bind_eq_some_iff.1 e1
      simp only [spinAnalysis, if_true, dv, e0, e1, e2, e3, e4, Option.bind_eq_bind, Option.bind_some, show ('C' = 'N') = False by decide, if_false])
  exact ⟨sN, aN, sT, aT⟩

/-- **C41**, spin-weighted functions on the sphere, of any spin: for `TRANS = 'N'` and, with the plans
exchanged, for `TRANS = 'C'`. -/
theorem C41_spin_sphere {S A : SpinPlan K} (hN : 0 < N) (hM0 : 0 < M) (hM : M % 2 = 1) (hC : ConstOk C) (P : SpinPair N M S A) :
    UndoneC N M (spinSynthesis 'N' C S u N M) (spinAnalysis 'N' C A u' N M) ∧
    UndoneC N M (spinAnalysis 'N' C A u' N M) (spinSynthesis 'N' C S u N M) ∧
    UndoneC N M (spinSynthesis 'C' C A u' N M) (spinAnalysis 'C' C S u N M) ∧
    UndoneC N M (spinAnalysis 'C' C S u N M) (spinSynthesis 'C' C A u' N M) := by
  have k0 : ((2 * N : Int) : K) ≠ 0 := by exact_mod_cast (by omega : 2 * N ≠ 0)
  have m0 : (M : K) ≠ 0 := by exact_mod_cast hM0.ne'
  have fac : ((2 * N : Int) : K) * ((M : K) * (C.r12 * (C.r2 / ((2 * N * M : Int) : K)))) = 1 := by
    have h1 : (N : K) ≠ 0 := by exact_mod_cast hN.ne'
    have h2 := hC.r2
    push_cast
    field_simp
    exact h2
  have col : ∀ c, LineInverse (2 * N) ((2 * N : Int) : K) (cplx (if evenCol c then S.f0 else S.f1)) (cplx (if evenCol c then A.f0 else A.f1)) := by
    intro c; apply cplx_inverse; split_ifs
    · exact P.f0
    · exact P.f1
  have col' : ∀ c, LineInverse (2 * N) ((2 * N : Int) : K) (cplx (if evenCol c then A.f0 else A.f1)) (cplx (if evenCol c then S.f0 else S.f1)) := by
    intro c; apply cplx_inverse; split_ifs
    · exact P.f0'
    · exact P.f1'
  have fac' : ((2 * N : Int) : K) * ((M : K) * (C.r2 / ((2 * N * M : Int) : K) * C.r12)) = 1 := by rw [mul_comm (C.r2 / _)]; exact fac
  obtain ⟨sN, aN, sT, aT⟩ := spin_maps (C := C) (u := u) (u' := u') hN hM0 hM P
  refine ⟨undoneC_of hN sN aN fun a => ?_, undoneC_of hN aN sN fun a => ?_, undoneC_of hN sT aT fun a => ?_, undoneC_of hN aT sT fun a => ?_⟩
  · exact spin_in_out hM col P.dft (fun c i => mark_ok _ _ _ _) fac k0 a
  · exact spin_out_in hM col' P.dft' (fun c i => mark_inv _ _ _ _) fac m0 a
  · exact spin_out_in hM col' P.dft' (fun c i => mark_inv _ _ _ _) fac' m0 a
  · exact spin_in_out hM col P.dft (fun c i => mark_ok _ _ _ _) fac' k0 a

end

/-! ## C40: layouts -/

section
variable {N M : Int}

/-- **C40**, real to half-complex and back: every entry returns and no access leaves an array, for every `N`
and every odd `M`, whatever the arrays held before. -/
theorem C40_halfcomplex (hN : 0 < N) (hM0 : 0 < M) (hM : M % 2 = 1) {X X' Y : Buf K} (hX : (X.size : Int) = N * M) (hX' : (X'.size : Int) = N * M)
    (hY : (Y.size : Int) = 2 * (N * (M / 2 + 1))) :
    ∃ Y1 X1, dataR2C N M X Y = some Y1 ∧ dataC2R N M Y1 X' = some X1 ∧ X1.size = X.size ∧ ∀ p : Int, 0 ≤ p → p < N * M → X1.val p = X.val p := by
  obtain ⟨Y1, e1, h1⟩ := dataR2C_holds hN hM hM0 (Holds.self hX) hY
  obtain ⟨X1, e2, h2, -⟩ := dataC2R_holds hN hM hM0 h1 hX'
  refine ⟨Y1, X1, e1, e2, by have := h2.1; omega, ?_⟩
  intro p p0 p1
  obtain ⟨c, i, c0, c1, i0, i1, rfl⟩ := grid_split hN p0 p1
  rw [h2.2 c i c0 c1 i0 i1]
  unfold unpackG packG
  by_cases hc : c % 2 = 0
  · rw [if_pos hc]
    by_cases h0 : c / 2 ≤ 0
    · rw [if_pos h0]; obtain rfl : c = 0 := by omega
      rfl
    · rw [if_neg h0, show 2 * (c / 2) = c by omega]
  · rw [if_neg hc, if_neg (by omega), show 2 * ((c + 1) / 2) - 1 = c by omega, neg_neg]

/-- **C40**, half-complex to real and back: every real part and, from frequency 1 on, every imaginary part
returns. -/
theorem C40_halfcomplex_back (hN : 0 < N) (hM0 : 0 < M) (hM : M % 2 = 1) {X Y Y' : Buf K} (hX : (X.size : Int) = N * M) (hY : (Y.size : Int) = 2 * (N * (M / 2 + 1)))
    (hY' : (Y'.size : Int) = 2 * (N * (M / 2 + 1))) :
    ∃ X1 Y1, dataC2R N M Y X = some X1 ∧ dataR2C N M X1 Y' = some Y1 ∧ Y1.size = Y.size ∧
      ∀ i j, 0 ≤ i → i < N → 0 ≤ j → j < M / 2 + 1 → Y1.val (2 * (i + j * N)) = Y.val (2 * (i + j * N)) ∧
        (1 ≤ j → Y1.val (2 * (i + j * N) + 1) = Y.val (2 * (i + j * N) + 1)) := by
  obtain ⟨X1, e1, h1, -⟩ := dataC2R_holds (z := fun i j => (Y.val (2 * (i + j * N)), Y.val (2 * (i + j * N) + 1))) hN hM hM0
    ⟨hY, fun _ _ _ _ _ _ => rfl, fun _ _ _ _ _ _ => rfl⟩ hX
  obtain ⟨Y1, e2, h2⟩ := dataR2C_holds hN hM hM0 h1 hY'
  refine ⟨X1, Y1, e1, e2, by have := h2.1; omega, ?_⟩
  intro i j i0 i1 j0 j1
  refine ⟨?_, fun j2 => ?_⟩
  · rw [h2.2.1 i j i0 i1 j0 j1]
    unfold packG unpackG
    by_cases h0 : j ≤ 0
    · obtain rfl : j = 0 := by omega
      rfl
    · rw [if_neg h0, if_pos (by omega), show 2 * j / 2 = j by omega]
  · rw [h2.2.2 i j i0 i1 j2 j1]
    unfold packG unpackG
    rw [if_neg (by omega), if_neg (by omega : ¬ (2 * j - 1) % 2 = 0), show (2 * j - 1 + 1) / 2 = j by omega, neg_neg]

/-- **C40**, the order of the columns: putting the non-negative frequencies first and back. -/
theorem C40_columns (hN : 0 < N) (hM0 : 0 < M) (hM : M % 2 = 1) {X X' Y : Buf K} (hX : (X.size : Int) = 2 * N * M) (hX' : (X'.size : Int) = 2 * N * M) (hY : (Y.size : Int) = 2 * N * M) :
    (∃ Y1 X1, colswap N M X Y = some Y1 ∧ colswapT N M Y1 X' = some X1 ∧ X1.size = X.size ∧ ∀ p : Int, 0 ≤ p → p < 2 * N * M → X1.val p = X.val p) ∧
    ∃ Y1 X1, colswapT N M X Y = some Y1 ∧ colswap N M Y1 X' = some X1 ∧ X1.size = X.size ∧ ∀ p : Int, 0 ≤ p → p < 2 * N * M → X1.val p = X.val p := by
  constructor
  · obtain ⟨Y1, e1, h1, -⟩ := colswap_holds (Y := Y) hM hM0 (Holds.self hX) hY
    obtain ⟨X1, e2, h2, -⟩ := colswapT_holds (X := X') hM hM0 h1 hX'
    refine ⟨Y1, X1, e1, e2, by have := h2.1; omega, ?_⟩
    intro p p0 p1
    obtain ⟨c, i, c0, c1, i0, i1, rfl⟩ := grid_split (by omega) p0 p1
    rw [h2.2 c i c0 c1 i0 i1]
    dsimp only
    rw [swap_from_to hM c0 c1]
  · obtain ⟨Y1, e1, h1, -⟩ := colswapT_holds (X := Y) hM hM0 (Holds.self hX) hY
    obtain ⟨X1, e2, h2, -⟩ := colswap_holds (Y := X') hM hM0 h1 hX'
    refine ⟨Y1, X1, e1, e2, by have := h2.1; omega, ?_⟩
    intro p p0 p1
    obtain ⟨c, i, c0, c1, i0, i1, rfl⟩ := grid_split (by omega) p0 p1
    rw [h2.2 c i c0 c1 i0 i1]
    dsimp only
    rw [swap_to_from hM c0 c1]

/-- **C40**, where the columns go: with `M = 2m + 1`, column `2j` (frequency `j`) goes to column `j` and column
`2j - 1` (frequency `-j`) to column `M - j`. -/
theorem C40_columns_order (hN : 0 < N) (hM0 : 0 < M) (hM : M % 2 = 1) {X Y : Buf K} (hX : (X.size : Int) = 2 * N * M) (hY : (Y.size : Int) = 2 * N * M) :
    ∃ Y1, colswap N M X Y = some Y1 ∧ ∀ j i, 0 ≤ i → i < 2 * N →
      (0 ≤ j → 2 * j < M → Y1.val (i + j * (2 * N)) = X.val (i + 2 * j * (2 * N))) ∧
      (1 ≤ j → 2 * j - 1 < M → Y1.val (i + (M - j) * (2 * N)) = X.val (i + (2 * j - 1) * (2 * N))) := by
  obtain ⟨Y1, e1, h1, -⟩ := colswap_holds (Y := Y) hM hM0 (Holds.self hX) hY
  refine ⟨Y1, e1, fun j i i0 i1 => ⟨fun j0 j1 => ?_, fun j0 j1 => ?_⟩⟩
  · rw [h1.2 j i j0 (by omega) i0 i1]
    dsimp only
    rw [show swapFrom M j = 2 * j by unfold swapFrom; split_ifs <;> omega]
  · rw [h1.2 (M - j) i (by omega) (by omega) i0 i1]
    dsimp only
    rw [show swapFrom M (M - j) = 2 * j - 1 by unfold swapFrom; split_ifs <;> omega]

theorem exec_none {ι σ : Type*} {f : ι → σ → Option σ} {l : List ι} {s : σ} (P : σ → Prop) (h0 : P s) (hp : ∀ a s s', P s → f a s = some s' → P s')
    (a : ι) (ha : a ∈ l) (hn : ∀ s, P s → f a s = none) : exec f l s = none := by
  induction l generalizing s with
  | nil => cases ha
  | cons b l ih =>
    rw [exec_cons]
    rcases List.mem_cons.1 ha with rfl | ha
    · rw [hn s h0]; rfl
    · cases e : f b s with
      | none => rfl
      | some s' => exact ih (hp b s s' h0 e) ha

theorem cp_size {X Y Y' : Buf K} {a : Int × Int × (K → K)} (h : cp X a Y = some Y') : Y'.size = Y.size := by
  unfold cp at h
  obtain ⟨t, -, h⟩ := Option.bind_eq_some_iff.1 h
  obtain ⟨-, -, rfl⟩ := Buf.wr_eq_some_iff.1 h
  rfl

/-- **C40**, the odd number of columns is necessary: for every even `M`, both conversions access column `M` of
the real array, which does not exist. -/
theorem C40_even_defect (hN : 0 < N) (hM0 : 0 < M) (hM : M % 2 = 0) {X Y : Buf K} (hX : (X.size : Int) = N * M) : dataR2C N M X Y = none ∧ dataC2R N M Y X = none := by
  have b : ¬ ((0 : Int) + 2 * (M / 2) * N < X.size) := by
    rw [hX, show 2 * (M / 2) = M by omega, mul_comm]; omega
  constructor
  · have eL : dataR2C N M X Y = exec (cp X) (cpList N (M / 2 + 1) (fun i => [(2 * i, i, id)]) (fun j i => [(2 * i + 2 * j * N, i + 2 * j * N, id)])
        (fun j i => [(2 * i + 1 + 2 * j * N, i + (2 * j - 1) * N, Neg.neg)])) Y :=
      cpList_run X (fun i Y => cp_one X (2 * i) i id Y) (fun j i Y => cp_one X (2 * i + 2 * j * N) (i + 2 * j * N) id Y)
        (fun j i Y => cp_one X (2 * i + 1 + 2 * j * N) (i + (2 * j - 1) * N) Neg.neg Y) Y
    rw [eL]
    refine exec_none (fun _ => True) trivial (fun _ _ _ _ _ => trivial) (2 * 0 + 2 * (M / 2) * N, 0 + 2 * (M / 2) * N, id)
      (mem_cpList.2 (Or.inr ⟨M / 2, by omega, by omega, Or.inl ⟨0, le_rfl, hN, List.mem_singleton.2 rfl⟩⟩)) (fun s _ => ?_)
    unfold cp
    rw [Buf.rd_oob (fun h => b h.2)]; rfl
  · have eL : dataC2R N M Y X = exec (cp Y) (cpList N (M / 2 + 1) (fun i => [(i, 2 * i, id)]) (fun j i => [(i + 2 * j * N, 2 * i + 2 * j * N, id)])
        (fun j i => [(i + (2 * j - 1) * N, 2 * i + 1 + 2 * j * N, Neg.neg)])) X :=
      cpList_run Y (fun i X => cp_one Y i (2 * i) id X) (fun j i X => cp_one Y (i + 2 * j * N) (2 * i + 2 * j * N) id X)
        (fun j i X => cp_one Y (i + (2 * j - 1) * N) (2 * i + 1 + 2 * j * N) Neg.neg X) X
    rw [eL]
    refine exec_none (fun s => s.size = X.size) rfl (fun a s s' h e => (cp_size e).trans h) (0 + 2 * (M / 2) * N, 2 * 0 + 2 * (M / 2) * N, id)
      (mem_cpList.2 (Or.inr ⟨M / 2, by omega, by omega, Or.inl ⟨0, le_rfl, hN, List.mem_singleton.2 rfl⟩⟩)) (fun s hs => ?_)
    unfold cp
    dsimp only
    cases Y.rd (2 * 0 + 2 * (M / 2) * N) with
    | none => rfl
    | some t => exact Buf.wr_oob (fun h => b (by rw [← hs]; exact h.2))

/-- **C40**, even `M` again: the reordering of columns drops the last one, so two arrays that differ there are
not told apart. -/
theorem C40_columns_even_defect (hN : 0 < N) (hM0 : 0 < M) (hM : M % 2 = 0) (X X' Y : Buf K) (hs : X'.size = X.size)
    (hv : ∀ p, p < 2 * N * (M - 1) → X'.val p = X.val p) : colswap N M X Y = colswap N M X' Y := by
  have rd : ∀ p, p < 2 * N * (M - 1) → X.rd p = X'.rd p := by
    intro p hp
    unfold Buf.rd
    rw [hs, hv p hp]
  have cpy : ∀ q i c, i < N → c < M - 1 → 0 ≤ c → copyC q (i + c * N) X = copyC (K := K) q (i + c * N) X' := by
    intro q i c i1 c1 c0
    funext Y
    have : 2 * (i + c * N) + 1 < 2 * N * (M - 1) := by nlinarith
    unfold copyC
    rw [rd _ (by omega), rd _ (by omega)]
  have inner : ∀ (d : Int → Int) c, 0 ≤ c → c < M - 1 → ∀ Y : Buf K, forUp 0 N (fun i Y => copyC (d i) (i + c * N) X Y) Y = forUp 0 N (fun i Y => copyC (d i) (i + c * N) X' Y) Y := by
    intro d c c0 c1 Y
    rw [forUp_exec, forUp_exec]
    exact exec_congr (fun i hi Y => by rw [cpy _ _ _ (mem_rUp.1 hi).2 c1 c0]) Y
  unfold colswap
  have h0 := inner (fun i => i) 0 le_rfl (by omega) Y
  simp only [zero_mul, add_zero] at h0
  rw [h0]
  refine congrArg _ (funext fun Y => ?_)
  rw [forUp_exec, forUp_exec]
  refine exec_congr (fun j hj Y => ?_) Y
  have hj := mem_rUp.1 hj
  rw [inner (fun i => i + j * N) (2 * j) (by omega) (by omega) Y]
  refine congrArg _ (funext fun Y => ?_)
  exact inner (fun i => i + (M - j) * N) (2 * j - 1) (by omega) (by omega) Y

end

/-! ## The hypotheses can be met -/

namespace Fftw.Ex

/-- Sum and difference of two numbers, a transform of length 2. -/
def f2 : Line ℚ := fun x i => if i = 0 then x 0 + x 1 else x 0 - x 1

/-- Twice the same. -/
def g2 : Line ℚ := fun x i => if i = 0 then 2 * x 0 + 2 * x 1 else 2 * x 0 - 2 * x 1

/-- A transform of length 3 between one real and one complex number and three real ones. -/
def g3 : (Int → ℚ × ℚ) → Int → ℚ := fun z c => if c = 0 then (z 0).1 else if c = 1 then (z 1).1 else (z 1).2

/-- Its partner. -/
def h3 : (Int → ℚ) → Int → ℚ × ℚ := fun x j => if j = 0 then (3 * x 0, 0) else (3 * x 1, 3 * x 2)

/-- Constants that are not all equal to one. -/
def C0 : FConst ℚ := ⟨2, 1 / 2, 4, 1 / 4, 3, 1 / 3, 5, 1 / 5⟩

theorem two_cases {i : Int} (h0 : 0 ≤ i) (h1 : i < 2) : i = 0 ∨ i = 1 := by omega
theorem three_cases {i : Int} (h0 : 0 ≤ i) (h1 : i < 3) : i = 0 ∨ i = 1 ∨ i = 2 := by omega

theorem c0 : ConstOk C0 := by constructor <;> norm_num [C0]

theorem fg : LineInverse 2 ((2 * 2 : Int) : ℚ) f2 g2 := by
  constructor
  · intro x y h i h0 h1
    unfold f2; rw [h 0 (by omega) (by omega), h 1 (by omega) (by omega)]
  · intro x y h i h0 h1
    unfold g2; rw [h 0 (by omega) (by omega), h 1 (by omega) (by omega)]
  · intro t x i h0 h1
    unfold g2; split_ifs <;> ring
  · intro x i h0 h1
    rcases two_cases h0 h1 with rfl | rfl <;> simp [f2, g2] <;> ring

theorem gf : LineInverse 2 ((2 * 2 : Int) : ℚ) g2 f2 := by
  constructor
  · exact fg.locg
  · exact fg.locf
  · intro t x i h0 h1
    unfold f2; split_ifs <;> ring
  · intro x i h0 h1
    rcases two_cases h0 h1 with rfl | rfl <;> simp [f2, g2] <;> ring

theorem row3 : RowInverse 3 ((3 : Int) : ℚ) g3 h3 := by
  constructor
  · intro z z' h h' c c0 c1
    unfold g3; rw [h 0 (by omega) (by omega), h 1 (by omega) (by omega), h' 1 (by omega) (by omega)]
  · intro x x' h j j0 j1
    unfold h3; rw [h 0 (by omega) (by omega), h 1 (by omega) (by omega), h 2 (by omega) (by omega)]
  · intro t z c c0 c1
    unfold g3; split_ifs <;> rfl
  · intro t x j j0 j1
    unfold h3; split_ifs <;> refine Prod.ext ?_ ?_ <;> dsimp only <;> ring
  · intro z j j0 j1
    rcases two_cases j0 (by omega) with rfl | rfl <;> simp [g3, h3]
  · intro z j j0 j1
    obtain rfl : j = 1 := by omega
    simp [g3, h3]
  · intro x c c0 c1
    rcases three_cases c0 c1 with rfl | rfl | rfl <;> simp [g3, h3]

/-- The plans of synthesis and of analysis with `N = 2`, `M = 3`. -/
def S : ColPlan ℚ := ⟨f2, f2, .c2r g3⟩
def A : ColPlan ℚ := ⟨g2, g2, .r2c h3⟩

theorem pair : PlanPair 2 3 S A := ⟨fg, gf, fg, gf, g3, h3, rfl, rfl, row3⟩

theorem cos2 : CosPair 2 f2 g2 := by
  refine ⟨⟨fun i j => if i = 0 ∨ j = 0 then 1 else -1, ?_⟩, ⟨fun i j => if i = 0 ∨ j = 0 then 2 else -2, ?_⟩, fg.inv, gf.inv⟩
  · intro x i h0 h1
    have : Finset.Ico (0 : Int) 2 = {0, 1} := by decide
    rw [this]
    rcases two_cases h0 h1 with rfl | rfl <;> simp [f2] <;> ring
  · intro x i h0 h1
    have : Finset.Ico (0 : Int) 2 = {0, 1} := by decide
    rw [this]
    rcases two_cases h0 h1 with rfl | rfl <;> simp [g2] <;> ring

/-- A complex transform of length 1. -/
theorem dft1 : DftInverse 1 ((1 : Int) : ℚ) (fun z => z) (fun z => z) := by
  constructor
  · exact fun z z' h c c0 c1 => h c c0 c1
  · exact fun z z' h c c0 c1 => h c c0 c1
  · exact fun t z c c0 c1 => rfl
  · intro z c c0 c1; simp

end Fftw.Ex

open Fftw.Ex

example : (∃ X1 Y1 Y2, sphSynthesis 'N' C0 Fftw.Ex.S 0 2 3 (Buf.ofList [1, 2, 3, 4, 5, 6]) (Buf.ofList [0, 0, 0, 0, 0, 0, 0, 0]) = some (X1, Y1) ∧
    sphAnalysis 'N' C0 Fftw.Ex.A 0 2 3 X1 (Buf.ofList [9, 9, 9, 9, 9, 9, 9, 9]) = some (Buf.ofList [1, 2, 3, 4, 5, 6], Y2) ∧ X1.size = 6) :=
  (C41_sphere (by decide) (by decide) (by decide) c0 pair).1 _ _ _ rfl rfl rfl

example := C41_sphere_vector (u := fun _ => 0) (u' := fun _ => 0) (by decide) (by decide) (by decide) c0 pair
example := C41_disk (u := fun _ => 0) (u' := fun _ => 0) (by decide) (by decide) (by decide) c0 pair
example := C41_annulus (u := fun _ => 0) (u' := fun _ => 0) (S := ⟨f2, .c2r g3, Buf.ofList [3, 4]⟩) (A := ⟨g2, .r2c h3, Buf.ofList [3, 4]⟩) (by decide) (by decide) (by decide) c0
  ⟨fg, gf, ⟨g3, h3, rfl, rfl, row3⟩, le_rfl, rfl, fun i h0 h1 => by rcases two_cases h0 h1 with rfl | rfl <;> decide⟩
example := C41_rectdisk (S := ⟨f2, f2, f2⟩) (A := ⟨g2, g2, g2⟩) (by decide) (by decide) ⟨fg, gf, fg, gf, fg, gf⟩
example := C41_triangle (f := (f2, f2)) (g := (g2, g2)) (by decide) (by decide) cos2 cos2
example := C41_tetrahedron (f := (f2, f2, f2)) (g := (g2, g2, g2)) (by decide) (by decide) (by decide) ⟨cos2, cos2, cos2⟩
example := C41_spin_sphere (u := fun _ => 0) (u' := fun _ => 0) (S := ⟨3, f2, f2, fun z => z⟩) (A := ⟨3, g2, g2, fun z => z⟩) (by decide) (by decide) (by decide) c0
  ⟨rfl, fg, gf, fg, gf, dft1, dft1⟩

example : ∃ Y1 X1, dataR2C 2 3 (Buf.ofList [1, 2, 3, 4, 5, 6]) (Buf.ofList [0, 0, 0, 0, 0, 0, 0, 0]) = some Y1 ∧
    dataC2R 2 3 Y1 (Buf.ofList [0, 0, 0, 0, 0, 0]) = some X1 ∧ X1.toList = [1, 2, 3, 4, 5, (6 : Int)] := ⟨_, _, rfl, rfl, by decide⟩

example := C40_halfcomplex (K := ℚ) (N := 2) (M := 3) (X := Buf.ofList [1, 2, 3, 4, 5, 6]) (X' := Buf.ofList [0, 0, 0, 0, 0, 0])
  (Y := Buf.ofList [0, 0, 0, 0, 0, 0, 0, 0]) (by decide) (by decide) (by decide) rfl rfl rfl
example := C40_halfcomplex_back (K := ℚ) (N := 2) (M := 3) (X := Buf.ofList [1, 2, 3, 4, 5, 6]) (Y' := Buf.ofList [1, 2, 3, 4, 5, 6, 7, 8])
  (Y := Buf.ofList [0, 0, 0, 0, 0, 0, 0, 0]) (by decide) (by decide) (by decide) rfl rfl rfl
example := C40_columns (K := ℚ) (N := 1) (M := 3) (X := Buf.ofList [1, 2, 3, 4, 5, 6]) (X' := Buf.ofList [0, 0, 0, 0, 0, 0])
  (Y := Buf.ofList [0, 0, 0, 0, 0, 0]) (by decide) (by decide) (by decide) rfl rfl rfl
example := C40_columns_order (K := ℚ) (N := 1) (M := 3) (X := Buf.ofList [1, 2, 3, 4, 5, 6])
  (Y := Buf.ofList [0, 0, 0, 0, 0, 0]) (by decide) (by decide) (by decide) rfl rfl
example := C40_even_defect (K := ℚ) (N := 1) (M := 2) (X := Buf.ofList [1, 2]) (Y := Buf.ofList [0, 0, 0, 0]) (by decide) (by decide) (by decide) rfl
example : colswap 1 2 (Buf.ofList [1, 2, 3, 4]) (Buf.ofList [0, 0, 0, 0]) = colswap 1 2 (Buf.ofList [1, 2, (7 : ℚ), 4]) (Buf.ofList [0, 0, 0, 0]) :=
  C40_columns_even_defect (by decide) (by decide) (by decide) _ _ _ rfl (fun p hp => by
    rcases (by omega : p = 0 ∨ p = 1 ∨ p < 0) with rfl | rfl | h
    · rfl
    · rfl
    · simp only [Buf.ofList]; rw [Int.toNat_of_nonpos h.le]; rfl)

end FT.Props
