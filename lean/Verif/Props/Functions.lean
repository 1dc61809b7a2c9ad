import Verif.Props.Rotations
import Verif.Lemmas.RotFun
import Verif.Props.Ops

/-!
# Property C74: the rotations keep the function

A column of coefficients of order `m2` is the function `Σ a_i φ(m2, i)`.  The kernels `hi2lo` return the coefficients of the same function in the functions
of order `m1`, `m2 - m1` a multiple of the step; the kernels `lo2hi` go back.  The functions are: on the sphere the normalised associated Legendre functions, on the
triangle, on the disk and on the rectangularised disk the radial parts of the orthonormal polynomials.
-/

namespace FT.Props.Fun
open FT FT.Poly Polynomial
variable {K : Type*} [Field K] [LinearOrder K] [IsStrictOrderedRing K] {F : Libm K}

/-- The normalised associated Legendre function of order `m` and degree `m + l` at the colatitude with cosine `x` and sine `y` (normalised on `[-1, 1]`). -/
noncomputable def sphFun (F : Libm K) (p : K × K) (m l : Int) : K := p.2 ^ m.toNat * (Jac F true (m : K) (m : K) l).eval p.1
/-- The factor of the orthonormal polynomials on the triangle that depends on the first variable, `x` on `[-1, 1]`. -/
noncomputable def triFun (F : Libm K) (α β γ x : K) (m l : Int) : K := (1 - x) ^ m.toNat * (Jac F true (2 * m + β + γ + 1) α l).eval x
/-- The radial factor of the orthonormal polynomials on the disk: for the radius `r`, the arguments are `2r² - 1` and `√2 r`. -/
noncomputable def diskFun (F : Libm K) (α β : K) (p : K × K) (m l : Int) : K := p.2 ^ m.toNat * (Jac F true β (m + α) l).eval p.1
/-- The factor of the orthonormal polynomials on the rectangularised disk: ultraspherical with parameter `m + β + 1`; `y` is the square root of `1 - x²`. -/
noncomputable def rectFun (F : Libm K) (β : K) (p : K × K) (m l : Int) : K := p.2 ^ m.toNat * (Jac F true (m + β + 1 / 2) (m + β + 1 / 2) l).eval p.1

/-- A column with stride `S` has no entries at or below row `r`. -/
def Short (n o S r : Int) (A : Buf K) : Prop := ∀ i, 0 ≤ i → r ≤ i → i < n → A.val (o + i * S) = 0

/-- The kernels of the geometry `G` with the tables `RP` convert between expansions in the functions `φ x m`, `x` any admissible point; a function of order `m` has
`rows m` coefficients. -/
def Converts {X : Type*} (G : Geom) (RP : RotPlan K) (rows : Int → Int) (ok : X → Prop) (φ : X → Int → Int → K) : Prop :=
  ∀ m1 m2 o S : Int, 0 ≤ m1 → m1 ≤ m2 → G.jst ∣ m2 - m1 → 0 < S → 0 ≤ o → ∀ A : Buf K, o + (RP.n - 1) * S < A.size →
    (Short RP.n o S (rows m2) A → ∃ A', kernelHi2lo G RP m1 m2 o S A = some A' ∧ Short RP.n o S (rows m1) A' ∧
      ∀ x, ok x → ∑ i ∈ Finset.Ico 0 RP.n, A'.val (o + i * S) * φ x m1 i = ∑ i ∈ Finset.Ico 0 RP.n, A.val (o + i * S) * φ x m2 i) ∧
    ∃ A', kernelLo2hi G RP m1 m2 o S A = some A' ∧ (Short RP.n o S (rows m2) A' →
      ∀ x, ok x → ∑ i ∈ Finset.Ico 0 RP.n, A'.val (o + i * S) * φ x m2 i = ∑ i ∈ Finset.Ico 0 RP.n, A.val (o + i * S) * φ x m1 i)

omit [LinearOrder K] [IsStrictOrderedRing K] in
theorem converts_of {X : Type*} {G : Geom} {RP : RotPlan K} {rows : Int → Int} {ok : X → Prop} {φ : X → Int → Int → K} (hG : GeomOK G) (hg : Good G RP)
    (hr : ∀ m, rows m = G.top RP.n m + G.g + 1)
    (hL : ∀ x, ok x → ∀ j, 0 ≤ j → ∃ u, Ladder G.g (G.top RP.n j) (fun k => RP.c.val (G.ix RP.n k j)) (fun k => RP.s.val (G.ix RP.n k j)) (φ x j) (φ x (j + G.jst)) u) :
    Converts G RP rows ok φ := by
  intro m1 m2 o S h0 h1 hd hS ho A hA
  have down : ∀ A : Buf K, o + (RP.n - 1) * S < A.size → Short RP.n o S (rows m2) A → ∀ A', kernelHi2lo G RP m1 m2 o S A = some A' → ∀ x, ok x →
      Short RP.n o S (rows m1) A' ∧ ∑ i ∈ Finset.Ico 0 RP.n, A'.val (o + i * S) * φ x m1 i = ∑ i ∈ Finset.Ico 0 RP.n, A.val (o + i * S) * φ x m2 i := by
    intro A hA hz A' e x hx
    obtain ⟨A'', e', -, hz', hs⟩ := kernelHi2lo_sum (o := o) (S := S) hG hg.toInB h0 h1 hd (fun j j0 _ => hL x hx j (by omega)) ⟨hS, ho, hA⟩
      (fun i i0 i1 i2 => hz i i0 (by rw [hr]; omega) i2)
    rw [e] at e'
    cases e'
    exact ⟨fun i i0 i1 i2 => hz' i i0 (by rw [hr] at i1; omega) i2, hs⟩
  constructor
  · intro hz
    obtain ⟨A', e, hs⟩ := kernelHi2lo_total (m2 := m2) hG hg.toInB h0 (show Fits RP.n o S A from ⟨hS, ho, hA⟩)
    obtain ⟨A'', e', -, hz', -⟩ := kernelHi2lo_sum (o := o) (S := S) hG hg.toInB h0 h1 hd (φ := fun _ _ => 0)
      (fun j _ _ => ⟨fun _ => 0, ⟨fun _ _ _ => rfl, fun _ _ _ => by ring, fun _ _ _ => by ring⟩⟩) ⟨hS, ho, hA⟩ (fun i i0 i1 i2 => hz i i0 (by rw [hr]; omega) i2)
    rw [e] at e'
    cases e'
    exact ⟨A', e, fun i i0 i1 i2 => hz' i i0 (by rw [hr] at i1; omega) i2, fun x hx => (down A hA hz A' e x hx).2⟩
  · obtain ⟨A', e, hs, e'⟩ := kernel_roundtrip' hG hg h0 hd (show Fits RP.n o S A from ⟨hS, ho, hA⟩)
    exact ⟨A', e, fun hz x hx => (down A' (by rw [hs]; exact hA) hz A e' x hx).2.symm⟩

omit [LinearOrder K] [IsStrictOrderedRing K] in
theorem tables {G : Geom} {RP : RotPlan K} (Q : Int → Int → K → K → Prop) (hv : ∀ k j, 0 ≤ j → 0 ≤ k → k ≤ G.top RP.n j →
    ∃ s c, RP.s.rd (G.ix RP.n k j) = some s ∧ RP.c.rd (G.ix RP.n k j) = some c ∧ s * s + c * c = 1 ∧ Q k j s c) :
    Good G RP ∧ ∀ k j, 0 ≤ j → 0 ≤ k → k ≤ G.top RP.n j → Q k j (RP.s.val (G.ix RP.n k j)) (RP.c.val (G.ix RP.n k j)) := by
  refine ⟨⟨⟨fun k j j0 k0 k1 => ?_⟩, fun k j j0 k0 k1 => ?_⟩, fun k j j0 k0 k1 => ?_⟩ <;> obtain ⟨s, c, es, ec, u, q⟩ := hv k j j0 k0 k1 <;> have a := Buf.rd_eq_some_iff.1 es <;>
    have b := Buf.rd_eq_some_iff.1 ec
  · exact ⟨a.1.1, a.1.2, b.1.2⟩
  · rw [a.2, b.2]; exact u
  · rw [a.2, b.2]; exact q

/-- **C74**, sphere. -/
theorem C74_sphere (hF : IsLibm F) (n : Int) (hn : 0 ≤ n) (junk : Int → K) :
    ∃ RP, planRotsphere F.sqrt n junk = some RP ∧ RP.n = n ∧ Converts geomSph RP (fun m => n - m) (fun p : K × K => p.2 ^ 2 = 1 - p.1 ^ 2) (sphFun F) := by
  obtain ⟨RP, e, hN, h⟩ := C06_rotsphere_unit hF.sqrt n hn junk
  refine ⟨RP, e, hN, ?_⟩
  obtain ⟨hg, hv⟩ := tables (G := geomSph) (RP := RP) (fun k j s c => 0 ≤ s ∧ 0 ≤ c ∧ s * s * (((k:K)+2*j+3)*((k:K)+2*j+4)) = ((k:K)+1)*((k:K)+2) ∧
      c * c * (((k:K)+2*j+3)*((k:K)+2*j+4)) = (2*(j:K)+2)*(2*(k:K)+2*j+5)) (fun k j j0 k0 k1 => by
    simp only [geomSph] at k1 ⊢
    rw [hN] at k1 ⊢
    obtain ⟨s, c, es, ec, s0, c0, a, b, u⟩ := h k j j0 (by omega) k0 (by omega)
    exact ⟨s, c, es, ec, u, s0, c0, a, b⟩)
  refine converts_of geomSph_ok hg (fun m => by simp only [geomSph]; omega) (fun p hp j j0 => ?_)
  have j0' : (0 : K) ≤ j := by exact_mod_cast j0
  obtain ⟨u, L⟩ := ladder_sym hF (a := (j : K)) (by linarith) (t := geomSph.top RP.n j) (c := fun k => RP.c.val (geomSph.ix RP.n k j)) (s := fun k => RP.s.val (geomSph.ix RP.n k j))
    (fun k k0 k1 => (hv k j j0 k0 k1).1) (fun k k0 k1 => (hv k j j0 k0 k1).2.1) (fun k k0 k1 => (hv k j j0 k0 k1).2.2.1) (fun k k0 k1 => (hv k j j0 k0 k1).2.2.2) p.1
  refine ⟨_, (L.smul (p.2 ^ j.toNat)).congr (by norm_num [geomSph]) (fun _ _ _ => rfl) (fun _ _ _ => rfl) (fun _ _ => rfl) (fun k _ => ?_)⟩
  unfold sphFun
  simp only [geomSph]
  rw [show (j + 2).toNat = j.toNat + 2 by omega, pow_add, hp]
  push_cast
  ring

/-- **C74**, rectangularised disk. -/
theorem C74_rectdisk (hF : IsLibm F) (n : Int) (hn : 0 ≤ n) (β : K) (hβ : -1 < β) (junk : Int → K) :
    ∃ RP, planRotrectdisk F.sqrt n β junk = some RP ∧ RP.n = n ∧ Converts geomRect RP (fun m => n - m) (fun p : K × K => p.2 ^ 2 = 1 - p.1 ^ 2) (rectFun F β) := by
  obtain ⟨RP, e, hN, h⟩ := C06_rotrectdisk_unit hF.sqrt n hn β hβ junk
  refine ⟨RP, e, hN, ?_⟩
  obtain ⟨hg, hv⟩ := tables (G := geomRect) (RP := RP) (fun k j s c => 0 ≤ s ∧ 0 ≤ c ∧ s * s * (((k:K)+2*j+2*β+4)*((k:K)+2*j+2*β+5)) = ((k:K)+1)*((k:K)+2) ∧
      c * c * (((k:K)+2*j+2*β+4)*((k:K)+2*j+2*β+5)) = (2*(j:K)+2*β+3)*(2*(k:K)+2*j+2*β+6)) (fun k j j0 k0 k1 => by
    simp only [geomRect] at k1 ⊢
    rw [hN] at k1 ⊢
    obtain ⟨-, s, c, es, ec, s0, c0, a, b, u⟩ := h k j j0 (by omega) k0 (by omega)
    exact ⟨s, c, es, ec, u, s0, c0, a, b⟩)
  refine converts_of geomRect_ok hg (fun m => by simp only [geomRect]; omega) (fun p hp j j0 => ?_)
  have j0' : (0 : K) ≤ j := by exact_mod_cast j0
  obtain ⟨u, L⟩ := ladder_sym hF (a := (j : K) + β + 1 / 2) (by linarith) (t := geomRect.top RP.n j) (c := fun k => RP.c.val (geomRect.ix RP.n k j))
    (s := fun k => RP.s.val (geomRect.ix RP.n k j)) (fun k k0 k1 => (hv k j j0 k0 k1).1) (fun k k0 k1 => (hv k j j0 k0 k1).2.1)
    (fun k k0 k1 => by have := (hv k j j0 k0 k1).2.2.1; linear_combination this) (fun k k0 k1 => by have := (hv k j j0 k0 k1).2.2.2; linear_combination this) p.1
  refine ⟨_, (L.smul (p.2 ^ j.toNat)).congr (by norm_num [geomRect]) (fun _ _ _ => rfl) (fun _ _ _ => rfl) (fun _ _ => rfl) (fun k _ => ?_)⟩
  unfold rectFun
  simp only [geomRect]
  rw [show (j + 2).toNat = j.toNat + 2 by omega, pow_add, hp, show (j : K) + β + 1 / 2 + 2 = ((j + 2 : Int) : K) + β + 1 / 2 by push_cast; ring]
  ring

/-- **C74**, triangle. -/
theorem C74_triangle (hF : IsLibm F) (n : Int) (hn : 0 ≤ n) (α β γ : K) (hα : -1 < α) (hβ : -1 < β) (hγ : -1 < γ) (junk : Int → K) :
    ∃ RP, planRottriangle F.sqrt n α β γ junk = some RP ∧ RP.n = n ∧ Converts geomTri RP (fun m => n - m) (fun _ : K => True) (triFun F α β γ) := by
  obtain ⟨RP, e, hN, h⟩ := C06_rottriangle_unit hF.sqrt n hn α β γ hα hβ hγ junk
  refine ⟨RP, e, hN, ?_⟩
  obtain ⟨hg, hv⟩ := tables (G := geomTri) (RP := RP) (fun k j s c => 0 ≤ s ∧ 0 ≤ c ∧ s * s * (((k:K)+2*j+β+γ+3)*((k:K)+2*j+α+β+γ+3)) = ((k:K)+1)*((k:K)+α+1) ∧
      c * c * (((k:K)+2*j+β+γ+3)*((k:K)+2*j+α+β+γ+3)) = (2*(j:K)+β+γ+2)*(2*(k:K)+2*j+α+β+γ+4)) (fun k j j0 k0 k1 => by
    simp only [geomTri] at k1 ⊢
    rw [hN] at k1 ⊢
    obtain ⟨-, s, c, es, ec, s0, c0, a, b, u⟩ := h k j j0 (by omega) k0 (by omega)
    exact ⟨s, c, es, ec, u, s0, c0, a, b⟩)
  refine converts_of geomTri_ok hg (fun m => by simp only [geomTri]; omega) (fun x _ j j0 => ?_)
  have j0' : (0 : K) ≤ j := by exact_mod_cast j0
  obtain ⟨u, L⟩ := ladder_jac hF (a := 2 * (j : K) + β + γ + 1) (b := α) (by linarith) hα (t := geomTri.top RP.n j) (c := fun k => RP.c.val (geomTri.ix RP.n k j))
    (s := fun k => RP.s.val (geomTri.ix RP.n k j)) (fun k k0 k1 => (hv k j j0 k0 k1).1) (fun k k0 k1 => (hv k j j0 k0 k1).2.1)
    (fun k k0 k1 => by have := (hv k j j0 k0 k1).2.2.1; linear_combination this) (fun k k0 k1 => by have := (hv k j j0 k0 k1).2.2.2; linear_combination this) x
  refine ⟨_, (L.smul ((1 - x) ^ j.toNat)).congr (by norm_num [geomTri]) (fun _ _ _ => rfl) (fun _ _ _ => rfl) (fun _ _ => rfl) (fun k _ => ?_)⟩
  unfold triFun
  simp only [geomTri]
  rw [show (j + 1).toNat = j.toNat + 1 by omega, pow_succ, show 2 * (j : K) + β + γ + 1 + 2 = 2 * ((j + 1 : Int) : K) + β + γ + 1 by push_cast; ring]
  ring

/-- **C74**, disk. -/
theorem C74_disk (hF : IsLibm F) (n : Int) (hn : 0 ≤ n) (α β : K) (hα : -1 < α) (hβ : -1 < β) (junk : Int → K) :
    ∃ RP, planRotdisk F.sqrt n α β junk = some RP ∧ RP.n = n ∧ Converts geomDisk RP (fun m => n - (m + 1) / 2) (fun p : K × K => p.2 ^ 2 = 1 + p.1) (diskFun F α β) := by
  obtain ⟨RP, e, hN, h⟩ := C06_rotdisk_unit hF.sqrt n hn α β hα hβ junk
  refine ⟨RP, e, hN, ?_⟩
  obtain ⟨hg, hv⟩ := tables (G := geomDisk) (RP := RP) (fun k j s c => s ≤ 0 ∧ 0 ≤ c ∧ s * s * (((k:K)+j+α+2)*((k:K)+j+α+β+2)) = ((k:K)+1)*((k:K)+β+1) ∧
      c * c * (((k:K)+j+α+2)*((k:K)+j+α+β+2)) = ((j:K)+α+1)*(2*(k:K)+j+α+β+3)) (fun k j j0 k0 k1 => by
    simp only [geomDisk] at k1 ⊢
    rw [hN] at k1 ⊢
    obtain ⟨-, s, c, es, ec, s0, c0, a, b, u⟩ := h k j j0 (by omega) k0 (by omega)
    exact ⟨s, c, es, ec, u, s0, c0, a, b⟩)
  refine converts_of geomDisk_ok hg (fun m => by simp only [geomDisk]; omega) (fun p hp j j0 => ?_)
  have j0' : (0 : K) ≤ j := by exact_mod_cast j0
  obtain ⟨u, L⟩ := ladder_jac hF (a := (j : K) + α) (b := β) (by linarith) hβ (t := geomDisk.top RP.n j) (c := fun k => RP.c.val (geomDisk.ix RP.n k j))
    (s := fun k => -RP.s.val (geomDisk.ix RP.n k j)) (fun k k0 k1 => neg_nonneg.2 (hv k j j0 k0 k1).1) (fun k k0 k1 => (hv k j j0 k0 k1).2.1)
    (fun k k0 k1 => by have := (hv k j j0 k0 k1).2.2.1; linear_combination this) (fun k k0 k1 => by have := (hv k j j0 k0 k1).2.2.2; linear_combination this) (-p.1)
  refine ⟨_, (L.flip.smul (p.2 ^ j.toNat)).congr (by norm_num [geomDisk]) (fun _ _ _ => rfl) (fun _ _ _ => by ring) (fun k k0 => ?_) (fun k k0 => ?_)⟩
  · unfold diskFun
    rw [Jac_flip F true p.1 k0]
  · unfold diskFun
    simp only [geomDisk]
    rw [Jac_flip F true p.1 k0, show (j + 2).toNat = j.toNat + 2 by omega, pow_add, hp, show (j : K) + α + 2 = ((j + 2 : Int) : K) + α by push_cast; ring]
    ring

/-! ## Instances: the function with the coefficient 5 of order two (three rows), written with functions of order zero -/

/-- The hypothesis on the columns. -/
example : Short 3 0 1 1 (⟨3, fun i => if i = 0 then 5 else 0⟩ : Buf ℝ) := fun i _ i1 _ => if_neg (by omega)

example : ∃ RP A', planRotsphere Ops.realLibm.sqrt 3 (fun _ => 0) = some RP ∧ kernelHi2lo geomSph RP 0 2 0 1 ⟨3, fun i => if i = 0 then 5 else 0⟩ = some A' ∧
    ∀ p : ℝ × ℝ, p.2 ^ 2 = 1 - p.1 ^ 2 → ∑ i ∈ Finset.Ico 0 3, A'.val i * sphFun Ops.realLibm p 0 i = 5 * sphFun Ops.realLibm p 2 0 := by
  obtain ⟨RP, e, hn, h⟩ := C74_sphere Ops.realLibm_ok 3 (by norm_num) (fun _ => 0)
  obtain ⟨A', e', -, v⟩ := (h 0 2 0 1 le_rfl (by norm_num) (by norm_num [geomSph]) one_pos le_rfl ⟨3, fun i => if i = 0 then 5 else 0⟩ (by rw [hn]; norm_num)).1 (fun i _ i1 _ => if_neg (by dsimp only at i1; omega))
  refine ⟨RP, A', e, e', fun p hp => ?_⟩
  have := v p hp
  rw [hn] at this
  simp only [zero_add, mul_one] at this
  rw [this, show Finset.Ico (0 : Int) 3 = {0, 1, 2} by decide]
  simp

example : ∃ RP A', planRottriangle Ops.realLibm.sqrt 3 (-1 / 2) 0 (1 / 3) (fun _ => 0) = some RP ∧ kernelHi2lo geomTri RP 0 2 0 1 ⟨3, fun i => if i = 0 then 5 else 0⟩ = some A' ∧
    ∀ x : ℝ, ∑ i ∈ Finset.Ico 0 3, A'.val i * triFun Ops.realLibm (-1 / 2) 0 (1 / 3) x 0 i = 5 * triFun Ops.realLibm (-1 / 2) 0 (1 / 3) x 2 0 := by
  obtain ⟨RP, e, hn, h⟩ := C74_triangle Ops.realLibm_ok 3 (by norm_num) (-1 / 2) 0 (1 / 3) (by norm_num) (by norm_num) (by norm_num) (fun _ => 0)
  obtain ⟨A', e', -, v⟩ := (h 0 2 0 1 le_rfl (by norm_num) (by norm_num [geomTri]) one_pos le_rfl ⟨3, fun i => if i = 0 then 5 else 0⟩ (by rw [hn]; norm_num)).1 (fun i _ i1 _ => if_neg (by dsimp only at i1; omega))
  refine ⟨RP, A', e, e', fun x => ?_⟩
  have := v x trivial
  rw [hn] at this
  simp only [zero_add, mul_one] at this
  rw [this, show Finset.Ico (0 : Int) 3 = {0, 1, 2} by decide]
  simp

example : ∃ RP A', planRotdisk Ops.realLibm.sqrt 3 (1 / 2) 0 (fun _ => 0) = some RP ∧ kernelHi2lo geomDisk RP 0 4 0 1 ⟨3, fun i => if i = 0 then 5 else 0⟩ = some A' ∧
    ∀ p : ℝ × ℝ, p.2 ^ 2 = 1 + p.1 → ∑ i ∈ Finset.Ico 0 3, A'.val i * diskFun Ops.realLibm (1 / 2) 0 p 0 i = 5 * diskFun Ops.realLibm (1 / 2) 0 p 4 0 := by
  obtain ⟨RP, e, hn, h⟩ := C74_disk Ops.realLibm_ok 3 (by norm_num) (1 / 2) 0 (by norm_num) (by norm_num) (fun _ => 0)
  obtain ⟨A', e', -, v⟩ := (h 0 4 0 1 le_rfl (by norm_num) (by norm_num [geomDisk]) one_pos le_rfl ⟨3, fun i => if i = 0 then 5 else 0⟩ (by rw [hn]; norm_num)).1 (fun i _ i1 _ => if_neg (by dsimp only at i1; omega))
  refine ⟨RP, A', e, e', fun p hp => ?_⟩
  have := v p hp
  rw [hn] at this
  simp only [zero_add, mul_one] at this
  rw [this, show Finset.Ico (0 : Int) 3 = {0, 1, 2} by decide]
  simp

example : ∃ RP A', planRotrectdisk Ops.realLibm.sqrt 3 (1 / 2) (fun _ => 0) = some RP ∧ kernelHi2lo geomRect RP 0 2 0 1 ⟨3, fun i => if i = 0 then 5 else 0⟩ = some A' ∧
    ∀ p : ℝ × ℝ, p.2 ^ 2 = 1 - p.1 ^ 2 → ∑ i ∈ Finset.Ico 0 3, A'.val i * rectFun Ops.realLibm (1 / 2) p 0 i = 5 * rectFun Ops.realLibm (1 / 2) p 2 0 := by
  obtain ⟨RP, e, hn, h⟩ := C74_rectdisk Ops.realLibm_ok 3 (by norm_num) (1 / 2) (by norm_num) (fun _ => 0)
  obtain ⟨A', e', -, v⟩ := (h 0 2 0 1 le_rfl (by norm_num) (by norm_num [geomRect]) one_pos le_rfl ⟨3, fun i => if i = 0 then 5 else 0⟩ (by rw [hn]; norm_num)).1 (fun i _ i1 _ => if_neg (by dsimp only at i1; omega))
  refine ⟨RP, A', e, e', fun p hp => ?_⟩
  have := v p hp
  rw [hn] at this
  simp only [zero_add, mul_one] at this
  rw [this, show Finset.Ico (0 : Int) 3 = {0, 1, 2} by decide]
  simp

end FT.Props.Fun
