import Verif.Lemmas.RotSpin
import Verif.Lemmas.RotTet
import Mathlib.Analysis.Real.Sqrt

/-!
# Properties C04-C07: rotation kernels and rotation tables

`IsSqrt sqrt` says that `sqrt` returns the non-negative square root of every non-negative number; over `ℝ` it holds for
`Real.sqrt` (first example below).
-/

namespace FT.Props
open FT

/-- `Real.sqrt` is admissible, so none of the theorems below is vacuous. -/
example : IsSqrt Real.sqrt := fun x hx => ⟨Real.sqrt_nonneg x, Real.mul_self_sqrt hx⟩

section
variable {K : Type*} [Field K] [LinearOrder K] [IsStrictOrderedRing K] {sqrt : K → K}

/-! ## C06: the tables contain genuine rotations -/

/-- C06, sphere: for every `n ≥ 0` the planner succeeds whatever the malloc'ed memory contains, and every stored pair
consists of the non-negative square roots of `(l+1)(l+2)/d` and `(2m+2)(2l+2m+5)/d`, `d = (l+2m+3)(l+2m+4) > 0`, which
add up to one. -/
theorem C06_rotsphere_unit (hq : IsSqrt sqrt) (n : Int) (hn : 0 ≤ n) (junk : Int → K) :
    ∃ RP, planRotsphere sqrt n junk = some RP ∧ RP.n = n ∧
      ∀ l m : Int, 0 ≤ m → m < n → 0 ≤ l → l < n - m →
        ∃ s c, RP.s.rd (sIdx n l m) = some s ∧ RP.c.rd (sIdx n l m) = some c ∧ 0 ≤ s ∧ 0 ≤ c ∧
          s * s * (((l:K)+2*m+3)*((l:K)+2*m+4)) = ((l:K)+1)*((l:K)+2) ∧
          c * c * (((l:K)+2*m+3)*((l:K)+2*m+4)) = (2*(m:K)+2)*(2*(l:K)+2*m+5) ∧ s * s + c * c = 1 := by
  obtain ⟨RP, e, T⟩ := planTri_spec (K := K) n hn _ _ junk
  refine ⟨RP, e, T.hn, ?_⟩
  intro l m h1 h2 h3 h4
  have hr := sIdx_range h1 h2 h3 h4
  obtain ⟨a, b⟩ := T.val l m h1 h2 h3 h4
  have hl : (0:K) ≤ (l:K) := by exact_mod_cast h3
  have hm : (0:K) ≤ (m:K) := by exact_mod_cast h1
  have hd : (0:K) < (((l+2*m+3)*(l+2*m+4) : Int) : K) := by push_cast; positivity
  have ha : (0:K) ≤ (((l+1)*(l+2) : Int) : K) := by push_cast; positivity
  have hb : (0:K) ≤ (((2*m+2)*(2*l+2*m+5) : Int) : K) := by push_cast; positivity
  refine ⟨_, _, Buf.rd_of hr.1 (by rw [T.ssz]; exact hr.2), Buf.rd_of hr.1 (by rw [T.csz]; exact hr.2), ?_⟩
  rw [a, b]
  have qa := hq _ (div_nonneg ha hd.le)
  have qb := hq _ (div_nonneg hb hd.le)
  refine ⟨qa.1, qb.1, ?_, ?_, unit_of_sqrt hq ha hb hd (by push_cast; ring)⟩
  · rw [qa.2]; push_cast at hd ⊢; field_simp
  · rw [qb.2]; push_cast at hd ⊢; field_simp

/-- C06, triangle: for all parameters `α, β, γ > -1`. -/
theorem C06_rottriangle_unit (hq : IsSqrt sqrt) (n : Int) (hn : 0 ≤ n) (α β γ : K) (hα : -1 < α) (hβ : -1 < β) (hγ : -1 < γ)
    (junk : Int → K) :
    ∃ RP, planRottriangle sqrt n α β γ junk = some RP ∧ RP.n = n ∧
      ∀ l m : Int, 0 ≤ m → m < n → 0 ≤ l → l < n - m →
        0 < ((l:K)+2*m+β+γ+3)*((l:K)+2*m+α+β+γ+3) ∧
        ∃ s c, RP.s.rd (sIdx n l m) = some s ∧ RP.c.rd (sIdx n l m) = some c ∧ 0 ≤ s ∧ 0 ≤ c ∧
          s * s * (((l:K)+2*m+β+γ+3)*((l:K)+2*m+α+β+γ+3)) = ((l:K)+1)*((l:K)+α+1) ∧
          c * c * (((l:K)+2*m+β+γ+3)*((l:K)+2*m+α+β+γ+3)) = (2*(m:K)+β+γ+2)*(2*(l:K)+2*m+α+β+γ+4) ∧
          s * s + c * c = 1 := by
  obtain ⟨RP, e, T⟩ := planTri_spec (K := K) n hn _ _ junk
  refine ⟨RP, e, T.hn, ?_⟩
  intro l m h1 h2 h3 h4
  have hr := sIdx_range h1 h2 h3 h4
  obtain ⟨a, b⟩ := T.val l m h1 h2 h3 h4
  have hl : (0:K) ≤ (l:K) := by exact_mod_cast h3
  have hm : (0:K) ≤ (m:K) := by exact_mod_cast h1
  have hd : (0:K) < ((l:K)+2*m+β+γ+3)*((l:K)+2*m+α+β+γ+3) := mul_pos (by linarith) (by linarith)
  have ha : (0:K) ≤ ((l:K)+1)*((l:K)+α+1) := mul_nonneg (by linarith) (by linarith)
  have hb : (0:K) ≤ (2*(m:K)+β+γ+2)*(2*(l:K)+2*m+α+β+γ+4) := mul_nonneg (by linarith) (by linarith)
  refine ⟨hd, _, _, Buf.rd_of hr.1 (by rw [T.ssz]; exact hr.2), Buf.rd_of hr.1 (by rw [T.csz]; exact hr.2), ?_⟩
  rw [a, b]
  have qa := hq _ (div_nonneg ha hd.le)
  have qb := hq _ (div_nonneg hb hd.le)
  refine ⟨qa.1, qb.1, ?_, ?_, unit_of_sqrt hq ha hb hd (by ring)⟩
  · rw [qa.2, div_mul_cancel₀ _ hd.ne']
  · rw [qb.2, div_mul_cancel₀ _ hd.ne']

/-- C06, disk: for all parameters `α, β > -1`; the stored sine is the non-positive root. -/
theorem C06_rotdisk_unit (hq : IsSqrt sqrt) (n : Int) (hn : 0 ≤ n) (α β : K) (hα : -1 < α) (hβ : -1 < β) (junk : Int → K) :
    ∃ RP, planRotdisk sqrt n α β junk = some RP ∧ RP.n = n ∧
      ∀ l m : Int, 0 ≤ m → m < 2 * n - 1 → 0 ≤ l → l < n - (m + 1) / 2 →
        0 < ((l:K)+m+α+2)*((l:K)+m+α+β+2) ∧
        ∃ s c, RP.s.rd (sdIdx n l m) = some s ∧ RP.c.rd (sdIdx n l m) = some c ∧ s ≤ 0 ∧ 0 ≤ c ∧
          s * s * (((l:K)+m+α+2)*((l:K)+m+α+β+2)) = ((l:K)+1)*((l:K)+β+1) ∧
          c * c * (((l:K)+m+α+2)*((l:K)+m+α+β+2)) = ((m:K)+α+1)*(2*(l:K)+m+α+β+3) ∧ s * s + c * c = 1 := by
  obtain ⟨RP, e, T⟩ := planDisk_spec (K := K) n hn _ _ junk
  refine ⟨RP, e, T.hn, ?_⟩
  intro l m h1 h2 h3 h4
  have hr := sdIdx_range h1 h2 h3 h4
  obtain ⟨a, b⟩ := T.val l m h1 h2 h3 h4
  have hl : (0:K) ≤ (l:K) := by exact_mod_cast h3
  have hm : (0:K) ≤ (m:K) := by exact_mod_cast h1
  have hd : (0:K) < ((l:K)+m+α+2)*((l:K)+m+α+β+2) := mul_pos (by linarith) (by linarith)
  have ha : (0:K) ≤ ((l:K)+1)*((l:K)+β+1) := mul_nonneg (by linarith) (by linarith)
  have hb : (0:K) ≤ ((m:K)+α+1)*(2*(l:K)+m+α+β+3) := mul_nonneg (by linarith) (by linarith)
  refine ⟨hd, _, _, Buf.rd_of hr.1 (by rw [T.ssz]; exact hr.2), Buf.rd_of hr.1 (by rw [T.csz]; exact hr.2), ?_⟩
  rw [a, b]
  have qa := hq _ (div_nonneg ha hd.le)
  have qb := hq _ (div_nonneg hb hd.le)
  refine ⟨by simpa using qa.1, qb.1, ?_, ?_, ?_⟩
  · rw [neg_mul_neg, qa.2, div_mul_cancel₀ _ hd.ne']
  · rw [qb.2, div_mul_cancel₀ _ hd.ne']
  · rw [neg_mul_neg]; exact unit_of_sqrt hq ha hb hd (by ring)

/-- C06, rectangularized disk: for every `β > -1`. -/
theorem C06_rotrectdisk_unit (hq : IsSqrt sqrt) (n : Int) (hn : 0 ≤ n) (β : K) (hβ : -1 < β) (junk : Int → K) :
    ∃ RP, planRotrectdisk sqrt n β junk = some RP ∧ RP.n = n ∧
      ∀ l m : Int, 0 ≤ m → m < n → 0 ≤ l → l < n - m →
        0 < ((l:K)+2*m+2*β+4)*((l:K)+2*m+2*β+5) ∧
        ∃ s c, RP.s.rd (sIdx n l m) = some s ∧ RP.c.rd (sIdx n l m) = some c ∧ 0 ≤ s ∧ 0 ≤ c ∧
          s * s * (((l:K)+2*m+2*β+4)*((l:K)+2*m+2*β+5)) = ((l:K)+1)*((l:K)+2) ∧
          c * c * (((l:K)+2*m+2*β+4)*((l:K)+2*m+2*β+5)) = (2*(m:K)+2*β+3)*(2*(l:K)+2*m+2*β+6) ∧
          s * s + c * c = 1 := by
  obtain ⟨RP, e, T⟩ := planTri_spec (K := K) n hn _ _ junk
  refine ⟨RP, e, T.hn, ?_⟩
  intro l m h1 h2 h3 h4
  have hr := sIdx_range h1 h2 h3 h4
  obtain ⟨a, b⟩ := T.val l m h1 h2 h3 h4
  have hl : (0:K) ≤ (l:K) := by exact_mod_cast h3
  have hm : (0:K) ≤ (m:K) := by exact_mod_cast h1
  have hd : (0:K) < ((l:K)+2*m+2*β+4)*((l:K)+2*m+2*β+5) := mul_pos (by linarith) (by linarith)
  have ha : (0:K) ≤ (((l+1)*(l+2) : Int) : K) := by push_cast; positivity
  have hb : (0:K) ≤ (2*(m:K)+2*β+3)*(2*(l:K)+2*m+2*β+6) := mul_nonneg (by linarith) (by linarith)
  refine ⟨hd, _, _, Buf.rd_of hr.1 (by rw [T.ssz]; exact hr.2), Buf.rd_of hr.1 (by rw [T.csz]; exact hr.2), ?_⟩
  rw [a, b]
  have qa := hq _ (div_nonneg ha hd.le)
  have qb := hq _ (div_nonneg hb hd.le)
  refine ⟨qa.1, qb.1, ?_, ?_, unit_of_sqrt hq ha hb hd (by push_cast; ring)⟩
  · rw [qa.2, div_mul_cancel₀ _ hd.ne']; push_cast; ring
  · rw [qb.2, div_mul_cancel₀ _ hd.ne']

/-- C06, spin-weighted sphere: both table pairs, for every spin `s` (of either sign). -/
theorem C06_rotspinsphere_unit (hq : IsSqrt sqrt) (n s : Int) (hn : 0 ≤ n) :
    ∃ P, planRotspinsphere sqrt n s = some P ∧ P.n = n ∧ P.s = s ∧
      (∀ l m : Int, 0 ≤ m → m < n → 0 ≤ l → l < n - m →
        ∃ u v, P.s1.rd (l + m * n) = some u ∧ P.c1.rd (l + m * n) = some v ∧ 0 ≤ u ∧ 0 ≤ v ∧
          u * u * (((l:K)+2*m+3)*((l:K)+2*m+4)) = ((l:K)+1)*((l:K)+2) ∧ u * u + v * v = 1) ∧
      (∀ l j m : Int, 0 ≤ m → m < n → 0 ≤ j → j < |s| → 0 ≤ l → l < n - m - j →
        ∃ u v, P.s2.rd (l + j * n + m * |s| * n) = some u ∧ P.c2.rd (l + j * n + m * |s| * n) = some v ∧ 0 ≤ u ∧ 0 ≤ v ∧
          u * u * (((l:K)+2*j+m+2)*((l:K)+2*j+2*m+2)) = ((l:K)+1)*((l:K)+m+1) ∧ u * u + v * v = 1) := by
  obtain ⟨P, e, T⟩ := planSpin_spec (K := K) n s hn _ _ _ _
  refine ⟨P, e, T.hn, T.hs, ?_, ?_⟩
  · intro l m h1 h2 h3 h4
    have hr := idx1_range h1 h2 h3 (by omega : l < n)
    obtain ⟨a, b⟩ := T.val1 l m h1 h2 h3 h4
    have hl : (0:K) ≤ (l:K) := by exact_mod_cast h3
    have hm : (0:K) ≤ (m:K) := by exact_mod_cast h1
    have hd : (0:K) < (((l+2*m+3)*(l+2*m+4) : Int) : K) := by push_cast; positivity
    have ha : (0:K) ≤ (((l+1)*(l+2) : Int) : K) := by push_cast; positivity
    have hb : (0:K) ≤ (((2*m+2)*(2*l+2*m+5) : Int) : K) := by push_cast; positivity
    refine ⟨_, _, Buf.rd_of hr.1 (by rw [T.sz1.1]; exact hr.2), Buf.rd_of hr.1 (by rw [T.sz1.2]; exact hr.2), ?_⟩
    rw [a, b]
    have qa := hq _ (div_nonneg ha hd.le)
    have qb := hq _ (div_nonneg hb hd.le)
    refine ⟨qa.1, qb.1, ?_, unit_of_sqrt hq ha hb hd (by push_cast; ring)⟩
    rw [qa.2]; push_cast at hd ⊢; field_simp
  · intro l j m h1 h2 h5 h6 h3 h4
    have hr := idx2_range h5 h6 h3 (by omega : l < n) h1 h2
    obtain ⟨a, b⟩ := T.val2 l j m h1 h2 h5 h6 h3 h4
    have hl : (0:K) ≤ (l:K) := by exact_mod_cast h3
    have hm : (0:K) ≤ (m:K) := by exact_mod_cast h1
    have hj : (0:K) ≤ (j:K) := by exact_mod_cast h5
    have hd : (0:K) < (((l+2*j+m+2)*(l+2*j+2*m+2) : Int) : K) := by push_cast; positivity
    have ha : (0:K) ≤ (((l+1)*(l+m+1) : Int) : K) := by push_cast; positivity
    have hb : (0:K) ≤ (((2*j+m+1)*(2*l+2*j+2*m+3) : Int) : K) := by push_cast; positivity
    refine ⟨_, _, Buf.rd_of hr.1 (by rw [T.sz2.1]; exact hr.2), Buf.rd_of hr.1 (by rw [T.sz2.2]; exact hr.2), ?_⟩
    rw [a, b]
    have qa := hq _ (div_nonneg ha hd.le)
    have qb := hq _ (div_nonneg hb hd.le)
    refine ⟨qa.1, qb.1, ?_, unit_of_sqrt hq ha hb hd (by push_cast; ring)⟩
    rw [qa.2]; push_cast at hd ⊢; field_simp

end

/-! ## C07: table positions -/

/-- C07: the triangular position map is a bijection from `{(l,m) : 0 ≤ m < n, 0 ≤ l < n-m}` onto the allocated range
`0 … n(n+1)/2 - 1`. -/
theorem C07_triangular_index_bijective (n : Int) (hn : 0 ≤ n) :
    (∀ l m, 0 ≤ m → m < n → 0 ≤ l → l < n - m → 0 ≤ sIdx n l m ∧ sIdx n l m < n * (n + 1) / 2) ∧
    (∀ l m l' m', 0 ≤ m → m < n → 0 ≤ l → l < n - m → 0 ≤ m' → m' < n → 0 ≤ l' → l' < n - m' →
      sIdx n l m = sIdx n l' m' → l = l' ∧ m = m') ∧
    (∀ i, 0 ≤ i → i < n * (n + 1) / 2 → ∃ l m, 0 ≤ m ∧ m < n ∧ 0 ≤ l ∧ l < n - m ∧ sIdx n l m = i) := by
  refine ⟨fun l m a b c d => sIdx_range a b c d, fun l m l' m' a b c d a' b' c' d' e => sIdx_inj a b c d a' b' c' d' e, ?_⟩
  intro i h0 h1
  obtain ⟨l, m, a, b, c, d, e⟩ := offs_surj (D := fun m => m * (2 * n + 1 - m) / 2) (rows := fun m => n - m) (M := n) hn
    (fun m _ _ => tri_off n m) (i := i) (by simpa using h0) (by
      show i < n * (2 * n + 1 - n) / 2
      rw [show n * (2 * n + 1 - n) = n * (n + 1) by ring]; exact h1)
  exact ⟨l, m, a, b, c, d, e.symm⟩

/-- C07: the disk position map is a bijection from `{(l,m) : 0 ≤ m < 2n-1, 0 ≤ l < n-⌊(m+1)/2⌋}` onto `0 … n²-1`. -/
theorem C07_disk_index_bijective (n : Int) (hn : 1 ≤ n) :
    (∀ l m, 0 ≤ m → m < 2 * n - 1 → 0 ≤ l → l < n - (m + 1) / 2 → 0 ≤ sdIdx n l m ∧ sdIdx n l m < n * n) ∧
    (∀ l m l' m', 0 ≤ m → m < 2 * n - 1 → 0 ≤ l → l < n - (m + 1) / 2 → 0 ≤ m' → m' < 2 * n - 1 → 0 ≤ l' →
      l' < n - (m' + 1) / 2 → sdIdx n l m = sdIdx n l' m' → l = l' ∧ m = m') ∧
    (∀ i, 0 ≤ i → i < n * n → ∃ l m, 0 ≤ m ∧ m < 2 * n - 1 ∧ 0 ≤ l ∧ l < n - (m + 1) / 2 ∧ sdIdx n l m = i) := by
  refine ⟨fun l m a b c d => sdIdx_range a b c d, fun l m l' m' a b c d a' b' c' d' e => sdIdx_inj a b c d a' b' c' d' e, ?_⟩
  intro i h0 h1
  obtain ⟨l, m, a, b, c, d, e⟩ := offs_surj (D := fun m => m * n - (m / 2) * ((m + 1) / 2)) (rows := fun m => n - (m + 1) / 2)
    (M := 2 * n - 1) (by omega) (fun m _ _ => disk_off n m) (i := i) (by simpa using h0) (by
      show i < (2 * n - 1) * n - ((2 * n - 1) / 2) * ((2 * n - 1 + 1) / 2)
      rw [show (2 * n - 1) / 2 = n - 1 by omega, show (2 * n - 1 + 1) / 2 = n by omega,
        show (2 * n - 1) * n - (n - 1) * n = n * n by ring]; exact h1)
  exact ⟨l, m, a, b, c, d, by unfold sdIdx; omega⟩

section
variable {K : Type*} [CommRing K]

/-- The four geometries that share the loop structure `kernelHi2lo` / `kernelLo2hi`. -/
def IsGeom (G : Geom) : Prop := G = geomSph ∨ G = geomTri ∨ G = geomDisk ∨ G = geomRect

theorem isGeom_ok {G : Geom} (h : IsGeom G) : GeomOK G := by
  rcases h with rfl | rfl | rfl | rfl
  · exact geomSph_ok
  · exact geomTri_ok
  · exact geomDisk_ok
  · exact geomRect_ok

/-- Number of table entries the planner of a geometry allocates: `n*(n+1)/2` (src/rotations.c L117-118, L144-145, L271-272) or,
for the disk (the only geometry with order step 2 and row gap 1), `n*n` (src/rotations.c L174-175). -/
def tableSize (G : Geom) (n : Int) : Int := if G.jst = 2 ∧ G.g = 1 then n * n else n * (n + 1) / 2

theorem inB_of_size {G : Geom} (h : IsGeom G) {RP : RotPlan K} (hs : tableSize G RP.n ≤ RP.s.size)
    (hc : tableSize G RP.n ≤ RP.c.size) : InB G RP := by
  constructor
  intro k j hj hk hk'
  rcases h with rfl | rfl | rfl | rfl
  · simp only [geomSph, tableSize] at *
    norm_num at hs hc
    have := sIdx_range (n := RP.n) hj (by omega) hk (by omega)
    omega
  · simp only [geomTri, tableSize] at *
    norm_num at hs hc
    have := sIdx_range (n := RP.n) hj (by omega) hk (by omega)
    omega
  · simp only [geomDisk, tableSize] at *
    norm_num at hs hc
    have := sdIdx_range (n := RP.n) hj (by omega) hk (by omega)
    omega
  · simp only [geomRect, tableSize] at *
    norm_num at hs hc
    have := sIdx_range (n := RP.n) hj (by omega) hk (by omega)
    omega

/-- C07: with tables of the size the planner allocates (and any contents), both kernels make no access outside the
tables or outside the column of `n` entries with offset `o` and stride `S`, for all orders `m1 ≥ 0` and all `m2`, and
they change nothing outside the column. -/
theorem C07_kernels_in_bounds {G : Geom} (hG : IsGeom G) (RP : RotPlan K) (hs : tableSize G RP.n ≤ RP.s.size)
    (hc : tableSize G RP.n ≤ RP.c.size) (m1 m2 o S : Int) (hm : 0 ≤ m1) (A : Buf K) (hS : 0 < S) (ho : 0 ≤ o)
    (hA : o + (RP.n - 1) * S < A.size) :
    (∃ A', kernelHi2lo G RP m1 m2 o S A = some A' ∧ A'.size = A.size ∧
      ∀ i, (∀ k, 0 ≤ k → k < RP.n → i ≠ o + k * S) → A'.val i = A.val i) ∧
    (∃ A', kernelLo2hi G RP m1 m2 o S A = some A' ∧ A'.size = A.size ∧
      ∀ i, (∀ k, 0 ≤ k → k < RP.n → i ≠ o + k * S) → A'.val i = A.val i) := by
  have hI := inB_of_size hG hs hc
  have hF : Fits RP.n o S A := ⟨hS, ho, hA⟩
  constructor
  · obtain ⟨A', e, h⟩ := kernelHi2lo_total (m2 := m2) (isGeom_ok hG) hI hm hF
    exact ⟨A', e, h, fun i hi => kernelHi2lo_frame (isGeom_ok hG) hI hm hF e i (fun k a b => hi k a (by omega))⟩
  · obtain ⟨A', e, h⟩ := kernelLo2hi_total (m2 := m2) (isGeom_ok hG) hI hm hF
    exact ⟨A', e, h, fun i hi => kernelLo2hi_frame (isGeom_ok hG) hI hm hF e i (fun k a b => hi k a (by omega))⟩

/-- Every entry of the tables that can be addressed is a rotation. -/
def UnitTables (G : Geom) (RP : RotPlan K) : Prop :=
  ∀ i : Int, 0 ≤ i → i < tableSize G RP.n → RP.s.val i * RP.s.val i + RP.c.val i * RP.c.val i = 1

theorem good_of_unit {G : Geom} (h : IsGeom G) {RP : RotPlan K} (hs : tableSize G RP.n ≤ RP.s.size)
    (hc : tableSize G RP.n ≤ RP.c.size) (hu : UnitTables G RP) : Good G RP := by
  refine ⟨inB_of_size h hs hc, ?_⟩
  intro k j hj hk hk'
  apply hu
  · exact ((inB_of_size h hs hc).inb k j hj hk hk').1
  · have hsz : (⟨⟨(tableSize G RP.n).toNat, RP.s.val⟩, ⟨(tableSize G RP.n).toNat, RP.c.val⟩, RP.n⟩ : RotPlan K).n = RP.n := rfl
    have h1 := ((inB_of_size (RP := (⟨⟨(tableSize G RP.n).toNat, RP.s.val⟩,
      ⟨(tableSize G RP.n).toNat, RP.c.val⟩, RP.n⟩ : RotPlan K)) h (Int.self_le_toNat _) (Int.self_le_toNat _)).inb k j hj hk hk')
    have h2 := h1.2.1
    have h0 := h1.1
    simp only at h2 h0
    rcases le_or_gt 0 (tableSize G RP.n) with hp | hp
    · rwa [Int.toNat_of_nonneg hp] at h2
    · rw [Int.toNat_of_nonpos hp.le] at h2; exfalso; simp only [Nat.cast_zero] at h2; omega

/-! ## C04: the two directions are inverse -/

/-- C04: for all tables of rotations, all sizes, all orders `0 ≤ m1`, `m2` with `m2 - m1` a multiple of the order step,
every stride and offset and every array, `lo2hi` returns exactly the array `hi2lo` started from, and conversely. -/
theorem C04_kernels_inverse {G : Geom} (hG : IsGeom G) (RP : RotPlan K) (hs : tableSize G RP.n ≤ RP.s.size)
    (hc : tableSize G RP.n ≤ RP.c.size) (hu : UnitTables G RP) (m1 m2 o S : Int) (hm : 0 ≤ m1) (hd : G.jst ∣ m2 - m1)
    (A : Buf K) (hS : 0 < S) (ho : 0 ≤ o) (hA : o + (RP.n - 1) * S < A.size) :
    (∃ A', kernelHi2lo G RP m1 m2 o S A = some A' ∧ kernelLo2hi G RP m1 m2 o S A' = some A) ∧
    (∃ A', kernelLo2hi G RP m1 m2 o S A = some A' ∧ kernelHi2lo G RP m1 m2 o S A' = some A) := by
  have hg := good_of_unit hG hs hc hu
  constructor
  · obtain ⟨A', e, -, e'⟩ := kernel_roundtrip (isGeom_ok hG) hg hm hd (A := A) ⟨hS, ho, hA⟩
    exact ⟨A', e, e'⟩
  · obtain ⟨A', e, -, e'⟩ := kernel_roundtrip' (isGeom_ok hG) hg hm hd (A := A) ⟨hS, ho, hA⟩
    exact ⟨A', e, e'⟩

/-- Tables of the rotation by a right angle; every entry satisfies `s² + c² = 1`. -/
def quarterTurn (n : Int) (sz : Nat) : RotPlan Int := ⟨⟨sz, fun _ => 1⟩, ⟨sz, fun _ => 0⟩, n⟩

/-- The hypotheses are satisfiable and the kernels do something. -/
example : (kernelHi2lo geomSph (quarterTurn 4 10) 0 2 0 1 (Buf.ofList [1, 2, 3, 4])).map Buf.toList = some [3, 4, -1, -2] ∧
    ((kernelHi2lo geomSph (quarterTurn 4 10) 0 2 0 1 (Buf.ofList [1, 2, 3, 4])).bind
      (kernelLo2hi geomSph (quarterTurn 4 10) 0 2 0 1)).map Buf.toList = some [1, 2, 3, 4] := by decide

example : IsGeom geomDisk ∧ tableSize geomDisk (quarterTurn 4 16).n ≤ (quarterTurn 4 16).s.size ∧
    UnitTables geomDisk (quarterTurn 4 16) := by
  refine ⟨Or.inr (Or.inr (Or.inl rfl)), by decide, fun i _ _ => rfl⟩

/-- C04: the parity condition cannot be dropped: for the sphere with `m2 - m1` odd the two kernels visit different
orders and the round trip changes the data. -/
theorem C04_odd_gap_not_inverse :
    ((kernelHi2lo geomSph (quarterTurn 4 10) 0 3 0 1 (Buf.ofList [1, 2, 3, 4])).bind
      (kernelLo2hi geomSph (quarterTurn 4 10) 0 3 0 1)).map Buf.toList ≠ some [1, 2, 3, 4] := by decide

/-- C04, tetrahedron: the two kernels are inverse to each other for every `L ≤ n + 1`, every `m`, every array with room
for `L` columns of `n` entries. -/
theorem C04_tet_inverse (RP : RotPlan K) (hn : 0 ≤ RP.n) (hs : RP.n * (RP.n + 1) / 2 ≤ RP.s.size)
    (hc : RP.n * (RP.n + 1) / 2 ≤ RP.c.size)
    (hu : ∀ i : Int, 0 ≤ i → i < RP.n * (RP.n + 1) / 2 → RP.s.val i * RP.s.val i + RP.c.val i * RP.c.val i = 1)
    (L m o : Int) (hL : L ≤ RP.n + 1) (ho : 0 ≤ o) (A : Buf K) (hA : o + RP.n * L ≤ A.size) :
    (∃ A', kernelTetHi2lo RP L m o A = some A' ∧ kernelTetLo2hi RP L m o A' = some A) ∧
    (∃ A', kernelTetLo2hi RP L m o A = some A' ∧ kernelTetHi2lo RP L m o A' = some A) := by
  apply tet_roundtrip _ hn ho hA
  constructor
  · intro l j hj hl hl'
    have := sIdx_range (n := RP.n) hj (by omega) hl (by omega)
    omega
  · intro l j hj hl hl'
    have := sIdx_range (n := RP.n) hj (by omega) hl (by omega)
    exact hu _ this.1 this.2

example : (kernelTetHi2lo (quarterTurn 2 3) 3 2 0 (Buf.ofList [1, 2, 3, 4, 5, 6])).map Buf.toList
    = some [5, 6, -3, -4, 1, 2] := by decide

/-- C05: `hi2lo` preserves all inner products of columns (hence the norm), and `lo2hi` is its adjoint. -/
theorem C05_kernels_orthogonal {G : Geom} (hG : IsGeom G) (RP : RotPlan K) (hs : tableSize G RP.n ≤ RP.s.size)
    (hc : tableSize G RP.n ≤ RP.c.size) (hu : UnitTables G RP) (m1 m2 o S : Int) (hm : 0 ≤ m1) (hd : G.jst ∣ m2 - m1)
    (A B : Buf K) (hS : 0 < S) (ho : 0 ≤ o) (hA : o + (RP.n - 1) * S < A.size) (hB : o + (RP.n - 1) * S < B.size) :
    ∃ A' B' C, kernelHi2lo G RP m1 m2 o S A = some A' ∧ kernelHi2lo G RP m1 m2 o S B = some B' ∧
      kernelLo2hi G RP m1 m2 o S B = some C ∧
      (Finset.range RP.n.toNat).sum (fun k : Nat => A'.val (o + k * S) * B'.val (o + k * S)) =
        (Finset.range RP.n.toNat).sum (fun k : Nat => A.val (o + k * S) * B.val (o + k * S)) ∧
      (Finset.range RP.n.toNat).sum (fun k : Nat => A'.val (o + k * S) * B.val (o + k * S)) =
        (Finset.range RP.n.toNat).sum (fun k : Nat => A.val (o + k * S) * C.val (o + k * S)) := by
  have hg := good_of_unit hG hs hc hu
  have hG' := isGeom_ok hG
  have sum_rows : ∀ v w : Int → K, dotOn (rows RP.n o S) v w =
      (Finset.range RP.n.toNat).sum (fun k : Nat => v (o + k * S) * w (o + k * S)) := by
    intro v w
    unfold dotOn rows
    rw [Finset.sum_image]
    intro a _ b _ e
    have : (a : Int) * S = b * S := by simpa using e
    exact_mod_cast Int.eq_of_mul_eq_mul_right (by omega) this
  obtain ⟨A', eA, -⟩ := kernelHi2lo_total (m2 := m2) hG' hg.toInB hm (A := A) ⟨hS, ho, hA⟩
  obtain ⟨B', eB, -⟩ := kernelHi2lo_total (m2 := m2) hG' hg.toInB hm (A := B) ⟨hS, ho, hB⟩
  obtain ⟨C, eC, -⟩ := kernelLo2hi_total (m2 := m2) hG' hg.toInB hm (A := B) ⟨hS, ho, hB⟩
  refine ⟨A', B', C, eA, eB, eC, ?_, ?_⟩
  · rw [← sum_rows, ← sum_rows]
    exact kernelHi2lo_dot hG' hg hm ⟨hS, ho, hA⟩ ⟨hS, ho, hB⟩ eA eB
  · rw [← sum_rows, ← sum_rows]
    exact kernel_adjoint hG' hg hm hd ⟨hS, ho, hA⟩ ⟨hS, ho, hB⟩ eA eC

end

/-! ## Planner and kernel together -/

section
variable {K : Type*} [Field K] [LinearOrder K] [IsStrictOrderedRing K] {sqrt : K → K}

/-- C04, sphere, end to end: with the tables `ft_plan_rotsphere(n)` produces, whatever uninitialised memory contained. -/
theorem C04_sphere_plan_inverse (hq : IsSqrt sqrt) (n : Int) (hn : 0 ≤ n) (junk : Int → K) (m1 m2 o S : Int) (hm : 0 ≤ m1)
    (hd : 2 ∣ m2 - m1) (A : Buf K) (hS : 0 < S) (ho : 0 ≤ o) (hA : o + (n - 1) * S < A.size) :
    ∃ RP, planRotsphere sqrt n junk = some RP ∧
      ∃ A', kernelHi2lo geomSph RP m1 m2 o S A = some A' ∧ kernelLo2hi geomSph RP m1 m2 o S A' = some A := by
  obtain ⟨RP, e, T⟩ := planTri_spec (K := K) n hn _ _ junk
  refine ⟨RP, e, ?_⟩
  have hg : Good geomSph RP := T.good rfl (by simp only [geomSph]; intros; omega) (by
    intro l m h1 h2 h3 h4
    have hl : (0:K) ≤ (l:K) := by exact_mod_cast h3
    have hm : (0:K) ≤ (m:K) := by exact_mod_cast h1
    exact unit_of_sqrt hq (by push_cast; positivity) (by push_cast; positivity) (by push_cast; positivity) (by push_cast; ring))
  obtain ⟨A', e1, -, e2⟩ := kernel_roundtrip geomSph_ok hg hm hd (A := A) (o := o) (S := S) ⟨hS, ho, by rw [T.hn]; exact hA⟩
  exact ⟨A', e1, e2⟩

/-- C04, triangle, end to end. -/
theorem C04_triangle_plan_inverse (hq : IsSqrt sqrt) (n : Int) (hn : 0 ≤ n) (α β γ : K) (hα : -1 < α) (hβ : -1 < β)
    (hγ : -1 < γ) (junk : Int → K) (m1 m2 o S : Int) (hm : 0 ≤ m1)
    (A : Buf K) (hS : 0 < S) (ho : 0 ≤ o) (hA : o + (n - 1) * S < A.size) :
    ∃ RP, planRottriangle sqrt n α β γ junk = some RP ∧
      ∃ A', kernelHi2lo geomTri RP m1 m2 o S A = some A' ∧ kernelLo2hi geomTri RP m1 m2 o S A' = some A := by
  obtain ⟨RP, e, T⟩ := planTri_spec (K := K) n hn _ _ junk
  refine ⟨RP, e, ?_⟩
  have hg : Good geomTri RP := T.good rfl (by simp only [geomTri]; intros; omega) (by
    intro l m h1 h2 h3 h4
    have hl : (0:K) ≤ (l:K) := by exact_mod_cast h3
    have hm : (0:K) ≤ (m:K) := by exact_mod_cast h1
    exact unit_of_sqrt hq (mul_nonneg (by linarith) (by linarith)) (mul_nonneg (by linarith) (by linarith))
      (mul_pos (by linarith) (by linarith)) (by ring))
  obtain ⟨A', e1, -, e2⟩ := kernel_roundtrip geomTri_ok hg hm (Int.one_dvd (m2 - m1)) (A := A) (o := o) (S := S)
    ⟨hS, ho, by rw [T.hn]; exact hA⟩
  exact ⟨A', e1, e2⟩

/-- C04, disk, end to end. -/
theorem C04_disk_plan_inverse (hq : IsSqrt sqrt) (n : Int) (hn : 0 ≤ n) (α β : K) (hα : -1 < α) (hβ : -1 < β)
    (junk : Int → K) (m1 m2 o S : Int) (hm : 0 ≤ m1) (hd : 2 ∣ m2 - m1)
    (A : Buf K) (hS : 0 < S) (ho : 0 ≤ o) (hA : o + (n - 1) * S < A.size) :
    ∃ RP, planRotdisk sqrt n α β junk = some RP ∧
      ∃ A', kernelHi2lo geomDisk RP m1 m2 o S A = some A' ∧ kernelLo2hi geomDisk RP m1 m2 o S A' = some A := by
  obtain ⟨RP, e, T⟩ := planDisk_spec (K := K) n hn _ _ junk
  refine ⟨RP, e, ?_⟩
  have hg : Good geomDisk RP := T.good (by
    intro l m h1 h2 h3 h4
    have hl : (0:K) ≤ (l:K) := by exact_mod_cast h3
    have hm : (0:K) ≤ (m:K) := by exact_mod_cast h1
    rw [neg_mul_neg]
    exact unit_of_sqrt hq (mul_nonneg (by linarith) (by linarith)) (mul_nonneg (by linarith) (by linarith))
      (mul_pos (by linarith) (by linarith)) (by ring))
  obtain ⟨A', e1, -, e2⟩ := kernel_roundtrip geomDisk_ok hg hm hd (A := A) (o := o) (S := S)
    ⟨hS, ho, by rw [T.hn]; exact hA⟩
  exact ⟨A', e1, e2⟩

/-- C04, rectangularized disk, end to end. -/
theorem C04_rectdisk_plan_inverse (hq : IsSqrt sqrt) (n : Int) (hn : 0 ≤ n) (β : K) (hβ : -1 < β)
    (junk : Int → K) (m1 m2 o S : Int) (hm : 0 ≤ m1) (hd : 2 ∣ m2 - m1)
    (A : Buf K) (hS : 0 < S) (ho : 0 ≤ o) (hA : o + (n - 1) * S < A.size) :
    ∃ RP, planRotrectdisk sqrt n β junk = some RP ∧
      ∃ A', kernelHi2lo geomRect RP m1 m2 o S A = some A' ∧ kernelLo2hi geomRect RP m1 m2 o S A' = some A := by
  obtain ⟨RP, e, T⟩ := planTri_spec (K := K) n hn _ _ junk
  refine ⟨RP, e, ?_⟩
  have hg : Good geomRect RP := T.good rfl (by simp only [geomRect]; intros; omega) (by
    intro l m h1 h2 h3 h4
    have hl : (0:K) ≤ (l:K) := by exact_mod_cast h3
    have hm : (0:K) ≤ (m:K) := by exact_mod_cast h1
    exact unit_of_sqrt hq (by push_cast; positivity) (mul_nonneg (by linarith) (by linarith))
      (mul_pos (by linarith) (by linarith)) (by push_cast; ring))
  obtain ⟨A', e1, -, e2⟩ := kernel_roundtrip geomRect_ok hg hm hd (A := A) (o := o) (S := S)
    ⟨hS, ho, by rw [T.hn]; exact hA⟩
  exact ⟨A', e1, e2⟩

/-- C04, spin-weighted sphere, end to end: for every spin, every order of either sign and every column of `n` complex
entries, both directions are defined and inverse to each other. -/
theorem C04_spinsphere_plan_inverse (hq : IsSqrt sqrt) (n s : Int) (hn : 0 ≤ n) (m o S : Int) (A : Buf K) (hS : 0 < S)
    (ho : 0 ≤ o) (hA : 2 * (o + (n - 1) * S) + 1 < A.size) :
    ∃ P, planRotspinsphere sqrt n s = some P ∧
      (∃ A', kernelSpinHi2lo P m o S A = some A' ∧ kernelSpinLo2hi P m o S A' = some A) ∧
      (∃ A', kernelSpinLo2hi P m o S A = some A' ∧ kernelSpinHi2lo P m o S A' = some A) := by
  obtain ⟨P, e, T⟩ := planSpin_spec (K := K) n s hn _ _ _ _
  refine ⟨P, e, ?_⟩
  have hg : SpinGood P := T.good (by
    intro l m h1 h2 h3 h4
    have hl : (0:K) ≤ (l:K) := by exact_mod_cast h3
    have hm : (0:K) ≤ (m:K) := by exact_mod_cast h1
    exact unit_of_sqrt hq (by push_cast; positivity) (by push_cast; positivity) (by push_cast; positivity) (by push_cast; ring))
    (by
    intro l j m h1 h2 h5 h6 h3 h4
    have hl : (0:K) ≤ (l:K) := by exact_mod_cast h3
    have hm : (0:K) ≤ (m:K) := by exact_mod_cast h1
    have hj : (0:K) ≤ (j:K) := by exact_mod_cast h5
    exact unit_of_sqrt hq (by push_cast; positivity) (by push_cast; positivity) (by push_cast; positivity) (by push_cast; ring))
  exact spin_roundtrip hg ⟨hS, ho, by rw [T.hn]; exact hA⟩

/-- C04, tetrahedron, end to end: with the triangle tables the tetrahedral plan uses. -/
theorem C04_tetrahedron_plan_inverse (hq : IsSqrt sqrt) (n : Int) (hn : 0 ≤ n) (α β γ : K) (hα : -1 < α) (hβ : -1 < β)
    (hγ : -1 < γ) (junk : Int → K) (L m o : Int) (hL : L ≤ n + 1) (ho : 0 ≤ o) (A : Buf K) (hA : o + n * L ≤ A.size) :
    ∃ RP, planRottriangle sqrt n α β γ junk = some RP ∧
      ∃ A', kernelTetHi2lo RP L m o A = some A' ∧ kernelTetLo2hi RP L m o A' = some A := by
  obtain ⟨RP, e, T⟩ := planTri_spec (K := K) n hn _ _ junk
  refine ⟨RP, e, ?_⟩
  have hg : TetGood RP L := by
    constructor
    · intro l j hj hl hl'
      rw [T.hn, T.ssz, T.csz]
      have := sIdx_range (n := n) hj (by omega) hl (by omega)
      omega
    · intro l j hj hl hl'
      obtain ⟨a, b⟩ := T.val l j hj (by omega) hl (by omega)
      rw [T.hn, a, b]
      have hl : (0:K) ≤ (l:K) := by exact_mod_cast hl
      have hm : (0:K) ≤ (j:K) := by exact_mod_cast hj
      exact unit_of_sqrt hq (mul_nonneg (by linarith) (by linarith)) (mul_nonneg (by linarith) (by linarith))
        (mul_pos (by linarith) (by linarith)) (by ring)
  obtain ⟨⟨A', e1, e2⟩, -⟩ := tet_roundtrip (m := m) hg (by rw [T.hn]; exact hn) ho (A := A) (by rw [T.hn]; exact hA)
  exact ⟨A', e1, e2⟩

/-- The hypotheses of the end-to-end theorems hold for a concrete case over the reals. -/
example : ∃ RP, planRotsphere Real.sqrt 3 (fun _ => 7) = some RP ∧ ∃ A', kernelHi2lo geomSph RP 0 2 1 2
    ⟨6, fun i => (i : ℝ)⟩ = some A' ∧ kernelLo2hi geomSph RP 0 2 1 2 A' = some ⟨6, fun i => (i : ℝ)⟩ :=
  C04_sphere_plan_inverse (fun x hx => ⟨Real.sqrt_nonneg x, Real.mul_self_sqrt hx⟩) 3 (by omega) _ 0 2 1 2 (by omega)
    ⟨1, by omega⟩ _ (by omega) (by omega) (by norm_num)

end

end FT.Props
