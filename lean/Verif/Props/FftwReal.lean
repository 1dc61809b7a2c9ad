import Verif.Props.Fftw
import Verif.Lemmas.Cosine

/-!
# C41, C57, C58 over the reals, with the transforms of the FFTW manual

`Kernel` states that a program evaluates a linear map whose entries are given by an explicit formula; the
formulas are written out in `sphMode`, `diskMode`, … in terms of the points of the grid.
-/

namespace FT.Props
open FT FT.Model FT.Fftw Real
set_option linter.unusedSectionVars false

/-! ## The documented formulas satisfy the contract of C41 -/

theorem lineInverse_of {n : Int} (hn : 0 < n) {A B : Int → Int → ℝ} {f g : Line ℝ} (hf : MatOf n A f) (hg : MatOf n B g)
    (h : ∀ i l, 0 ≤ i → i < n → 0 ≤ l → l < n → ∑ j ∈ Finset.Ico 0 n, B i j * A j l = if i = l then ((2 * n : Int) : ℝ) else 0) :
    LineInverse n ((2 * n : Int) : ℝ) f g ∧ LineInverse n ((2 * n : Int) : ℝ) g f := by
  have hk : ((2 * n : Int) : ℝ) ≠ 0 := by exact_mod_cast (by omega : 2 * n ≠ 0)
  exact ⟨⟨hf.local, hg.local, fun t x i i0 i1 => hg.hom t x i0 i1, fun x i i0 i1 => inv_apply hf hg h x i0 i1⟩,
    ⟨hg.local, hf.local, fun t x i i0 i1 => hf.hom t x i0 i1, fun x i i0 i1 => inv_apply hg hf (fun i l i0 i1 l0 l1 => inverse_comm hn.le hk h i0 i1 l0 l1) x i0 i1⟩⟩

theorem redft_pair {n : Int} (hn : 0 < n) : LineInverse n ((2 * n : Int) : ℝ) (redft01 n) (redft10 n) ∧ LineInverse n ((2 * n : Int) : ℝ) (redft10 n) (redft01 n) :=
  lineInverse_of hn (redft01_mat hn) (redft10_mat n) (redft_orth hn)

theorem rodft_pair {n : Int} (hn : 0 < n) : LineInverse n ((2 * n : Int) : ℝ) (rodft01 n) (rodft10 n) ∧ LineInverse n ((2 * n : Int) : ℝ) (rodft10 n) (rodft01 n) :=
  lineInverse_of hn (rodft01_mat hn) (rodft10_mat n) (rodft_orth hn)

theorem redft11_pair {n : Int} (hn : 0 < n) : LineInverse n ((2 * n : Int) : ℝ) (redft11 n) (redft11 n) :=
  (lineInverse_of hn (redft11_mat n) (redft11_mat n) (redft11_orth hn)).1

theorem cos_pair {n : Int} (hn : 0 < n) : CosPair n (redft01 n) (redft10 n) :=
  ⟨⟨_, redft01_mat hn⟩, ⟨_, redft10_mat n⟩, (redft_pair hn).1.inv, (redft_pair hn).2.inv⟩

theorem row_pair {M : Int} (hM : 0 < M) (ho : M % 2 = 1) : RowInverse M (M : ℝ) (hc2r M) (r2hc M) where
  locg := by
    intro z z' h h' c c0 c1
    unfold hc2r
    rw [h 0 le_rfl (by omega)]
    congr 2
    exact sum_Ico_congr fun j j0 j1 => by rw [h j (by omega) j1, h' j j0 j1]
  loch := by
    intro x x' h j j0 j1
    unfold r2hc
    rw [sum_Ico_congr (g := fun c : Int => x' c * cos (2 * π * j * c / M)) fun c c0 c1 => by rw [h c c0 c1],
      sum_Ico_congr (f := fun c : Int => x c * sin (2 * π * j * c / M)) (g := fun c : Int => x' c * sin (2 * π * j * c / M)) fun c c0 c1 => by rw [h c c0 c1]]
  homg := by
    intro t z c c0 c1
    unfold hc2r
    dsimp only
    rw [mul_add, ← mul_assoc t 2, mul_comm t 2, mul_assoc 2 t, Finset.mul_sum (a := t)]
    congr 2
    exact Finset.sum_congr rfl fun j _ => by ring
  homh := by
    intro t x j j0 j1
    unfold r2hc
    dsimp only
    rw [Finset.mul_sum, mul_neg, Finset.mul_sum]
    refine Prod.ext ?_ ?_ <;> dsimp only
    · exact Finset.sum_congr rfl fun c _ => by ring
    · congr 1; exact Finset.sum_congr rfl fun c _ => by ring
  re := fun z _ j0 j1 => r2hc_hc2r_re hM ho z j0 j1
  im := fun z _ j0 j1 => r2hc_hc2r_im hM ho z j0 j1
  gh := fun x _ c0 c1 => hc2r_r2hc hM ho x c0 c1

theorem dft_local (s : ℝ) (M : Int) : LocalD M (dft s M) := by
  intro z z' h c _ _
  unfold dft
  refine Prod.ext ?_ ?_ <;> dsimp only <;> exact sum_Ico_congr fun j j0 j1 => by rw [h j j0 j1]

theorem dft_hom (s : ℝ) (M : Int) (t : ℝ) (z : Int → ℝ × ℝ) (c : Int) : dft s M (fun j => (t * (z j).1, t * (z j).2)) c = (t * (dft s M z c).1, t * (dft s M z c).2) := by
  unfold dft
  refine Prod.ext ?_ ?_ <;> dsimp only <;> rw [Finset.mul_sum] <;> exact Finset.sum_congr rfl fun j _ => by ring

theorem dft_pair {M : Int} (hM : 0 < M) : DftInverse M (M : ℝ) (dft 1 M) (dft (-1) M) ∧ DftInverse M (M : ℝ) (dft (-1) M) (dft 1 M) :=
  ⟨⟨dft_local _ _, dft_local _ _, fun t z c _ _ => dft_hom _ _ t z c, fun z _ c0 c1 => dft_dft hM (by norm_num) (by norm_num) z c0 c1⟩,
   ⟨dft_local _ _, dft_local _ _, fun t z c _ _ => dft_hom _ _ t z c, fun z _ c0 c1 => dft_dft hM (by norm_num) (by norm_num) z c0 c1⟩⟩

theorem sqrt_pi_ne : √π ≠ 0 := (Real.sqrt_pos.2 pi_pos).ne'
theorem sqrt_two_pi_ne : √(2 * π) ≠ 0 := (Real.sqrt_pos.2 (by positivity)).ne'

theorem consts_ok : ConstOk consts where
  q4 := by have := sqrt_pi_ne; unfold consts; field_simp
  q2 := by have := sqrt_pi_ne; unfold consts; field_simp
  r2 := by have := sqrt_two_pi_ne; unfold consts; field_simp
  s2 := by unfold consts; field_simp

section
variable {N M : Int} (hN : 0 < N) (hM0 : 0 < M) (hM : M % 2 = 1)
include hN hM0 hM

theorem sph_pair : PlanPair N M (sphS N M) (sphA N M) :=
  ⟨(redft_pair hN).1, (redft_pair hN).2, (rodft_pair hN).1, (rodft_pair hN).2, _, _, rfl, rfl, row_pair hM0 hM⟩

theorem sphv_pair : PlanPair N M (sphvS N M) (sphvA N M) :=
  ⟨(rodft_pair hN).1, (rodft_pair hN).2, (redft_pair hN).1, (redft_pair hN).2, _, _, rfl, rfl, row_pair hM0 hM⟩

theorem disk_pair : PlanPair N M (diskS N M) (diskA N M) :=
  ⟨(redft_pair hN).1, (redft_pair hN).2, redft11_pair hN, redft11_pair hN, _, _, rfl, rfl, row_pair hM0 hM⟩

theorem rect_pair : RectPair N M (rectS N M) (rectA N M) :=
  ⟨(redft_pair hN).1, (redft_pair hN).2, (rodft_pair hN).1, (rodft_pair hN).2, (redft_pair hM0).1, (redft_pair hM0).2⟩

theorem spin_pair (S : Int) : SpinPair N M (spinS S N M) (spinA S N M) := by
  unfold spinS spinA
  split_ifs
  · exact ⟨rfl, (redft_pair hN).1, (redft_pair hN).2, (rodft_pair hN).1, (rodft_pair hN).2, (dft_pair hM0).1, (dft_pair hM0).2⟩
  · exact ⟨rfl, (rodft_pair hN).1, (rodft_pair hN).2, (redft_pair hN).1, (redft_pair hN).2, (dft_pair hM0).1, (dft_pair hM0).2⟩

end

/-- The weight of the annulus is `√(2 / (1 - ρ²)) r` at the radius of the grid point. -/
theorem annW_eq {rho : ℝ} {N n : Int} (hN : 0 < N) : annW rho N n = √(2 * (cos (grid N n / 2) ^ 2 + rho ^ 2 * sin (grid N n / 2) ^ 2) / (1 - rho ^ 2)) := by
  have hN' : (N : ℝ) ≠ 0 := by exact_mod_cast hN.ne'
  have ht : ((N : ℝ) - n - 0.5) * π / (2 * N) = π / 2 - grid N n / 2 := by unfold grid; field_simp; ring
  unfold annW
  dsimp only
  rw [ht, sin_pi_div_two_sub, cos_pi_div_two_sub]
  congr 2
  · ring
  · ring

theorem half_grid_pos {N n : Int} (h0 : 0 ≤ n) (h1 : n < N) : 0 < cos (grid N n / 2) := by
  have hN' : (0 : ℝ) < N := by exact_mod_cast (by omega : 0 < N)
  have h0' : (0 : ℝ) ≤ n := by exact_mod_cast h0
  have h1' : (n : ℝ) + 1 ≤ N := by exact_mod_cast h1
  apply cos_pos_of_mem_Ioo
  have hg : 0 < grid N n := by unfold grid; positivity
  have hg2 : grid N n < π := by
    unfold grid
    rw [div_lt_iff₀ hN']
    have := pi_pos
    nlinarith
  constructor <;> linarith [pi_pos]

theorem annW_pos {rho : ℝ} (hr : rho ^ 2 < 1) {N n : Int} (h0 : 0 ≤ n) (h1 : n < N) : 0 < annW rho N n := by
  rw [annW_eq (by omega)]
  have := half_grid_pos h0 h1
  apply Real.sqrt_pos.2
  apply div_pos
  · positivity
  · linarith

theorem ann_pair {N M : Int} (hN : 0 < N) (hM0 : 0 < M) (hM : M % 2 = 1) {rho : ℝ} (hr : rho ^ 2 < 1) : AnnPair N M (annS rho N M) (annA rho N M) :=
  ⟨(redft_pair hN).1, (redft_pair hN).2, ⟨_, _, rfl, rfl, row_pair hM0 hM⟩, by unfold annS; dsimp only; omega, rfl, fun _ i0 i1 => (annW_pos hr i0 i1).ne'⟩

section
variable {N M : Int} {u u' : Int → ℝ}

/-- **C41** with the transforms of the FFTW manual: no hypothesis is left but the sizes. -/
theorem C41_fftw (hN : 0 < N) (hM0 : 0 < M) (hM : M % 2 = 1) {rho : ℝ} (hr : rho ^ 2 < 1) (S : Int) :
    Undone N M (sphSynthesis 'N' consts (sphS N M) u N M) (sphAnalysis 'N' consts (sphA N M) u' N M) ∧
    Undone N M (sphvSynthesis 'N' consts (sphvS N M) u N M) (sphvAnalysis 'N' consts (sphvA N M) u' N M) ∧
    Undone N M (diskSynthesis 'N' consts (diskS N M) u N M) (diskAnalysis 'N' consts (diskA N M) u' N M) ∧
    Undone N M (annSynthesis 'N' consts (annS rho N M) u N M) (annAnalysis 'N' consts (annA rho N M) u' N M) ∧
    UndoneC N M (spinSynthesis 'N' consts (spinS S N M) u N M) (spinAnalysis 'N' consts (spinA S N M) u' N M) :=
  ⟨(C41_sphere hN hM0 hM consts_ok (sph_pair hN hM0 hM)).1, (C41_sphere_vector hN hM0 hM consts_ok (sphv_pair hN hM0 hM)).1,
    (C41_disk hN hM0 hM consts_ok (disk_pair hN hM0 hM)).1, (C41_annulus hN hM0 hM consts_ok (ann_pair hN hM0 hM hr)).1,
    (C41_spin_sphere hN hM0 hM consts_ok (spin_pair hN hM0 hM S)).1⟩

/-- The same for the square, the triangle and the tetrahedron, whose numbers of columns may be even. -/
theorem C41_fftw_cosine {L : Int} (hN : 0 < N) (hL : 0 < L) (hM0 : 0 < M) :
    Undone1 N M (rectSynthesis 'N' (rectS N M) N M) (rectAnalysis 'N' (rectA N M) N M) ∧
    Undone1 N M (triSynthesis 'N' (triS N M) N M) (triAnalysis 'N' (triA N M) N M) ∧
    Undone3 N L M (tetSynthesis 'N' (tetS N L M) N L M) (tetAnalysis 'N' (tetA N L M) N L M) :=
  ⟨(C41_rectdisk hN hM0 ⟨(redft_pair hN).1, (redft_pair hN).2, (rodft_pair hN).1, (rodft_pair hN).2, (redft_pair hM0).1, (redft_pair hM0).2⟩).1,
    (C41_triangle (f := triS N M) (g := triA N M) hN hM0 (cos_pair hN) (cos_pair hM0)).1,
    (C41_tetrahedron (f := tetS N L M) (g := tetA N L M) hN hL hM0 ⟨cos_pair hN, cos_pair hL, cos_pair hM0⟩).1⟩

end

example (u u' : Int → ℝ) := C41_fftw (N := 7) (M := 9) (u := u) (u' := u') (by norm_num) (by norm_num) (by norm_num) (rho := 1 / 2) (by norm_num) (-3)
example := C41_fftw_cosine (N := 7) (L := 5) (M := 8) (by norm_num) (by norm_num) (by norm_num)

end FT.Props
