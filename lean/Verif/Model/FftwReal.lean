import Verif.Model.Fftw
import Verif.Lemmas.Accum
import Mathlib.Analysis.SpecialFunctions.Trigonometric.Basic

/-!
# The plans of src/fftw.c over the reals

FFTW itself is not modelled; its transforms are given here by the formulas of its manual ("What FFTW Really
Computes"), over exact real numbers.
-/

namespace FT.Fftw
open FT FT.Model Real

/-- The grid of the cosine transforms, `θ_k = π (k + 1/2) / n`. -/
noncomputable def grid (n k : Int) : ℝ := π * (k + 1 / 2) / n

/-- The points of the periodic grid, `φ_c = 2 π c / M`. -/
noncomputable def circ (M c : Int) : ℝ := 2 * π * c / M

/-! ## The transforms of the manual -/

/-- `FFTW_REDFT10`: `Y_k = 2 Σ X_j cos(π (j + 1/2) k / n)`. -/
noncomputable def redft10 (n : Int) : Line ℝ := fun x k => 2 * ∑ j ∈ Finset.Ico 0 n, x j * cos (π * (j + 1 / 2) * k / n)

/-- `FFTW_REDFT01`: `Y_k = X_0 + 2 Σ_{j ≥ 1} X_j cos(π j (k + 1/2) / n)`. -/
noncomputable def redft01 (n : Int) : Line ℝ := fun x k => x 0 + 2 * ∑ j ∈ Finset.Ico 1 n, x j * cos (π * j * (k + 1 / 2) / n)

/-- `FFTW_RODFT10`: `Y_k = 2 Σ X_j sin(π (j + 1/2) (k + 1) / n)`. -/
noncomputable def rodft10 (n : Int) : Line ℝ := fun x k => 2 * ∑ j ∈ Finset.Ico 0 n, x j * sin (π * (j + 1 / 2) * (k + 1) / n)

/-- `FFTW_RODFT01`: `Y_k = (-1)^k X_{n-1} + 2 Σ_{j < n-1} X_j sin(π (j + 1) (k + 1/2) / n)`. -/
noncomputable def rodft01 (n : Int) : Line ℝ := fun x k => (-1) ^ k * x (n - 1) + 2 * ∑ j ∈ Finset.Ico 0 (n - 1), x j * sin (π * (j + 1) * (k + 1 / 2) / n)

/-- `FFTW_REDFT11`: `Y_k = 2 Σ X_j cos(π (j + 1/2) (k + 1/2) / n)`. -/
noncomputable def redft11 (n : Int) : Line ℝ := fun x k => 2 * ∑ j ∈ Finset.Ico 0 n, x j * cos (π * (j + 1 / 2) * (k + 1 / 2) / n)

/-- `fftw_plan_dft_c2r`: `Y_c = Σ_j X_j e^{2 π i j c / M}` over a Hermitian `X` of odd length `M` given by its
first `M/2 + 1` entries. -/
noncomputable def hc2r (M : Int) : (Int → ℝ × ℝ) → Int → ℝ := fun z c =>
  (z 0).1 + 2 * ∑ j ∈ Finset.Ico 1 (M / 2 + 1), ((z j).1 * cos (2 * π * j * c / M) - (z j).2 * sin (2 * π * j * c / M))

/-- `fftw_plan_dft_r2c`: `Y_j = Σ_c X_c e^{-2 π i j c / M}`. -/
noncomputable def r2hc (M : Int) : (Int → ℝ) → Int → ℝ × ℝ := fun x j =>
  (∑ c ∈ Finset.Ico 0 M, x c * cos (2 * π * j * c / M), -∑ c ∈ Finset.Ico 0 M, x c * sin (2 * π * j * c / M))

/-- `fftw_plan_dft` with sign `s`: `Y_c = Σ_j X_j e^{s 2 π i j c / M}`. -/
noncomputable def dft (s : ℝ) (M : Int) : (Int → ℝ × ℝ) → Int → ℝ × ℝ := fun z c =>
  (∑ j ∈ Finset.Ico 0 M, ((z j).1 * cos (2 * π * j * c / M) - s * ((z j).2 * sin (2 * π * j * c / M))),
   ∑ j ∈ Finset.Ico 0 M, ((z j).2 * cos (2 * π * j * c / M) + s * ((z j).1 * sin (2 * π * j * c / M))))

/-! ## The plans -/

/-- The constants of src/ftinternal.h L47-56 and `math.h`, exactly. -/
noncomputable def consts : FConst ℝ := ⟨1 / (4 * √π), 4 * √π, 1 / (2 * √π), 2 * √π, 1 / (2 * √(2 * π)), 2 * √(2 * π), √2, 1 / √2⟩

/-- `ft_plan_sph_synthesis`, src/fftw.c L111-114. -/
noncomputable def sphS (N M : Int) : ColPlan ℝ := ⟨redft01 N, rodft01 N, .c2r (hc2r M)⟩
/-- `ft_plan_sph_analysis`, src/fftw.c L116-119. -/
noncomputable def sphA (N M : Int) : ColPlan ℝ := ⟨redft10 N, rodft10 N, .r2c (r2hc M)⟩
/-- `ft_plan_sphv_synthesis`, src/fftw.c L121-124. -/
noncomputable def sphvS (N M : Int) : ColPlan ℝ := ⟨rodft01 N, redft01 N, .c2r (hc2r M)⟩
/-- `ft_plan_sphv_analysis`, src/fftw.c L126-129. -/
noncomputable def sphvA (N M : Int) : ColPlan ℝ := ⟨rodft10 N, redft10 N, .r2c (r2hc M)⟩
/-- `ft_plan_disk_synthesis`, src/fftw.c L450-453. -/
noncomputable def diskS (N M : Int) : ColPlan ℝ := ⟨redft01 N, redft11 N, .c2r (hc2r M)⟩
/-- `ft_plan_disk_analysis`, src/fftw.c L455-458. -/
noncomputable def diskA (N M : Int) : ColPlan ℝ := ⟨redft10 N, redft11 N, .r2c (r2hc M)⟩

/-- The weights of the annulus, src/fftw.c L549-554. -/
noncomputable def annW (rho : ℝ) (N n : Int) : ℝ :=
  let t := (N - n - 0.5) * π / (2 * N)
  let ct := sin t
  let st := cos t
  √(2 * (ct * ct + rho * rho * st * st) / (1 - rho * rho))

/-- `ft_plan_annulus_synthesis`, src/fftw.c L573-576. -/
noncomputable def annS (rho : ℝ) (N M : Int) : AnnPlan ℝ := ⟨redft01 N, .c2r (hc2r M), ⟨N.toNat, annW rho N⟩⟩
/-- `ft_plan_annulus_analysis`, src/fftw.c L578-581. -/
noncomputable def annA (rho : ℝ) (N M : Int) : AnnPlan ℝ := ⟨redft10 N, .r2c (r2hc M), ⟨N.toNat, annW rho N⟩⟩

/-- `ft_plan_rectdisk_synthesis`, src/fftw.c L687-690. -/
noncomputable def rectS (N M : Int) : RectPlan ℝ := ⟨redft01 N, rodft01 N, redft01 M⟩
/-- `ft_plan_rectdisk_analysis`, src/fftw.c L692-695. -/
noncomputable def rectA (N M : Int) : RectPlan ℝ := ⟨redft10 N, rodft10 N, redft10 M⟩

/-- `ft_plan_tri_synthesis`, src/fftw.c L289. -/
noncomputable def triS (N M : Int) : Line ℝ × Line ℝ := (redft01 N, redft01 M)
/-- `ft_plan_tri_analysis`, src/fftw.c L290. -/
noncomputable def triA (N M : Int) : Line ℝ × Line ℝ := (redft10 N, redft10 M)
/-- `ft_plan_tet_synthesis`, src/fftw.c L348. -/
noncomputable def tetS (N L M : Int) : Line ℝ × Line ℝ × Line ℝ := (redft01 N, redft01 L, redft01 M)
/-- `ft_plan_tet_analysis`, src/fftw.c L349. -/
noncomputable def tetA (N L M : Int) : Line ℝ × Line ℝ × Line ℝ := (redft10 N, redft10 L, redft10 M)

/-- `ft_plan_spinsph_synthesis`, src/fftw.c L789-793 (`FFTW_BACKWARD` is the sign `+1`). -/
noncomputable def spinS (S N M : Int) : SpinPlan ℝ := if S % 2 = 0 then ⟨S, redft01 N, rodft01 N, dft 1 M⟩ else ⟨S, rodft01 N, redft01 N, dft 1 M⟩
/-- `ft_plan_spinsph_analysis`, src/fftw.c L795-799 (`FFTW_FORWARD` is the sign `-1`). -/
noncomputable def spinA (S N M : Int) : SpinPlan ℝ := if S % 2 = 0 then ⟨S, redft10 N, rodft10 N, dft (-1) M⟩ else ⟨S, rodft10 N, redft10 N, dft (-1) M⟩

end FT.Fftw
