import Verif.Model.Dct18
import Verif.Lemmas.Cosine
import Mathlib.Analysis.SpecialFunctions.Trigonometric.Basic

/-! # What the transform of length 18 computes -/

namespace FT.Props.Lc
open FT FT.Model.Lc FT.Fftw Real

/-- The constants of `dct_radix23` as its comments define them. -/
noncomputable def realTrig : Trig ℝ where
  sqrt32 := √3 / 2
  SIN i := √3 * sin (π * (i + 0.5) / 9)
  SIN2 i := √3 * sin (2 * π * (i + 0.5) / 9)
  COS i := cos (π * (i + 0.5) / 9)
  COS2 i := cos (2 * π * (i + 0.5) / 9)
  COSH i := 2 * cos (π * (i + 0.5) / 18)

/-- The discrete cosine transform of length 18: the points are `π (j + 1/2) / 18`. -/
noncomputable def dct18Sum (x : Int → ℝ) (k : Int) : ℝ := ∑ j ∈ Finset.Ico (0 : Int) 18, x j * cos (k * FT.Fftw.grid 18 j)

end FT.Props.Lc
