import Mathlib.Analysis.SpecialFunctions.Gamma.Basic

/-! # The ratio of Gamma functions -/

namespace FT.Props.Lc

/-- `Λ(z) = Γ(z + 1/2) / Γ(z + 1)`. -/
noncomputable def gammaRatio (z : ℝ) : ℝ := Real.Gamma (z + 1 / 2) / Real.Gamma (z + 1)

end FT.Props.Lc
