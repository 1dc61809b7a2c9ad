import Verif.Props.TriEigSpec

/-! # Specification for C69: congruences of symmetric-definite pencils -/

namespace FT.Props
open FT
variable {K : Type*} [Field K] [LinearOrder K]

/-- `Wᵀ M W = S`. -/
def CongTo (n : Int) (M W S : Int → Int → K) : Prop := ∀ j k, 0 ≤ j → j < n → 0 ≤ k → k < n → ∑ r ∈ Finset.Ico 0 n, W r j * rowMul n M (fun s => W s k) r = S j k

/-- `xᵀ B x > 0` for every `x` that is not zero. -/
def PosForm (n : Int) (B : Int → Int → K) : Prop := ∀ x : Int → K, (∃ i, 0 ≤ i ∧ i < n ∧ x i ≠ 0) → 0 < ∑ i ∈ Finset.Ico 0 n, x i * rowMul n B x i

/-- `F` is symmetric and at most `tau` relative to `B`: `|xᵀ F x| ≤ tau xᵀ B x`. -/
structure SmallRel (n : Int) (F B : Int → Int → K) (tau : K) : Prop where
  sym : ∀ i j, F i j = F j i
  bd : ∀ x : Int → K, |∑ i ∈ Finset.Ico 0 n, x i * rowMul n F x i| ≤ tau * ∑ i ∈ Finset.Ico 0 n, x i * rowMul n B x i

end FT.Props
