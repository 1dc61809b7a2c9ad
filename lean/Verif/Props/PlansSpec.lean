import Verif.Model.Plans
import Verif.Props.EigFmmSpec
import Verif.Props.PolySpec

/-!
# Specification of connection plans

What a dense plan and a divide-and-conquer plan for the conversion between two families of polynomials are.
-/

namespace FT.Props.Plan
open Polynomial FT FT.Model FT.Props.Hier FT.Props.TbEig FT.Props.Eig
variable {K : Type*} [Field K]

/-- Column `j` of `M` holds the coefficients of `p_j` in the family `q`, for the first `n` polynomials. -/
def Connects (n : Int) (M : Int → Int → K) (p q : Int → K[X]) : Prop := ∀ j, 0 ≤ j → j < n → p j = ∑ i ∈ Finset.Ico 0 n, C (M i j) * q i

/-- The polynomial with the coefficients `c` in the family `p`. -/
noncomputable def combination (n : Int) (c : Int → K) (p : Int → K[X]) : K[X] := ∑ j ∈ Finset.Ico 0 n, C (c j) * p j

/-- `V` holds, by columns, the upper triangular `n × n` matrix of the conversion from the family `p` to the family `q`. -/
structure Dense (n : Int) (V : Buf K) (p q : Int → K[X]) : Prop where
  size : V.size = (n * n).toNat
  upper : ∀ i j, 0 ≤ j → j < i → i < n → V.val (i + j * n) = 0
  conn : Connects n (fun i j => V.val (i + j * n)) p q

/-- `G` is a factorisation of that matrix for blocks of size `BS` and for `p` threads, which has its scratch memory between the positions 0 and `top`. -/
structure Fast (BS th n : Int) (G : TbEig K) (top : Int) (p q : Int → K[X]) : Prop where
  size : G.n = n
  sized : ESized BS G
  regular : Regular G
  placed : Placed th 0 top (eArrs G)
  upper : ∀ i j, 0 ≤ j → j < i → i < n → mat G i j = 0
  conn : Connects n (mat G) p q

/-- What is assumed of the environment of the divide-and-conquer plans of bandwidth at most 2: no rounding, a threshold of the kernel of at most 1, the routine that samples it, a number of
threads, and that blocks are not smaller than 4. -/
structure Exact [LinearOrder K] (E : FmmEnv K) : Prop where
  eps : E.eps = 0
  tol : E.tol ≤ 1
  samples : Samples E
  threads : 1 ≤ E.threads
  block : 4 ≤ E.BS

end FT.Props.Plan
