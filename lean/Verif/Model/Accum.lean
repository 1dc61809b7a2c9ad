import Verif.Core.Mem
import Mathlib.Algebra.Field.Basic

/-!
# Accumulators and checked division

Vocabulary for models of C loops; not a model of a particular function.
-/

namespace FT
variable {K : Type*}

/-- `t = t0; for (int k = lo; k < hi; k++) t += f(k);` returning `t`. -/
def accUp [Add K] (lo hi : Int) (t0 : K) (f : Int → Option K) : Option K :=
  forUp lo hi (fun k t => (f k).bind fun v => some (t + v)) t0

/-- `a / b` with division by zero as a distinct outcome. -/
def divC [Field K] [DecidableEq K] (a b : K) : Option K := if b = 0 then none else some (a / b)

/-- `x[i] = f(i)` for `i = lo, …, hi-1`. -/
def sweepUp (lo hi : Int) (f : Int → Buf K → Option K) (x : Buf K) : Option (Buf K) :=
  forUp lo hi (fun i x => (f i x).bind (x.wr i)) x

/-- `x[i] = f(i)` for `i = hi, …, lo`. -/
def sweepDown (hi lo : Int) (f : Int → Buf K → Option K) (x : Buf K) : Option (Buf K) :=
  forDown hi lo (fun i x => (f i x).bind (x.wr i)) x

end FT
