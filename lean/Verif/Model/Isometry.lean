import Verif.Model.Accum
import Mathlib.Algebra.Order.Field.Basic

/-! # Orthogonal transformations of the sphere (`src/isometries.c`)

`hypot(x, y)` is modelled as `sqrt (x*x + y*y)` with `sqrt` a parameter, `M_FLT_MIN` as a parameter `tiny`, and a division by zero as `none`. -/

namespace FT
variable {K : Type*}

/-- `ft_orthogonal_transformation` (src/fasttransforms.h): nine numbers, column `k` being `Q[3k], Q[3k+1], Q[3k+2]`. -/
@[ext] structure Mat3 (K : Type*) where
  q0 : K
  q1 : K
  q2 : K
  q3 : K
  q4 : K
  q5 : K
  q6 : K
  q7 : K
  q8 : K

/-- `ft_ZYZR` (src/fasttransforms.h): sines, cosines and the sign. -/
@[ext] structure ZYZR (K : Type*) where
  s0 : K
  s1 : K
  s2 : K
  c0 : K
  c1 : K
  c2 : K
  sign : Int

section Field
variable [Field K] [LinearOrder K]

/-- `compute_givens` (src/isometries.c L4-14): returns `(c, s, r)`. -/
def isoGivens (sqrt : K → K) (tiny x y : K) : Option (K × K × K) :=
  let r := sqrt (x * x + y * y)
  if r ≤ tiny then some (1, 0, r)
  else do
    let c ← divC x r
    let s ← divC y r
    return (c, s, r)

/-- The sign choice made twice in `ft_create_ZYZR` (src/isometries.c L20-24 and L38-42): negate all three when the new diagonal entry is negative. -/
def isoFlip (t : K) (g : K × K × K) : K × K × K := if t < 0 then (-g.1, -g.2.1, -g.2.2) else g

/-- `Q.Q[8] > 0 ? 1 : -1` (src/isometries.c L54). -/
def isoSign (x : K) : Int := if 0 < x then 1 else -1

/-- `ft_create_ZYZR` (src/isometries.c L16-56). -/
def createZYZR (sqrt : K → K) (tiny : K) (Q : Mat3 K) : Option (ZYZR K) := do
  let g ← isoGivens sqrt tiny Q.q6 Q.q7
  let (c0, s0, r0) := isoFlip (g.1 * Q.q4 - g.2.1 * Q.q3) g
  let Q : Mat3 K := { Q with q0 := c0 * Q.q0 + s0 * Q.q1, q1 := c0 * Q.q1 - s0 * Q.q0 }
  let Q : Mat3 K := { Q with q3 := c0 * Q.q3 + s0 * Q.q4, q4 := c0 * Q.q4 - s0 * Q.q3 }
  let Q : Mat3 K := { Q with q6 := r0, q7 := 0 }
  let g ← isoGivens sqrt tiny Q.q8 Q.q6
  let (c1, s1, r1) := isoFlip (g.1 * Q.q0 - g.2.1 * Q.q2) g
  let Q : Mat3 K := { Q with q2 := c1 * Q.q2 + s1 * Q.q0, q0 := c1 * Q.q0 - s1 * Q.q2 }
  let Q : Mat3 K := { Q with q5 := c1 * Q.q5 + s1 * Q.q3, q3 := c1 * Q.q3 - s1 * Q.q5 }
  let Q : Mat3 K := { Q with q8 := r1, q6 := 0 }
  let (c2, s2, _) ← isoGivens sqrt tiny Q.q4 Q.q3
  return ⟨s0, -s1, -s2, c0, c1, c2, isoSign Q.q8⟩

end Field

section Ring
variable [CommRing K]

/-- Rows 0 and 1 of `U` by `(x0, x1) ↦ (c x0 - s x1, c x1 + s x0)` (src/isometries.c L67-81 and L99-113). -/
def isoZ (s c : K) (U : Mat3 K) : Mat3 K :=
  let U : Mat3 K := { U with q0 := c * U.q0 - s * U.q1, q1 := c * U.q1 + s * U.q0 }
  let U : Mat3 K := { U with q3 := c * U.q3 - s * U.q4, q4 := c * U.q4 + s * U.q3 }
  { U with q6 := c * U.q6 - s * U.q7, q7 := c * U.q7 + s * U.q6 }

/-- Rows 0 and 2 of `U` by `(x0, x2) ↦ (c x0 - s x2, c x2 + s x0)` (src/isometries.c L83-97). -/
def isoY (s c : K) (U : Mat3 K) : Mat3 K :=
  let U : Mat3 K := { U with q0 := c * U.q0 - s * U.q2, q2 := c * U.q2 + s * U.q0 }
  let U : Mat3 K := { U with q3 := c * U.q3 - s * U.q5, q5 := c * U.q5 + s * U.q3 }
  { U with q6 := c * U.q6 - s * U.q8, q8 := c * U.q8 + s * U.q6 }

/-- `ft_apply_ZYZR` (src/isometries.c L58-107). -/
def applyZYZR (Z : ZYZR K) (U : Mat3 K) : Mat3 K :=
  let U : Mat3 K := if Z.sign < 0 then { U with q2 := -U.q2, q5 := -U.q5, q8 := -U.q8 } else U
  isoZ Z.s0 Z.c0 (isoY Z.s1 Z.c1 (isoZ Z.s2 Z.c2 U))

/-- One pair of `ft_execute_sph_polar_rotation` (src/isometries.c L134-137). -/
def polarPair (s c : K) (p q : Int) (A : Buf K) : Option (Buf K) := do
  let t1 ← A.rd p
  let t2 ← A.rd q
  let A ← A.wr p (c * t1 + s * t2)
  A.wr q (c * t2 - s * t1)

/-- State of the loop over the orders: the array and `s, c, sold, cold`. -/
structure PolarSt (K : Type*) where
  A : Buf K
  s : K
  c : K
  sold : K
  cold : K

/-- `ft_execute_sph_polar_rotation` (src/isometries.c L130-147). -/
def polarRotation (N M : Int) (s c : K) (A : Buf K) : Option (Buf K) := do
  let tc := 2 * c
  let st ← forUp 1 (M / 2 + 1) (fun m (st : PolarSt K) => do
    let A ← forUp 0 (N - m) (fun i A => polarPair st.s st.c (i + N * (2 * m - 1)) (i + N * (2 * m)) A) st.A
    return ⟨A, tc * st.s - st.sold, tc * st.c - st.cold, st.s, st.c⟩) ⟨A, s, c, 0, 1⟩
  return st.A

/-- `A[p] = -A[p]`. -/
def negAt (p : Int) (A : Buf K) : Option (Buf K) := do
  let t ← A.rd p
  A.wr p (-t)

/-- `ft_execute_sph_polar_reflection` (src/isometries.c L149-156). -/
def polarReflection (N M : Int) (A : Buf K) : Option (Buf K) := do
  let A ← forStep 1 N 2 negAt A
  forUp 1 (M / 2 + 1) (fun m A =>
    forStep 1 (N - m) 2 (fun i A => do
      let A ← negAt (i + N * (2 * m - 1)) A
      negAt (i + N * (2 * m)) A) A) A

end Ring
end FT
