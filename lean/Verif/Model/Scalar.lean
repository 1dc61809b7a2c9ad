import Verif.Model.RankOne

/-!
# Small scalar routines: reflections (`isometries.c`), real quadratics (`blockbanded_source.c`), the arithmetic-geometric mean (`elliptic_source.c`)
-/

namespace FT
variable {K : Type*}

section Reflection
variable [Field K] [DecidableEq K]

/-- One column of `ft_apply_reflection`, isometries.c lines 112-115 (offset 0), 117-120 (offset 3), 122-125 (offset 6). -/
def reflCol (w0 w1 w2 gamma : K) (o : Int) (Q : Buf K) : Option (Buf K) :=
  (Q.rd o).bind fun q0 => (Q.rd (o + 1)).bind fun q1 => (Q.rd (o + 2)).bind fun q2 =>
  let t := gamma * (w0 * q0 + w1 * q1 + w2 * q2)
  (Q.wr o (q0 - t * w0)).bind fun Q => (Q.wr (o + 1) (q1 - t * w1)).bind fun Q => Q.wr (o + 2) (q2 - t * w2)

/-- `ft_apply_reflection`, isometries.c lines 109-128; `Q` is the 3×3 matrix of the orthogonal transformation, stored by columns. -/
def applyReflection (w0 w1 w2 : K) (Q : Buf K) : Option (Buf K) :=
  (divC 2 (w0 * w0 + w1 * w1 + w2 * w2)).bind fun gamma =>
  (reflCol w0 w1 w2 gamma 0 Q).bind fun Q => (reflCol w0 w1 w2 gamma 3 Q).bind fun Q => reflCol w0 w1 w2 gamma 6 Q

end Reflection

section Ordered
variable [Field K] [LinearOrder K]

/-- What `real_quadratic_formula` may do: end the program, produce a NaN or infinity, or return two numbers. -/
inductive QuadRes (K : Type*)
  | exit
  | nan
  | ok (x0 x1 : K)

/-- A pair of quotients, or NaN. -/
def QuadRes.ofPair (x0 x1 : Option K) : QuadRes K :=
  match x0, x1 with
  | some x0, some x1 => .ok x0 x1
  | _, _ => .nan

/-- `X(real_quadratic_formula)`, blockbanded_source.c lines 150-177. -/
def realQuadratic (sqrt : K → K) (a b c : K) : QuadRes K :=
  let d := b * b - 4 * a * c
  if d < 0 then .exit
  else
    let d := sqrt d
    if a > 0 then
      if b > 0 then .ofPair (divC (-(b + d)) (2 * a)) (divC (-2 * c) (b + d))
      else .ofPair (divC (2 * c) (d - b)) (divC (d - b) (2 * a))
    else if a < 0 then
      if b > 0 then .ofPair (divC (-2 * c) (b + d)) (divC (-(b + d)) (2 * a))
      else .ofPair (divC (d - b) (2 * a)) (divC (2 * c) (d - b))
    else .exit

/-- The variables of the arithmetic-geometric mean iteration. -/
structure Agm (K : Type*) where
  a : K
  b : K
  c : K

/-- The loop body of `X(arithmetic_geometric_mean)`, elliptic_source.c lines 4-7. -/
def agmBody (sqrt : K → K) (s : Agm K) : Option (Agm K) :=
  let t := (s.a + s.b) / 2
  (sqrtC sqrt (s.a * s.b)).bind fun b => (divC s.c (4 * t)).bind fun q => some ⟨t, b, s.c * q⟩

/-- The loop condition, elliptic_source.c line 3. -/
def agmCond (eps : K) (s : Agm K) : Bool := decide (s.c > 2 * max |s.a| |s.b| * eps)

/-- The state before the loop, elliptic_source.c line 2. -/
def agmInit (sqrt : K → K) (a b : K) : Agm K := ⟨a, b, sqrt |(a - b) * (a + b)|⟩

/-- `X(arithmetic_geometric_mean)`, elliptic_source.c lines 1-10, with at most `fuel` iterations. -/
def agm (sqrt : K → K) (eps : K) (fuel : Nat) (a b : K) : Option K :=
  (whileF (agmCond eps) (agmBody sqrt) fuel (agmInit sqrt a b)).map Agm.a

/-- The variables of the iteration with accumulator: the iteration, `pow2` and `*s`. -/
structure AgmAcc (K : Type*) where
  it : Agm K
  pow2 : K
  s : K

/-- The loop body of `X(arithmetic_geometric_mean_with_accumulator)`, elliptic_source.c lines 18-23. -/
def agmAccBody (sqrt : K → K) (x : AgmAcc K) : Option (AgmAcc K) :=
  (agmBody sqrt x.it).bind fun it => let p := x.pow2 * 2; some ⟨it, p, x.s - p * it.c * it.c⟩

/-- The loop condition, elliptic_source.c line 17. -/
def agmAccCond (eps : K) (x : AgmAcc K) : Bool := agmCond eps x.it

/-- `X(arithmetic_geometric_mean_with_accumulator)`, elliptic_source.c lines 12-26; returns the mean and `*s`. -/
def agmAcc (sqrt : K → K) (eps : K) (fuel : Nat) (a b : K) : Option (K × K) :=
  let c := sqrt |(a - b) * (a + b)|
  (whileF (agmAccCond eps) (agmAccBody sqrt) fuel ⟨⟨a, b, c⟩, 1 / 2, a * a - c * c / 2⟩).map fun x => (x.it.a, x.s)

/-- What `X(complete_elliptic_integral)` returns: a finite number or an infinity. -/
inductive EllRes (K : Type*)
  | inf
  | fin (x : K)

/-- `X(complete_elliptic_integral)`, elliptic_source.c lines 28-44; `atan1` is the value of `atan(1)`. -/
def completeElliptic (sqrt : K → K) (eps atan1 : K) (fuel : Nat) (kind : Char) (k : K) : Option (EllRes K) :=
  (sqrtC sqrt ((1 - k) * (1 + k))).bind fun kp =>
  if kind = '1' then
    if |kp| < 2 * |k| * eps then some .inf
    else (agm sqrt eps fuel 1 kp).bind fun x => (divC (2 * atan1) x).map .fin
  else if kind = '2' then
    if |kp| < 2 * |k| * eps then some (.fin 1)
    else (agmAcc sqrt eps fuel 1 kp).bind fun x => (divC (2 * atan1) x.1).map fun y => .fin (y * x.2)
  else some .inf

/-- The ascending loop of `X(jacobian_elliptic_functions)`, elliptic_source.c lines 50-56: iteration and counter `n`. -/
def landenCond (eps : K) (x : Agm K × Nat) : Bool := decide (x.1.c > 2 * eps)

/-- Its body. -/
def landenBody (sqrt : K → K) (x : Agm K × Nat) : Option (Agm K × Nat) := (agmBody sqrt x.1).map fun s => (s, x.2 + 1)

/-- The body of the descending loop, elliptic_source.c lines 58-63: `phi`, `a`, `c`. -/
def landenBack (sqrt sin asin : K → K) (_ : Int) (x : K × K × K) : Option (K × K × K) :=
  (divC x.2.2 x.2.1).bind fun q => (sqrtC sqrt (x.2.1 * x.2.2)).bind fun r => some ((x.1 + asin (q * sin x.1)) / 2, x.2.1 + x.2.2, 2 * r)

/-- `X(jacobian_elliptic_functions)`, elliptic_source.c lines 46-70; returns `sn`, `cn`, `dn` and, to be observed, the final `a`, `c` of the descending
loop. -/
def jacobian (sqrt sin cos asin : K → K) (eps : K) (fuel : Nat) (x k : K) : Option ((K × K × K) × (K × K)) :=
  (sqrtC sqrt ((1 - k) * (1 + k))).bind fun kp =>
  (whileF (landenCond eps) (landenBody sqrt) fuel (⟨1, kp, k⟩, 0)).bind fun s =>
  (forDown ((s.2 : Int) - 1) 0 (landenBack sqrt sin asin) (2 ^ s.2 * s.1.a * x, s.1.a, s.1.c)).bind fun y =>
  (sqrtC sqrt ((1 - k * sin y.1) * (1 + k * sin y.1))).bind fun dn => some ((sin y.1, cos y.1, dn), (y.2.1, y.2.2))

end Ordered

end FT
