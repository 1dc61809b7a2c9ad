import Verif.Core.Prog
import Verif.Model.Isometry
import Mathlib.Algebra.Ring.Defs

/-! # Exchange of the y- and z-axes (`src/isometries.c`)

`ft_semv` evaluates `y_j = Σ_k w_j(k) x_k`, where `w_j` is the unit eigenvector for the `j`-th eigenvalue (proved for `eigen_eval` in C33); here the
eigenvectors are a parameter of the plan and the accesses of `ft_semv` are those of the scalar kernel: for every `j` the coefficients are read from
the last to the first, then `y_j` is written. -/

namespace FT
variable {K : Type*} [CommRing K]

/-- `ft_sph_isometry_plan` (src/fasttransforms.h, src/isometries.c L432-439): the degree bound and, for every degree, the four eigenvector blocks. -/
structure YzPlan (K : Type*) where
  n : Int
  w11 : Int → Int → Int → K
  w22 : Int → Int → Int → K
  w21 : Int → Int → Int → K
  w12 : Int → Int → Int → K

/-- `ft_semv` (src/tridiagonal_source.c L374-376) with `x`, `y` parts of the same array. -/
def semvP (n : Int) (w : Int → Int → K) (x st y : Int) : Prog K Unit :=
  Prog.each (fun j _ =>
    (Prog.each (fun k (acc : K) => .rd (x + k * st) fun v => .ret (acc + w j k * v)) (rDown (n - 1) 0) 0).bind fun v => .wr (y + j) v (.ret ()))
    (rUp 0 n) ()

/-- `for (i = 0; i < n; i++) { A[i*stride+in] = A[i+out]; A[i+out] = 0.0; }` (src/isometries.c L458-461 and L462-465). -/
def backP (n inn st out : Int) : Prog K Unit :=
  Prog.each (fun i _ => .rd (i + out) fun v => .wr (i * st + inn) v (.wr (i + out) 0 (.ret ()))) (rUp 0 n) ()

/-- The last loop, two blocks at once (src/isometries.c L470-475). -/
def back2P (n in1 out1 in2 out2 st : Int) : Prog K Unit :=
  Prog.each (fun i _ => .rd (i + out1) fun v => .wr (i * st + in1) v (.wr (i + out1) 0
    (.rd (i + out2) fun v => .wr (i * st + in2) v (.wr (i + out2) 0 (.ret ()))))) (rUp 0 n) ()

/-- Body of the parallel loop over the degrees (src/isometries.c L448-475). The orders of the blocks are those of `ft_plan_partial_sph_isometry`
(L327, L350, L375, L398). -/
def yzDegree (J : YzPlan K) (N l : Int) : Prog K Unit :=
  let stride := 4 * N - 2
  let outa := N * (2 * l - 1) + N - l
  let outb := N * (2 * l) + N - l
  let in11 := l + N - 1 + (l % 2) * (2 * N - 1)
  let in22 := l + (l % 2) * (2 * N - 1)
  let in21 := l - 1 + N + (1 - l % 2) * (2 * N - 1)
  let in12 := l + (1 - l % 2) * (2 * N - 1)
  (semvP (l / 2) (J.w11 l) in11 stride outa).bind fun _ =>
  (semvP ((l + 2) / 2) (J.w22 l) in22 stride outb).bind fun _ =>
  (backP (l / 2) in11 stride outa).bind fun _ =>
  (backP ((l + 2) / 2) in22 stride outb).bind fun _ =>
  (semvP ((l + 1) / 2) (J.w21 l) in21 stride outa).bind fun _ =>
  (semvP ((l + 1) / 2) (J.w12 l) in12 stride outb).bind fun _ =>
  back2P ((l + 1) / 2) in21 outb in12 outa stride

/-- The threads of `ft_execute_sph_yz_axis_exchange` (src/isometries.c L447-448). -/
def yzThread (J : YzPlan K) (N : Int) (T : Nat) : Nat → Prog K Unit := ompThread 2 J.n 1 T (yzDegree J N)

/-- Degree one, before the parallel region (src/isometries.c L442-446). -/
def yzStart (J : YzPlan K) (N : Int) (A : Buf K) : Option (Buf K) :=
  if J.n > 0 then do
    let t ← A.rd 1
    let u ← A.rd N
    let A ← A.wr 1 (-u)
    A.wr N (-t)
  else some A

/-- `ft_execute_sph_yz_axis_exchange` (src/isometries.c L441-476): with `T` threads it ends, on every schedule, in `B`. -/
def ExchangeEnds (J : YzPlan K) (N : Int) (T : Nat) (A B : Buf K) : Prop := ∃ A1, yzStart J N A = some A1 ∧ ParEnds T (yzThread J N T) A1 B

/-- `ft_execute_sph_isometry` (src/isometries.c L478-486). -/
def IsometryEnds (J : YzPlan K) (Z : ZYZR K) (N M : Int) (T : Nat) (A B : Buf K) : Prop :=
  ∃ A0 A1 A2 A3 A4, (if Z.sign < 0 then polarReflection N M A else some A) = some A0 ∧ polarRotation N M Z.s2 Z.c2 A0 = some A1 ∧
    ExchangeEnds J N T A1 A2 ∧ polarRotation N M (-Z.s1) Z.c1 A2 = some A3 ∧ ExchangeEnds J N T A3 A4 ∧ polarRotation N M Z.s0 Z.c0 A4 = some B

end FT
