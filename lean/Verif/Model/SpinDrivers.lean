import Verif.Model.Drivers

/-!
# Model of the drivers for the spin-weighted sphere

`/repo/src/drivers.c` lines 645-792 and the kernels of `/repo/src/rotations/rotations_{default,SSE2,NEON,AVX,AVX_FMA}.c` as threads.  `d` selects `hi2lo` (`true`) or
`lo2hi` (`false`).  A `ft_complex` at position `p` is the doubles `2p`, `2p+1`.  Fused and separate multiply-adds are the same in exact arithmetic.  Not modelled: the bodies
`/repo/src/rotations/rotations_AVX.c` lines 112-139 (and the same in `rotations_AVX_FMA.c`) of a library compiled without AVX, which the dispatch does not reach.
-/

namespace FT
open Permute
variable {K : Type*} [CommRing K]

/-- `kernel_spinsph_{hi2lo,lo2hi}_default`. -/
def kernSpin (d : Bool) (P : SpinPlan K) (m o S : Int) : Buf K → Option (Buf K) :=
  if d then kernelSpinHi2lo P m o S else kernelSpinLo2hi P m o S

/-- The instructions a kernel uses for one rotation of complex rows: four scalar statements twice, or vectors of two doubles. -/
inductive SpinIsa | scalar | vec2

/-- `apply_givensc`, `apply_givens_tc` (`t`): `/repo/src/rotations/rotations_default.c` lines 17-29; `apply_givens_{SSE2c,NEONc}`, `apply_givens_t_{SSE2c,NEONc}`:
`/repo/src/rotations/rotations_SSE2.c` lines 16-21, `/repo/src/rotations/rotations_NEON.c` lines 16-21. -/
def spinGivensP (isa : SpinIsa) (t : Bool) (s c : K) (X Y : Int) : Prog K Unit :=
  match isa, t with
  | .scalar, false => (applyGivensP s c (2 * X) (2 * Y)).bind fun _ => applyGivensP s c (2 * X + 1) (2 * Y + 1)
  | .scalar, true => (applyGivensTP s c (2 * X) (2 * Y)).bind fun _ => applyGivensTP s c (2 * X + 1) (2 * Y + 1)
  | .vec2, false => vGivensP 2 s c (2 * X) (2 * Y)
  | .vec2, true => vGivensTP 2 s c (2 * X) (2 * Y)

/-- `vas4(a, b)`, `_mm256_addsub_pd`: subtracts in the even lanes, adds in the odd lanes.  `/repo/src/ftinternal.h` line 221. -/
def vas (a b : Int → K) (e : Int) : K := if e % 2 = 0 then a e - b e else a e + b e

/-- `apply_givens_AVXc`, `apply_givens_t_AVXc`: `/repo/src/rotations/rotations_AVX.c` lines 4-21 (`/repo/src/rotations/rotations_AVX_FMA.c` lines 5-22). -/
def avxGivensP (t : Bool) (s c : K) (X Y : Int) : Prog K Unit :=
  if t then vGivensTP 4 s c (2 * X) (2 * Y) else vGivensP 4 s c (2 * X) (2 * Y)

/-- `apply_twisted_givens_AVXc`, `apply_twisted_givens_t_AVXc`: `/repo/src/rotations/rotations_AVX.c` lines 22-37 (`/repo/src/rotations/rotations_AVX_FMA.c` lines 23-38). -/
def avxTwistedP (t : Bool) (s c : K) (X Y : Int) : Prog K Unit :=
  .ld (2 * X) 4 fun x => .ld (2 * Y) 4 fun y =>
    if t then .st (2 * X) 4 (vas (fun e => c * x e) (fun e => -s * y e)) (.st (2 * Y) 4 (vas (fun e => c * y e) (fun e => s * x e)) (.ret ()))
    else .st (2 * X) 4 (vas (fun e => c * x e) (fun e => s * y e)) (.st (2 * Y) 4 (vas (fun e => c * y e) (fun e => -s * x e)) (.ret ()))

/-- The table entries `s1(k, j)`, `c1(k, j)`, `/repo/src/rotations/rotations.h` lines 12-13. -/
def tab1P (P : SpinPlan K) (k j : Int) (f : K → K → Prog K Unit) : Prog K Unit :=
  (Prog.ofOption (P.s1.rd (k + j * P.n))).bind fun s => (Prog.ofOption (P.c1.rd (k + j * P.n))).bind fun c => f s c

/-- The table entries `s2(k, j, d)`, `c2(k, j, d)`, `/repo/src/rotations/rotations.h` lines 15-16. -/
def tab2P (P : SpinPlan K) (d k j : Int) (f : K → K → Prog K Unit) : Prog K Unit :=
  (Prog.ofOption (P.s2.rd (k + j * P.n + d * |P.s| * P.n))).bind fun s => (Prog.ofOption (P.c2.rd (k + j * P.n + d * |P.s| * P.n))).bind fun c => f s c

/-- The loops of `kernel_spinsph_hi2lo_*` (the same in `/repo/src/rotations/rotations_default.c` lines 87-101, `rotations_SSE2.c` lines 40-54, `rotations_NEON.c` lines 40-54,
`rotations_AVX.c` lines 56-70, `rotations_AVX_FMA.c` lines 57-71); `r2`, `r1` are the rotations with the two pairs of tables. -/
def spinHiP (P : SpinPlan K) (m : Int) (r2 r1 : Int → Int → Prog K Unit) : Prog K Unit :=
  (Prog.each (fun j _ => Prog.each (fun k _ => r2 k j) (rDown (P.n - 2 - |(|m| - |P.s|)| - j) 0) ()) (rDown (min |m| |P.s| - 1) 0) ()).bind fun _ =>
  Prog.each (fun j _ => Prog.each (fun k _ => r1 k j) (rDown (P.n - 3 - j) 0) ()) (rStepDown (|(|m| - |P.s|)| - 2) ((|m| + |P.s|) % 2) 2) ()

/-- The loops of `kernel_spinsph_lo2hi_*` (`rotations_default.c` lines 103-117, `rotations_SSE2.c` lines 55-69, `rotations_NEON.c` lines 55-69, `rotations_AVX.c` lines 71-85,
`rotations_AVX_FMA.c` lines 72-86). -/
def spinLoP (P : SpinPlan K) (m : Int) (r2 r1 : Int → Int → Prog K Unit) : Prog K Unit :=
  (Prog.each (fun j _ => Prog.each (fun k _ => r1 k j) (rUp 0 (P.n - 3 - j + 1)) ()) (rStep ((|m| + |P.s|) % 2) (|(|m| - |P.s|)| - 2 + 1) 2) ()).bind fun _ =>
  Prog.each (fun j _ => Prog.each (fun k _ => r2 k j) (rUp 0 (P.n - 2 - |(|m| - |P.s|)| - j + 1)) ()) (rUp 0 (min |m| |P.s|)) ()

/-- `kernel_spinsph_{hi2lo,lo2hi}_{default,SSE2,NEON}(SRP, m, A + o, S)` as a thread: the rotations are transposed if `m*s < 0`, and the other way round in `lo2hi`. -/
def kernSpinP (isa : SpinIsa) (d : Bool) (P : SpinPlan K) (m o S : Int) : Prog K Unit :=
  let r2 := fun (t : Bool) (k j : Int) => tab2P P |(|m| - |P.s|)| k j fun s c => spinGivensP isa t s c (o + k * S) (o + (k + 1) * S)
  let r1 := fun (t : Bool) (k j : Int) => tab1P P k j fun s c => spinGivensP isa t s c (o + k * S) (o + (k + 2) * S)
  if d then spinHiP P m (if m * P.s ≥ 0 then r2 false else r2 true) (r1 false)
  else spinLoP P m (if m * P.s ≥ 0 then r2 true else r2 false) (r1 true)

/-- `kernel_spinsph_{hi2lo,lo2hi}_{AVX,AVX_FMA}(SRP, m, B + o, S)`: the columns of orders `-m` and `m` together, real and imaginary parts interleaved. -/
def kernSpinAvxP (d : Bool) (P : SpinPlan K) (m o S : Int) : Prog K Unit :=
  let r2 := fun (t : Bool) (k j : Int) => tab2P P |(|m| - |P.s|)| k j fun s c => avxTwistedP t s c (o + k * S) (o + (k + 1) * S)
  let r1 := fun (t : Bool) (k j : Int) => tab1P P k j fun s c => avxGivensP t s c (o + k * S) (o + (k + 2) * S)
  if d then spinHiP P m (if P.s ≥ 0 then r2 false else r2 true) (r1 false)
  else spinLoP P m (if P.s ≥ 0 then r2 true else r2 false) (r1 true)

/-- `execute_spinsph_{hi2lo,lo2hi}_{default,SSE2,NEON}(SRP, A, M)`, `/repo/src/drivers.c` lines 677-715, 773-791. -/
def SpinDriver (isa : SpinIsa) (d : Bool) (T : Nat) (P : SpinPlan K) (M : Int) (A A' : Buf K) : Prop :=
  ∃ A1, (kernSpinP isa d P 0 0 1).run A = some ((), A1) ∧
    ParEnds T (ompThread 1 (M / 2 + 1) 1 T fun m =>
      (kernSpinP isa d P (-m) (P.n * (2 * m - 1)) 1).bind fun _ => kernSpinP isa d P m (P.n * (2 * m)) 1) A1 A'

/-- The three calls at the start of `execute_spinsph_{hi2lo,lo2hi}_{AVX,AVX_FMA}`, `/repo/src/drivers.c` lines 721-723, 735-737, 749-751, 763-765. -/
def spinAvxHead (d : Bool) (P : SpinPlan K) : Prog K Unit :=
  (kernSpinP .scalar d P 0 0 1).bind fun _ => (kernSpinP .scalar d P (-1) P.n 1).bind fun _ => kernSpinP .scalar d P 1 (2 * P.n) 1

/-- `execute_spinsph_{hi2lo,lo2hi}_{AVX,AVX_FMA}(SRP, A, B, M)`, `/repo/src/drivers.c` lines 717-771: from the arrays `A`, `B` the function ends with `A'`, `B'`. -/
def SpinDriverAvx (d : Bool) (T : Nat) (P : SpinPlan K) (M : Int) (A B A' B' : Buf K) : Prop :=
  ∃ A1 B1, (spinAvxHead d P).run A = some ((), A1) ∧ permute_sph A1 B 0 (2 * P.n) M 2 = some B1 ∧
    ParEnds T (ompThread 2 (M / 2 + 1) 1 T fun m => kernSpinAvxP d P m (P.n * (2 * m - 1)) 2) B1 B' ∧
    permute_t_sph A1 B' 0 (2 * P.n) M 2 = some A'

/-- Which implementation runs: the default one or one with vectors of two doubles with `T` threads, or the AVX one with `T` threads and the scratch array `B` (contents
arbitrary). -/
inductive SpinChoice (K : Type*) where
  | one (isa : SpinIsa) (T : Nat)
  | avx (T : Nat) (B : Buf K)

/-- At least one thread, a scratch array of at least `sz` doubles. -/
def SpinChoice.OK (sz : Int) : SpinChoice K → Prop
  | .one _ T => 0 < T
  | .avx T B => 0 < T ∧ sz ≤ B.size

/-- `ft_execute_spinsph_{hi2lo,lo2hi}(SRP, A, B, M)`, `/repo/src/drivers.c` lines 645-675, ends with `A'`. -/
def RunSpin (x : SpinChoice K) (d : Bool) (P : SpinPlan K) (M : Int) (A A' : Buf K) : Prop :=
  match x with
  | .one isa T => SpinDriver isa d T P M A A'
  | .avx T B => ∃ B', SpinDriverAvx d T P M A B A' B'

end FT
