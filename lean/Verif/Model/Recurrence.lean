import Verif.Model.Accum
import Verif.Model.RotSimd

/-!
# Model of the evaluation kernels

`/repo/src/recurrence/recurrence_default.c` (scalar kernels) and the macros of `/repo/src/recurrence/recurrence.h` (vector kernels with `S` lanes
and `L` registers per block), which `/repo/src/recurrence/recurrence_{SSE,SSE2,AVX,AVX_FMA,AVX512F,NEON}.c` instantiate.
The dispatchers of `/repo/src/recurrence.c` select one of these kernels.

A vector register is a function from the lane number to the value; fused multiply-add is the exact `a*b ± c`.  The square root is a parameter
`sqrt`; division by zero is the distinct outcome `none`.  `x`, `c` and `f` are separate allocations (no aliasing).
Entries of an uninitialised local array are taken to be zero.
-/

namespace FT
variable {K : Type*}

section Ring
variable [CommRing K]

/-- `f[j] = 0` for `0 ≤ j < m`: the `n < 1` branch of all kernels (e.g. `recurrence_default.c` lines 4-8, `recurrence.h` lines 7-11). -/
def zeroOut (m : Int) (f : Buf K) : Option (Buf K) := sweepUp 0 m (fun _ _ => some 0) f

/-- `bk = 0; for (k = n-1; k >= 0; k--) bk = x*bk + c[k*incc];` (`recurrence_default.c` lines 10-12, `recurrence.h` lines 26-28). -/
def hornerAt (n : Int) (c : Buf K) (incc : Int) (x : K) : Option K :=
  forDown (n - 1) 0 (fun k bk => (c.rd (k * incc)).map fun ck => x * bk + ck) 0

/-- `horner_default`: `recurrence_default.c` lines 3-15 (and `horner_defaultf`, lines 17-29). -/
def horner (n : Int) (c : Buf K) (incc m : Int) (x f : Buf K) : Option (Buf K) :=
  if n < 1 then zeroOut m f else sweepUp 0 m (fun j _ => (x.rd j).bind (hornerAt n c incc)) f

/-- The loop state `bk, bk1, bk2`. -/
structure Bk (K : Type*) where
  bk : K
  bk1 : K
  bk2 : K

/-- `for (k = n-1; k >= 1; k--) { bk = X*bk1 + c[k*incc] - bk2; bk2 = bk1; bk1 = bk; }` from zeros: `recurrence_default.c` lines 38-46,
`recurrence.h` lines 56-64. -/
def clenshawLoop (n : Int) (c : Buf K) (incc : Int) (X : K) : Option (Bk K) :=
  forDown (n - 1) 1 (fun k s => (c.rd (k * incc)).map fun ck => let bk := X * s.bk1 + ck - s.bk2; ⟨bk, bk, s.bk1⟩) ⟨0, 0, 0⟩

/-- The loop of `orthogonal_polynomial_clenshaw_default`: `recurrence_default.c` lines 80-88, `recurrence.h` lines 91-99. -/
def opLoop (n : Int) (c : Buf K) (incc : Int) (A B C : Buf K) (X : K) : Option (Bk K) :=
  forDown (n - 1) 0 (fun k s => (A.rd k).bind fun a => (B.rd k).bind fun b => (C.rd (k + 1)).bind fun g => (c.rd (k * incc)).map fun ck =>
    let bk := (a * X + b) * s.bk1 - g * s.bk2 + ck; ⟨bk, bk, s.bk1⟩) ⟨0, 0, 0⟩

/-- `orthogonal_polynomial_clenshaw_default`: `recurrence_default.c` lines 73-92. -/
def opClenshawEval (n : Int) (c : Buf K) (incc : Int) (A B C : Buf K) (m : Int) (x phi0 f : Buf K) : Option (Buf K) :=
  if n < 1 then zeroOut m f else
  sweepUp 0 m (fun j _ => (x.rd j).bind fun X => (opLoop n c incc A B C X).bind fun s => (phi0.rd j).map fun p => p * s.bk) f

/-! ## Vector kernels -/

/-- `for (l = 0; l < L; l++) X[l] = g(VLOAD(x+j+S*l));` -/
def vLoads (S L : Nat) (x : Buf K) (j : Int) (g : K → K) : Option (Buf (Int → K)) :=
  sweepUp 0 L (fun l _ => (vld x (j + S * l) S).map fun v e => g (v e)) ⟨L, fun _ _ => 0⟩

/-- The block structure of all vector kernels: `j = 0; for (; j < m+1-S*L; j += S*L) block(j); for (; j < m; j++) tail(j);` -/
def simdBlocks (S L : Nat) (m : Int) (block tail : Int → Buf K → Option (Buf K)) (f : Buf K) : Option (Buf K) :=
  (forStep 0 (m + 1 - S * L) (S * L) block f).bind fun f => forUp (lastUp 0 (m + 1 - S * L) (S * L)) m tail f

/-- Body of the block loop of `HORNER_KERNEL`: `recurrence.h` lines 14-23. -/
def hornerBlock (S L : Nat) (n : Int) (c : Buf K) (incc : Int) (x : Buf K) (j : Int) (f : Buf K) : Option (Buf K) :=
  (vLoads S L x j id).bind fun X =>
  (forDown (n - 1) 0 (fun k bk => sweepUp 0 L (fun l bk => (X.rd l).bind fun X => (bk.rd l).bind fun b => (c.rd (k * incc)).map fun ck e => X e * b e + ck) bk)
    ⟨L, fun _ _ => 0⟩).bind fun bk =>
  forUp 0 L (fun l f => (bk.rd l).bind fun v => vst f (j + S * l) S v) f

/-- `HORNER_KERNEL`: `recurrence.h` lines 6-30. -/
def hornerV (S L : Nat) (n : Int) (c : Buf K) (incc m : Int) (x f : Buf K) : Option (Buf K) :=
  if n < 1 then zeroOut m f else
  simdBlocks S L m (hornerBlock S L n c incc x) (fun j f => ((x.rd j).bind (hornerAt n c incc)).bind (f.wr j)) f

/-- Body of the block loop of `CLENSHAW_KERNEL` up to the stores: `recurrence.h` lines 41-51.  Registers `bk[3*l], bk[3*l+1], bk[3*l+2]`. -/
def clenshawRegs (L : Nat) (n : Int) (c : Buf K) (incc : Int) (X : Buf (Int → K)) : Option (Buf (Int → K)) :=
  forDown (n - 1) 1 (fun k bk => forUp 0 L (fun l bk =>
    (X.rd l).bind fun X => (bk.rd (3 * l + 1)).bind fun b1 => (c.rd (k * incc)).bind fun ck => (bk.rd (3 * l + 2)).bind fun b2 =>
    (bk.wr (3 * l) (fun e => X e * b1 e + (ck - b2 e))).bind fun bk =>
    ((bk.rd (3 * l + 1)).bind (bk.wr (3 * l + 2))).bind fun bk =>
    (bk.rd (3 * l)).bind (bk.wr (3 * l + 1))) bk) ⟨3 * L, fun _ _ => 0⟩

/-- Body of the block loop of `ORTHOGONAL_POLYNOMIAL_CLENSHAW_KERNEL` up to the stores: `recurrence.h` lines 76-86. -/
def opRegs (L : Nat) (n : Int) (c : Buf K) (incc : Int) (A B C : Buf K) (X : Buf (Int → K)) : Option (Buf (Int → K)) :=
  forDown (n - 1) 0 (fun k bk => forUp 0 L (fun l bk =>
    (A.rd k).bind fun a => (X.rd l).bind fun X => (B.rd k).bind fun b => (bk.rd (3 * l + 1)).bind fun b1 => (C.rd (k + 1)).bind fun g =>
    (bk.rd (3 * l + 2)).bind fun b2 => (c.rd (k * incc)).bind fun ck =>
    (bk.wr (3 * l) (fun e => (a * X e + b) * b1 e - (g * b2 e - ck))).bind fun bk =>
    ((bk.rd (3 * l + 1)).bind (bk.wr (3 * l + 2))).bind fun bk =>
    (bk.rd (3 * l)).bind (bk.wr (3 * l + 1))) bk) ⟨3 * L, fun _ _ => 0⟩

/-- Body of the block loop of `ORTHOGONAL_POLYNOMIAL_CLENSHAW_KERNEL`: `recurrence.h` lines 76-88. -/
def opBlock (S L : Nat) (n : Int) (c : Buf K) (incc : Int) (A B C : Buf K) (x phi0 : Buf K) (j : Int) (f : Buf K) : Option (Buf K) :=
  (vLoads S L x j id).bind fun X => (opRegs L n c incc A B C X).bind fun bk =>
  forUp 0 L (fun l f => (vld phi0 (j + S * l) S).bind fun p => (bk.rd (3 * l)).bind fun b => vst f (j + S * l) S (fun e => p e * b e)) f

/-- `ORTHOGONAL_POLYNOMIAL_CLENSHAW_KERNEL`: `recurrence.h` lines 68-101. -/
def opClenshawEvalV (S L : Nat) (n : Int) (c : Buf K) (incc : Int) (A B C : Buf K) (m : Int) (x phi0 f : Buf K) : Option (Buf K) :=
  if n < 1 then zeroOut m f else
  simdBlocks S L m (opBlock S L n c incc A B C x phi0)
    (fun j f => ((x.rd j).bind fun X => (opLoop n c incc A B C X).bind fun s => (phi0.rd j).map fun p => p * s.bk).bind (f.wr j)) f

end Ring

section Field
variable [Field K] [DecidableEq K]

/-- Body of the point loop of `clenshaw_default`: `recurrence_default.c` lines 38-49.  The point is doubled in place before the loop and halved
after it; the state is `(x, f)`. -/
def clenshawPoint (n : Int) (c : Buf K) (incc : Int) (j : Int) (s : Buf K × Buf K) : Option (Buf K × Buf K) :=
  ((s.1.rd j).bind fun v => s.1.wr j (v * 2)).bind fun x =>
  ((x.rd j).bind (clenshawLoop n c incc)).bind fun b =>
  ((x.rd j).bind fun v => (divC 1 2).bind fun h => x.wr j (v * h)).bind fun x =>
  ((x.rd j).bind fun v => (c.rd 0).bind fun c0 => s.2.wr j (v * b.bk1 + c0 - b.bk2)).map fun f => (x, f)

/-- `clenshaw_default`: `recurrence_default.c` lines 31-50. -/
def clenshaw (n : Int) (c : Buf K) (incc m : Int) (x f : Buf K) : Option (Buf K × Buf K) :=
  if n < 1 then (zeroOut m f).map (fun f => (x, f)) else forUp 0 m (clenshawPoint n c incc) (x, f)

/-- Body of the block loop of `CLENSHAW_KERNEL`: `recurrence.h` lines 40-53. -/
def clenshawBlock (S L : Nat) (n : Int) (c : Buf K) (incc : Int) (x : Buf K) (j : Int) (f : Buf K) : Option (Buf K) :=
  (vLoads S L x j (fun v => 2 * v)).bind fun X => (clenshawRegs L n c incc X).bind fun bk =>
  forUp 0 L (fun l f => (X.rd l).bind fun X => (divC 1 2).bind fun h => (bk.rd (3 * l + 1)).bind fun b1 => (c.rd 0).bind fun c0 =>
    (bk.rd (3 * l + 2)).bind fun b2 => vst f (j + S * l) S (fun e => X e * h * b1 e + c0 - b2 e)) f

/-- Tail of `CLENSHAW_KERNEL`: `recurrence.h` lines 55-65. -/
def clenshawTail (n : Int) (c : Buf K) (incc : Int) (x : Buf K) (j : Int) (f : Buf K) : Option (Buf K) :=
  (x.rd j).bind fun v => (clenshawLoop n c incc (2 * v)).bind fun b => (divC (2 * v) 2).bind fun h => (c.rd 0).bind fun c0 =>
  f.wr j (h * b.bk1 + c0 - b.bk2)

/-- `CLENSHAW_KERNEL`: `recurrence.h` lines 32-66. -/
def clenshawV (S L : Nat) (n : Int) (c : Buf K) (incc m : Int) (x f : Buf K) : Option (Buf K) :=
  if n < 1 then zeroOut m f else simdBlocks S L m (clenshawBlock S L n c incc x) (clenshawTail n c incc x) f

end Field

section Ordered
variable [Field K] [LinearOrder K]

/-- The loop state of `eigen_eval`. -/
structure EvSt (K : Type*) where
  vkm1 : K
  vk : K
  vkp1 : K
  nrm : K
  sum : K

/-- `vkm1 = A[k]*((X+B[k])*vk + C[k]*vkp1); vkp1 = vk; vk = vkm1; nrm += vkm1*vkm1; sum += vkm1*c[(k-1)*incc];`: `recurrence_default.c`
lines 127-131, `recurrence.h` lines 164-168 and (one lane) 128-133. -/
def evStep (a b g ck X : K) (s : EvSt K) : EvSt K :=
  let vkm1 := a * ((X + b) * s.vk + g * s.vkp1)
  ⟨vkm1, vkm1, s.vk, s.nrm + vkm1 * vkm1, s.sum + vkm1 * ck⟩

/-- `nrm = 1/sqrt(nrm); vkp1 *= nrm; vk *= nrm; vkm1 *= nrm; sum *= nrm; nrm = 1;`: `recurrence_default.c` lines 133-138, `recurrence.h`
lines 170-175 and (one lane) 137-142. -/
def evRescale (sqrt : K → K) (s : EvSt K) : Option (EvSt K) :=
  (divC 1 (sqrt s.nrm)).map fun r => ⟨s.vkm1 * r, s.vk * r, s.vkp1 * r, 1, s.sum * r⟩

/-- One iteration `k` of the loop of `eigen_eval_default`: `recurrence_default.c` lines 126-140. -/
def evBody (sqrt : K → K) (huge : K) (c : Buf K) (incc : Int) (A B C : Buf K) (X : K) (k : Int) (s : EvSt K) : Option (EvSt K) :=
  (A.rd k).bind fun a => (B.rd k).bind fun b => (C.rd k).bind fun g => (c.rd ((k - 1) * incc)).bind fun ck =>
  let s := evStep a b g ck X s
  if s.nrm > huge then evRescale sqrt s else some s

/-- `eigen_eval_default` for one point: `recurrence_default.c` lines 119-143.  `huge` is `eps()/floatmin()`. -/
def evAt (sqrt : K → K) (huge : K) (n : Int) (c : Buf K) (incc : Int) (A B C : Buf K) (sign : K) (X : K) : Option K :=
  (c.rd ((n - 1) * incc)).bind fun c0 =>
  (forDown (n - 1) 1 (evBody sqrt huge c incc A B C X) ⟨1, 1, 0, 1, c0⟩).bind fun s =>
  (if sign * s.vkm1 < 0 then divC (-1) (sqrt s.nrm) else divC 1 (sqrt s.nrm)).map fun r => s.sum * r

/-- `eigen_eval_default`: `recurrence_default.c` lines 113-145 (and the `f`, `l`, `q` variants, lines 147-249). -/
def eigenEval (sqrt : K → K) (huge : K) (n : Int) (c : Buf K) (incc : Int) (A B C : Buf K) (m : Int) (x : Buf K) (sign : K) (f : Buf K) : Option (Buf K) :=
  if n < 1 then zeroOut m f else sweepUp 0 m (fun j _ => (x.rd j).bind (evAt sqrt huge n c incc A B C sign)) f

/-- One lane-wise state per register: the arrays `vkm1[L], vk[L], vkp1[L], nrm[L], sum[L]` of `EIGEN_EVAL_KERNEL` as one array of records. -/
abbrev EvRegs (K : Type*) := Buf (Int → EvSt K)

/-- `VMOVEMASK(nrmsum > VALL(HUGE)) != 0` with `nrmsum = Σ_l nrm[l]`: some lane exceeds: `recurrence.h` lines 126, 132, 135. -/
def evMask (S L : Nat) (huge : K) (r : EvRegs K) : Bool :=
  (List.range S).any fun e => decide (huge < ((List.range L).map fun l : Nat => ((r.val l) e).nrm).sum)

/-- A lane-wise operation on one register; `none` if some lane fails. -/
def laneMap (S : Nat) (g : EvSt K → Option (EvSt K)) (v : Int → EvSt K) : Option (Int → EvSt K) :=
  if (List.range S).all (fun e => (g (v e)).isSome) then some (fun e => (g (v e)).getD (v e)) else none

/-- One iteration `k` of the block loop of `EIGEN_EVAL_KERNEL`: `recurrence.h` lines 125-145. -/
def evRegBody (sqrt : K → K) (huge : K) (S L : Nat) (c : Buf K) (incc : Int) (A B C : Buf K) (X : Buf (Int → K)) (k : Int) (r : EvRegs K) : Option (EvRegs K) :=
  (sweepUp 0 L (fun l r => (X.rd l).bind fun X => (r.rd l).bind fun s => (A.rd k).bind fun a => (B.rd k).bind fun b => (C.rd k).bind fun g =>
    (c.rd ((k - 1) * incc)).map fun ck e => evStep a b g ck (X e) (s e)) r).bind fun r =>
  if evMask S L huge r then sweepUp 0 L (fun l r => (r.rd l).bind (laneMap S (evRescale sqrt))) r else some r

/-- Body of the block loop of `EIGEN_EVAL_KERNEL`: `recurrence.h` lines 111-154.  The values `nrm*sum` are stored and the sign fixed afterwards
lane by lane; here both happen in one store. -/
def evBlock (sqrt : K → K) (huge : K) (S L : Nat) (n : Int) (c : Buf K) (incc : Int) (A B C : Buf K) (x : Buf K) (sign : K) (j : Int) (f : Buf K) : Option (Buf K) :=
  (vLoads S L x j id).bind fun X => (c.rd ((n - 1) * incc)).bind fun c0 =>
  (forDown (n - 1) 1 (evRegBody sqrt huge S L c incc A B C X) ⟨L, fun _ _ => ⟨1, 1, 0, 1, c0⟩⟩).bind fun r =>
  forUp 0 L (fun l f => (r.rd l).bind fun s => (laneMap S (evRescale sqrt) s).bind fun t =>
    vst f (j + S * l) S (fun e => if sign * (s e).vkm1 < 0 then -(t e).sum else (t e).sum)) f

/-- `EIGEN_EVAL_KERNEL`: `recurrence.h` lines 103-180. -/
def eigenEvalV (sqrt : K → K) (huge : K) (S L : Nat) (n : Int) (c : Buf K) (incc : Int) (A B C : Buf K) (m : Int) (x : Buf K) (sign : K) (f : Buf K) : Option (Buf K) :=
  if n < 1 then zeroOut m f else
  simdBlocks S L m (evBlock sqrt huge S L n c incc A B C x sign) (fun j f => ((x.rd j).bind (evAt sqrt huge n c incc A B C sign)).bind (f.wr j)) f

end Ordered

end FT
