import Verif.Model.Ops
import Verif.Model.EigFmm

/-!
# Plans of conversions between classical orthogonal polynomials

`/repo/src/transforms.c` lines 50-211 (dense plans), `/repo/src/transforms_source.c` lines 1-161 (divide-and-conquer plans) and `/repo/src/drop_precision.c` lines 132-191.  Numbers are exact, so
that dropping the precision copies them.  Temporaries are freed by the code and forgotten here.  The eigenvalues of a part of a factorisation are a part of the eigenvalues of the whole (the
construction copies them), of which there is one array here.
-/

namespace FT.Model
open FT FT.Prog
variable {K : Type*}

/-- `for (i = 0; i < n; i++) y[i] = x[d+i]` into a new array. -/
def copyFrom {α : Type*} (junk : Int → α) (d n : Int) (x : Buf α) : Option (Buf α) :=
  forUp 0 n (fun i y => (x.rd (d + i)).bind fun v => y.wr i v) ⟨n.toNat, junk⟩

section
variable [Field K] [LinearOrder K]

/-- drop_precision.c lines 150-171: the permutations, and the samples of the kernel at the permuted eigenvalues. -/
def dropKernel (E : FmmEnv K) (lam : Buf K) (n : Int) (c : Fmm K) (d top : Int) : Option ((Buf Int × Buf Int) × HMat K × Int) :=
  (copyFrom (fun _ => 0) 0 (n / 2) c.p1).bind fun p1 => (copyFrom (fun _ => 0) 0 (n - n / 2) c.p2).bind fun p2 =>
  (copyFrom E.junk d (n / 2) lam).bind fun l1 => (copyFrom E.junk (d + n / 2) (n - n / 2) lam).bind fun l2 =>
  (perm 'N' l1 p1 (n / 2)).bind fun q1 => (perm 'N' l2 p2 (n - n / 2)).bind fun q2 =>
  (perm 'T' q1.1 q1.2 (n / 2)).bind fun r1 => (perm 'T' q2.1 q2.2 (n - n / 2)).map fun r2 =>
  ((r1.2, r2.2), E.cauchy top (n / 2) (n - n / 2) q1.1 q2.1)

/-- The arrays `p`, `q`, `v` of the sparse part, and `X` and `Y`: lines 132-140 and 174-183. -/
def dropArrays (E : FmmEnv K) (n : Int) (c : Fmm K) : Option ((Buf Int × Buf Int) × Buf K × Buf K × Buf K) :=
  (copyFrom (fun _ => 0) 0 c.nnz c.sp).bind fun sp => (copyFrom (fun _ => 0) 0 c.nnz c.sq).bind fun sq => (copyFrom E.junk 0 c.nnz c.sv).bind fun sv =>
  (copyFrom E.junk 0 (n / 2 * c.b) c.X).bind fun X => (copyFrom E.junk 0 ((n - n / 2) * c.b) c.Y).map fun Y => ((sp, sq), sv, X, Y)

/-- `X(drop_precision_tb_eigen_FMM)`, lines 144-191, of a part whose eigenvalues are those from `lam[d]` on, when the positions of memory below `top` are in use. -/
def dropEig (E : FmmEnv K) (lam : Buf K) : TbEig K → Int → Int → Option (TbEig K × Int)
  | .leaf n V, _, top => (copyFrom E.junk 0 (n * n) V).map fun V => (.leaf n V, top)
  | .node n (.fmm c) F1 F2, d, top =>
    (dropKernel E lam n c d top).bind fun H => (dropEig E lam F1 d H.2.2).bind fun G1 => (dropEig E lam F2 (d + n / 2) G1.2).bind fun G2 =>
    (dropArrays E n c).map fun A =>
    (.node n (.fmm ⟨c.b, H.2.1, A.2.2.1, A.2.2.2, H.1.1, H.1.2, c.nnz, A.1.1, A.1.2, A.2.1, ⟨G2.2, n / 2 * E.threads, 0⟩, ⟨G2.2 + n / 2 * E.threads, (n - n / 2) * E.threads, 0⟩⟩) G1.1 G2.1,
      G2.2 + n / 2 * E.threads + (n - n / 2) * E.threads)
  | .node _ (.adi _) _ _, _, _ => none

/-- What the plans of a conversion have in common: the two matrices of the pencil and the routine that fills the diagonal with a stride. -/
structure Conv (K : Type*) where
  A : Option (TB K)
  B : Option (TB K)
  diag : Int → Buf K → Option (Buf K)

/-- The pattern of `plan_legendre_to_chebyshev` and others, transforms.c lines 50-63. -/
def densePlan (eps : K) (junk : Int → K) (n : Int) (P : Conv K) : Option (Buf K) := do
  let A ← P.A
  let B ← P.B
  let V ← P.diag (n + 1) (callocB (n * n))
  let V ← tbEigenvectors eps A B V
  copyFrom junk 0 (n * n) V

/-- The pattern of `X(plan_legendre_to_chebyshev)` and others, transforms_source.c lines 1-13; also returns the first free position of memory. -/
def fastPlan (E : FmmEnv K) (n : Int) (P : Conv K) : Option (TbEig K × Int) := do
  let A ← P.A
  let B ← P.B
  let D ← P.diag 1 ⟨n.toNat, E.junk⟩
  let r ← tbEigFmm E A B D 0
  dropEig E r.2.1 r.1 0 r.2.2

variable (F : Libm K)

/-- transforms.c lines 50-63 and transforms_source.c lines 1-13. -/
def convLegCheb (normleg normcheb : Bool) (n : Int) : Conv K := ⟨createALegCheb normcheb n, createBLegCheb F normcheb n, diagLegCheb F normleg normcheb n⟩
/-- Lines 65-78 and 15-27. -/
def convChebLeg (normcheb normleg : Bool) (n : Int) : Conv K := ⟨createAChebLeg F normleg n, createBChebLeg F normleg n, diagChebLeg F normcheb normleg n⟩
/-- Lines 80-93 and 29-41. -/
def convUltUlt (norm1 norm2 : Bool) (n : Int) (lam mu : K) : Conv K := ⟨createAUltUlt F norm2 n lam mu, createBUltUlt F norm2 n mu, diagUltUlt F norm1 norm2 n lam mu⟩
/-- Lines 95-108 and 43-55. -/
def convJacJac (junk : Int → K) (norm1 norm2 : Bool) (n : Int) (α β γ δ : K) : Conv K :=
  ⟨createAJacJac F junk norm2 n α β γ δ, createBJacJac F norm2 n γ δ, diagJacJac F norm1 norm2 n α β γ δ⟩
/-- Lines 110-123 and 57-69. -/
def convLagLag (junk : Int → K) (norm1 norm2 : Bool) (n : Int) (α β : K) : Conv K :=
  ⟨createALagLag F junk norm2 n α β, createBLagLag F norm2 n β, diagLagLag F norm1 norm2 n α β⟩

/-! ## Scalings -/

/-- `sclrow` of transforms.c lines 128-132 and transforms_source.c lines 74-78. -/
def ultRow (junk : Int → K) (n : Int) (lam : K) : Option (Buf K) :=
  (diag0 n 1 ⟨n.toNat, junk⟩).bind (diagLoop 1 n 1 fun i d => F.div (lam + i - 1 / 2) (2 * lam + i - 1) * d)

/-- `sclcol` of transforms.c lines 144-148 and transforms_source.c lines 88-92. -/
def ultCol (junk : Int → K) (n : Int) (lam : K) : Option (Buf K) :=
  (diag0 n 1 ⟨n.toNat, junk⟩).bind (diagLoop 1 n 1 fun i d => F.div (2 * lam + i - 1) (lam + i - 1 / 2) * d)

/-- `scl[i] = i ? y : x`, transforms.c lines 161-162, 175-176, 189-190 and 203-204. -/
def chebScl (junk : Int → K) (n : Int) (x y : K) : Option (Buf K) := forUp 0 n (fun i s => s.wr i (if i ≠ 0 then y else x)) ⟨n.toNat, junk⟩

/-- The same as written in transforms_source.c lines 105-108. -/
def chebScl' (junk : Int → K) (n : Int) (x y : K) : Option (Buf K) := (diag0 n x ⟨n.toNat, junk⟩).bind (forUp 1 n fun i s => s.wr i y)

/-- `for (j …) for (i = 0; i <= j; i++) V[i+j*n] *= …`, transforms.c lines 133-135 and 149-151; `idx i j` is the index of the scale. -/
def scaleDense (n : Int) (idx : Int → Int → Int) (x : Buf K) (V : Buf K) : Option (Buf K) :=
  forUp 0 n (fun j V => forUp 0 (j + 1) (fun i V => (V.rd (i + j * n)).bind fun v => (x.rd (idx i j)).bind fun c => V.wr (i + j * n) (v * c)) V) V

/-- `for (j …) for (i = j; i >= 0; i -= 2) V[i+j*n] *= …`, transforms.c lines 191-193 and 205-207, with `i = j - 2 k`. -/
def scaleDense2 (n : Int) (idx : Int → Int → Int) (x : Buf K) (V : Buf K) : Option (Buf K) :=
  forUp 0 n (fun j V => forUp 0 (j / 2 + 1) (fun k V => (V.rd (j - 2 * k + j * n)).bind fun v => (x.rd (idx (j - 2 * k) j)).bind fun c => V.wr (j - 2 * k + j * n) (v * c)) V) V

/-! ## Dense plans; `pi` is the constant `M_PIl` -/

section
variable (eps : K) (junk : Int → K) (pi : K)

/-- transforms.c lines 125-139. -/
def denseJacUlt (normjac normultra : Bool) (n : Int) (α β lam : K) : Option (Buf K) :=
  (densePlan eps junk n (convJacJac F junk normjac normultra n α β (lam - 1 / 2) (lam - 1 / 2))).bind fun V =>
  if normultra = false then (ultRow F junk n lam).bind fun x => scaleDense n (fun i _ => i) x V else some V

/-- Lines 141-155. -/
def denseUltJac (normultra normjac : Bool) (n : Int) (lam α β : K) : Option (Buf K) :=
  (densePlan eps junk n (convJacJac F junk normultra normjac n (lam - 1 / 2) (lam - 1 / 2) α β)).bind fun V =>
  if normultra = false then (ultCol F junk n lam).bind fun x => scaleDense n (fun _ j => j) x V else some V

/-- Lines 157-169. -/
def denseJacCheb (normjac normcheb : Bool) (n : Int) (α β : K) : Option (Buf K) :=
  (densePlan eps junk n (convJacJac F junk normjac true n α β (-1 / 2) (-1 / 2))).bind fun V =>
  if normcheb = false then (chebScl junk n (F.sqrt (F.div 1 pi)) (F.sqrt (F.div 2 pi))).bind fun x => scaleDense n (fun i _ => i) x V else some V

/-- Lines 171-183. -/
def denseChebJac (normcheb normjac : Bool) (n : Int) (α β : K) : Option (Buf K) :=
  (densePlan eps junk n (convJacJac F junk true normjac n (-1 / 2) (-1 / 2) α β)).bind fun V =>
  if normcheb = false then (chebScl junk n (F.sqrt pi) (F.sqrt (F.div pi 2))).bind fun x => scaleDense n (fun _ j => j) x V else some V

/-- Lines 185-197. -/
def denseUltCheb (normultra normcheb : Bool) (n : Int) (lam : K) : Option (Buf K) :=
  (denseUltJac F eps junk normultra true n lam (-1 / 2) (-1 / 2)).bind fun V =>
  if normcheb = false then (chebScl junk n (F.sqrt (F.div 1 pi)) (F.sqrt (F.div 2 pi))).bind fun x => scaleDense2 n (fun i _ => i) x V else some V

/-- Lines 199-211. -/
def denseChebUlt (normcheb normultra : Bool) (n : Int) (lam : K) : Option (Buf K) :=
  (denseJacUlt F eps junk true normultra n (-1 / 2) (-1 / 2) lam).bind fun V =>
  if normcheb = false then (chebScl junk n (F.sqrt pi) (F.sqrt (F.div pi 2))).bind fun x => scaleDense2 n (fun _ j => j) x V else some V

end

/-! ## Divide-and-conquer plans -/

section
variable (E : FmmEnv K)

/-- transforms_source.c lines 71-83. -/
def fastJacUlt (normjac normultra : Bool) (n : Int) (α β lam : K) : Option (TbEig K × Int) :=
  (fastPlan E n (convJacJac F E.junk normjac normultra n α β (lam - 1 / 2) (lam - 1 / 2))).bind fun r =>
  if normultra = false then (ultRow F E.junk n lam).bind fun x => (scaleRowsTb E.BS 1 x r.1 0).map fun G => (G, r.2) else some r

/-- Lines 85-97. -/
def fastUltJac (normultra normjac : Bool) (n : Int) (lam α β : K) : Option (TbEig K × Int) :=
  (fastPlan E n (convJacJac F E.junk normultra normjac n (lam - 1 / 2) (lam - 1 / 2) α β)).bind fun r =>
  if normultra = false then (ultCol F E.junk n lam).bind fun x => (scaleColsTb E.BS 1 x r.1 0).map fun G => (G, r.2) else some r

/-- Lines 99-113. -/
def fastJacCheb (normjac normcheb : Bool) (n : Int) (α β : K) : Option (TbEig K × Int) :=
  (fastPlan E n (convJacJac F E.junk normjac true n α β (-1 / 2) (-1 / 2))).bind fun r =>
  if normcheb = false then (chebScl' E.junk n (F.div 1 (F.gamma (1 / 2))) (F.div (F.sqrt 2) (F.gamma (1 / 2)))).bind fun x => (scaleRowsTb E.BS 1 x r.1 0).map fun G => (G, r.2) else some r

/-- Lines 115-129. -/
def fastChebJac (normcheb normjac : Bool) (n : Int) (α β : K) : Option (TbEig K × Int) :=
  (fastPlan E n (convJacJac F E.junk true normjac n (-1 / 2) (-1 / 2) α β)).bind fun r =>
  if normcheb = false then (chebScl' E.junk n (F.gamma (1 / 2)) (F.div (F.gamma (1 / 2)) (F.sqrt 2))).bind fun x => (scaleColsTb E.BS 1 x r.1 0).map fun G => (G, r.2) else some r

/-- Lines 131-145. -/
def fastUltCheb (normultra normcheb : Bool) (n : Int) (lam : K) : Option (TbEig K × Int) :=
  (fastUltJac F E normultra true n lam (-1 / 2) (-1 / 2)).bind fun r =>
  if normcheb = false then (chebScl' E.junk n (F.div 1 (F.gamma (1 / 2))) (F.div (F.sqrt 2) (F.gamma (1 / 2)))).bind fun x => (scaleRowsTb E.BS 1 x r.1 0).map fun G => (G, r.2) else some r

/-- Lines 147-161. -/
def fastChebUlt (normcheb normultra : Bool) (n : Int) (lam : K) : Option (TbEig K × Int) :=
  (fastJacUlt F E true normultra n (-1 / 2) (-1 / 2) lam).bind fun r =>
  if normcheb = false then (chebScl' E.junk n (F.gamma (1 / 2)) (F.div (F.gamma (1 / 2)) (F.sqrt 2))).bind fun x => (scaleColsTb E.BS 1 x r.1 0).map fun G => (G, r.2) else some r

end
end
end FT.Model
