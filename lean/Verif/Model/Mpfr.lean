import Verif.Model.Plans

/-!
# Plans of conversions in multiple precision

`/repo/src/transforms_mpfr.c` lines 124-205 and 207-1295: pencils, eigenvectors and plans.  Operations of MPFR are exact here, and temporaries are cleared by the code and forgotten here.  The
quotient by zero, the root of a negative number and the gamma function at a pole are not-a-number in MPFR; here they are the unspecified values of the functions in `F`, except in the
eigenvectors, where a division by zero is the outcome `none`.
-/

namespace FT.Model
open FT FT.Prog
variable {K : Type*}

section
variable [Field K] [LinearOrder K]

/-! ## Eigenvectors -/

/-- The new `V[i+j*n]`, lines 183-199: the sum of `(lam*B_ik - A_ik)*V[k+j*n]`, divided by `lam*B_ii - A_ii` and negated. -/
def mpfrEigRow (A B : TB K) (lam : K) (i j : Int) (V : Buf K) : Option K :=
  (accUp (i + 1) (min (i + max A.b B.b + 1) A.n) 0 fun k =>
    (V.rd (k + j * A.n)).bind fun v => (A.get i k).bind fun a => (B.get i k).map fun b => (lam * b - a) * v).bind fun t =>
  (A.get i i).bind fun a => (B.get i i).bind fun b => (divC t (lam * b - a)).map fun q => -q

/-- `ft_mpfr_triangular_banded_eigenvectors`, lines 167-205. -/
def mpfrEigenvectors (A B : TB K) (V : Buf K) : Option (Buf K) := backSub A.n (pencilLam A B) (mpfrEigRow A B) V

/-- The unit matrix as every plan initialises it, lines 250-257. -/
def unitMatrix (junk : Int → K) (n : Int) : Option (Buf K) :=
  forUp 0 n (fun j V => (forUp 0 n (fun i V => V.wr (i + j * n) 0) V).bind fun V => V.wr (j + j * n) 1) ⟨(n * n).toNat, junk⟩

/-- `V[i+j*n] = sclrow[i]*V[i+j*n]*sclcol[j]`. -/
def scaleEntry (n : Int) (r c : Buf K) (i j : Int) (V : Buf K) : Option (Buf K) :=
  (r.rd i).bind fun x => (V.rd (i + j * n)).bind fun v => (V.wr (i + j * n) (x * v)).bind fun V =>
  (V.rd (i + j * n)).bind fun v => (c.rd j).bind fun y => V.wr (i + j * n) (v * y)

/-- `for (i = j; i >= 0; i -= 2)`, lines 314-319, 467-472 and 652-657. -/
def scaleBoth2 (n : Int) (r c : Buf K) (V : Buf K) : Option (Buf K) :=
  forUp 0 n (fun j V => forUp 0 (j / 2 + 1) (fun k V => scaleEntry n r c (j - 2 * k) j V) V) V

/-- `for (i = 0; i <= j; i++)`, lines 980-985 and 1079-1084. -/
def scaleBoth (n : Int) (r c : Buf K) (V : Buf K) : Option (Buf K) :=
  forUp 0 n (fun j V => forUp 0 (j + 1) (fun i V => scaleEntry n r c i j V) V) V

/-- The part of a plan up to the scales: lines 248-258, 399-409, 577-587, 853-863 and 1031-1041. -/
def mpfrBasic (junk : Int → K) (n : Int) (A B : Option (TB K)) : Option (Buf K) :=
  A.bind fun A => B.bind fun B => (unitMatrix junk n).bind fun V => mpfrEigenvectors A B V

variable (F : Libm K)

/-- `mpfr_rec_sqrt`. -/
def recSqrt (x : K) : K := F.div 1 (F.sqrt x)

/-! ## Pencils -/

/-- `ft_mpfr_create_A_legendre_to_chebyshev`, lines 207-223. -/
def mpfrALegCheb (n : Int) : Option (TB K) := do
  let A := callocTB n 2
  let A ← if n > 1 then A.set 2 1 1 else some A
  forUp 2 n (fun i A => do
    let A ← A.set (-i * (i - 1)) (i - 2) i
    A.set (i * (i + 1)) i i) A

/-- `ft_mpfr_create_B_legendre_to_chebyshev`, lines 225-245. -/
def mpfrBLegCheb (n : Int) : Option (TB K) := do
  let B := callocTB n 2
  let B ← if n > 0 then B.set 2 0 0 else some B
  let B ← if n > 1 then B.set 1 1 1 else some B
  forUp 2 n (fun i B => do
    let B ← B.set (-1) (i - 2) i
    B.set 1 i i) B

/-- `ft_mpfr_create_A_chebyshev_to_legendre`, lines 340-365. -/
def mpfrAChebLeg (n : Int) : Option (TB K) := do
  let A := callocTB n 2
  let A ← if n > 1 then A.set (F.div 1 3) 1 1 else some A
  forUp 2 n (fun i A => do
    let A ← A.set (F.div (-(i + 1) * (i + 1)) (2 * i + 1)) (i - 2) i
    A.set (F.div (1 * i * i) (2 * i + 1)) i i) A

/-- `ft_mpfr_create_B_chebyshev_to_legendre`, lines 367-396. -/
def mpfrBChebLeg (n : Int) : Option (TB K) := do
  let B := callocTB n 2
  let B ← if n > 0 then B.set 1 0 0 else some B
  let B ← if n > 1 then B.set (F.div 1 3) 1 1 else some B
  forUp 2 n (fun i B => do
    let B ← B.set (F.div (-1) (2 * i + 1)) (i - 2) i
    B.set (F.div 1 (2 * i + 1)) i i) B

/-- `ft_mpfr_create_A_ultraspherical_to_ultraspherical`, lines 494-546. -/
def mpfrAUltUlt (n : Int) (lam mu : K) : Option (TB K) := do
  let A := callocTB n 2
  let A ← if n > 1 then A.set (F.div ((lam * 2 + 1) * mu) (mu + 1)) 1 1 else some A
  forUp 2 n (fun i A => do
    let t7 := F.div mu (mu + i)
    let A ← A.set (-((mu * 2 + i) * ((mu - lam) * 2 + i) * t7)) (i - 2) i
    A.set ((lam * 2 + i) * i * t7) i i) A

/-- `ft_mpfr_create_B_ultraspherical_to_ultraspherical`, lines 548-574. -/
def mpfrBUltUlt (n : Int) (mu : K) : Option (TB K) := do
  let B := callocTB n 2
  let B ← if n > 0 then B.set 1 0 0 else some B
  let B ← if n > 1 then B.set (F.div mu (mu + 1)) 1 1 else some B
  forUp 2 n (fun i B => do
    let v := F.div mu (mu + i)
    let B ← B.set (-v) (i - 2) i
    B.set v i i) B

/-- `ft_mpfr_create_A_jacobi_to_jacobi`, lines 676-784; the names are those of the code. -/
def mpfrAJacJac (n : Int) (α β γ δ : K) : Option (TB K) := do
  let A := callocTB n 2
  let A ← if n > 1 then
      let t1 := F.div (γ + δ - (α + β)) 2
      let t2 := F.div (γ - δ - (α - β)) 2
      let t3 := γ + δ + 2
      let t4 := γ - δ
      let t5 := t3 + 2
      (A.set (F.div ((t1 + 1) * t3) t5 * t4 - t2 * t3) 0 1).bind fun A => A.set (F.div ((α + β + 2) * t3) t5) 1 1
    else some A
  forUp 2 n (fun i A => do
    let t1 := γ + i
    let t2 := δ + i
    let t3 := t1 + t2
    let t4 := t3 + 1
    let t5 := t4 + 1
    let t9 := γ - δ
    let t10 := γ + δ + (i + 1)
    let t11 := t10 + 1
    let t12 := α + β + (i + 1)
    let t14 := γ + δ - (α + β) + i
    let t8 := (γ + δ + 2) * F.div (γ + δ - (α + β)) 2
    let t15 := t10 * F.div (t9 - (α - β)) 2
    let A ← A.set (-(F.div (F.div (t10 * t1) t3 * t2) t4 * t14)) (i - 2) i
    let A ← A.set (F.div (F.div ((t10 * i + t8) * t9) t3 * t10) t5 - t15) (i - 1) i
    A.set (F.div (F.div (t12 * i * t10) t4 * t11) t5) i i) A

/-- `ft_mpfr_create_B_jacobi_to_jacobi`, lines 786-850. -/
def mpfrBJacJac (n : Int) (γ δ : K) : Option (TB K) := do
  let B := callocTB n 2
  let B ← if n > 0 then B.set 1 0 0 else some B
  let B ← if n > 1 then
      (B.set (F.div (γ - δ) (γ + δ + 4)) 0 1).bind fun B => B.set (F.div (γ + δ + 2) (γ + δ + 4)) 1 1
    else some B
  forUp 2 n (fun i B => do
    let t3 := γ + i + (δ + i)
    let t2 := t3 - (i - 1)
    let B ← B.set (-(F.div (γ + i) t3 * F.div (δ + i) (t3 + 1))) (i - 2) i
    let B ← B.set (F.div (γ - δ) t3 * F.div t2 (t3 + 2)) (i - 1) i
    B.set (F.div t2 (t3 + 1) * F.div (t2 + 1) (t3 + 2)) i i) B

/-- `ft_mpfr_create_A_laguerre_to_laguerre`, lines 1001-1014. -/
def mpfrALagLag (n : Int) (α β : K) : Option (TB K) :=
  forUp 0 n (fun i A => do
    let A ← A.set (α - β - i) (i - 1) i
    A.set (i : K) i i) (callocTB n 1)

/-- `ft_mpfr_create_B_laguerre_to_laguerre`, lines 1016-1028. -/
def mpfrBLagLag (n : Int) : Option (TB K) :=
  forUp 0 n (fun i B => do
    let B ← B.set (-1) (i - 1) i
    B.set 1 i i) (callocTB n 1)

/-! ## Scales -/

/-- The loops of lines 298-312 and 451-465: a running factor `t`, an entry of `sclrow` and `t` times another number in `sclcol`. -/
def runScales (n : Int) (rat row col : Int → K) (s : (Buf K × Buf K) × K) : Option ((Buf K × Buf K) × K) :=
  forUp 2 n (fun i s =>
    let t := rat i * s.2
    (s.1.1.wr i (row i)).bind fun r => (s.1.2.wr i (t * col i)).map fun c => ((r, c), t)) s

/-- `sclrow` and `sclcol` of lines 260-312. -/
def mpfrSclLegCheb (junk : Int → K) (normleg normcheb : Bool) (n : Int) : Option (Buf K × Buf K) :=
  let sqrtpi := F.gamma (1 / 2)
  let sqrthalf := F.sqrt (1 / 2)
  let sqrtpi2 := sqrtpi * sqrthalf
  (diag0 n (if normcheb then sqrtpi else 1) ⟨n.toNat, junk⟩).bind fun r => (diag0 n (if normleg then sqrthalf else 1) ⟨n.toNat, junk⟩).bind fun c =>
  (if n > 1 then r.wr 1 (if normcheb then sqrtpi2 else 1) else some r).bind fun r => (if n > 1 then c.wr 1 (if normleg then F.sqrt (3 / 2) else 1) else some c).bind fun c =>
  (runScales n (fun i => F.div (2 * i - 1) (2 * i)) (fun _ => if normcheb then sqrtpi2 else 1) (fun i => if normleg then F.sqrt (i + 1 / 2) else 1) ((r, c), 1)).map fun s => s.1

/-- `sclrow` and `sclcol` of lines 411-465. -/
def mpfrSclChebLeg (junk : Int → K) (normcheb normleg : Bool) (n : Int) : Option (Buf K × Buf K) :=
  let sqrt_1_pi := F.div 1 (F.gamma (1 / 2))
  let sqrt2 := F.sqrt 2
  let sqrt_2_pi := sqrt_1_pi * sqrt2
  (diag0 n (if normleg then sqrt2 else 1) ⟨n.toNat, junk⟩).bind fun r => (diag0 n (if normcheb then sqrt_1_pi else 1) ⟨n.toNat, junk⟩).bind fun c =>
  (if n > 1 then r.wr 1 (if normleg then recSqrt F (3 / 2) else 1) else some r).bind fun r => (if n > 1 then c.wr 1 (if normcheb then sqrt_2_pi else 1) else some c).bind fun c =>
  (runScales n (fun i => F.div (2 * i) (2 * i - 1)) (fun i => if normleg then recSqrt F (i + 1 / 2) else 1) (fun _ => if normcheb then sqrt_2_pi else 1) ((r, c), 1)).map fun s => s.1

/-- `sclrow` of lines 600-650. -/
def mpfrRowUlt (junk : Int → K) (norm2 : Bool) (n : Int) (mu : K) : Option (Buf K) :=
  (diag0 n (if norm2 then F.sqrt (F.div (F.gamma (1 / 2) * F.gamma (mu + 1 / 2)) (F.gamma (mu + 1))) else 1) ⟨n.toNat, junk⟩).bind
    (diagLoop 1 n 1 fun i d =>
      let t1 := mu + (i - 1)
      if norm2 then F.sqrt (F.div t1 i * F.div (t1 + mu) (t1 + 1)) * d else 1)

/-- `sclcol` of lines 600-650. -/
def mpfrColUlt (junk : Int → K) (norm1 : Bool) (n : Int) (lam mu : K) : Option (Buf K) :=
  (diag0 n (if norm1 then F.sqrt (F.div (F.gamma (lam + 1)) (F.gamma (1 / 2) * F.gamma (lam + 1 / 2))) else 1) ⟨n.toNat, junk⟩).bind
    (diagLoop 1 n 1 fun i d =>
      let t1 := lam + (i - 1)
      let t4 := F.div t1 (mu + (i - 1)) * d
      if norm1 then F.sqrt (F.div i t1 * F.div (t1 + 1) (t1 + lam)) * t4 else t4)

/-- `Γ(γ+δ+2)/Γ(γ+1)/Γ(δ+1)/2^(γ+δ+1)`, lines 873-884. -/
def jacMass (γ δ : K) : K := F.div (F.div (F.div (F.gamma (γ + 1 + (δ + 1))) (F.gamma (γ + 1))) (F.gamma (δ + 1))) (F.pow2 (γ + 1 + (δ + 1) - 1))

/-- The number whose root is taken in lines 935-944 and 949-960. -/
def jacQuot (γ δ : K) (i : Int) : K :=
  let t3 := γ + i + (δ + i) - 1
  F.div (F.div (γ + i) i * (δ + i)) (δ + i + γ) * F.div t3 (t3 + 2)

/-- `sclrow` of lines 873-977. -/
def mpfrRowJac (junk : Int → K) (norm2 : Bool) (n : Int) (γ δ : K) : Option (Buf K) :=
  (diag0 n (if norm2 then recSqrt F (jacMass F γ δ) else 1) ⟨n.toNat, junk⟩).bind fun r =>
  (diag1 n 1 (fun d => if norm2 then F.sqrt (F.div ((γ + 1) * (δ + 1)) (γ + 1 + (δ + 1) + 1)) * d else 1) r).bind
    (diagLoop 2 n 1 fun i d => if norm2 then F.sqrt (jacQuot F γ δ i) * d else 1)

/-- `sclcol` of lines 873-977. -/
def mpfrColJac (junk : Int → K) (norm1 : Bool) (n : Int) (α β γ δ : K) : Option (Buf K) :=
  (diag0 n (if norm1 then F.sqrt (jacMass F α β) else 1) ⟨n.toNat, junk⟩).bind fun c =>
  (diag1 n 1 (fun d =>
    let t3 := F.sqrt (F.div (α + 1 + (β + 1) + 1) ((α + 1) * (β + 1)))
    let t4 := F.div (α + β + 2) (γ + δ + 2) * d
    if norm1 then t3 * t4 else t4) c).bind
    (diagLoop 2 n 1 fun i d =>
      let t2 := α + β + i
      let t1 := t2 + i
      let u1 := γ + δ + i
      let u2 := u1 + i
      let t4 := F.div (F.div (u1 * ((t1 - 1) * F.div t1 t2)) u2) (u2 - 1) * d
      if norm1 then recSqrt F (jacQuot F α β i) * t4 else t4)

/-- `sclrow` of lines 1050-1077. -/
def mpfrRowLag (junk : Int → K) (norm2 : Bool) (n : Int) (β : K) : Option (Buf K) :=
  (diag0 n (if norm2 then F.sqrt (F.gamma (β + 1)) else 1) ⟨n.toNat, junk⟩).bind (diagLoop 1 n 1 fun i d => if norm2 then F.sqrt (F.div (β + i) i) * d else 1)

/-- `sclcol` of lines 1050-1077. -/
def mpfrColLag (junk : Int → K) (norm1 : Bool) (n : Int) (α : K) : Option (Buf K) :=
  (diag0 n (if norm1 then recSqrt F (F.gamma (α + 1)) else 1) ⟨n.toNat, junk⟩).bind (diagLoop 1 n 1 fun i d => if norm1 then F.sqrt (F.div i (α + i)) * d else 1)

/-! ## Plans -/

variable (junk : Int → K)

/-- `ft_mpfr_plan_legendre_to_chebyshev`, lines 247-338. -/
def mpfrLegCheb (normleg normcheb : Bool) (n : Int) : Option (Buf K) :=
  (mpfrBasic junk n (mpfrALegCheb n) (mpfrBLegCheb n)).bind fun V => (mpfrSclLegCheb F junk normleg normcheb n).bind fun s => scaleBoth2 n s.1 s.2 V

/-- `ft_mpfr_plan_chebyshev_to_legendre`, lines 398-492. -/
def mpfrChebLeg (normcheb normleg : Bool) (n : Int) : Option (Buf K) :=
  (mpfrBasic junk n (mpfrAChebLeg F n) (mpfrBChebLeg F n)).bind fun V => (mpfrSclChebLeg F junk normcheb normleg n).bind fun s => scaleBoth2 n s.1 s.2 V

/-- `ft_mpfr_plan_ultraspherical_to_ultraspherical`, lines 576-674.  The loop that fills `sclrow` and `sclcol` is two loops here, as in the next two plans. -/
def mpfrUltUlt (norm1 norm2 : Bool) (n : Int) (lam mu : K) : Option (Buf K) :=
  (mpfrBasic junk n (mpfrAUltUlt F n lam mu) (mpfrBUltUlt F n mu)).bind fun V =>
  (mpfrRowUlt F junk norm2 n mu).bind fun r => (mpfrColUlt F junk norm1 n lam mu).bind fun c => scaleBoth2 n r c V

/-- `ft_mpfr_plan_jacobi_to_jacobi`, lines 852-999. -/
def mpfrJacJac (norm1 norm2 : Bool) (n : Int) (α β γ δ : K) : Option (Buf K) :=
  (mpfrBasic junk n (mpfrAJacJac F n α β γ δ) (mpfrBJacJac F n γ δ)).bind fun V =>
  (mpfrRowJac F junk norm2 n γ δ).bind fun r => (mpfrColJac F junk norm1 n α β γ δ).bind fun c => scaleBoth n r c V

/-- `ft_mpfr_plan_laguerre_to_laguerre`, lines 1030-1097. -/
def mpfrLagLag (norm1 norm2 : Bool) (n : Int) (α β : K) : Option (Buf K) :=
  (mpfrBasic junk n (mpfrALagLag n α β) (mpfrBLagLag n)).bind fun V =>
  (mpfrRowLag F junk norm2 n β).bind fun r => (mpfrColLag F junk norm1 n α).bind fun c => scaleBoth n r c V

/-- `ft_mpfr_plan_jacobi_to_ultraspherical`, lines 1099-1133; `t1` and `t2` are closed forms of the numbers that the loop increments. -/
def mpfrJacUlt (normjac normultra : Bool) (n : Int) (α β lam : K) : Option (Buf K) :=
  (mpfrJacJac F junk normjac normultra n α β (lam - 1 / 2) (lam - 1 / 2)).bind fun V =>
  if normultra = false then
    ((diag0 n 1 ⟨n.toNat, junk⟩).bind (diagLoop 1 n 1 fun i d => F.div (lam - 1 / 2 + i) (lam * 2 - 1 + i) * d)).bind fun x => scaleDense n (fun i _ => i) x V
  else some V

/-- `ft_mpfr_plan_ultraspherical_to_jacobi`, lines 1135-1169. -/
def mpfrUltJac (normultra normjac : Bool) (n : Int) (lam α β : K) : Option (Buf K) :=
  (mpfrJacJac F junk normultra normjac n (lam - 1 / 2) (lam - 1 / 2) α β).bind fun V =>
  if normultra = false then
    ((diag0 n 1 ⟨n.toNat, junk⟩).bind (diagLoop 1 n 1 fun i d => F.div (lam * 2 - 1 + i) (lam - 1 / 2 + i) * d)).bind fun x => scaleDense n (fun _ j => j) x V
  else some V

/-- `ft_mpfr_plan_jacobi_to_chebyshev`, lines 1171-1201. -/
def mpfrJacCheb (normjac normcheb : Bool) (n : Int) (α β : K) : Option (Buf K) :=
  (mpfrJacJac F junk normjac true n α β (-1 / 2) (-1 / 2)).bind fun V =>
  if normcheb = false then
    (chebScl junk n (F.div 1 (F.gamma (1 / 2))) (F.div (F.div 1 (F.gamma (1 / 2))) (F.sqrt (1 / 2)))).bind fun x => scaleDense n (fun i _ => i) x V
  else some V

/-- `ft_mpfr_plan_chebyshev_to_jacobi`, lines 1203-1232. -/
def mpfrChebJac (normcheb normjac : Bool) (n : Int) (α β : K) : Option (Buf K) :=
  (mpfrJacJac F junk true normjac n (-1 / 2) (-1 / 2) α β).bind fun V =>
  if normcheb = false then (chebScl junk n (F.gamma (1 / 2)) (F.gamma (1 / 2) * F.sqrt (1 / 2))).bind fun x => scaleDense n (fun _ j => j) x V else some V

/-- `ft_mpfr_plan_ultraspherical_to_chebyshev`, lines 1234-1264. -/
def mpfrUltCheb (normultra normcheb : Bool) (n : Int) (lam : K) : Option (Buf K) :=
  (mpfrUltJac F junk normultra true n lam (-1 / 2) (-1 / 2)).bind fun V =>
  if normcheb = false then
    (chebScl junk n (F.div 1 (F.gamma (1 / 2))) (F.div (F.div 1 (F.gamma (1 / 2))) (F.sqrt (1 / 2)))).bind fun x => scaleDense2 n (fun i _ => i) x V
  else some V

/-- `ft_mpfr_plan_chebyshev_to_ultraspherical`, lines 1266-1295. -/
def mpfrChebUlt (normcheb normultra : Bool) (n : Int) (lam : K) : Option (Buf K) :=
  (mpfrJacUlt F junk true normultra n (-1 / 2) (-1 / 2) lam).bind fun V =>
  if normcheb = false then (chebScl junk n (F.gamma (1 / 2)) (F.gamma (1 / 2) * F.sqrt (1 / 2))).bind fun x => scaleDense2 n (fun _ j => j) x V else some V

end
end FT.Model
