import Verif.Lemmas.TriCongAll
import Verif.Lemmas.TdcMat
import Verif.Lemmas.PosPivot
import Verif.Props.TriEig
import Verif.Props.TriCongSpec

/-! # C69: symmetric-definite tridiagonal pencils are reduced to a symmetric tridiagonal matrix, and solved -/

namespace FT.Props
open FT
open Matrix
variable {K : Type*} [Field K] [LinearOrder K]

/-! ## Quadratic forms of matrices -/

/-- A vector on the range. -/
def sqv (n : Int) (x : Int → K) : Finset.Ico (0 : Int) n → K := fun i => x i

omit [LinearOrder K] in
theorem sqv_form (n : Int) (F : Int → Int → K) (x : Int → K) : ∑ i ∈ Finset.Ico 0 n, x i * rowMul n F x i = sqv n x ⬝ᵥ (sqm n F *ᵥ sqv n x) := by
  unfold dotProduct
  rw [← Finset.sum_coe_sort (Finset.Ico 0 n) fun i => x i * rowMul n F x i]
  refine Finset.sum_congr rfl fun i _ => ?_
  show _ = x i * _
  congr 1
  unfold rowMul mulVec dotProduct
  exact (Finset.sum_coe_sort (Finset.Ico 0 n) fun r => F i r * x r).symm

omit [LinearOrder K] in
theorem sqv_dot (n : Int) (x y : Int → K) : ∑ i ∈ Finset.Ico 0 n, x i * y i = sqv n x ⬝ᵥ sqv n y :=
  (Finset.sum_coe_sort (Finset.Ico 0 n) fun i => x i * y i).symm

/-- The product, as a function of two integers. -/
noncomputable def mulF (n : Int) (P Q : Int → Int → K) (i j : Int) : K := ∑ r ∈ Finset.Ico 0 n, P i r * Q r j

omit [LinearOrder K] in
theorem sqm_mulF (n : Int) (P Q : Int → Int → K) : sqm n (mulF n P Q) = sqm n P * sqm n Q := (sqm_mul n P Q).symm

omit [LinearOrder K] in
theorem congTo_sq {n : Int} {M W S : Int → Int → K} (h : CongTo n M W S) : (sqm n W)ᵀ * (sqm n M * sqm n W) = sqm n S := by
  rw [sqm_mul, show (sqm n W)ᵀ = sqm n (fun i j => W j i) from rfl, sqm_mul]
  exact sqm_congr h

omit [LinearOrder K] in
theorem congTo_of_sq {n : Int} {M W S : Int → Int → K} (h : (sqm n W)ᵀ * (sqm n M * sqm n W) = sqm n S) : CongTo n M W S := fun j k j0 j1 k0 k1 => by
  rw [sqm_mul, show (sqm n W)ᵀ = sqm n (fun i j => W j i) from rfl, sqm_mul] at h
  exact sqm_apply h j0 j1 k0 k1

variable [IsStrictOrderedRing K]

/-- **C69**, the reduction: for every symmetric tridiagonal `A` and every symmetric positive definite tridiagonal `B` of the same size, at least two,
`symmetric_tridiagonal_congruence` stays within its arrays and returns a symmetric tridiagonal matrix `AS` and `V W` in the place of `V`, for a matrix `W` with `Wᵀ A W = AS` and `Wᵀ B W = I`. -/
theorem C69_congruence {sqrt : K → K} (hs : IsSqrt sqrt) {A B : SymTri K} (n2 : 2 ≤ A.n) (hBn : B.n = A.n) (ha : A.n ≤ A.a.size) (hb : A.n - 1 ≤ A.b.size) (hBa : B.a.size = B.n)
    (hBb : B.b.size = B.n - 1) (hB : PosForm A.n (triMat B.a.val B.b.val)) {V : Buf K} (hV : (V.size : Int) = A.n * A.n) (j1 j2 j3 j4 : Int → K) :
    ∃ AS V' W, triCong sqrt j1 j2 j3 j4 A B V = some (AS, V') ∧ AS.n = A.n ∧ (AS.a.size : Int) = A.n ∧ (AS.b.size : Int) = A.n - 1 ∧ V'.size = V.size ∧
      (∀ k j, 0 ≤ k → k < A.n → 0 ≤ j → j < A.n → V'.val (k + A.n * j) = ∑ r ∈ Finset.Ico 0 A.n, V.val (k + A.n * r) * W r j) ∧
      CongTo A.n (triMat A.a.val A.b.val) W (triMat AS.a.val AS.b.val) ∧ CongTo A.n (triMat B.a.val B.b.val) W eyeM := by
  obtain ⟨p, p0, ps, hp⟩ := pivots_of_pos hB
  obtain ⟨AS, V', h1, h2, h3, h4, h5, W, h6, h7, h8⟩ := triCong_core hs n2 hBn ha hb hBa hBb p0 ps hp hV j1 j2 j3 j4
  exact ⟨AS, V', W, h1, h2, h3, h4, h5, h6, h7, h8⟩

omit [IsStrictOrderedRing K] in
/-- A perturbation of the reduced matrix is one of the pencil. -/
theorem pull_back {n : Int} {A B W S E U : Int → Int → K} {l : Int → K} {tau : K} (hBs : ∀ i j, B i j = B j i) (hA : CongTo n A W S) (hW : CongTo n B W eyeM) (hE : SmallSym n E tau)
    (hU : Decomposes n (fun i j => S i j + E i j) eyeM U l) : ∃ F, SmallRel n F B tau ∧ Decomposes n (fun i j => A i j + F i j) B (mulF n W U) l := by
  obtain ⟨Z, hZ⟩ : ∃ Z, Z = mulF n (fun i j => W j i) B := ⟨_, rfl⟩
  obtain ⟨F, hF⟩ : ∃ F, F = mulF n (fun i j => Z j i) (mulF n E Z) := ⟨_, rfl⟩
  have hBt : (sqm n B)ᵀ = sqm n B := by ext i j; exact hBs j i
  have hI : sqm n (eyeM (K := K)) = 1 := sqm_one n
  have mA := congTo_sq hA
  have mB := congTo_sq hW
  rw [hI] at mB
  have mZ : sqm n Z = (sqm n W)ᵀ * sqm n B := by rw [hZ, sqm_mulF]; rfl
  have mF : sqm n F = (sqm n Z)ᵀ * (sqm n E * sqm n Z) := by rw [hF, sqm_mulF, sqm_mulF]; rfl
  have ZW : sqm n Z * sqm n W = 1 := by rw [mZ, Matrix.mul_assoc, mB]
  have WZ : sqm n W * sqm n Z = 1 := mul_eq_one_comm.1 ZW
  have ZtWt : (sqm n Z)ᵀ * (sqm n W)ᵀ = 1 := by rw [← transpose_mul, WZ, transpose_one]
  have mZt : (sqm n Z)ᵀ = sqm n B * sqm n W := by rw [mZ, transpose_mul, transpose_transpose, hBt]
  have ZZ : (sqm n Z)ᵀ * sqm n Z = sqm n B := by rw [mZt, Matrix.mul_assoc, WZ, Matrix.mul_one]
  obtain ⟨u1, u2⟩ := hU.sq
  have mS : sqm n (fun i j => S i j + E i j) = sqm n S + sqm n E := rfl
  rw [hI, Matrix.one_mul, mS] at u1
  rw [hI, Matrix.one_mul] at u2
  have mAF : sqm n (fun i j => A i j + F i j) = sqm n A + sqm n F := rfl
  have AW : sqm n A * sqm n W = (sqm n Z)ᵀ * sqm n S := by
    rw [← mA, ← Matrix.mul_assoc, ZtWt, Matrix.one_mul]
  have FW : sqm n F * sqm n W = (sqm n Z)ᵀ * sqm n E := by
    rw [mF, Matrix.mul_assoc, Matrix.mul_assoc, ZW, Matrix.mul_one]
  refine ⟨F, ⟨fun i j => ?_, fun x => ?_⟩, decomposes_of_sq hU.asc ?_ ?_⟩
  · rw [hF]
    unfold mulF
    simp only [Finset.mul_sum]
    rw [Finset.sum_comm]
    refine Finset.sum_congr rfl fun r _ => Finset.sum_congr rfl fun s _ => ?_
    rw [hE.sym]
    ring
  · have e1 : ∑ i ∈ Finset.Ico 0 n, x i * rowMul n F x i = ∑ i ∈ Finset.Ico 0 n, rowMul n Z x i * rowMul n E (rowMul n Z x) i := by
      have hv : sqv n (rowMul n Z x) = sqm n Z *ᵥ sqv n x := by
        funext i
        exact (Finset.sum_coe_sort (Finset.Ico 0 n) fun r => Z i r * x r).symm
      rw [sqv_form, sqv_form, hv, mF, ← mulVec_mulVec, dotProduct_mulVec, vecMul_transpose, ← mulVec_mulVec]
    have e2 : ∑ i ∈ Finset.Ico 0 n, x i * rowMul n B x i = ∑ i ∈ Finset.Ico 0 n, rowMul n Z x i * rowMul n Z x i := by
      have hv : sqv n (rowMul n Z x) = sqm n Z *ᵥ sqv n x := by
        funext i
        exact (Finset.sum_coe_sort (Finset.Ico 0 n) fun r => Z i r * x r).symm
      rw [sqv_form, sqv_dot, hv, ← ZZ, ← mulVec_mulVec, dotProduct_mulVec, vecMul_transpose]
    rw [e1, e2]
    exact hE.bd _
  · rw [mAF, sqm_mulF, Matrix.add_mul, ← Matrix.mul_assoc, ← Matrix.mul_assoc, ← Matrix.mul_assoc, AW, FW, ← mZt, ← Matrix.add_mul, ← Matrix.mul_add, Matrix.mul_assoc, u1, Matrix.mul_assoc]
  · rw [sqm_mulF, transpose_mul, ← Matrix.mul_assoc (sqm n B), Matrix.mul_assoc, ← Matrix.mul_assoc (sqm n W)ᵀ, mB, Matrix.one_mul, u2]

/-- **C69.** For every symmetric tridiagonal `A` and symmetric positive definite tridiagonal `B` of the same size, at least two, and every starting `V`: `symmetric_definite_tridiagonal_eig` stays
within its arrays and returns `V M` in the place of `V` with `Mᵀ B M = I` and the diagonal entries of `V M` not negative, also when the iterations give up.  When they do not, the eigenvalues ascend and
`(A + F) M = B M diag(λ)` for a symmetric `F` with `|xᵀ F x| ≤ 2 n η t · xᵀ B x`, where `η` is the accuracy of the test for a negligible entry and `t` the largest sum of magnitudes the iterations saw.
Missing: that the iterations do not give up (`C69_two_by_two` for size two), and size one (`C69_size_one_defect`). -/
theorem C69_definite_eig_partial {negl : K → K → Bool} {eta : K} (hN : NeglOk negl eta) {sqrt : K → K} (hs : IsSqrt sqrt) {A B : SymTri K} (n2 : 2 ≤ A.n) (hBn : B.n = A.n) (ha : A.n ≤ A.a.size)
    (hb : A.n - 1 ≤ A.b.size) (hBa : B.a.size = B.n) (hBb : B.b.size = B.n - 1) (hB : PosForm A.n (triMat B.a.val B.b.val)) {V lambda : Buf K} (hV : (V.size : Int) = A.n * A.n)
    (hl : A.n ≤ lambda.size) (j1 j2 j3 j4 j5 j6 : Int → K) :
    ∃ out M, symDefTriEig negl sqrt j1 j2 j3 j4 j5 j6 A B V lambda = some out ∧ out.V.size = V.size ∧ out.lambda.size = lambda.size ∧ (∀ i, ¬ (0 ≤ i ∧ i < A.n) → out.lambda.val i = lambda.val i) ∧
      (∀ k j, 0 ≤ k → k < A.n → 0 ≤ j → j < A.n → out.V.val (k + A.n * j) = ∑ r ∈ Finset.Ico 0 A.n, V.val (k + A.n * r) * M r j) ∧ CongTo A.n (triMat B.a.val B.b.val) M eyeM ∧
      (∀ j, 0 ≤ j → j < A.n → 0 ≤ out.V.val (j + A.n * j)) ∧
      (out.ok = true → ∃ F, SmallRel A.n F (triMat B.a.val B.b.val) (2 * A.n * eta * out.tst) ∧
        Decomposes A.n (fun i j => triMat A.a.val A.b.val i j + F i j) (triMat B.a.val B.b.val) M out.lambda.val) := by
  obtain ⟨AS, V', W, e1, e2, e3, e4, e5, e6, e7, e8⟩ := C69_congruence hs n2 hBn ha hb hBa hBb hB hV j1 j2 j3 j4
  obtain ⟨out, U, E, h1, h2, h3, h4, h5, h6, h7, h8⟩ := C68_tridiagonal_eig_partial hN hs (A := AS) (V := V') (lambda := lambda) (by omega) (by omega) (by omega) (by rw [e5, e2, hV]) (by omega) j5 j6
  rw [e2] at h4 h5 h6 h7 h8
  refine ⟨out, mulF A.n W U, ?_, by rw [h2, e5], h3, h4, fun k j k0 k1 j0 j1 => ?_, congTo_of_sq ?_, h7, fun h => ?_⟩
  · unfold symDefTriEig
    rw [e1, Option.bind_some]
    exact h1
  · rw [h6 k j k0 k1 j0 j1]
    unfold mulF
    simp only [Finset.mul_sum]
    rw [Finset.sum_comm]
    refine Finset.sum_congr rfl fun r hr => ?_
    rw [Finset.mem_Ico] at hr
    rw [e6 k r k0 k1 hr.1 hr.2, Finset.sum_mul]
    exact Finset.sum_congr rfl fun s _ => mul_assoc _ _ _
  · have mB := congTo_sq e8
    have hI : sqm A.n (eyeM (K := K)) = 1 := sqm_one A.n
    rw [hI] at mB ⊢
    have mU : (sqm A.n U)ᵀ * sqm A.n U = 1 := by
      rw [show (sqm A.n U)ᵀ = sqm A.n (fun i j => U j i) from rfl, sqm_mul, ← sqm_one]
      exact sqm_congr h5
    rw [sqm_mulF, transpose_mul, ← Matrix.mul_assoc (sqm A.n (triMat B.a.val B.b.val)), Matrix.mul_assoc, ← Matrix.mul_assoc (sqm A.n W)ᵀ, mB, Matrix.one_mul, mU]
  · obtain ⟨hE, hU⟩ := h8 h
    exact pull_back (fun i j => by unfold triMat; grind) e7 e8 hE hU

/-- **C69**, size two: the iterations do not give up. -/
theorem C69_two_by_two {negl : K → K → Bool} {eta : K} (hN : NeglOk negl eta) {sqrt : K → K} (hs : IsSqrt sqrt) {A B : SymTri K} (n2 : A.n = 2) (hBn : B.n = A.n) (ha : A.n ≤ A.a.size)
    (hb : A.n - 1 ≤ A.b.size) (hBa : B.a.size = B.n) (hBb : B.b.size = B.n - 1) (hB : PosForm A.n (triMat B.a.val B.b.val)) {V lambda : Buf K} (hV : (V.size : Int) = 4)
    (hl : A.n ≤ lambda.size) (j1 j2 j3 j4 j5 j6 : Int → K) : ∃ out, symDefTriEig negl sqrt j1 j2 j3 j4 j5 j6 A B V lambda = some out ∧ out.ok = true := by
  obtain ⟨AS, V', W, e1, e2, e3, e4, e5, -⟩ := C69_congruence hs (by omega) hBn ha hb hBa hBb hB (V := V) (by rw [hV, n2]; rfl) j1 j2 j3 j4
  obtain ⟨out, h1, h2⟩ := C68_two_by_two hN hs (A := AS) (V := V') (lambda := lambda) (by omega) (by omega) (by omega) (by omega) (by omega) j5 j6
  refine ⟨out, ?_, h2⟩
  unfold symDefTriEig
  rw [e1, Option.bind_some]
  exact h1

omit [IsStrictOrderedRing K] in
/-- **C69**, defect: for matrices with one row the reduction reads the entry `d[0]` of an array without entries. -/
theorem C69_size_one_defect {negl : K → K → Bool} (sqrt : K → K) {A B : SymTri K} (hA : A.n = 1) (hB : B.n = 1) (V lambda : Buf K) (j1 j2 j3 j4 j5 j6 : Int → K) :
    symDefTriEig negl sqrt j1 j2 j3 j4 j5 j6 A B V lambda = none := by
  unfold symDefTriEig triCong
  rw [hA]
  cases h : tridiagChol sqrt B j1 j2 with
  | none => rfl
  | some cd =>
    obtain ⟨c, d⟩ := cd
    have hd : d.size = 0 := by
      unfold tridiagChol at h
      rw [hB] at h
      obtain ⟨c', -, h2⟩ := Option.bind_eq_some_iff.1 h
      cases h2
      rfl
    have hf : ∀ st : CgSt K, cgFirst 1 c d st = none := fun st => by
      unfold cgFirst
      cases c.rd 0 with
      | none => rfl
      | some v =>
        rw [Option.bind_some, Buf.rd_oob (by rw [hd]; omega)]
        rfl
    simp only [Option.bind_some, hf, Option.bind_none, Option.bind_fun_none]

/-! ## Examples -/

/-- The second difference matrix is positive definite. -/
theorem posForm_diff : PosForm 3 (triMat (fun _ => (2 : ℝ)) fun _ => -1) := by
  intro x ⟨i, i0, i1, hx⟩
  have e : ∑ i ∈ Finset.Ico (0 : Int) 3, x i * rowMul 3 (triMat (fun _ => (2 : ℝ)) fun _ => -1) x i = x 0 ^ 2 + (x 0 - x 1) ^ 2 + (x 1 - x 2) ^ 2 + x 2 ^ 2 := by
    have I : Finset.Ico (0 : Int) 3 = {0, 1, 2} := rfl
    simp [rowMul, I, triMat]
    ring
  rw [e]
  by_contra h
  have h0 : x 0 = 0 := by nlinarith [sq_nonneg (x 0), sq_nonneg (x 0 - x 1), sq_nonneg (x 1 - x 2), sq_nonneg (x 2)]
  have h2 : x 2 = 0 := by nlinarith [sq_nonneg (x 0), sq_nonneg (x 0 - x 1), sq_nonneg (x 1 - x 2), sq_nonneg (x 2)]
  have h1 : x 1 = 0 := by
    rw [h0, h2] at h
    nlinarith [sq_nonneg (x 1)]
  rcases (show i = 0 ∨ i = 1 ∨ i = 2 by omega) with rfl | rfl | rfl
  · exact hx h0
  · exact hx h1
  · exact hx h2

example : ∃ AS V' W, triCong Real.sqrt (fun _ => 7) (fun _ => 8) (fun _ => 9) (fun _ => 6) ⟨3, ⟨3, fun i => i⟩, ⟨2, fun _ => 1⟩⟩ ⟨3, ⟨3, fun _ => 2⟩, ⟨2, fun _ => -1⟩⟩ ⟨9, fun i => i⟩ = some (AS, V') ∧
    CongTo 3 (triMat (fun i => (i : ℝ)) fun _ => 1) W (triMat AS.a.val AS.b.val) ∧ CongTo 3 (triMat (fun _ => (2 : ℝ)) fun _ => -1) W eyeM := by
  have hs : IsSqrt Real.sqrt := fun x hx => ⟨Real.sqrt_nonneg x, Real.mul_self_sqrt hx⟩
  obtain ⟨AS, V', W, h1, _, _, _, _, _, h7, h8⟩ := C69_congruence hs (A := ⟨3, ⟨3, fun i => i⟩, ⟨2, fun _ => 1⟩⟩) (B := ⟨3, ⟨3, fun _ => 2⟩, ⟨2, fun _ => -1⟩⟩) (by norm_num) rfl (by norm_num) (by norm_num) rfl rfl
    posForm_diff (V := ⟨9, fun i => i⟩) rfl (fun _ => 7) (fun _ => 8) (fun _ => 9) (fun _ => 6)
  exact ⟨AS, V', W, h1, h7, h8⟩

/-- The iterations converge for a pencil of size two, and the decomposition follows. -/
example : ∃ (out : TqlOut ℝ) (M F : Int → Int → ℝ), symDefTriEig (fun (t a : ℝ) => decide (a ≤ 1 / 1000 * t) || decide (a = 0)) Real.sqrt (fun _ => 7) (fun _ => 8) (fun _ => 9) (fun _ => 6) (fun _ => 5) (fun _ => 4) ⟨2, ⟨2, fun i => i⟩, ⟨1, fun _ => 1⟩⟩
      ⟨2, ⟨2, fun i => i + 1⟩, ⟨1, fun _ => 0⟩⟩ ⟨4, fun i => i⟩ ⟨2, fun _ => 0⟩ = some out ∧ Decomposes 2 (fun i j => triMat (fun i => (i : ℝ)) (fun _ => 1) i j + F i j) (triMat (fun i => (i : ℝ) + 1) fun _ => 0) M out.lambda.val := by
  have hs : IsSqrt Real.sqrt := fun x hx => ⟨Real.sqrt_nonneg x, Real.mul_self_sqrt hx⟩
  have hB : PosForm 2 (triMat (fun i => (i : ℝ) + 1) fun _ => 0) := by
    intro x ⟨i, i0, i1, hx⟩
    have e : ∑ i ∈ Finset.Ico (0 : Int) 2, x i * rowMul 2 (triMat (fun i => (i : ℝ) + 1) fun _ => 0) x i = x 0 ^ 2 + 2 * x 1 ^ 2 := by
      have I : Finset.Ico (0 : Int) 2 = {0, 1} := rfl
      simp [rowMul, I, triMat]
      ring
    rw [e]
    have := mul_self_pos.2 hx
    rcases (show i = 0 ∨ i = 1 by omega) with rfl | rfl <;> nlinarith [sq_nonneg (x 0), sq_nonneg (x 1)]
  have hN := neglOk_rel (K := ℝ) (eta := 1 / 1000) (by norm_num)
  obtain ⟨out, h1, h2⟩ := C69_two_by_two hN hs (A := ⟨2, ⟨2, fun i => i⟩, ⟨1, fun _ => 1⟩⟩) (B := ⟨2, ⟨2, fun i => i + 1⟩, ⟨1, fun _ => 0⟩⟩) rfl rfl (by norm_num) (by norm_num) rfl rfl hB (V := ⟨4, fun i => i⟩)
    (lambda := ⟨2, fun _ => 0⟩) rfl (by norm_num) (fun _ => 7) (fun _ => 8) (fun _ => 9) (fun _ => 6) (fun _ => 5) (fun _ => 4)
  obtain ⟨out', M, q1, _, _, _, _, _, _, q8⟩ := C69_definite_eig_partial hN hs (A := ⟨2, ⟨2, fun i => i⟩, ⟨1, fun _ => 1⟩⟩) (B := ⟨2, ⟨2, fun i => i + 1⟩, ⟨1, fun _ => 0⟩⟩) (by norm_num) rfl (by norm_num) (by norm_num)
    rfl rfl hB (V := ⟨4, fun i => i⟩) (lambda := ⟨2, fun _ => 0⟩) rfl (by norm_num) (fun _ => 7) (fun _ => 8) (fun _ => 9) (fun _ => 6) (fun _ => 5) (fun _ => 4)
  rw [h1] at q1
  cases q1
  obtain ⟨F, _, r⟩ := q8 h2
  exact ⟨out, M, F, h1, r⟩

example : symDefTriEig (fun (_ _ : Rat) => false) id (fun _ => 0) (fun _ => 0) (fun _ => 0) (fun _ => 0) (fun _ => 0) (fun _ => 0) ⟨1, ⟨1, fun _ => 1⟩, ⟨0, fun _ => 1⟩⟩ ⟨1, ⟨1, fun _ => 1⟩, ⟨0, fun _ => 1⟩⟩
    ⟨1, fun _ => 1⟩ ⟨1, fun _ => 0⟩ = none := C69_size_one_defect _ rfl rfl _ _ _ _ _ _ _ _

end FT.Props
