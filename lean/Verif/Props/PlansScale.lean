import Verif.Lemmas.PlansScale
import Verif.Props.Plans
import Mathlib.Analysis.SpecialFunctions.Gamma.Beta

/-!
# C47: plans with scaled rows or columns

The conversions between Jacobi, ultraspherical and Chebyshev polynomials are conversions between Jacobi polynomials whose rows or columns are scaled afterwards.
-/

set_option linter.unusedSectionVars false

namespace FT.Props.Plan
open Polynomial FT FT.Model FT.Poly FT.Props FT.Props.Hier FT.Props.TbEig FT.Props.Eig FT.Props.Ops
variable {K : Type*} [Field K] [LinearOrder K] [IsStrictOrderedRing K] {F : Libm K} {E : FmmEnv K} {n : Int} {junk : Int → K} {α β lam pi : K}

/-- Ultraspherical polynomials; normalised, they have positive leading coefficients. -/
noncomputable def UltPos (F : Libm K) (norm : Bool) (lam : K) : Int → K[X] := if norm then Jac F true (lam - 1 / 2) (lam - 1 / 2) else Ult F false lam

/-- The duplication formula of the gamma function. -/
def Duplication (F : Libm K) : Prop := ∀ x : K, -1 / 2 < x → F.pow2 (2 * x) * F.gamma (x + 1 / 2) * F.gamma (x + 1) = F.gamma (1 / 2) * F.gamma (2 * x + 1)

section
variable (hF : IsLibm F) (hE : Exact E) (hn : 0 ≤ n) (norm1 norm2 : Bool)
include hF

theorem jac_ultpos (hm : -1 / 2 < lam) (h0 : lam ≠ 0) (i : Int) : Jac F norm1 (lam - 1 / 2) (lam - 1 / 2) i = C (if norm1 then 1 else ultQ lam i) * UltPos F norm1 lam i := by
  cases norm1
  · exact jac_ult hF hm h0 i
  · show _ = C 1 * _; rw [map_one, one_mul]; rfl

theorem ultpos_graded (hm : -1 / 2 < lam) (h0 : lam ≠ 0) : ∃ s, Graded (UltPos F norm1 lam) s := by
  cases norm1
  · exact ⟨_, scaled_graded (fun i _ => ultS_ne hF hm h0 i) _ _⟩
  · exact ⟨_, (planJacJac hF true true (α := lam - 1 / 2) (β := lam - 1 / 2) (γ := 0) (δ := 0) (by linarith) (by linarith) (by norm_num) (by norm_num) (fun _ => 0) le_rfl).gp⟩

theorem che_graded : ∃ s, Graded (Che F norm1) s := ⟨_, (planChebLeg hF norm1 true 0).gp⟩

/-! ## Dense plans -/

include hn

/-- **C47** Jacobi to ultraspherical, dense. -/
theorem C47_dense_jacobi_ultraspherical (hα : -1 < α) (hβ : -1 < β) (hm : -1 / 2 < lam) (h0 : lam ≠ 0) :
    ∃ V, denseJacUlt F 0 junk norm1 norm2 n α β lam = some V ∧ Dense n V (Jac F norm1 α β) (UltPos F norm2 lam) := by
  obtain ⟨V, e, d⟩ := C61_dense_jacobi (junk := junk) hF hn norm1 norm2 hα hβ (show -1 < lam - 1 / 2 by linarith) (show -1 < lam - 1 / 2 by linarith)
  unfold denseJacUlt
  rw [e]
  cases norm2
  · obtain ⟨x, ex, s, v⟩ := ultRow_run (n := n) (junk := junk) hF hm h0
    obtain ⟨V', e', d'⟩ := dense_rows d s v fun i _ _ => jac_ult hF hm h0 i
    exact ⟨V', by rw [Option.bind_some, if_pos rfl, ex]; exact e', d'⟩
  · exact ⟨V, by rw [Option.bind_some, if_neg (by decide)], d⟩

/-- **C47** Ultraspherical to Jacobi, dense. -/
theorem C47_dense_ultraspherical_jacobi (hm : -1 / 2 < lam) (h0 : lam ≠ 0) (hα : -1 < α) (hβ : -1 < β) :
    ∃ V, denseUltJac F 0 junk norm1 norm2 n lam α β = some V ∧ Dense n V (UltPos F norm1 lam) (Jac F norm2 α β) := by
  obtain ⟨V, e, d⟩ := C61_dense_jacobi (junk := junk) hF hn norm1 norm2 (show -1 < lam - 1 / 2 by linarith) (show -1 < lam - 1 / 2 by linarith) hα hβ
  unfold denseUltJac
  rw [e]
  cases norm1
  · obtain ⟨x, ex, s, v⟩ := ultCol_run (n := n) (junk := junk) hF hm h0
    obtain ⟨V', e', d'⟩ := dense_cols d s v fun i _ _ => ult_jac hF hm h0 i
    exact ⟨V', by rw [Option.bind_some, if_pos rfl, ex]; exact e', d'⟩
  · exact ⟨V, by rw [Option.bind_some, if_neg (by decide)], d⟩

theorem scl_row (hpi : pi = F.gamma (1 / 2) * F.gamma (1 / 2)) : ∃ x, chebScl junk n (F.sqrt (F.div 1 pi)) (F.sqrt (F.div 2 pi)) = some x ∧ x.size = n.toNat ∧ ∀ i, 0 ≤ i → i < n → x.val i = cheQ F i := by
  have hg := hF.gamma_pos (1 / 2) (by norm_num)
  have hp : 0 < pi := by rw [hpi]; exact mul_pos hg hg
  obtain ⟨x, e, s, v⟩ := chebScl_run (n := n) (junk := junk) (F.sqrt (F.div 1 pi)) (F.sqrt (F.div 2 pi))
  refine ⟨x, e, s, fun i i0 i1 => ?_⟩
  rw [v i i0 i1, hF.div _ _ hp.ne', hF.div _ _ hp.ne', sqrt_div hF.sqrt one_pos.le hp, sqrt_div hF.sqrt two_pos.le hp, hpi, sqrt_sq hF.sqrt hg.le, sqrt_unique hF.sqrt one_pos.le one_pos.le (one_mul 1)]
  rfl

theorem scl_col (hpi : pi = F.gamma (1 / 2) * F.gamma (1 / 2)) : ∃ x, chebScl junk n (F.sqrt pi) (F.sqrt (F.div pi 2)) = some x ∧ x.size = n.toNat ∧ ∀ i, 0 ≤ i → i < n → x.val i = 1 / cheQ F i := by
  have hg := hF.gamma_pos (1 / 2) (by norm_num)
  have hp : 0 < pi := by rw [hpi]; exact mul_pos hg hg
  obtain ⟨x, e, s, v⟩ := chebScl_run (n := n) (junk := junk) (F.sqrt pi) (F.sqrt (F.div pi 2))
  refine ⟨x, e, s, fun i i0 i1 => ?_⟩
  rw [v i i0 i1, hF.div _ _ two_ne_zero, sqrt_div hF.sqrt hp.le two_pos, hpi, sqrt_sq hF.sqrt hg.le]
  unfold cheQ
  split_ifs
  · rw [one_div_one_div]
  · rw [one_div_div]

/-- **C47** Jacobi to Chebyshev, dense. -/
theorem C47_dense_jacobi_chebyshev (hpi : pi = F.gamma (1 / 2) * F.gamma (1 / 2)) (hα : -1 < α) (hβ : -1 < β) :
    ∃ V, denseJacCheb F 0 junk pi norm1 norm2 n α β = some V ∧ Dense n V (Jac F norm1 α β) (Che F norm2) := by
  obtain ⟨V, e, d⟩ := C61_dense_jacobi (junk := junk) hF hn norm1 true hα hβ (show (-1 : K) < -1 / 2 by norm_num) (show (-1 : K) < -1 / 2 by norm_num)
  unfold denseJacCheb
  rw [e]
  cases norm2
  · obtain ⟨x, ex, s, v⟩ := scl_row (junk := junk) hF hn hpi
    obtain ⟨V', e', d'⟩ := dense_rows d s v fun i i0 _ => jac_che_false hF i0
    exact ⟨V', by rw [Option.bind_some, if_pos rfl, ex]; exact e', d'⟩
  · exact ⟨V, by rw [Option.bind_some, if_neg (by decide)], by rw [← jac_che hF]; exact d⟩

/-- **C47** Chebyshev to Jacobi, dense. -/
theorem C47_dense_chebyshev_jacobi (hpi : pi = F.gamma (1 / 2) * F.gamma (1 / 2)) (hα : -1 < α) (hβ : -1 < β) :
    ∃ V, denseChebJac F 0 junk pi norm1 norm2 n α β = some V ∧ Dense n V (Che F norm1) (Jac F norm2 α β) := by
  obtain ⟨V, e, d⟩ := C61_dense_jacobi (junk := junk) hF hn true norm2 (show (-1 : K) < -1 / 2 by norm_num) (show (-1 : K) < -1 / 2 by norm_num) hα hβ
  unfold denseChebJac
  rw [e]
  cases norm1
  · obtain ⟨x, ex, s, v⟩ := scl_col (junk := junk) hF hn hpi
    obtain ⟨V', e', d'⟩ := dense_cols d s v fun i i0 _ => che_jac_false hF i0
    exact ⟨V', by rw [Option.bind_some, if_pos rfl, ex]; exact e', d'⟩
  · exact ⟨V, by rw [Option.bind_some, if_neg (by decide)], by rw [← jac_che hF]; exact d⟩

omit hF hn in
theorem ultpos_parity {norm : Bool} {j : Int} (hj : 0 ≤ j) : (UltPos F norm lam j).comp (-X) = C ((-1) ^ j.toNat) * UltPos F norm lam j := by
  cases norm
  · exact sym_parity hj
  · exact sym_parity hj

/-- **C47** Ultraspherical to Chebyshev, dense; every other entry is scaled, the rest are zero. -/
theorem C47_dense_ultraspherical_chebyshev (hpi : pi = F.gamma (1 / 2) * F.gamma (1 / 2)) (hm : -1 / 2 < lam) (h0 : lam ≠ 0) :
    ∃ V, denseUltCheb F 0 junk pi norm1 norm2 n lam = some V ∧ Dense n V (UltPos F norm1 lam) (Che F norm2) := by
  obtain ⟨V, e, d⟩ := C47_dense_ultraspherical_jacobi (junk := junk) hF hn norm1 true hm h0 (show (-1 : K) < -1 / 2 by norm_num) (show (-1 : K) < -1 / 2 by norm_num)
  unfold denseUltCheb
  rw [e]
  cases norm2
  · obtain ⟨x, ex, s, v⟩ := scl_row (junk := junk) hF hn hpi
    have ev : FT.Poly.Even n V := fun i j i0 i1 j0 j1 hij => connects_parity d.conn
      (planJacJac hF true true (show (-1 : K) < -1 / 2 by norm_num) (show (-1 : K) < -1 / 2 by norm_num) (γ := 0) (δ := 0) (by norm_num) (by norm_num) junk hn).gp
      (fun j hj => ultpos_parity hj) (fun j hj => sym_parity hj) i0 i1 j0 j1 hij
    obtain ⟨V', e', d'⟩ := dense_rows2 d ev s v fun i i0 _ => jac_che_false hF i0
    exact ⟨V', by rw [Option.bind_some, if_pos rfl, ex]; exact e', d'⟩
  · exact ⟨V, by rw [Option.bind_some, if_neg (by decide)], by rw [← jac_che hF]; exact d⟩

/-- **C47** Chebyshev to ultraspherical, dense. -/
theorem C47_dense_chebyshev_ultraspherical (hpi : pi = F.gamma (1 / 2) * F.gamma (1 / 2)) (hm : -1 / 2 < lam) (h0 : lam ≠ 0) :
    ∃ V, denseChebUlt F 0 junk pi norm1 norm2 n lam = some V ∧ Dense n V (Che F norm1) (UltPos F norm2 lam) := by
  obtain ⟨V, e, d⟩ := C47_dense_jacobi_ultraspherical (junk := junk) hF hn true norm2 (show (-1 : K) < -1 / 2 by norm_num) (show (-1 : K) < -1 / 2 by norm_num) hm h0
  unfold denseChebUlt
  rw [e]
  cases norm1
  · obtain ⟨x, ex, s, v⟩ := scl_col (junk := junk) hF hn hpi
    obtain ⟨t, gt⟩ := ultpos_graded hF norm2 hm h0
    have ev : FT.Poly.Even n V := fun i j i0 i1 j0 j1 hij => connects_parity d.conn gt (fun j hj => sym_parity hj) (fun j hj => ultpos_parity hj) i0 i1 j0 j1 hij
    obtain ⟨V', e', d'⟩ := dense_cols2 d ev s v fun i i0 _ => che_jac_false hF i0
    exact ⟨V', by rw [Option.bind_some, if_pos rfl, ex]; exact e', d'⟩
  · exact ⟨V, by rw [Option.bind_some, if_neg (by decide)], by rw [← jac_che hF]; exact d⟩

/-- **C47** The dense plans from Jacobi to ultraspherical polynomials and back are inverse to each other. -/
theorem C47_dense_jacobi_ultraspherical_opposite (hα : -1 < α) (hβ : -1 < β) (hm : -1 / 2 < lam) (h0 : lam ≠ 0) :
    ∃ V W, denseJacUlt F 0 junk norm1 norm2 n α β lam = some V ∧ denseUltJac F 0 junk norm2 norm1 n lam α β = some W ∧ Inverse n (fun i j => W.val (i + j * n)) fun i j => V.val (i + j * n) := by
  obtain ⟨V, e1, h1⟩ := C47_dense_jacobi_ultraspherical (junk := junk) hF hn norm1 norm2 hα hβ hm h0
  obtain ⟨W, e2, h2⟩ := C47_dense_ultraspherical_jacobi (junk := junk) hF hn norm2 norm1 hm h0 hα hβ
  exact ⟨V, W, e1, e2, fun i j i0 i1 j0 j1 => connects_inverse (planJacJac hF norm1 norm2 hα hβ hα hβ junk hn).gp h1.conn h2.conn i0 i1 j0 j1⟩

/-- **C47** Those between Jacobi and Chebyshev polynomials. -/
theorem C47_dense_jacobi_chebyshev_opposite (hpi : pi = F.gamma (1 / 2) * F.gamma (1 / 2)) (hα : -1 < α) (hβ : -1 < β) :
    ∃ V W, denseJacCheb F 0 junk pi norm1 norm2 n α β = some V ∧ denseChebJac F 0 junk pi norm2 norm1 n α β = some W ∧ Inverse n (fun i j => W.val (i + j * n)) fun i j => V.val (i + j * n) := by
  obtain ⟨V, e1, h1⟩ := C47_dense_jacobi_chebyshev (junk := junk) hF hn norm1 norm2 hpi hα hβ
  obtain ⟨W, e2, h2⟩ := C47_dense_chebyshev_jacobi (junk := junk) hF hn norm2 norm1 hpi hα hβ
  exact ⟨V, W, e1, e2, fun i j i0 i1 j0 j1 => connects_inverse (planJacJac hF norm1 norm2 hα hβ hα hβ junk hn).gp h1.conn h2.conn i0 i1 j0 j1⟩

/-- **C47** Those between ultraspherical and Chebyshev polynomials. -/
theorem C47_dense_ultraspherical_chebyshev_opposite (hpi : pi = F.gamma (1 / 2) * F.gamma (1 / 2)) (hm : -1 / 2 < lam) (h0 : lam ≠ 0) :
    ∃ V W, denseUltCheb F 0 junk pi norm1 norm2 n lam = some V ∧ denseChebUlt F 0 junk pi norm2 norm1 n lam = some W ∧ Inverse n (fun i j => W.val (i + j * n)) fun i j => V.val (i + j * n) := by
  obtain ⟨V, e1, h1⟩ := C47_dense_ultraspherical_chebyshev (junk := junk) hF hn norm1 norm2 hpi hm h0
  obtain ⟨W, e2, h2⟩ := C47_dense_chebyshev_ultraspherical (junk := junk) hF hn norm2 norm1 hpi hm h0
  obtain ⟨s, g⟩ := ultpos_graded hF norm1 hm h0
  exact ⟨V, W, e1, e2, fun i j i0 i1 j0 j1 => connects_inverse g h1.conn h2.conn i0 i1 j0 j1⟩

/-! ## Divide-and-conquer plans -/

include hE

omit hF hn hE in
/-- The eigenvalues are far from each other. -/
theorem gap {t c : K} (hc : -1 < c) (ht : t ≤ 1) (htn : t * n ≤ 1) {i j : Int} (i0 : 0 ≤ i) (ij : i < j) (j1 : j < n) :
    ¬ |(i : K) * (i + c) - j * (j + c)| < t * max |(i : K) * (i + c)| |(j : K) * (j + c)| := by
  have hj : (1 : K) ≤ j := by exact_mod_cast (show 1 ≤ j by omega)
  have hij : (i : K) + 1 ≤ j := by exact_mod_cast ij
  have hjn : (j : K) ≤ n := by exact_mod_cast j1.le
  have hi : (0 : K) ≤ i := by exact_mod_cast i0
  have q : 0 < (j : K) + c := by linarith
  rw [not_lt]
  rcases le_or_gt t 0 with t0 | t0
  · exact le_trans (mul_nonpos_of_nonpos_of_nonneg t0 (le_max_of_le_left (abs_nonneg _))) (abs_nonneg _)
  have e : (j : K) * (j + c) - i * (i + c) = (j - i) * (j + i + c) := by ring
  have p : 0 < (j - i) * ((j : K) + i + c) := mul_pos (by linarith) (by linarith)
  have li : 0 ≤ (i : K) * (i + c) := by
    rcases eq_or_lt_of_le i0 with h | h
    · rw [← h]; simp
    · have : (1 : K) ≤ i := by exact_mod_cast h
      exact mul_nonneg hi (by linarith)
  rw [abs_sub_comm, e, abs_of_pos p, abs_of_nonneg li, abs_of_pos (mul_pos (by linarith) q), max_eq_right (by linarith)]
  rcases eq_or_lt_of_le i0 with h | h
  · rw [← h, Int.cast_zero, sub_zero, add_zero]
    exact mul_le_of_le_one_left (mul_pos (by linarith) q).le ht
  · have i1 : (1 : K) ≤ i := by exact_mod_cast h
    have tj : t * j ≤ 1 := le_trans (mul_le_mul_of_nonneg_left hjn t0.le) htn
    calc t * (j * (j + c)) = t * j * (j + c) := by ring
      _ ≤ 1 * (j + c) := mul_le_mul_of_nonneg_right tj q.le
      _ ≤ (j - i) * (j + i + c) := mul_le_mul (by linarith) (by linarith) q.le (by linarith)

theorem fast_jac {γ δ : K} (hα : -1 < α) (hβ : -1 < β) (hγ : -1 < γ) (hδ : -1 < δ) : ∃ G top, fastPlan E n (convJacJac F E.junk norm1 norm2 n α β γ δ) = some (G, top) ∧
    Fast E.BS E.threads n G top (Jac F norm1 α β) (Jac F norm2 γ δ) ∧ (E.tol * n ≤ 1 → NoSparse G) := by
  have hB := hE.block
  obtain ⟨G, t, e, h1, h2, h3, h4, h5, h6, h7⟩ := (planJacJac hF norm1 norm2 hα hβ hγ hδ E.junk hn).fast hn hE.eps hE.tol hE.samples hE.threads (by omega) (by omega)
  exact ⟨G, t, e, ⟨h1, h2, h3, h4, h5, h6⟩, fun ht => h7 fun i j i0 ij j1 => gap (by linarith) hE.tol ht i0 ij j1⟩

/-- With the absence of sparse parts, which further scalings need. -/
theorem fast_jac_ult (hα : -1 < α) (hβ : -1 < β) (hm : -1 / 2 < lam) (h0 : lam ≠ 0) : ∃ G top, fastJacUlt F E norm1 norm2 n α β lam = some (G, top) ∧
    Fast E.BS E.threads n G top (Jac F norm1 α β) (UltPos F norm2 lam) ∧ (E.tol * n ≤ 1 → NoSparse G) := by
  obtain ⟨G, t, e, d, ns⟩ := fast_jac hF hE hn norm1 norm2 hα hβ (show -1 < lam - 1 / 2 by linarith) (show -1 < lam - 1 / 2 by linarith)
  unfold fastJacUlt
  rw [e]
  cases norm2
  · obtain ⟨x, ex, s, v⟩ := ultRow_run (n := n) (junk := E.junk) hF hm h0
    obtain ⟨G', e', d', s'⟩ := fast_rows d s v (ultQ_ne hm h0) fun i _ _ => jac_ult hF hm h0 i
    exact ⟨G', t, by rw [Option.bind_some, if_pos rfl, ex, Option.bind_some, e']; rfl, d', fun h => s' (ns h)⟩
  · exact ⟨G, t, by rw [Option.bind_some, if_neg (by decide)], d, ns⟩

theorem fast_ult_jac (hm : -1 / 2 < lam) (h0 : lam ≠ 0) (hα : -1 < α) (hβ : -1 < β) (ht : norm1 = false → E.tol * n ≤ 1) : ∃ G top, fastUltJac F E norm1 norm2 n lam α β = some (G, top) ∧
    Fast E.BS E.threads n G top (UltPos F norm1 lam) (Jac F norm2 α β) := by
  obtain ⟨G, t, e, d, ns⟩ := fast_jac hF hE hn norm1 norm2 (show -1 < lam - 1 / 2 by linarith) (show -1 < lam - 1 / 2 by linarith) hα hβ
  unfold fastUltJac
  rw [e]
  cases norm1
  · obtain ⟨x, ex, s, v⟩ := ultCol_run (n := n) (junk := E.junk) hF hm h0
    obtain ⟨G', e', d', -⟩ := fast_cols d (ns (ht rfl)) s v (fun i => one_div_ne_zero (ultQ_ne hm h0 i)) fun i _ _ => ult_jac hF hm h0 i
    exact ⟨G', t, by rw [Option.bind_some, if_pos rfl, ex, Option.bind_some, e']; rfl, d'⟩
  · exact ⟨G, t, by rw [Option.bind_some, if_neg (by decide)], d⟩

/-- **C47** Jacobi to ultraspherical, divide and conquer. -/
theorem C47_fast_jacobi_ultraspherical (hα : -1 < α) (hβ : -1 < β) (hm : -1 / 2 < lam) (h0 : lam ≠ 0) :
    ∃ G top, fastJacUlt F E norm1 norm2 n α β lam = some (G, top) ∧ Fast E.BS E.threads n G top (Jac F norm1 α β) (UltPos F norm2 lam) := by
  obtain ⟨G, t, e, d, -⟩ := fast_jac_ult hF hE hn norm1 norm2 hα hβ hm h0
  exact ⟨G, t, e, d⟩

/-- **C47** Ultraspherical to Jacobi, divide and conquer.  Missing for the full claim: orders `n` beyond the inverse of the threshold of the kernel, where the scaling of columns forgets the part that
is stored as a sparse matrix (`C22_scale_columns_defect`). -/
theorem C47_fast_ultraspherical_jacobi_partial (hm : -1 / 2 < lam) (h0 : lam ≠ 0) (hα : -1 < α) (hβ : -1 < β) (ht : norm1 = false → E.tol * n ≤ 1) :
    ∃ G top, fastUltJac F E norm1 norm2 n lam α β = some (G, top) ∧ Fast E.BS E.threads n G top (UltPos F norm1 lam) (Jac F norm2 α β) :=
  fast_ult_jac hF hE hn norm1 norm2 hm h0 hα hβ ht

omit hE in
theorem scl_row' : ∃ x, chebScl' E.junk n (F.div 1 (F.gamma (1 / 2))) (F.div (F.sqrt 2) (F.gamma (1 / 2))) = some x ∧ x.size = n.toNat ∧ ∀ i, 0 ≤ i → i < n → x.val i = cheQ F i := by
  have hg := hF.gamma_pos (1 / 2) (by norm_num)
  obtain ⟨x, e, s, v⟩ := chebScl'_run (n := n) (junk := E.junk) (F.div 1 (F.gamma (1 / 2))) (F.div (F.sqrt 2) (F.gamma (1 / 2)))
  refine ⟨x, e, s, fun i i0 i1 => ?_⟩
  rw [v i i0 i1, hF.div _ _ hg.ne', hF.div _ _ hg.ne']
  rfl

omit hE in
theorem scl_col' : ∃ x, chebScl' E.junk n (F.gamma (1 / 2)) (F.div (F.gamma (1 / 2)) (F.sqrt 2)) = some x ∧ x.size = n.toNat ∧ ∀ i, 0 ≤ i → i < n → x.val i = 1 / cheQ F i := by
  obtain ⟨x, e, s, v⟩ := chebScl'_run (n := n) (junk := E.junk) (F.gamma (1 / 2)) (F.div (F.gamma (1 / 2)) (F.sqrt 2))
  refine ⟨x, e, s, fun i i0 i1 => ?_⟩
  rw [v i i0 i1, hF.div _ _ (sqrt_pos hF.sqrt two_pos).ne']
  unfold cheQ
  split_ifs
  · rw [one_div_one_div]
  · rw [one_div_div]

/-- **C47** Jacobi to Chebyshev, divide and conquer. -/
theorem C47_fast_jacobi_chebyshev (hα : -1 < α) (hβ : -1 < β) : ∃ G top, fastJacCheb F E norm1 norm2 n α β = some (G, top) ∧ Fast E.BS E.threads n G top (Jac F norm1 α β) (Che F norm2) := by
  obtain ⟨G, t, e, d, -⟩ := fast_jac hF hE hn norm1 true hα hβ (show (-1 : K) < -1 / 2 by norm_num) (show (-1 : K) < -1 / 2 by norm_num)
  unfold fastJacCheb
  rw [e]
  cases norm2
  · obtain ⟨x, ex, s, v⟩ := scl_row' (E := E) hF hn
    obtain ⟨G', e', d', -⟩ := fast_rows d s v (cheQ_ne hF) fun i i0 _ => jac_che_false hF i0
    exact ⟨G', t, by rw [Option.bind_some, if_pos rfl, ex, Option.bind_some, e']; rfl, d'⟩
  · exact ⟨G, t, by rw [Option.bind_some, if_neg (by decide)], by rw [← jac_che hF]; exact d⟩

/-- **C47** Chebyshev to Jacobi, divide and conquer; what is missing is the same as for `C47_fast_ultraspherical_jacobi_partial`. -/
theorem C47_fast_chebyshev_jacobi_partial (hα : -1 < α) (hβ : -1 < β) (ht : norm1 = false → E.tol * n ≤ 1) :
    ∃ G top, fastChebJac F E norm1 norm2 n α β = some (G, top) ∧ Fast E.BS E.threads n G top (Che F norm1) (Jac F norm2 α β) := by
  obtain ⟨G, t, e, d, ns⟩ := fast_jac hF hE hn true norm2 (show (-1 : K) < -1 / 2 by norm_num) (show (-1 : K) < -1 / 2 by norm_num) hα hβ
  unfold fastChebJac
  rw [e]
  cases norm1
  · obtain ⟨x, ex, s, v⟩ := scl_col' (E := E) hF hn
    obtain ⟨G', e', d', -⟩ := fast_cols d (ns (ht rfl)) s v (fun i => one_div_ne_zero (cheQ_ne hF i)) fun i i0 _ => che_jac_false hF i0
    exact ⟨G', t, by rw [Option.bind_some, if_pos rfl, ex, Option.bind_some, e']; rfl, d'⟩
  · exact ⟨G, t, by rw [Option.bind_some, if_neg (by decide)], by rw [← jac_che hF]; exact d⟩

/-- **C47** Ultraspherical to Chebyshev, divide and conquer; what is missing is the same as for `C47_fast_ultraspherical_jacobi_partial`. -/
theorem C47_fast_ultraspherical_chebyshev_partial (hm : -1 / 2 < lam) (h0 : lam ≠ 0) (ht : norm1 = false → E.tol * n ≤ 1) :
    ∃ G top, fastUltCheb F E norm1 norm2 n lam = some (G, top) ∧ Fast E.BS E.threads n G top (UltPos F norm1 lam) (Che F norm2) := by
  obtain ⟨G, t, e, d⟩ := fast_ult_jac hF hE hn norm1 true hm h0 (show (-1 : K) < -1 / 2 by norm_num) (show (-1 : K) < -1 / 2 by norm_num) ht
  unfold fastUltCheb
  rw [e]
  cases norm2
  · obtain ⟨x, ex, s, v⟩ := scl_row' (E := E) hF hn
    obtain ⟨G', e', d', -⟩ := fast_rows d s v (cheQ_ne hF) fun i i0 _ => jac_che_false hF i0
    exact ⟨G', t, by rw [Option.bind_some, if_pos rfl, ex, Option.bind_some, e']; rfl, d'⟩
  · exact ⟨G, t, by rw [Option.bind_some, if_neg (by decide)], by rw [← jac_che hF]; exact d⟩

/-- **C47** Chebyshev to ultraspherical, divide and conquer; what is missing is the same as for `C47_fast_ultraspherical_jacobi_partial`. -/
theorem C47_fast_chebyshev_ultraspherical_partial (hm : -1 / 2 < lam) (h0 : lam ≠ 0) (ht : norm1 = false → E.tol * n ≤ 1) :
    ∃ G top, fastChebUlt F E norm1 norm2 n lam = some (G, top) ∧ Fast E.BS E.threads n G top (Che F norm1) (UltPos F norm2 lam) := by
  obtain ⟨G, t, e, d, ns⟩ := fast_jac_ult hF hE hn true norm2 (show (-1 : K) < -1 / 2 by norm_num) (show (-1 : K) < -1 / 2 by norm_num) hm h0
  unfold fastChebUlt
  rw [e]
  cases norm1
  · obtain ⟨x, ex, s, v⟩ := scl_col' (E := E) hF hn
    obtain ⟨G', e', d', -⟩ := fast_cols d (ns (ht rfl)) s v (fun i => one_div_ne_zero (cheQ_ne hF i)) fun i i0 _ => che_jac_false hF i0
    exact ⟨G', t, by rw [Option.bind_some, if_pos rfl, ex, Option.bind_some, e']; rfl, d'⟩
  · exact ⟨G, t, by rw [Option.bind_some, if_neg (by decide)], by rw [← jac_che hF]; exact d⟩

/-! ## Signs of normalised ultraspherical polynomials -/

omit hE hn

theorem ultG_eq (hD : Duplication F) (hm : -1 / 2 < lam) : jacG F (lam - 1 / 2) (lam - 1 / 2) = ultG F lam := by
  have g1 := hF.gamma_pos (lam + 1) (by linarith)
  have g2 := hF.gamma_pos (2 * lam + 1) (by linarith)
  have d := hD lam hm
  unfold jacG ultG
  rw [show lam - 1 / 2 + (lam - 1 / 2) + 1 = 2 * lam by ring, show lam - 1 / 2 + 1 = lam + 1 / 2 by ring, show lam - 1 / 2 + (lam - 1 / 2) + 2 = 2 * lam + 1 by ring, div_eq_div_iff g2.ne' g1.ne']
  linear_combination F.gamma (lam + 1 / 2) * d

/-- **C47** For a positive parameter, the polynomials of the plans above are those of the conversions between ultraspherical polynomials. -/
theorem C47_ultraspherical_positive (hD : Duplication F) (h0 : 0 < lam) (norm : Bool) : UltPos F norm lam = Ult F norm lam := by
  cases norm
  · rfl
  have hm : -1 / 2 < lam := by linarith
  have g := jacG_pos hF (show -1 < lam - 1 / 2 by linarith) (show -1 < lam - 1 / 2 by linarith)
  have l : ∀ i, 0 < lead (ultR lam) i := fun i => Finset.prod_pos fun k hk => by
    have : (0 : K) ≤ k := by exact_mod_cast (Finset.mem_Ico.1 hk).1
    unfold ultR
    exact div_pos (by linarith) (by linarith)
  funext i
  show scaled _ _ i = scaled _ _ i
  unfold scaled
  congr 2
  unfold jacS ultS
  rw [← ultG_eq hF hD hm, scale_posS hF.sqrt g (fun _ h => jacB_pos (by linarith) (by linarith) h) (Finset.prod_pos fun k hk => jacR_pos (by linarith) (by linarith) (Finset.mem_Ico.1 hk).1),
    scale_posS hF.sqrt g (fun _ h => jacB_pos (by linarith) (by linarith) h) (l i)]

theorem ult_sign (hD : Duplication F) (hm : -1 / 2 < lam) (h0 : lam < 0) {i : Int} (hi : 0 ≤ i) : Ult F true lam i = C (if i = 0 then 1 else -1) * UltPos F true lam i := by
  have g := jacG_pos hF (show -1 < lam - 1 / 2 by linarith) (show -1 < lam - 1 / 2 by linarith)
  have pl : 0 < lead (jacR (lam - 1 / 2) (lam - 1 / 2)) i := Finset.prod_pos fun k hk => jacR_pos (by linarith) (by linarith) (Finset.mem_Ico.1 hk).1
  have hb : ∀ k, 1 ≤ k → 0 < jacB (lam - 1 / 2) (lam - 1 / 2) k := fun _ h => jacB_pos (by linarith) (by linarith) h
  show scaled _ _ i = C _ * scaled _ _ i
  unfold scaled
  rw [← mul_assoc, ← C_mul]
  congr 2
  unfold jacS ultS
  rw [← ultG_eq hF hD hm, scale_posS hF.sqrt g hb pl]
  split_ifs with h
  · rw [one_mul, scale_posS hF.sqrt g hb (by rw [h, lead_zero]; exact one_pos)]
  · rw [neg_one_mul, scale_negS hF.sqrt g hb]
    obtain ⟨k, rfl⟩ : ∃ k : ℕ, i = k + 1 := ⟨(i - 1).toNat, by omega⟩
    clear pl h hi
    induction k with
    | zero =>
      rw [lead_succ _ (by norm_num), show (((0 : ℕ) : Int)) = 0 from rfl, lead_zero, one_mul]
      unfold ultR
      norm_num
      linarith
    | succ k ih =>
      rw [lead_succ _ (by omega)]
      refine mul_neg_of_neg_of_pos (by exact_mod_cast ih) ?_
      unfold ultR
      have : (0 : K) ≤ k := Nat.cast_nonneg k
      push_cast
      exact div_pos (by linarith) (by linarith)

include hn

/-- **C47** For a negative parameter, the plan from Jacobi to normalised ultraspherical polynomials does not give coefficients of the polynomials that the conversions between normalised ultraspherical
polynomials start from: all but the first have the opposite sign. -/
theorem C47_ultraspherical_sign_defect (hD : Duplication F) (hα : -1 < α) (hβ : -1 < β) (hm : -1 / 2 < lam) (h0 : lam < 0) (h2 : 2 ≤ n) :
    ∃ V, denseJacUlt F 0 junk norm1 true n α β lam = some V ∧ ¬ Dense n V (Jac F norm1 α β) (Ult F true lam) := by
  obtain ⟨V, e, d⟩ := C47_dense_jacobi_ultraspherical (junk := junk) hF hn norm1 true hα hβ hm h0.ne
  refine ⟨V, e, fun d' => ?_⟩
  obtain ⟨s, g⟩ := ultpos_graded hF true hm h0.ne
  have z : ∑ i ∈ Finset.Ico 0 n, C ((1 - if i = 0 then 1 else -1) * V.val (i + 1 * n)) * UltPos F true lam i = 0 := by
    have q := sub_eq_zero.2 ((d.conn 1 (by norm_num) (by omega)).symm.trans (d'.conn 1 (by norm_num) (by omega)))
    rw [← Finset.sum_sub_distrib] at q
    rw [← q]
    refine sum_Ico_congr fun i i0 i1 => ?_
    rw [ult_sign hF hD hm h0 i0]
    simp only [C_mul, map_sub, map_one]
    ring
  have v := g.indep z 1 (by norm_num) (by omega)
  rw [if_neg (by norm_num)] at v
  have v1 : V.val (1 + 1 * n) = 0 := by
    rcases mul_eq_zero.1 v with h | h
    · norm_num at h
    · exact h
  have gp := (planJacJac hF norm1 norm1 hα hβ hα hβ junk hn).gp 1 (by norm_num)
  refine gp.1 (gp.2.1.symm.trans ?_)
  rw [d.conn 1 (by norm_num) (by omega), sum_coeff]
  refine Finset.sum_eq_zero fun i hi => ?_
  rw [Finset.mem_Ico] at hi
  rcases lt_trichotomy i 1 with h | h | h
  · rw [(g i hi.1).2.2 _ (by simpa using h), mul_zero]
  · beta_reduce; rw [h, v1, zero_mul]
  · beta_reduce; rw [d.upper i 1 (by norm_num) h hi.2, zero_mul]

end

/-! ## Cases -/

theorem real_duplication : Duplication realLibm := fun x _ => by
  show (2 : ℝ) ^ (2 * x) * Real.Gamma (x + 1 / 2) * Real.Gamma (x + 1) = Real.Gamma (1 / 2) * Real.Gamma (2 * x + 1)
  have h := Real.Gamma_mul_Gamma_add_half (x + 1 / 2)
  rw [show x + 1 / 2 + 1 / 2 = x + 1 by ring, show 2 * (x + 1 / 2) = 2 * x + 1 by ring, show 1 - (2 * x + 1) = -(2 * x) by ring] at h
  rw [mul_assoc, h, Real.Gamma_one_half_eq, mul_comm (Real.Gamma (2 * x + 1)), ← mul_assoc, ← mul_assoc, ← Real.rpow_add two_pos, add_neg_cancel, Real.rpow_zero]
  ring

theorem real_pi : Real.pi = realLibm.gamma (1 / 2) * realLibm.gamma (1 / 2) := by
  show Real.pi = Real.Gamma (1 / 2) * Real.Gamma (1 / 2)
  rw [Real.Gamma_one_half_eq, Real.mul_self_sqrt Real.pi_pos.le]

example : ∃ V, denseJacUlt realLibm 0 (fun _ => 5) true false 9 1 2 (3 / 2) = some V ∧ Dense 9 V (Jac realLibm true 1 2) (Ult realLibm false (3 / 2)) := by
  obtain ⟨V, e, d⟩ := C47_dense_jacobi_ultraspherical (junk := fun _ => 5) realLibm_ok (show (0 : Int) ≤ 9 by norm_num) true false (show (-1 : ℝ) < 1 by norm_num) (show (-1 : ℝ) < 2 by norm_num) (show (-1 / 2 : ℝ) < 3 / 2 by norm_num) (by norm_num)
  exact ⟨V, e, by rw [← C47_ultraspherical_positive realLibm_ok real_duplication (by norm_num)]; exact d⟩
example : ∃ V, denseUltJac realLibm 0 (fun _ => 5) true false 9 (3 / 2) 1 2 = some V ∧ Dense 9 V (Ult realLibm true (3 / 2)) (Jac realLibm false 1 2) := by
  obtain ⟨V, e, d⟩ := C47_dense_ultraspherical_jacobi (junk := fun _ => 5) realLibm_ok (show (0 : Int) ≤ 9 by norm_num) true false (show (-1 / 2 : ℝ) < 3 / 2 by norm_num) (by norm_num) (show (-1 : ℝ) < 1 by norm_num) (show (-1 : ℝ) < 2 by norm_num)
  exact ⟨V, e, by rw [← C47_ultraspherical_positive realLibm_ok real_duplication (by norm_num)]; exact d⟩
example : ∃ V W, denseJacCheb realLibm 0 (fun _ => 5) Real.pi true false 9 1 2 = some V ∧ denseChebJac realLibm 0 (fun _ => 5) Real.pi false true 9 1 2 = some W ∧ Inverse 9 (fun i j => W.val (i + j * 9)) fun i j => V.val (i + j * 9) :=
  C47_dense_jacobi_chebyshev_opposite realLibm_ok (by norm_num) _ _ real_pi (by norm_num) (by norm_num)
example : ∃ V W, denseUltCheb realLibm 0 (fun _ => 5) Real.pi false false 9 (-1 / 4) = some V ∧ denseChebUlt realLibm 0 (fun _ => 5) Real.pi false false 9 (-1 / 4) = some W ∧
    Inverse 9 (fun i j => W.val (i + j * 9)) fun i j => V.val (i + j * 9) :=
  C47_dense_ultraspherical_chebyshev_opposite realLibm_ok (by norm_num) _ _ real_pi (by norm_num) (by norm_num)
example : ∃ G top, fastUltJac realLibm realEnv false true 9 1 0 0 = some (G, top) ∧ Fast 4 2 9 G top (UltPos realLibm false 1) (Jac realLibm true 0 0) :=
  C47_fast_ultraspherical_jacobi_partial realLibm_ok realEnv_ok (by norm_num) _ _ (by norm_num) (by norm_num) (by norm_num) (by norm_num) fun _ => by show (1 / 100 : ℝ) * ((9 : Int) : ℝ) ≤ 1; norm_num
example : ∃ G top, fastChebUlt realLibm realEnv false false 9 1 = some (G, top) ∧ Fast 4 2 9 G top (Che realLibm false) (UltPos realLibm false 1) :=
  C47_fast_chebyshev_ultraspherical_partial realLibm_ok realEnv_ok (by norm_num) _ _ (by norm_num) (by norm_num) fun _ => by show (1 / 100 : ℝ) * ((9 : Int) : ℝ) ≤ 1; norm_num
example : ∃ G top, fastUltCheb realLibm realEnv true false 9 1 = some (G, top) ∧ Fast 4 2 9 G top (UltPos realLibm true 1) (Che realLibm false) :=
  C47_fast_ultraspherical_chebyshev_partial realLibm_ok realEnv_ok (by norm_num) _ _ (by norm_num) (by norm_num) (by simp)
example : ∃ G top, fastChebJac realLibm realEnv false false 9 1 0 = some (G, top) ∧ Fast 4 2 9 G top (Che realLibm false) (Jac realLibm false 1 0) :=
  C47_fast_chebyshev_jacobi_partial realLibm_ok realEnv_ok (by norm_num) _ _ (by norm_num) (by norm_num) fun _ => by show (1 / 100 : ℝ) * ((9 : Int) : ℝ) ≤ 1; norm_num
example : ∃ G top, fastJacCheb realLibm realEnv true false 9 1 0 = some (G, top) ∧ Fast 4 2 9 G top (Jac realLibm true 1 0) (Che realLibm false) :=
  C47_fast_jacobi_chebyshev realLibm_ok realEnv_ok (by norm_num) _ _ (by norm_num) (by norm_num)
example : ∃ G top, fastJacUlt realLibm realEnv true false 9 1 0 (-1 / 4) = some (G, top) ∧ Fast 4 2 9 G top (Jac realLibm true 1 0) (UltPos realLibm false (-1 / 4)) :=
  C47_fast_jacobi_ultraspherical realLibm_ok realEnv_ok (by norm_num) _ _ (by norm_num) (by norm_num) (by norm_num) (by norm_num)
example : ∃ V, denseJacUlt realLibm 0 (fun _ => 5) true true 2 0 0 (-1 / 4) = some V ∧ ¬ Dense 2 V (Jac realLibm true 0 0) (Ult realLibm true (-1 / 4)) :=
  C47_ultraspherical_sign_defect realLibm_ok (by norm_num) _ real_duplication (by norm_num) (by norm_num) (by norm_num) (by norm_num) le_rfl

end FT.Props.Plan
