import Verif.Lemmas.Compose
import Verif.Props.Ops

/-!
# C48: pencils of connection problems

Each conversion between two families of classical polynomials computes the eigenvectors of a pencil of two triangular banded matrices. Here it is proved that the first matrix of
the pencil represents the differential operator of the family converted from, and the second one the identity, as maps from the family converted to into an auxiliary family.
-/

set_option linter.unusedSectionVars false

namespace FT.Props.Ops
open Polynomial FT.Poly
variable {K : Type*} [Field K] [LinearOrder K] [IsStrictOrderedRing K] {F : Libm K} {norm : Bool} {lam mu : K}

/-- `A` is a triangular `n × n` matrix whose column `j` holds the coefficients of `T p_j` in the family `q`, all of which lie in the band. -/
def RepresentsT (A : TB K) (n b : Int) (T : K[X] → K[X]) (p q : Int → K[X]) : Prop :=
  ∃ M, StoresT A n b (cut n n M) ∧ (∀ i j, ¬ (j - b ≤ i ∧ i ≤ j) → M i j = 0) ∧ IsMatrix T p q M

theorem g2_band {w0 w2 : Int → K} (i j : Int) (h : ¬ (j - 2 ≤ i ∧ i ≤ j)) : diags (g2 (-2) 0 w0 w2) i j = 0 :=
  diags_band (l := 0) (u := 2) (fun d j h => by unfold g2; split_ifs <;> first | rfl | omega) i j (by omega)

/-- The pattern of the programs that fill pencils. -/
theorem ofFill {n : Int} {T : K[X] → K[X]} {p q : Int → K[X]} {A : TB K} {c0 c1 : K} {w0 w2 a b : Int → K} (s : StoresT A n 2 (cut n n (diags (g2 (-2) 0 w0 fun j => if j = 0 then c0 else if j = 1 then c1 else w2 j))))
    (h : IsMatrix T p q (diags (g2 (-2) 0 a b))) (h0 : c0 = b 0) (h1 : c1 = b 1) (hb : ∀ j, 2 ≤ j → w2 j = b j) (ha : ∀ j, 2 ≤ j → w0 j = a j) : RepresentsT A n 2 T p q :=
  ⟨_, s, g2_band, g2_congr h ha fun j hj => by
    split_ifs with e1 e2
    · rw [e1, h0]
    · rw [e2, h1]
    · exact hb j (by omega)⟩

section ult
variable (hF : IsLibm F) (hm : -1 / 2 < mu) (h0 : mu ≠ 0)
include hF hm h0

/-- **C48** The second matrix of the ultraspherical pencil: the identity from ultraspherical polynomials with parameter `μ` to those with parameter `μ + 1`. -/
theorem C48_ultraspherical_B (n : Int) : ∃ B, createBUltUlt F norm n mu = some B ∧ RepresentsT B n 2 id (Ult F norm mu) (Ult F norm (mu + 1)) := by
  obtain ⟨B, e, s⟩ := pencil_fill0 (n := n) (if norm then F.sqrt (F.div (2 * mu + 1) (2 * mu + 2)) else 1) (if norm then copysignK (F.sqrt (F.div (2 * mu + 1) (2 * mu + 4))) mu else F.div mu (1 + mu))
    (fun i => if norm then -copysignK (F.sqrt (F.div (i * (i - 1)) (4 * (i + mu) * (i + mu - 1)))) mu else F.div (-mu) (i + mu))
    (fun i => if norm then copysignK (F.sqrt (F.div ((i + 2 * mu) * (i + 2 * mu + 1)) (4 * (i + mu) * (i + mu + 1)))) mu else F.div mu (i + mu))
  refine ⟨B, ?_, ofFill s (ultB_matrix hF hm h0) ?_ (ultD_one hF hm).symm (fun j hj => ?_) fun j hj => ?_⟩
  · rw [← e]
    unfold createBUltUlt
    cases norm <;> by_cases h : n > 1 <;> by_cases h' : n > 0 <;> simp only [h, h', if_true, if_false, Bool.false_eq_true] <;> rfl
  · rfl
  · unfold ultD; rw [if_neg (show ¬ j = 0 by omega), if_neg (show ¬ j = 0 by omega)]
  · rfl

/-- **C48** The first matrix of the ultraspherical pencil: the operator `-(1 - x²) D² + (2λ + 1) x D` of the ultraspherical polynomials with parameter `λ`, applied to those with parameter `μ`,
with coefficients for the parameter `μ + 1`. -/
theorem C48_ultraspherical_A (n : Int) : ∃ A, createAUltUlt F norm n lam mu = some A ∧ RepresentsT A n 2 (ultOp lam) (Ult F norm mu) (Ult F norm (mu + 1)) := by
  obtain ⟨A, e, s⟩ := pencil_fill1 (n := n) (if norm then (1 + 2 * lam) * copysignK (F.sqrt (F.div (2 * mu + 1) (2 * mu + 4))) mu else F.div ((1 + 2 * lam) * mu) (1 + mu))
    (fun i => if norm then -(i + 2 * mu) * (i + 2 * (mu - lam)) * copysignK (F.sqrt (F.div (i * (i - 1)) (4 * (i + mu) * (i + mu - 1)))) mu
      else F.div (-(i + 2 * mu) * (i + 2 * (mu - lam)) * mu) (i + mu))
    (fun i => if norm then i * (i + 2 * lam) * copysignK (F.sqrt (F.div ((i + 2 * mu) * (i + 2 * mu + 1)) (4 * (i + mu) * (i + mu + 1)))) mu else F.div (i * (i + 2 * lam) * mu) (i + mu))
  refine ⟨A, ?_, ofFill s (ultA_matrix hF hm h0) ?_ ?_ (fun j hj => ?_) fun j hj => ?_⟩
  · rw [← e]
    unfold createAUltUlt
    cases norm <;> by_cases h : n > 1 <;> simp only [h, if_true, if_false, Bool.false_eq_true] <;> rfl
  · push_cast; ring
  · rw [ultD_one hF hm]
    push_cast
    cases norm
    · simp only [Bool.false_eq_true, if_false]
      rw [hF.div _ _ (by linarith), hF.div _ _ (by linarith)]
      ring
    · simp only [if_true]
      ring
  · have h2 : (2 : K) ≤ j := by exact_mod_cast hj
    unfold ultD
    rw [if_neg (show ¬ j = 0 by omega), if_neg (show ¬ j = 0 by omega)]
    cases norm
    · simp only [Bool.false_eq_true, if_false]
      rw [hF.div _ _ (by linarith), hF.div _ _ (by linarith)]
      ring
    · simp only [if_true]
  · have h2 : (2 : K) ≤ j := by exact_mod_cast hj
    unfold ultU
    cases norm
    · simp only [Bool.false_eq_true, if_false]
      rw [hF.div _ _ (by linarith), hF.div _ _ (by linarith)]
      ring
    · simp only [if_true]
      ring

end ult

section legendre
variable (hF : IsLibm F)
include hF

theorem half_D {j : Int} (hj : 0 ≤ j) : ultD F norm (1 / 2) j = if norm then F.sqrt ((j + 1) * (j + 2) / ((2 * j + 1) * (2 * j + 3))) else 1 / (2 * j + 1) := by
  have h0 : (0 : K) ≤ j := by exact_mod_cast hj
  have n1 : 2 * (j : K) + 1 ≠ 0 := by linarith
  have n2 : 2 * (j : K) + 3 ≠ 0 := by linarith
  unfold ultD
  cases norm
  · simp only [Bool.false_eq_true, if_false]
    split_ifs with h
    · rw [h]; norm_num
    · rw [hF.div _ _ (by linarith), show (j : K) + 1 / 2 = (2 * j + 1) / 2 by ring]
      field_simp
  · simp only [if_true]
    split_ifs with h
    · rw [h, hF.div _ _ (by norm_num)]; norm_num
    · have e : (j + 2 * (1 / 2)) * (j + 2 * (1 / 2) + 1) / (4 * (j + 1 / 2) * (j + 1 / 2 + 1)) = (j + 1) * (j + 2) / ((2 * (j : K) + 1) * (2 * j + 3)) := by
        rw [show (j : K) + 1 / 2 + 1 = (2 * j + 3) / 2 by ring, show (j : K) + 1 / 2 = (2 * j + 1) / 2 by ring]
        generalize 2 * (j : K) + 1 = v at *
        generalize 2 * (j : K) + 3 = v' at *
        field_simp
        ring
      rw [hF.div _ _ (by have : 0 < (j : K) + 1 / 2 := by linarith
                         positivity), e]
      unfold copysignK
      rw [if_neg (by norm_num), abs_of_nonneg]
      exact (hF.sqrt _ (by positivity)).1

theorem half_U {j : Int} (hj : 2 ≤ j) : ultU F norm (1 / 2) j = if norm then -F.sqrt ((j - 1) * j / ((2 * j - 1) * (2 * j + 1))) else -1 / (2 * j + 1) := by
  have h0 : (2 : K) ≤ j := by exact_mod_cast hj
  have n1 : 0 < 2 * (j : K) + 1 := by linarith
  have n2 : 0 < 2 * (j : K) - 1 := by linarith
  have n3 : 0 ≤ (j : K) - 1 := by linarith
  unfold ultU
  cases norm
  · simp only [Bool.false_eq_true, if_false]
    rw [hF.div _ _ (by linarith), show (j : K) + 1 / 2 = (2 * j + 1) / 2 by ring]
    field_simp
  · simp only [if_true]
    have e : j * (j - 1) / (4 * (j + 1 / 2) * (j + 1 / 2 - 1)) = (j - 1) * j / ((2 * (j : K) - 1) * (2 * j + 1)) := by
      rw [show (j : K) + 1 / 2 - 1 = (2 * j - 1) / 2 by ring, show (j : K) + 1 / 2 = (2 * j + 1) / 2 by ring]
      generalize 2 * (j : K) + 1 = v at *
      generalize 2 * (j : K) - 1 = v' at *
      field_simp
      ring
    rw [hF.div _ _ (by have : 0 < (j : K) + 1 / 2 := by linarith
                       have : 0 < (j : K) + 1 / 2 - 1 := by linarith
                       positivity), e]
    unfold copysignK
    rw [if_neg (by norm_num), abs_of_nonneg]
    exact (hF.sqrt _ (by positivity)).1

/-- **C48** The second matrix of the pencil that converts Chebyshev into Legendre polynomials: the identity from Legendre polynomials to ultraspherical polynomials with parameter `3/2`. -/
theorem C48_chebyshev_legendre_B (n : Int) : ∃ B, createBChebLeg F norm n = some B ∧ RepresentsT B n 2 id (Leg F norm) (Ult F norm (3 / 2)) := by
  obtain ⟨B, e, s⟩ := pencil_fill0 (n := n) (if norm then F.sqrt (F.div 2 3) else 1) (if norm then F.sqrt (F.div 2 5) else F.div 1 3)
    (fun i => if norm then -F.sqrt (F.div ((i - 1) * i) ((2 * i - 1) * (2 * i + 1))) else F.div (-1) (2 * i + 1))
    (fun i => if norm then F.sqrt (F.div ((i + 1) * (i + 2)) ((2 * i + 1) * (2 * i + 3))) else F.div 1 (2 * i + 1))
  rw [Leg_eq hF, show (3 / 2 : K) = 1 / 2 + 1 by norm_num]
  refine ⟨B, ?_, ofFill s (ultB_matrix hF (by norm_num) (by norm_num)) ?_ ?_ (fun j hj => ?_) fun j hj => ?_⟩
  · rw [← e]
    unfold createBChebLeg
    cases norm <;> by_cases h : n > 1 <;> by_cases h' : n > 0 <;> simp only [h, h', if_true, if_false, Bool.false_eq_true] <;> rfl
  · rw [half_D hF le_rfl, hF.div _ _ (by norm_num)]; norm_num
  · rw [half_D hF (by norm_num), hF.div _ _ (by norm_num), hF.div _ _ (by norm_num)]; norm_num
  · have h2 : (2 : K) ≤ j := by exact_mod_cast hj
    rw [half_D hF (by omega), hF.div _ _ (by have : 0 < (2 * (j : K) + 1) * (2 * j + 3) := by positivity
                                             exact ne_of_gt this), hF.div _ _ (by linarith)]
  · have h2 : (2 : K) ≤ j := by exact_mod_cast hj
    rw [half_U hF hj, hF.div _ _ (by have := mul_pos (show 0 < 2 * (j : K) - 1 by linarith) (show 0 < 2 * (j : K) + 1 by linarith)
                                     exact ne_of_gt this), hF.div _ _ (by linarith)]

/-- **C48** The first matrix of that pencil: the operator `-(1 - x²) D² + x D` of the Chebyshev polynomials. -/
theorem C48_chebyshev_legendre_A (n : Int) : ∃ A, createAChebLeg F norm n = some A ∧ RepresentsT A n 2 (ultOp 0) (Leg F norm) (Ult F norm (3 / 2)) := by
  obtain ⟨A, e, s⟩ := pencil_fill1 (n := n) (if norm then F.sqrt (F.div 2 5) else F.div 1 3)
    (fun i => if norm then -(i + 1) * F.sqrt (F.div ((i - 1) * i) ((2 * i - 1) * (2 * i + 1))) * (i + 1) else F.div (-(i + 1)) (2 * i + 1) * (i + 1))
    (fun i => if norm then i * F.sqrt (F.div ((i + 1) * (i + 2)) ((2 * i + 1) * (2 * i + 3))) * i else F.div i (2 * i + 1) * i)
  rw [Leg_eq hF, show (3 / 2 : K) = 1 / 2 + 1 by norm_num]
  refine ⟨A, ?_, ofFill s (ultA_matrix hF (by norm_num) (by norm_num)) ?_ ?_ (fun j hj => ?_) fun j hj => ?_⟩
  · rw [← e]
    unfold createAChebLeg
    cases norm <;> by_cases h : n > 1 <;> simp only [h, if_true, if_false, Bool.false_eq_true] <;> rfl
  · push_cast; ring
  · rw [half_D hF (by norm_num), hF.div _ _ (by norm_num), hF.div _ _ (by norm_num)]; norm_num
  · have h2 : (2 : K) ≤ j := by exact_mod_cast hj
    rw [half_D hF (by omega), hF.div _ _ (by have : 0 < (2 * (j : K) + 1) * (2 * j + 3) := by positivity
                                             exact ne_of_gt this), hF.div _ _ (by linarith)]
    split_ifs <;> ring
  · have h2 : (2 : K) ≤ j := by exact_mod_cast hj
    rw [half_U hF hj, hF.div _ _ (by have := mul_pos (show 0 < 2 * (j : K) - 1 by linarith) (show 0 < 2 * (j : K) + 1 by linarith)
                                     exact ne_of_gt this), hF.div _ _ (by linarith)]
    split_ifs <;> ring

/-- The auxiliary family of the next two theorems: Chebyshev polynomials of the second kind, divided by `2`, or by `√2 Γ(1/2)` for the normalised polynomials. -/
noncomputable def Sec (F : Libm K) (norm : Bool) (n : Int) : K[X] := C (if norm then 1 / (F.sqrt 2 * F.gamma (1 / 2)) else 1 / 2) * Ult F false 1 n

omit hF in
theorem Sec_eq : Sec F norm = scaled (secS F norm) (jacobi (1 / 2) (1 / 2)) := by
  funext n
  unfold Sec Ult scaled ultS scale secS
  rw [show (1 : K) - 1 / 2 = 1 / 2 by norm_num, C_mul]
  simp only [Bool.false_eq_true, if_false]
  rw [mul_assoc]

/-- **C48** The second matrix of the pencil that converts Legendre into Chebyshev polynomials: the identity from Chebyshev polynomials to multiples of those of the second kind. -/
theorem C48_legendre_chebyshev_B (n : Int) : ∃ B, createBLegCheb F norm n = some B ∧ RepresentsT B n 2 id (Che F norm) (Sec F norm) := by
  obtain ⟨B, e, s⟩ := pencil_fill0 (n := n) (if norm then F.sqrt 2 else 2) (1 : K) (fun _ => -1) (fun _ => 1)
  rw [Sec_eq]
  refine ⟨B, ?_, ofFill s (cheB_matrix hF) rfl rfl (fun j hj => ?_) fun j hj => rfl⟩
  · rw [← e]
    unfold createBLegCheb
    by_cases h : n > 1 <;> by_cases h' : n > 0 <;> simp only [h, h', if_true, if_false] <;> rfl
  · rw [if_neg (by omega)]

/-- **C48** The first matrix of that pencil: the operator `-(1 - x²) D² + 2 x D` of the Legendre polynomials. -/
theorem C48_legendre_chebyshev_A (n : Int) : ∃ A, createALegCheb norm n = some A ∧ RepresentsT A n 2 (ultOp (1 / 2)) (Che F norm) (Sec F norm) := by
  obtain ⟨A, e, s⟩ := pencil_fill1 (n := n) (2 : K) (fun i => -i * (i - 1)) (fun i => i * (i + 1))
  rw [Sec_eq]
  refine ⟨A, ?_, ofFill s (cheA_matrix hF) ?_ ?_ (fun j hj => rfl) fun j hj => ?_⟩
  · rw [← e]
    unfold createALegCheb
    by_cases h : n > 1 <;> simp only [h, if_true, if_false] <;> rfl
  · push_cast; ring
  · push_cast; ring
  · ring

end legendre

section jacobi
variable {α β γ δ : K} (hF : IsLibm F) (hγ : -1 < γ) (hδ : -1 < δ)
include hF hγ hδ

omit hF hγ hδ in
/-- Conversion of storage. -/
theorem Represents.toTB {A : Banded K} {n b : Int} {T : K[X] → K[X]} {p q : Int → K[X]} (h : Represents A n n 0 b T p q) (hn : 0 ≤ n) (hb : 0 ≤ b) : ∃ B, A.toTB = some B ∧ RepresentsT B n b T p q := by
  obtain ⟨M, s, z, m⟩ := h
  obtain ⟨B, e, t⟩ := C14_to_triangular s hn (by omega) (by omega)
  refine ⟨B, e, M, t.to fun i j => ?_, fun i j h => z i j (by omega), m⟩
  split_ifs with h
  · rfl
  · unfold cut
    rw [z i j (by omega), ite_self]

/-- **C48** The second matrix of the Jacobi pencil: the identity from the parameters `γ, δ` to the parameters `γ + 1, δ + 1`. -/
theorem C48_jacobi_B {n : Int} (hn : 0 ≤ n) : ∃ B, createBJacJac F norm n γ δ = some B ∧ RepresentsT B n 2 id (Jac F norm γ δ) (Jac F norm (γ + 1) (δ + 1)) := by
  obtain ⟨A, e, h⟩ := C48_jacobi_raising (norm := norm) hF hγ hδ n n
  obtain ⟨B, e', h'⟩ := h.toTB hn (by norm_num)
  refine ⟨B, ?_, h'⟩
  unfold createBJacJac
  rw [e]
  exact e'

/-- **C48** The first matrix of the Jacobi pencil: the operator `-(1 - x²) D² + (α - β + (α + β + 2) x) D` of the Jacobi polynomials with parameters `α, β`, applied to those with parameters `γ, δ`,
with coefficients for the parameters `γ + 1, δ + 1`.  The program computes it as a sum of products of operator matrices. -/
theorem C48_jacobi_A (junk : Int → K) {n : Int} (hn : 0 ≤ n) : ∃ A, createAJacJac F junk norm n α β γ δ = some A ∧ RepresentsT A n 2 (jacOp α β) (Jac F norm γ δ) (Jac F norm (γ + 1) (δ + 1)) := by
  obtain ⟨D1, c1, eD1, sD1, mD1⟩ := jacobi_super (norm := norm) hF hγ hδ junk n n (order := 1) (by norm_num)
  obtain ⟨D2, c2, eD2, sD2, mD2⟩ := jacobi_super (norm := norm) hF hγ hδ junk n n (order := 2) (by norm_num)
  obtain ⟨L1, eL1, L, sL1, zL1, mL1⟩ := C48_jacobi_lowering (norm := norm) (α := γ + 1) (β := δ + 1) hF (by linarith) (by linarith) n n
  obtain ⟨M1, eM1, M, sM1, zM1, mM1⟩ := C48_jacobi_multiplication (norm := norm) (α := γ + 1) (β := δ + 1) hF (by linarith) (by linarith) n n
  obtain ⟨A1, a1, e1, s1, g1⟩ := C17_gbmm sL1 sD2 (C14_calloc n n 0 2) (by norm_num) (by norm_num) (-1) 0
  obtain ⟨A2, e2, w2, d2, g2⟩ := bandedAddIn_eq (alpha := 1) (beta := α - β) sD1.wf s1.wf (by rw [sD1.dims.1, s1.dims.1]) (by rw [sD1.dims.2.1, s1.dims.2.1])
    (by rw [sD1.dims.2.2.1, s1.dims.2.2.1]; norm_num) (by rw [sD1.dims.2.2.2, s1.dims.2.2.2]; norm_num)
  obtain ⟨q1, q2, q3, q4⟩ := s1.dims
  have s2 : Stores A2 n n 0 2 A2.ent := .mk' ⟨d2.1.trans q1, d2.2.1.trans q2, d2.2.2.1.trans q3, d2.2.2.2.trans q4⟩ w2 fun _ _ => rfl
  obtain ⟨A3, a3, e3, s3, g3⟩ := C17_gbmm sM1 sD1 s2 (by norm_num) (by norm_num) (α + β + 2) 1
  have hm : IsMatrix (jacOp α β) (Jac F norm γ δ) (Jac F norm (γ + 1) (δ + 1)) fun i j => -1 * supMul L 2 c2 i j + ((α - β) * superM 1 c1 i j + (α + β + 2) * supMul M 1 c1 i j) := by
    have k1 : IsMatrix derivative (Jac F norm γ δ) (Jac F norm (γ + 1) (δ + 1)) (superM 1 c1) := by
      rw [Int.cast_one] at mD1
      exact mD1
    have k2 : IsMatrix (fun f => derivative (derivative f)) (Jac F norm γ δ) (Jac F norm (γ + 1 + 1) (δ + 1 + 1)) (superM 2 c2) := by
      rw [show γ + ((2 : Int) : K) = γ + 1 + 1 by push_cast; ring, show δ + ((2 : Int) : K) = δ + 1 + 1 by push_cast; ring] at mD2
      exact mD2
    refine (((IsMatrix.super (by norm_num) k2 mL1 (C_comm_mul _)).smul (-1)).add ((k1.smul (α - β)).add ((IsMatrix.super (by norm_num) k1 mM1 (C_comm_mul _)).smul (α + β + 2)))).op fun f => ?_
    unfold jacOp
    rw [C_neg, C_1]
    ring
  have hz : ∀ i j, ¬ (j - 2 ≤ i ∧ i ≤ j + 0) → -1 * supMul L 2 c2 i j + ((α - β) * superM 1 c1 i j + (α + β + 2) * supMul M 1 c1 i j) = 0 := fun i j h => by
    rw [supMul_band zL1 i j (by omega), supMul_band zM1 i j (by omega), super_band i j (by omega)]
    ring
  have hA : Represents A3 n n 0 2 (jacOp α β) (Jac F norm γ δ) (Jac F norm (γ + 1) (δ + 1)) := by
    refine ⟨_, s3.to fun i j => ?_, hz, hm⟩
    unfold cut
    by_cases h : (0 ≤ i ∧ i < n) ∧ (0 ≤ j ∧ j < n)
    · obtain ⟨⟨i0, i1⟩, j0, j1⟩ := h
      rw [if_pos ⟨⟨i0, i1⟩, j0, j1⟩, g3 i j i0 i1 j0 j1, super_prod (by norm_num) M c1 ⟨i0, i1⟩ ⟨j0, j1⟩, g2 i j i0 (by rw [q1]; exact i1) j0 (by rw [q2]; exact j1), s1.ent, sD1.ent,
        g1 i j i0 i1 j0 j1, super_prod (by norm_num) L c2 ⟨i0, i1⟩ ⟨j0, j1⟩, show cut n n (superM 1 c1) i j = superM 1 c1 i j from if_pos ⟨⟨i0, i1⟩, j0, j1⟩]
      ring
    · rw [if_neg h]
      exact C14_zero_outside s3 fun hb => h (by unfold band at hb; omega)
  obtain ⟨A, e, h⟩ := hA.toTB hn (by norm_num)
  refine ⟨A, ?_, h⟩
  unfold createAJacJac
  rw [eD1, eD2, eL1, eM1]
  simp only [Option.bind_eq_bind, Option.bind_some]
  rw [e1, Option.bind_some, e2, Option.bind_some, e3, Option.bind_some, e]

end jacobi

section laguerre
variable {α β : K} (hF : IsLibm F) (hβ : -1 < β)
include hF hβ

/-- **C48** The second matrix of the Laguerre pencil: the identity from the parameter `β` to the parameter `β + 1`. -/
theorem C48_laguerre_B {n : Int} (hn : 0 ≤ n) : ∃ B, createBLagLag F norm n β = some B ∧ RepresentsT B n 1 id (Lag F norm β) (Lag F norm (β + 1)) := by
  obtain ⟨A, e, h⟩ := C48_laguerre_raising (norm := norm) hF hβ n n
  obtain ⟨B, e', h'⟩ := h.toTB hn (by norm_num)
  refine ⟨B, ?_, h'⟩
  unfold createBLagLag
  rw [e]
  exact e'

/-- **C48** The first matrix of the Laguerre pencil: the operator `-x D² - (α + 1 - x) D` of the Laguerre polynomials with parameter `α`, applied to those with parameter `β`, with
coefficients for the parameter `β + 1`.  The storage is allocated without being cleared. -/
theorem C48_laguerre_A (junk : Int → K) (n : Int) : ∃ A, createALagLag F junk norm n α β = some A ∧ RepresentsT A n 1 (lagOp α) (Lag F norm β) (Lag F norm (β + 1)) := by
  obtain ⟨A, e, s⟩ := biT_fill junk n (fun i => if norm then (α - β - i) * F.sqrt i else α - β - i) (fun i => if norm then i * F.sqrt (i + β + 1) else (i : K))
  refine ⟨A, ?_, _, s, ?_, ?_⟩
  · rw [← e]
    unfold createALagLag
    cases norm
    · simp only [Bool.false_eq_true, if_false]; rfl
    · simp only [if_true]; rfl
  · exact fun i j h => diags_band (l := 0) (u := 1) (fun d j h => by unfold FT.Poly.g2; split_ifs <;> first | rfl | omega) i j (by omega)
  · refine op2 (fun j => j * (j + β - α)) (fun j => j) (monic_neg' _ _) (lagOp_comm α) (fun j hj => ?_) (fun j hj hd => ?_) fun j hj hd => ?_
    · show lagOp α (laguerre β j) = _
      rw [lag_op α β hj]
      unfold FT.Poly.g2 laguerre
      norm_num
      ring
    · have := lagS_1 (norm := norm) hF hβ (show 0 ≤ j - 1 by omega)
      rw [sub_add_cancel] at this
      have e := lagDer (F := F) (norm := norm) hF (show 1 ≤ j by omega)
      rw [this, ← sub_eq_add_neg]
      cases norm
      · simp only [Bool.false_eq_true, if_false] at *
        linear_combination lagS F false (β + 1) (j - 1) * (j + β - α) * e
      · simp only [if_true] at *
        linear_combination lagS F true (β + 1) (j - 1) * (j + β - α) * e
    · rw [lagS_up hF hβ hj, add_zero]
      unfold lagTau
      split_ifs <;> ring

end laguerre

/-! ## Concrete cases -/

example : ∃ A, createAUltUlt realLibm true 7 (3 / 4) (-1 / 4) = some A ∧ RepresentsT A 7 2 (ultOp (3 / 4)) (Ult realLibm true (-1 / 4)) (Ult realLibm true (-1 / 4 + 1)) :=
  C48_ultraspherical_A realLibm_ok (by norm_num) (by norm_num) 7

example : ∃ B, createBUltUlt realLibm false 7 2 = some B ∧ RepresentsT B 7 2 id (Ult realLibm false 2) (Ult realLibm false (2 + 1)) :=
  C48_ultraspherical_B realLibm_ok (by norm_num) (by norm_num) 7

example : ∃ A, createAChebLeg realLibm true 9 = some A ∧ RepresentsT A 9 2 (ultOp 0) (Leg realLibm true) (Ult realLibm true (3 / 2)) := C48_chebyshev_legendre_A realLibm_ok 9
example : ∃ B, createBChebLeg realLibm true 9 = some B ∧ RepresentsT B 9 2 id (Leg realLibm true) (Ult realLibm true (3 / 2)) := C48_chebyshev_legendre_B realLibm_ok 9
example : ∃ A, createALegCheb true 9 = some A ∧ RepresentsT A 9 2 (ultOp (1 / 2)) (Che realLibm true) (Sec realLibm true) := C48_legendre_chebyshev_A realLibm_ok 9
example : ∃ B, createBLegCheb realLibm true 9 = some B ∧ RepresentsT B 9 2 id (Che realLibm true) (Sec realLibm true) := C48_legendre_chebyshev_B realLibm_ok 9

example : ∃ A, createAJacJac realLibm (fun _ => 5) true 8 1 2 (-1 / 2) 3 = some A ∧ RepresentsT A 8 2 (jacOp 1 2) (Jac realLibm true (-1 / 2) 3) (Jac realLibm true (-1 / 2 + 1) (3 + 1)) :=
  C48_jacobi_A realLibm_ok (by norm_num) (by norm_num) _ (by norm_num)

example : ∃ B, createBJacJac realLibm false 8 (-1 / 2) 3 = some B ∧ RepresentsT B 8 2 id (Jac realLibm false (-1 / 2) 3) (Jac realLibm false (-1 / 2 + 1) (3 + 1)) :=
  C48_jacobi_B realLibm_ok (by norm_num) (by norm_num) (by norm_num)

example : ∃ A, createALagLag realLibm (fun _ => 5) true 8 (-1 / 2) 3 = some A ∧ RepresentsT A 8 1 (lagOp (-1 / 2)) (Lag realLibm true 3) (Lag realLibm true (3 + 1)) :=
  C48_laguerre_A realLibm_ok (by norm_num) _ 8

example : ∃ B, createBLagLag realLibm true 8 3 = some B ∧ RepresentsT B 8 1 id (Lag realLibm true 3) (Lag realLibm true (3 + 1)) := C48_laguerre_B realLibm_ok (by norm_num) (by norm_num)

end FT.Props.Ops
