import Verif.Lemmas.LegChebFmm

/-! # The matrices of the fast multipole transforms -/

namespace FT.Props.Lc
open Polynomial FT FT.Poly FT.Model.Lc

section Exact
variable {K : Type*} [Field K] [CharZero K]

theorem kernI_l2c {F : Lib K} (hF : IsLambda F) {i n : Int} (i0 : 0 ≤ i) (n0 : 0 ≤ n) : kernI F false i (i + 2 * n) = F.sqrtPi * cZ n * (F.sqrtPi * cZ (n + i)) := by
  unfold kernI
  rw [if_neg (by simp), show (i + 2 * n - i) / 2 = n by omega, show (i + (i + 2 * n)) / 2 = n + i by omega, lamI_eq hF n0, lamI_eq hF (by omega)]

theorem kernI_c2l {F : Lib K} (hF : IsLambda F) {i n : Int} (i0 : 0 ≤ i) (n0 : 0 ≤ n) (h : i + 2 * n ≠ 0) :
    kernI F true i (i + 2 * n) = -(cZ n / ((2 * n - 1) * cZ (n + i) * (n + i) * (2 * (n + i) + 1))) := by
  unfold kernI
  rw [if_pos rfl, if_neg h, show (i + 2 * n - i) / 2 = n by omega, show (i + (i + 2 * n)) / 2 = n + i by omega, lamI_eq hF n0, lamI_eq hF (by omega)]
  have hp := hF.ne
  have h2 := icast_ne (K := K) (show n + i ≠ 0 by omega)
  have h3 := icast_ne (K := K) (show 2 * (n + i) + 1 ≠ 0 by omega)
  have h4 := cZ_ne (K := K) (show 0 ≤ n + i by omega)
  have h5 := icast_ne (K := K) (show 2 * n - 1 ≠ 0 by omega)
  push_cast at h2 h3 h5 ⊢
  rw [show (i : K) + (i + 2 * n) = 2 * (n + i) by ring, show (i : K) - (i + 2 * n) + 1 = -(2 * n - 1) by ring]
  generalize (2 * (n : K) - 1) = t at *
  generalize ((n : K) + i) = r at *
  field_simp

/-- The sums with the kernels are the coefficients of the same polynomial. -/
theorem kernI_cheb {F : Lib K} (hF : IsLambda F) {N : Int} (u : Int → K) :
    chebSeries N (fun i => (∑ n ∈ Finset.Ico 0 ((N - i + 1) / 2), kernI F false i (i + 2 * n) * u (i + 2 * n)) * F.m2pi * (if i = 0 then 1 / 2 else 1)) = legSeries N u := by
  refine l2c_series _ _ fun i i0 i1 => ?_
  rw [mul_comm, Finset.sum_mul]
  refine congrArg _ (sum_Ico_congr fun n n0 n1 => ?_)
  rw [kernI_l2c hF i0 n0, hF.two_pi]
  have hp := hF.ne
  field_simp

theorem kernI_leg {F : Lib K} (hF : IsLambda F) {N : Int} (u : Int → K) :
    legSeries N (fun i => (∑ n ∈ Finset.Ico 0 ((N - i + 1) / 2), kernI F true i (i + 2 * n) * ((if i + 2 * n = 0 then 1 else ((i + 2 * n : Int) : K)) * u (i + 2 * n))) * (i + 1 / 2)) = chebSeries N u := by
  refine c2l_series _ _ fun i i0 i1 => ?_
  rw [Finset.sum_mul]
  refine sum_Ico_congr fun n n0 n1 => ?_
  by_cases h : i + 2 * n = 0
  · have hi : i = 0 := by omega
    have hn : n = 0 := by omega
    subst hi hn
    rw [if_pos h]
    unfold kernI lc
    rw [if_pos rfl, if_pos h, if_pos (by omega)]
    norm_num
    ring
  · rw [if_neg h, kernI_c2l hF i0 n0 h, lc_in (by omega) n0 (by omega), show i + 2 * n - n = n + i by omega]
    push_cast
    rw [show (i : K) + 2 * n - 2 * n = i by ring, show (i : K) + 2 * n - n = n + i by ring]
    ring

theorem approx_far {X : Nodes K} {M : Int} (hX : NodesOk X M) {lagrange c : Bool} {P : Plan K} (hM : P.M = M) (h : Shape P) {A : Buf K} (hA : Mats lagrange X M P.s P.L c A) {i j : Int} (i0 : 0 ≤ i) (jN : j < P.N)
    (pr : j % 2 = i % 2) (hf : i / (2 * P.s) + 2 ≤ j / (2 * P.s)) :
    ∃ x0 y0 h : Int, 1 ≤ h ∧ h ≤ x0 ∧ (y0 - x0 = 4 * h ∨ y0 - x0 = 6 * h) ∧ (x0 - h ≤ i ∧ i < x0 + h) ∧ (y0 - h ≤ j ∧ j < y0 + h) ∧
      farK P A (bas lagrange X M) i j = interpolant M (X.xj M) (kern X.lam c) x0 y0 h i j := by
  obtain ⟨s1, -, n1, -⟩ := h.facts
  obtain ⟨l, hl, f, -, e⟩ := farK_far (A := A) (φ := bas lagrange X M) h i0 jN hf
  rw [e, hM]
  have := h.Nn
  exact interp_eq hX hA s1 i0 hl (by omega) pr f

/-- The matrix of the transform from Legendre to Chebyshev coefficients. -/
theorem approx_l2c {F : Lib K} (hF : IsLambda F) {X : Nodes K} {M : Int} (hX : NodesOk X M) {lagrange c2l : Bool} {P : Plan K} (hM : P.M = M) (h : Shape P) (hD : DirectOk F P.N c2l P.D) {A : Buf K}
    (hA : Mats lagrange X M P.s P.L false A) : IsApprox F X M P.N P.s false fun i j => kerM P A (bas lagrange X M) i ((j - i) / 2) := by
  constructor
  · intro i j i0 ij jN pr hn
    unfold kerM
    obtain ⟨n, rfl⟩ : ∃ n, j = i + 2 * n := ⟨(j - i) / 2, by omega⟩
    rw [show (i + 2 * n - i) / 2 = n by omega, if_pos hn, hD.a _ (by omega) (by omega), hD.a _ (by omega) (by omega), kernI_l2c hF i0 (by omega)]
  · intro i j i0 ij jN pr hf
    unfold kerM
    obtain ⟨n, rfl⟩ : ∃ n, j = i + 2 * n := ⟨(j - i) / 2, by omega⟩
    rw [show (i + 2 * n - i) / 2 = n by omega, if_neg (by omega)]
    exact approx_far hX hM h hA i0 jN pr hf

theorem approx_c2l {F : Lib K} (hF : IsLambda F) {X : Nodes K} {M : Int} (hX : NodesOk X M) {lagrange : Bool} {P : Plan K} (hM : P.M = M) (h : Shape P) {an dn : Buf K} (a0 : an.val 0 = 2 / F.sqrtPi)
    (va : ∀ i, 1 ≤ i → i < P.N → an.val i = 1 / (F.sqrtPi * cZ i * (2 * i * i + i))) (vd : ∀ i, 1 ≤ i → i < (P.N + 1) / 2 → dn.val i = F.sqrtPi * cZ (i - 1) / (2 * i)) {A : Buf K}
    (hA : Mats lagrange X M P.s P.L true A) : IsApprox F X M P.N P.s true fun i j => kerL F P A (bas lagrange X M) an dn i ((j - i) / 2) := by
  have hp := hF.ne
  constructor
  · intro i j i0 ij jN pr hn
    unfold kerL
    obtain ⟨n, rfl⟩ : ∃ n, j = i + 2 * n := ⟨(j - i) / 2, by omega⟩
    rw [show (i + 2 * n - i) / 2 = n by omega]
    by_cases hn0 : n = 0
    · subst hn0
      rw [if_pos rfl]
      by_cases h0 : i = 0
      · subst h0
        rw [a0]
        unfold kernI
        rw [if_pos rfl, if_pos (by omega)]
        field_simp
      · rw [kernI_c2l hF i0 le_rfl (by omega), va i (by omega) (by omega), zero_add]
        have h2 := icast_ne (K := K) h0
        have h3 := icast_ne (K := K) (show 2 * i + 1 ≠ 0 by omega)
        have h4 := cZ_ne (K := K) i0
        push_cast at h3 ⊢
        rw [show (2 : K) * i * i + i = i * (2 * i + 1) by ring, cZ_zero, mul_zero, zero_sub, zero_add]
        field_simp
    · rw [if_neg hn0, if_pos hn, kernI_c2l hF i0 (by omega) (by omega), vd n (by omega) (by omega), va _ (by omega) (by omega), cZ_pred (show 1 ≤ n by omega)]
      have h2 := icast_ne (K := K) (show n ≠ 0 by omega)
      have h3 := icast_ne (K := K) (show 2 * (n + i) + 1 ≠ 0 by omega)
      have h4 := cZ_ne (K := K) (show 0 ≤ n + i by omega)
      have h5 := icast_ne (K := K) (show n + i ≠ 0 by omega)
      have h6 := icast_ne (K := K) (show 2 * n - 1 ≠ 0 by omega)
      push_cast at h3 h5 h6 ⊢
      rw [show (2 : K) * (n + i) * (n + i) + (n + i) = (n + i) * (2 * (n + i) + 1) by ring]
      generalize (2 * (n : K) - 1) = t at *
      generalize (2 * ((n : K) + i) + 1) = r at *
      field_simp
  · intro i j i0 ij jN pr hf
    unfold kerL
    obtain ⟨n, rfl⟩ : ∃ n, j = i + 2 * n := ⟨(j - i) / 2, by omega⟩
    have n0 : n ≠ 0 := fun e => by subst e; rw [show i + 2 * 0 = i by ring] at hf; omega
    rw [show (i + 2 * n - i) / 2 = n by omega, if_neg n0, if_neg (by omega)]
    exact approx_far hX hM h hA i0 jN pr hf

end Exact

variable {K : Type*} [Field K] [LinearOrder K] [IsStrictOrderedRing K]

/-- No division by zero in the matrices of the transform from Chebyshev to Legendre coefficients. -/
theorem dens {X : Nodes K} {M : Int} (h : Separated X M) {s : Int} (s1 : 1 ≤ s) (L : ℕ) : Dens X M s L := by
  intro lev b q p r m hP r0 r1 m0 m1
  obtain ⟨-, b0, -, p0, pq, q1⟩ := hP
  have h1 := hs_pos s1 L lev
  have ax := abs_le.1 (h.abs_le r r0 r1)
  have ay := abs_le.1 (h.abs_le m m0 m1)
  unfold Den cx
  generalize hs s L lev = H at *
  have hH : (1 : K) ≤ H := by exact_mod_cast h1
  generalize X.xj M r = x at *
  generalize X.xj M m = y at *
  have b0' : (0 : K) ≤ b := by exact_mod_cast b0
  have p0' : (0 : K) ≤ p := by exact_mod_cast p0
  have pq' : (p : K) ≤ q := by exact_mod_cast pq
  have xH : -(H : K) ≤ x * H ∧ x * H ≤ H := ⟨by nlinarith, by nlinarith⟩
  have yH : -(H : K) ≤ y * H ∧ y * H ≤ H := ⟨by nlinarith, by nlinarith⟩
  have bH : 0 ≤ (b : K) * H := by nlinarith
  have pH : 0 ≤ (p : K) * H := by nlinarith
  have qH : (p : K) * H ≤ q * H := by nlinarith
  push_cast
  generalize x * (H : K) = x' at *
  generalize y * (H : K) = y' at *
  have e1 : ((2 * b + p) * H : K) = 2 * (b * H) + p * H := by ring
  have e2 : ((2 * b + 2 + q) * H : K) = 2 * (b * H) + 2 * H + q * H := by ring
  rw [e1, e2]
  refine mul_ne_zero (mul_ne_zero (mul_ne_zero (h.ne _ ?_) (ne_of_gt ?_)) (ne_of_gt ?_)) (ne_of_lt ?_) <;> linarith

end FT.Props.Lc
