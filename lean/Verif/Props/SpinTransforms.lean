import Verif.Props.SpinDrivers
import Verif.Props.PlanFunctions
import Verif.Lemmas.SpinTransforms

/-!
# Property C78: the transforms of the spin-weighted sphere

`ft_execute_spinsph2fourier` and `ft_execute_fourier2spinsph` with a plan of `ft_plan_spinsph2fourier`, for every spin.  An array of `N × M` complex numbers is an array of `2N × M` real
numbers: rows `2i` and `2i+1` are the real and the imaginary part of row `i`.
-/

namespace FT.Props.Fun
open FT FT.Model FT.Poly FT.Props.Plan FT.Props.Ops Polynomial
variable {K : Type*} [Field K] [LinearOrder K] [IsStrictOrderedRing K] {F : Libm K} {junk : Int → K}

/-- The forward transform turns coefficients of the spin-weighted functions of the order of the column into coefficients of cosines (`|m| + |s|` even) or sines (odd) of the colatitude, for the real
parts (`b = 0`) and the imaginary parts (`b = 1`), if the column has no entries beyond the degrees below `N`; the backward transform does the converse if what it returns has no others. -/
def SpinKeeps (F : Libm K) (ok : SpinChoice K → Prop) (s N M : Int) (Fwd Bwd : SpinChoice K → Buf K → Buf K → Prop) : Prop :=
  ∀ y, ok y → ∀ A : Buf K, 2 * N * M ≤ A.size →
    ((∃ A', Fwd y A A') ∧ ∀ A', Fwd y A A' → ∀ c, 0 ≤ c → c < M → ShortC N (N * c) 1 (N - max |spinOrd c| |s|) A → ∀ p : K × K, p.2 ^ 2 = 1 - p.1 ^ 2 → ∀ b, b = 0 ∨ b = 1 →
      ∑ i ∈ Finset.Ico 0 N, A'.val (2 * (i + N * c) + b) * trigFun p (spinPar s (spinOrd c)) i = ∑ i ∈ Finset.Ico 0 N, A.val (2 * (i + N * c) + b) * spinFun F s p (spinOrd c) i) ∧
    ((∃ A', Bwd y A A') ∧ ∀ A', Bwd y A A' → ∀ c, 0 ≤ c → c < M → ShortC N (N * c) 1 (N - max |spinOrd c| |s|) A' → ∀ p : K × K, p.2 ^ 2 = 1 - p.1 ^ 2 → ∀ b, b = 0 ∨ b = 1 →
      ∑ i ∈ Finset.Ico 0 N, A'.val (2 * (i + N * c) + b) * spinFun F s p (spinOrd c) i = ∑ i ∈ Finset.Ico 0 N, A.val (2 * (i + N * c) + b) * trigFun p (spinPar s (spinOrd c)) i)

/-- What the planner returns. -/
structure SpinPlanOK (F : Libm K) (N s : Int) (P : SpinHPlan K) (P1 P2 Q1 Q2 : Buf K) : Prop where
  n : P.SRP.n = N
  spin : P.SRP.s = s
  spin' : P.s = s
  good : SpinGood P.SRP
  drivers : SpinDriversConvert F P.SRP
  scratch : 2 * (N * (2 * N - 1)) ≤ P.szB
  c1 : AsComplex N P1 P.P1
  c2 : AsComplex N P2 P.P2
  c3 : AsComplex N Q1 P.P1inv
  c4 : AsComplex N Q2 P.P2inv
  inv1 : InversePair N P1 Q1
  inv2 : InversePair N P2 Q2
  d1 : Dense N P1 (Leg F true) (Che F false)
  d2 : Dense N P2 (Ult F true (3 / 2)) (Ult F false 1)

theorem spin_tplan (hF : IsLibm F) {N : Int} (hN : 1 ≤ N) (s : Int) : ∃ P P1 P2 Q1 Q2, planSpinsph2fourier F junk N s = some P ∧ SpinPlanOK F N s P P1 P2 Q1 Q2 := by
  obtain ⟨S, eS, hn, hs, hG, -⟩ := spin_plan hF N s (by omega)
  obtain ⟨S', eS', -, -, hD⟩ := C77_drivers hF N s (by omega)
  rw [eS] at eS'; cases eS'
  obtain ⟨P0, e0, d0⟩ := C61_dense_legendre_chebyshev (junk := junk) hF (show 0 ≤ N by omega) true false
  obtain ⟨P1, e1, d1⟩ := C61_dense_ultraspherical (junk := junk) hF (show 0 ≤ N by omega) true false (lam := 3 / 2) (mu := 1) (by norm_num) (by norm_num) (by norm_num) (by norm_num)
  obtain ⟨Q0, f0, q0⟩ := C61_dense_chebyshev_legendre (junk := junk) hF (show 0 ≤ N by omega) false true
  obtain ⟨Q1, f1, q1⟩ := C61_dense_ultraspherical (junk := junk) hF (show 0 ≤ N by omega) false true (lam := 1) (mu := 3 / 2) (by norm_num) (by norm_num) (by norm_num) (by norm_num)
  have i0 := inversePair_of (by omega) (planChebLeg hF false true N).gp d0 q0
  have i1 := inversePair_of (by omega) (planUltUlt hF false true (lam := 1) (mu := 3 / 2) (by norm_num) (by norm_num) (by norm_num) (by norm_num) N).gp d1 q1
  obtain ⟨C1, g1, k1⟩ := toComplex_spec (show 0 ≤ N by omega) i0.1
  obtain ⟨C2, g2, k2⟩ := toComplex_spec (show 0 ≤ N by omega) i1.1
  obtain ⟨C3, g3, k3⟩ := toComplex_spec (show 0 ≤ N by omega) i0.2.1
  obtain ⟨C4, g4, k4⟩ := toComplex_spec (show 0 ≤ N by omega) i1.2.1
  refine ⟨⟨S, (2 * (N * (2 * N - 1))).toNat, C1, C2, C3, C4, s⟩, P0, P1, Q0, Q1, ?_, ⟨hn, hs, rfl, hG, hD, Int.self_le_toNat _, k1, k2, k3, k4, i0, i1, d0, d1⟩⟩
  unfold planSpinsph2fourier
  rw [eS, e0, e1, f0, f1]
  simp only [Option.bind_some, g1, g2, g3, g4]

section
variable {N M s : Int} {P : SpinHPlan K} {P1 P2 Q1 Q2 : Buf K}

theorem spin_ok (hP : SpinPlanOK F N s P P1 P2 Q1 Q2) (hN : 1 ≤ N) (hM2 : M ≤ 2 * N - 1) {x : SpinChoice K} (hx : x.OK P.szB) : x.OK (2 * P.SRP.n * M) := by
  have : 2 * P.SRP.n * M ≤ P.szB := by
    have h := hP.scratch
    have : 2 * (N * M) ≤ 2 * (N * (2 * N - 1)) := Int.mul_le_mul_of_nonneg_left (Int.mul_le_mul_of_nonneg_left hM2 (by omega)) (by omega)
    rw [hP.n, mul_assoc]
    omega
  cases x with
  | one isa T => exact hx
  | avx T B => exact ⟨hx.1, this.trans hx.2⟩

theorem runSpin_ok (hP : SpinPlanOK F N s P P1 P2 Q1 Q2) (hN : 1 ≤ N) (hM : M % 2 = 1) (hM1 : 3 ≤ M) (hM2 : M ≤ 2 * N - 1) {x : SpinChoice K} (hx : x.OK P.szB) (d : Bool) :
    StepOK (2 * N) M (RunSpin x d P.SRP M) (colOp fun c => spinF d P.SRP (ordS c)) := by
  have hx' := spin_ok hP hN hM2 hx
  have hn := hP.n
  subst hn
  refine ⟨fun A hA => ?_, fun A A' hA r => ?_⟩
  · obtain ⟨A', h, -⟩ := runSpin_spec hP.good d hM hM1 (by omega) hA
    exact ⟨A', (h x hx').1⟩
  · obtain ⟨B, h, m⟩ := runSpin_spec hP.good d hM hM1 (by omega) hA
    rw [(h x hx').2 A' r]
    exact Acts.of_mapped m

theorem spinDense_ok (hP : SpinPlanOK F N s P P1 P2 Q1 Q2) (hN : 1 ≤ N) (t : Bool) :
    DenseOK (2 * N) M (spinDense false t P N M) (colOp (zF (if s % 2 = 0 then sel4 (opU t P1 N) (opU t P2 N) else sel4 (opU t P2 N) (opU t P1 N)) N)) ∧
    DenseOK (2 * N) M (spinDense true t P N M) (colOp (zF (if s % 2 = 0 then sel4 (opU t Q1 N) (opU t Q2 N) else sel4 (opU t Q2 N) (opU t Q1 N)) N)) := by
  unfold spinDense
  rw [hP.spin']
  simp only [Bool.false_eq_true, if_false, if_true]
  by_cases h : s % 2 = 0
  · simp only [if_pos h]
    exact ⟨ztrmm4_ok (by omega) hP.c1 hP.c2, ztrmm4_ok (by omega) hP.c3 hP.c4⟩
  · simp only [if_neg h]
    exact ⟨ztrmm4_ok (by omega) hP.c2 hP.c1, ztrmm4_ok (by omega) hP.c4 hP.c3⟩

theorem spin_inverse (hP : SpinPlanOK F N s P P1 P2 Q1 Q2) (hN : 1 ≤ N) (hM : M % 2 = 1) (hM1 : 3 ≤ M) (hM2 : M ≤ 2 * N - 1) (t : Bool) :
    MutuallyInverse (SpinChoice.OK P.szB) (2 * N) M (fun x => Spinsph2fourier x t P N M) (fun x => Fourier2spinsph x t P N M) := by
  have sel : ∀ (s : Int) {U V U' V' : Int → Int → K}, MulOne N U U' → MulOne N V V' → ∀ c : Int, MulOne N ((if s % 2 = 0 then sel4 U V else sel4 V U) c) ((if s % 2 = 0 then sel4 U' V' else sel4 V' U') c) := by
    intro s U V U' V' h h' c
    unfold sel4
    by_cases hs : s % 2 = 0 <;> by_cases hc : c % 4 = 0 ∨ c % 4 = 3 <;> simp only [hs, hc, if_true, if_false] <;> assumption
  have hn := hP.n
  exact inverse_of (R := fun x d => RunSpin x d P.SRP M) (D := fun t => spinDense false t P N M) (E := fun t => spinDense true t P N M) (fun x hx d => runSpin_ok hP hN hM hM1 hM2 hx d)
    (fun d => colOp_congr (by rw [← hn]; exact spinF_congr hP.good d ordS)) (fun t => (spinDense_ok hP hN t).1) (fun t => (spinDense_ok hP hN t).2)
    (fun d => colOp_id fun c _ _ x k _ _ => by rw [spinF_inv hP.good (by omega)])
    (fun t => zOp_id fun c _ _ => sel s (hP.inv1.mulOne t).comm (hP.inv2.mulOne t).comm c) (fun t => zOp_id fun c _ _ => sel s (hP.inv1.mulOne t) (hP.inv2.mulOne t) c) t

theorem spin_adjoint (hP : SpinPlanOK F N s P P1 P2 Q1 Q2) (hN : 1 ≤ N) (hM : M % 2 = 1) (hM1 : 3 ≤ M) (hM2 : M ≤ 2 * N - 1) :
    AdjointPair (SpinChoice.OK P.szB) (2 * N) M (fun x => Spinsph2fourier x false P N M) (fun x => Spinsph2fourier x true P N M) ∧
    AdjointPair (SpinChoice.OK P.szB) (2 * N) M (fun x => Fourier2spinsph x false P N M) (fun x => Fourier2spinsph x true P N M) := by
  have tr : ∀ (U V : Buf K) (c i j : Int), (if s % 2 = 0 then sel4 (opU true U N) (opU true V N) else sel4 (opU true V N) (opU true U N)) c i j =
      (if s % 2 = 0 then sel4 (opU false U N) (opU false V N) else sel4 (opU false V N) (opU false U N)) c j i := by
    intro U V c i j
    unfold sel4
    by_cases hs : s % 2 = 0 <;> by_cases hc : c % 4 = 0 ∨ c % 4 = 3 <;> simp only [hs, hc, if_true, if_false] <;> rfl
  have hn := hP.n
  exact adjoint_of (R := fun x d => RunSpin x d P.SRP M) (D := fun t => spinDense false t P N M) (E := fun t => spinDense true t P N M) (fun x hx d => runSpin_ok hP hN hM hM1 hM2 hx d)
    (fun d => colOp_congr (by rw [← hn]; exact spinF_congr hP.good d ordS)) (fun t => (spinDense_ok hP hN t).1) (fun t => (spinDense_ok hP hN t).2)
    (colOp_adj fun c _ _ x y => by rw [← hn]; exact spinF_adj hP.good (by omega) _ x y) (zOp_adj fun c i j => tr P1 P2 c i j) (zOp_adj fun c i j => tr Q1 Q2 c i j)

theorem ordS_spinOrd (c : Int) : ordS c = spinOrd c := rfl

/-- Columns 0 and 3 modulo 4 hold the even orders. -/
theorem spinOrd_parity {c : Int} (c0 : 0 ≤ c) : |spinOrd c| % 2 = 0 ↔ c % 4 = 0 ∨ c % 4 = 3 := by
  unfold spinOrd
  split_ifs with h
  · rw [abs_of_nonneg (by omega)]; omega
  · rw [abs_neg, abs_of_nonneg (by omega)]; omega

theorem spin_forward (hF : IsLibm F) (hP : SpinPlanOK F N s P P1 P2 Q1 Q2) (hN : 1 ≤ N) (hM : M % 2 = 1) (hM1 : 3 ≤ M) (hM2 : M ≤ 2 * N - 1) {x : SpinChoice K} (hx : x.OK P.szB) {A A' : Buf K}
    (hA : 2 * N * M ≤ A.size) (e : Spinsph2fourier x false P N M A A') {c : Int} (c0 : 0 ≤ c) (c1 : c < M) (hz : ShortC N (N * c) 1 (N - max |spinOrd c| |s|) A) {p : K × K} (hp : p.2 ^ 2 = 1 - p.1 ^ 2)
    {b : Int} (hb : b = 0 ∨ b = 1) :
    ∑ i ∈ Finset.Ico 0 N, A'.val (2 * (i + N * c) + b) * trigFun p (spinPar s (spinOrd c)) i = ∑ i ∈ Finset.Ico 0 N, A.val (2 * (i + N * c) + b) * spinFun F s p (spinOrd c) i := by
  obtain ⟨R, eR, eD⟩ : ∃ A1, RunSpin x true P.SRP M A A1 ∧ spinDense false false P N M A1 = some A' := by simpa [Spinsph2fourier] using e
  have hx' := spin_ok hP hN hM2 hx
  obtain ⟨⟨R', r, sR, v⟩, -⟩ := hP.drivers M hM hM1 A (by rw [hP.n]; exact hA)
  rw [← (r x hx').2 R eR] at sR v
  have hv := (v c c0 c1 (by rw [hP.n, hP.spin]; exact hz)).2 p hp b hb
  rw [hP.n, hP.spin] at hv
  obtain ⟨A2, e2, a⟩ := (spinDense_ok (M := M) hP hN false).1.2 R (by rw [sR]; exact hA)
  rw [eD] at e2; cases e2
  have ix : ∀ i : Int, 2 * (i + N * c) + b = (2 * i + b) + c * (2 * N) := fun i => by ring
  have ix' : ∀ i : Int, 2 * (N * c + i * 1) + b = (2 * i + b) + c * (2 * N) := fun i => by ring
  have val : ∀ V : Buf K, (if s % 2 = 0 then sel4 (opU false P1 N) (opU false P2 N) else sel4 (opU false P2 N) (opU false P1 N)) c = opU false V N → ∀ i, 0 ≤ i → i < N →
      A'.val (2 * (i + N * c) + b) = ∑ l ∈ Finset.range N.toNat, mat N V i l * R.val ((2 * l + b) + c * (2 * N)) := by
    intro V hV i i0 i1
    rw [ix, a.val (2 * i + b) c (by omega) (by omega) c0 c1]
    unfold colOp zF
    rw [hV, show (2 * i + b) / 2 = i by omega, show (2 * i + b) % 2 = b by omega]
    rfl
  simp only [ix'] at hv
  refine Eq.trans ?_ (hv.trans (sum_Ico_congr fun i i0 i1 => by rw [ix i]))
  have key : ∀ (V : Buf K) (f q : Int → K[X]) (w : K) (m : Int), (if s % 2 = 0 then sel4 (opU false P1 N) (opU false P2 N) else sel4 (opU false P2 N) (opU false P1 N)) c = opU false V N →
      Dense N V f q → (∀ i, 0 ≤ i → sphFun F p m i = w * (f i).eval p.1) → (∀ i, 0 ≤ i → trigFun p m i = w * (q i).eval p.1) →
      ∑ i ∈ Finset.Ico 0 N, A'.val (2 * (i + N * c) + b) * trigFun p m i = ∑ i ∈ Finset.Ico 0 N, R.val ((2 * i + b) + c * (2 * N)) * sphFun F p m i := by
    intro V f q w m hV D hf hq
    have d := congrArg (w * ·) (dense_eval D (fun l => R.val ((2 * l + b) + c * (2 * N))) p.1)
    simp only [Finset.mul_sum] at d
    refine Eq.trans (sum_Ico_congr fun i i0 i1 => ?_) (d.trans (sum_Ico_congr fun i i0 i1 => ?_))
    · rw [val V hV i i0 i1, hq i i0]; ring
    · rw [hf i i0]; ring
  have par := spinOrd_parity c0
  have hs : |s| % 2 = s % 2 := by rcases abs_choice s with h | h <;> rw [h] <;> omega
  rcases (show spinPar s (spinOrd c) = 0 ∨ spinPar s (spinOrd c) = 1 by unfold spinPar; omega) with h | h
  · rw [h]
    refine key P1 _ _ 1 0 ?_ hP.d1 (fun i i0 => ?_) (fun i i0 => ?_)
    · unfold spinPar at h
      unfold sel4
      by_cases h2 : s % 2 = 0
      · rw [if_pos h2, if_pos (par.1 (by omega))]
      · rw [if_neg h2, if_neg (fun h3 => by have := par.2 h3; omega)]
    · unfold sphFun
      rw [← leg_jac hF]; simp
    · unfold trigFun
      rw [if_pos (by norm_num), che_T F i0, one_mul]
  · rw [h]
    refine key P2 _ _ p.2 1 ?_ hP.d2 (fun i i0 => ?_) (fun i i0 => ?_)
    · unfold spinPar at h
      unfold sel4
      by_cases h2 : s % 2 = 0
      · rw [if_pos h2, if_neg (fun h3 => by have := par.2 h3; omega)]
      · rw [if_neg h2, if_pos (par.1 (by omega))]
    · unfold sphFun
      rw [← ult_jac_three hF]; simp
    · unfold trigFun
      rw [if_neg (by norm_num), ult_U F i0]

end

/-- **C78**: the transforms never leave their arrays, undo each other, for `TRANS = 'T'` they are the transposes, and they keep the function. -/
theorem C78_spin_transforms (hF : IsLibm F) {N : Int} (hN : 1 ≤ N) (s : Int) : ∃ P, planSpinsph2fourier F junk N s = some P ∧ ∀ M, M % 2 = 1 → 3 ≤ M → M ≤ 2 * N - 1 →
    (∀ t, MutuallyInverse (SpinChoice.OK P.szB) (2 * N) M (fun x => Spinsph2fourier x t P N M) (fun x => Fourier2spinsph x t P N M)) ∧
    AdjointPair (SpinChoice.OK P.szB) (2 * N) M (fun x => Spinsph2fourier x false P N M) (fun x => Spinsph2fourier x true P N M) ∧
    AdjointPair (SpinChoice.OK P.szB) (2 * N) M (fun x => Fourier2spinsph x false P N M) (fun x => Fourier2spinsph x true P N M) ∧
    SpinKeeps F (SpinChoice.OK P.szB) s N M (fun x => Spinsph2fourier x false P N M) (fun x => Fourier2spinsph x false P N M) := by
  obtain ⟨P, P1, P2, Q1, Q2, e, hP⟩ := spin_tplan (junk := junk) hF hN s
  refine ⟨P, e, fun M hM hM1 hM2 => ⟨fun t => spin_inverse hP hN hM hM1 hM2 t, (spin_adjoint hP hN hM hM1 hM2).1, (spin_adjoint hP hN hM hM1 hM2).2, ?_⟩⟩
  intro y hy A hA
  obtain ⟨f, b, -, r⟩ := spin_inverse hP hN hM hM1 hM2 false y y hy hy A hA
  refine ⟨⟨f, fun A' e c c0 c1 hz p hp b hb => spin_forward hF hP hN hM hM1 hM2 hy hA e c0 c1 hz hp hb⟩, b, fun A' e c c0 c1 hz p hp b hb => ?_⟩
  have hs : A'.size = A.size := back_size (runSpin_ok hP hN hM hM1 hM2 hy false) (spinDense_ok hP hN false).2 hA (by simpa [Fourier2spinsph] using e)
  have hA' : 2 * N * M ≤ A'.size := by rw [hs]; exact hA
  obtain ⟨A'', e''⟩ := (spin_inverse hP hN hM hM1 hM2 false y y hy hy A' hA').1
  have := spin_forward hF hP hN hM hM1 hM2 hy hA' e'' c0 c1 hz hp hb
  rw [r A' A'' e e''] at this
  exact this.symm

/-- Spin 2, three degrees, five columns: the AVX drivers going forward, the scalar ones back. -/
example (A : Buf ℝ) (hA : A.size = 30) : ∃ P, planSpinsph2fourier realLibm (fun _ => 7) 3 2 = some P ∧
    ∃ A', Spinsph2fourier (.avx 2 ⟨P.szB, fun _ => 5⟩) false P 3 5 A A' ∧ ∀ A'', Fourier2spinsph (.one .vec2 3) false P 3 5 A' A'' → A'' = A := by
  obtain ⟨P, e, h⟩ := C78_spin_transforms (junk := fun _ => 7) realLibm_ok (show (1 : Int) ≤ 3 by omega) 2
  obtain ⟨h1, -⟩ := h 5 (by norm_num) (by norm_num) (by norm_num)
  obtain ⟨⟨A', f⟩, -, r, -⟩ := h1 false (.avx 2 ⟨P.szB, fun _ => 5⟩) (.one .vec2 3) ⟨by omega, le_rfl⟩ (show 0 < 3 by omega) A (by rw [hA]; norm_num)
  exact ⟨P, e, A', f, fun A'' g => r A' A'' f g⟩

end FT.Props.Fun
