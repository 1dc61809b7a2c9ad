import Verif.Lemmas.LegChebReal
import Verif.Lemmas.LegChebOdd

/-!
# C63: the fast multipole transforms between Legendre and Chebyshev series

`X(create_fmm)` and `X(execute)` of `/repo/src/fmm_source.c` with at least one level.
-/

namespace FT.Props.Lc
open Polynomial FT FT.Poly FT.Model.Lc
variable {K : Type*} [Field K] [LinearOrder K] [IsStrictOrderedRing K]

theorem Arguments.plan {F : Lib K} {X : Nodes K} {M N maxs : Int} {d : Dir} {lagrange : Bool} (h : Arguments F X M N maxs d lagrange) (dbl : Bool) (junk : Int → K) :
    ∃ P, createFmm F X junk dbl N maxs M d lagrange = some P ∧ P.N = N ∧ P.M = M ∧ P.L = (levels N maxs).toNat ∧ P.s = leaf N P.L ∧ (N % 2 = 0 → Shape P) ∧ (∃ R, TreeOk P (bas lagrange X M) R) ∧
      DirectOk F N (decide (d ≠ .l2c)) P.D ∧ ∀ c, Has d c → ∃ A, P.A c = some A ∧ Mats lagrange X M P.s P.L c A := by
  refine createFmm_spec h.lambda h.nodes h.two_le h.M_lt h.N_lt h.maxs_pos h.lev dbl d lagrange h.generic (fun hd => dens (h.sep fun e => ?_) (leaf_pos (levels_big h.maxs_pos h.lev)).1 _) junk
  subst e; rcases hd with h | h <;> simp at h

/-- **C63**: a plan for `L2C` or for both directions can be created, and a transform with it, at any stride, adds to the output the sums with a matrix that is the connection matrix near the diagonal and
interpolates it elsewhere, before it scales the output. Nothing else changes. -/
theorem C63_legendre_to_chebyshev_partial {F : Lib K} {X : Nodes K} {M N maxs : Int} {d : Dir} {lagrange : Bool} (h : Arguments F X M N maxs d lagrange) (ev : N % 2 = 0) (hd : d ≠ .c2l) (dbl : Bool) (junk : Int → K) :
    ∃ P s κ, createFmm F X junk dbl N maxs M d lagrange = some P ∧ 1 ≤ s ∧ IsApprox F X M N s false κ ∧ ∀ (junk : Int → K) (inp out : Buf K) (bi bo st : Int), Room inp bi st N → Room out bo st N →
      ∃ out', executeL2C F P junk inp bi out bo st = some out' ∧ Keeps out out' bo st N ∧ ∀ i, 0 ≤ i → i < N →
        at' out' bo st i = (at' out bo st i + ∑ n ∈ Finset.Ico 0 ((N - i + 1) / 2), κ i (i + 2 * n) * at' inp bi st (i + 2 * n)) * F.m2pi * (if i = 0 then 1 / 2 else 1) := by
  obtain ⟨P, e, rfl, hM, -, -, hS, ⟨R, hT⟩, hD, hA⟩ := h.plan dbl junk
  replace hS := hS ev
  obtain ⟨A, eA, vA⟩ := hA false (by cases d <;> simp_all [Has])
  refine ⟨P, P.s, _, e, hS.facts.1, approx_l2c h.lambda h.nodes hM hS hD vA, fun junk inp out bi bo st hi ho => ?_⟩
  obtain ⟨out', e', k, v⟩ := executeL2C_spec (F := F) hS hT hD.a_size junk eA (by rw [vA.1, hM]) hi ho
  refine ⟨out', e', k, fun i i0 i1 => ?_⟩
  rw [v i i0 i1]
  congr 3
  exact sum_Ico_congr fun n n0 n1 => by rw [show (i + 2 * n - i) / 2 = n by omega]

/-- **C63**: the same for `C2L`. -/
theorem C63_chebyshev_to_legendre_partial {F : Lib K} {X : Nodes K} {M N maxs : Int} {d : Dir} {lagrange : Bool} (h : Arguments F X M N maxs d lagrange) (ev : N % 2 = 0) (hd : d ≠ .l2c) (dbl : Bool) (junk : Int → K) :
    ∃ P s κ, createFmm F X junk dbl N maxs M d lagrange = some P ∧ 1 ≤ s ∧ IsApprox F X M N s true κ ∧ ∀ (junk : Int → K) (inp out : Buf K) (bi bo st : Int), Room inp bi st N → Room out bo st N →
      ∃ out', executeC2L F P junk inp bi out bo st = some out' ∧ Keeps out out' bo st N ∧ ∀ i, 0 ≤ i → i < N →
        at' out' bo st i = (at' out bo st i + ∑ n ∈ Finset.Ico 0 ((N - i + 1) / 2), κ i (i + 2 * n) * ((if i + 2 * n = 0 then 1 else ((i + 2 * n : Int) : K)) * at' inp bi st (i + 2 * n))) * (i + 1 / 2) := by
  obtain ⟨P, e, rfl, hM, -, -, hS, ⟨R, hT⟩, hD, hA⟩ := h.plan dbl junk
  replace hS := hS ev
  obtain ⟨A, eA, vA⟩ := hA true (by cases d <;> simp_all [Has])
  obtain ⟨an, dn, ea, ed, sa, sd, a0, va, vd⟩ := hD.c (by simpa using hd)
  refine ⟨P, P.s, _, e, hS.facts.1, approx_c2l h.lambda h.nodes hM hS a0 va vd vA, fun junk inp out bi bo st hi ho => ?_⟩
  obtain ⟨out', e', k, v⟩ := executeC2L_spec (F := F) hS hT ea ed sa sd junk eA (by rw [vA.1, hM]) hi ho
  refine ⟨out', e', k, fun i i0 i1 => ?_⟩
  rw [v i i0 i1]
  congr 2
  exact sum_Ico_congr fun n n0 n1 => by rw [show (i + 2 * n - i) / 2 = n by omega]

/-! ## Errors -/

/-- The kernels at integers. -/
theorem kern_int {F : Lib K} {X : Nodes K} (hl : ∀ n : Int, 0 ≤ n → X.lam n = F.lamI n) {c2l : Bool} {i j : Int} (i0 : 0 ≤ i) (ij : i ≤ j) (j1 : 1 ≤ j) (pr : j % 2 = i % 2) : kern X.lam c2l i j = kernI F c2l i j := by
  obtain ⟨n, rfl⟩ : ∃ n, j = i + 2 * n := ⟨(j - i) / 2, by omega⟩
  have e1 : (((i + 2 * n : Int) : K) - i) / 2 = (n : Int) := by push_cast; ring
  have e2 : ((i : K) + ((i + 2 * n : Int) : K)) / 2 = (n + i : Int) := by push_cast; ring
  unfold kern kernI
  rw [e1, e2, hl n (by omega), hl (n + i) (by omega), show (i + 2 * n - i) / 2 = n by omega, show (i + (i + 2 * n)) / 2 = n + i by omega, if_neg (show ¬ i + 2 * n = 0 by omega)]

theorem approx_error {F : Lib K} {X : Nodes K} (hl : ∀ n : Int, 0 ≤ n → X.lam n = F.lamI n) {M N s : Int} {c2l : Bool} {κ : Int → Int → K} (hκ : IsApprox F X M N s c2l κ) {ε : K} (ε0 : 0 ≤ ε)
    (hε : Accurate X M N c2l ε) {i n : Int} (i0 : 0 ≤ i) (n0 : 0 ≤ n) (hN : i + 2 * n < N) : |κ i (i + 2 * n) - kernI F c2l i (i + 2 * n)| ≤ ε := by
  by_cases hc : (i + 2 * n) / (2 * s) ≤ i / (2 * s) + 1
  · rw [hκ.near i _ i0 (by omega) hN (by omega) hc, sub_self, abs_zero]; exact ε0
  · obtain ⟨x0, y0, h, h1, h2, h3, h4, h5, e⟩ := hκ.far i (i + 2 * n) i0 (by omega) hN (by omega) (by omega)
    rw [e, ← kern_int hl i0 (by omega) (by rcases h3 with h | h <;> omega) (by omega)]
    exact hε x0 y0 h i _ h1 h2 h3 h4 h5 hN (by omega)

theorem sum_half_le {N i : Int} (i0 : 0 ≤ i) (f : Int → K) (hf : ∀ j, 0 ≤ f j) : ∑ n ∈ Finset.Ico 0 ((N - i + 1) / 2), f (i + 2 * n) ≤ ∑ j ∈ Finset.Ico 0 N, f j := by
  rw [← Finset.sum_image (f := f) (g := fun n => i + 2 * n) (s := Finset.Ico 0 ((N - i + 1) / 2)) fun a _ b _ e => by dsimp only at e; omega]
  refine Finset.sum_le_sum_of_subset_of_nonneg (fun j hj => ?_) fun j _ _ => hf j
  obtain ⟨n, hn, rfl⟩ := Finset.mem_image.1 hj
  rw [Finset.mem_Ico] at hn ⊢
  omega

theorem sum_error {F : Lib K} {X : Nodes K} (hl : ∀ n : Int, 0 ≤ n → X.lam n = F.lamI n) {M N s : Int} {c2l : Bool} {κ : Int → Int → K} (hκ : IsApprox F X M N s c2l κ) {ε : K} (ε0 : 0 ≤ ε)
    (hε : Accurate X M N c2l ε) {i : Int} (i0 : 0 ≤ i) (u : Int → K) :
    |∑ n ∈ Finset.Ico 0 ((N - i + 1) / 2), κ i (i + 2 * n) * u (i + 2 * n) - ∑ n ∈ Finset.Ico 0 ((N - i + 1) / 2), kernI F c2l i (i + 2 * n) * u (i + 2 * n)| ≤ ε * ∑ j ∈ Finset.Ico 0 N, |u j| := by
  rw [← Finset.sum_sub_distrib]
  refine (Finset.abs_sum_le_sum_abs _ _).trans ((Finset.sum_le_sum (g := fun n => ε * |u (i + 2 * n)|) fun n hn => ?_).trans ?_)
  · rw [Finset.mem_Ico] at hn
    rw [← sub_mul, abs_mul]
    exact mul_le_mul_of_nonneg_right (approx_error hl hκ ε0 hε i0 hn.1 (by omega)) (abs_nonneg _)
  · rw [← Finset.mul_sum]
    exact mul_le_mul_of_nonneg_left (sum_half_le i0 (fun j => |u j|) fun j => abs_nonneg _) ε0

/-- **C63**: if the interpolants of the kernel are accurate to `ε`, the output is the sum of the scaled old contents and the Chebyshev coefficients of the same polynomial, with an error of at most `ε` times the sum of the
absolute values of the input, times the scale. -/
theorem C63_l2c_error_partial {F : Lib K} {X : Nodes K} {M N maxs : Int} {d : Dir} {lagrange : Bool} (h : Arguments F X M N maxs d lagrange) (ev : N % 2 = 0) (hd : d ≠ .c2l) (hl : ∀ n : Int, 0 ≤ n → X.lam n = F.lamI n)
    {ε : K} (ε0 : 0 ≤ ε) (hε : Accurate X M N false ε) (dbl : Bool) (junk : Int → K) :
    ∃ P, createFmm F X junk dbl N maxs M d lagrange = some P ∧ ∀ (junk : Int → K) (inp out : Buf K) (bi bo st : Int), Room inp bi st N → Room out bo st N →
      ∃ out', executeL2C F P junk inp bi out bo st = some out' ∧ Keeps out out' bo st N ∧ ∀ c : Int → K, chebSeries N c = legSeries N (at' inp bi st) → ∀ i, 0 ≤ i → i < N →
        |at' out' bo st i - (c i + at' out bo st i * F.m2pi * (if i = 0 then 1 / 2 else 1))| ≤ ε * (∑ j ∈ Finset.Ico 0 N, |at' inp bi st j|) * F.m2pi * (if i = 0 then 1 / 2 else 1) := by
  obtain ⟨P, s, κ, e, s1, hκ, H⟩ := C63_legendre_to_chebyshev_partial h ev hd dbl junk
  refine ⟨P, e, fun junk inp out bi bo st hi ho => ?_⟩
  obtain ⟨out', e', k, v⟩ := H junk inp out bi bo st hi ho
  refine ⟨out', e', k, fun c hc i i0 i1 => ?_⟩
  have hc' := chebSeries_inj (hc.trans (kernI_cheb h.lambda (N := N) (at' inp bi st)).symm) i i0 i1
  have mp : 0 < F.m2pi := by rw [h.lambda.two_pi]; exact div_pos two_pos (mul_self_pos.2 h.lambda.ne)
  have hp : (0 : K) ≤ if i = 0 then 1 / 2 else 1 := by split_ifs <;> norm_num
  rw [v i i0 i1, hc']
  rw [show ∀ a x y m w : K, (a + x) * m * w - (y * m * w + a * m * w) = (x - y) * m * w from fun a x y m w => by ring, abs_mul, abs_mul, abs_of_pos mp, abs_of_nonneg hp]
  exact mul_le_mul_of_nonneg_right (mul_le_mul_of_nonneg_right (sum_error hl hκ ε0 hε i0 _) mp.le) hp

/-- **C63**: the same for `C2L`; the input counts with its degree. -/
theorem C63_c2l_error_partial {F : Lib K} {X : Nodes K} {M N maxs : Int} {d : Dir} {lagrange : Bool} (h : Arguments F X M N maxs d lagrange) (ev : N % 2 = 0) (hd : d ≠ .l2c) (hl : ∀ n : Int, 0 ≤ n → X.lam n = F.lamI n)
    {ε : K} (ε0 : 0 ≤ ε) (hε : Accurate X M N true ε) (dbl : Bool) (junk : Int → K) :
    ∃ P, createFmm F X junk dbl N maxs M d lagrange = some P ∧ ∀ (junk : Int → K) (inp out : Buf K) (bi bo st : Int), Room inp bi st N → Room out bo st N →
      ∃ out', executeC2L F P junk inp bi out bo st = some out' ∧ Keeps out out' bo st N ∧ ∀ c : Int → K, legSeries N c = chebSeries N (at' inp bi st) → ∀ i, 0 ≤ i → i < N →
        |at' out' bo st i - (c i + at' out bo st i * (i + 1 / 2))| ≤ ε * (∑ j ∈ Finset.Ico 0 N, |(if j = 0 then 1 else (j : K)) * at' inp bi st j|) * (i + 1 / 2) := by
  obtain ⟨P, s, κ, e, s1, hκ, H⟩ := C63_chebyshev_to_legendre_partial h ev hd dbl junk
  refine ⟨P, e, fun junk inp out bi bo st hi ho => ?_⟩
  obtain ⟨out', e', k, v⟩ := H junk inp out bi bo st hi ho
  refine ⟨out', e', k, fun c hc i i0 i1 => ?_⟩
  have hc' := legSeries_inj (hc.trans (kernI_leg h.lambda (N := N) (at' inp bi st)).symm) i i0 i1
  have mp : (0 : K) < i + 1 / 2 := by have : (0 : K) ≤ i := by exact_mod_cast i0
                                      linarith
  rw [v i i0 i1, hc']
  rw [show ∀ a x y m : K, (a + x) * m - (y * m + a * m) = (x - y) * m from fun a x y m => by ring, abs_mul, abs_of_pos mp]
  exact mul_le_mul_of_nonneg_right (sum_error hl hκ ε0 hε i0 fun j => (if j = 0 then 1 else (j : K)) * at' inp bi st j) mp.le

/-! ## What fails

The theorems above are for even `N`, and the errors of the interpolants enter them as a number; that they are small is not proved. -/

/-- An odd `N` is accepted by `X(create_fmm)`, but every transform from Legendre to Chebyshev coefficients with the plan accesses memory out of bounds, whatever the arrays and the stride. -/
theorem C63_odd_length_defect {F : Lib K} {X : Nodes K} {M N maxs : Int} {d : Dir} {lagrange : Bool} (h : Arguments F X M N maxs d lagrange) (od : N % 2 = 1) (dbl : Bool) (junk : Int → K) :
    ∃ P, createFmm F X junk dbl N maxs M d lagrange = some P ∧ ∀ (junk : Int → K) (inp out : Buf K) (bi bo st : Int), executeL2C F P junk inp bi out bo st = none := by
  obtain ⟨P, e, rfl, -, hL, hs, -, ⟨R, hT⟩, hD, -⟩ := h.plan dbl junk
  refine ⟨P, e, fun junk inp out bi bo st => ?_⟩
  have big := levels_big h.maxs_pos h.lev
  rw [← hL] at big
  unfold executeL2C
  cases P.A false with
  | none => rfl
  | some A =>
    rw [Option.bind_some]
    cases farBoth P junk A inp bi st out bo st with
    | none => rfl
    | some out => exact directM_odd od h.N_lt hT.s1 (by rw [hs]; exact leaf_le hT.L1 big) hD.a_size inp bi out bo st

/-- In the other direction, a transform of odd length at stride 1 writes one entry beyond the output. -/
theorem C63_odd_length_c2l_defect {F : Lib K} {X : Nodes K} {M N maxs : Int} {d : Dir} {lagrange : Bool} (h : Arguments F X M N maxs d lagrange) (od : N % 2 = 1) (dbl : Bool) (junk : Int → K) :
    ∃ P, createFmm F X junk dbl N maxs M d lagrange = some P ∧ ∀ (junk : Int → K) (inp out : Buf K) (bi bo st : Int), (out.size : Int) = bo + N → executeC2L F P junk inp bi out bo 1 = none := by
  obtain ⟨P, e, rfl, -, -, -, -, ⟨R, hT⟩, -, -⟩ := h.plan dbl junk
  refine ⟨P, e, fun junk inp out bi bo st ho => ?_⟩
  have := hT.N0
  unfold executeC2L
  cases weighted junk P.N inp bi 1 with
  | none => rfl
  | some w =>
    rw [Option.bind_some]
    cases P.A true with
    | none => rfl
    | some A => rw [Option.bind_some, farBoth_odd od (by omega) junk A w 0 1 out bo ho]; rfl

/-- The output must be cleared by the caller if the plan has levels, but not if it has none (C62): the transform of zero into an output that holds ones is not zero. -/
theorem C63_accumulates_defect {F : Lib K} {X : Nodes K} {M N maxs : Int} {d : Dir} {lagrange : Bool} (h : Arguments F X M N maxs d lagrange) (ev : N % 2 = 0) (hd : d ≠ .c2l) (dbl : Bool) (junk : Int → K) :
    ∃ P out', createFmm F X junk dbl N maxs M d lagrange = some P ∧ executeL2C F P junk ⟨N.toNat, fun _ => 0⟩ 0 ⟨N.toNat, fun _ => 1⟩ 0 1 = some out' ∧
      chebSeries N (at' out' 0 1) ≠ legSeries N (at' (⟨N.toNat, fun _ => 0⟩ : Buf K) 0 1) := by
  have big := levels_big h.maxs_pos h.lev
  have N1 : 1 < N := lt_of_le_of_lt (one_le_pow₀ (by norm_num)) big
  obtain ⟨P, s, κ, e, -, hκ, H⟩ := C63_legendre_to_chebyshev_partial h ev hd dbl junk
  have room : ∀ v : K, Room (⟨N.toNat, fun _ => v⟩ : Buf K) 0 1 N := fun v => ⟨le_rfl, le_rfl, by show (0 : Int) + (N - 1) * 1 < ((N.toNat : ℕ) : Int); omega⟩
  obtain ⟨out', e', -, v⟩ := H junk _ _ 0 0 1 (room 0) (room 1)
  refine ⟨P, out', e, e', fun hc => ?_⟩
  have z : legSeries N (at' (⟨N.toNat, fun _ => 0⟩ : Buf K) 0 1) = chebSeries N fun _ => 0 := by
    unfold legSeries chebSeries
    simp [at']
  have := chebSeries_inj (hc.trans z) 1 (by norm_num) N1
  rw [v 1 (by norm_num) N1, Finset.sum_eq_zero fun n _ => mul_eq_zero_of_right _ rfl, if_neg (by norm_num), mul_one, add_zero] at this
  have one : at' (⟨N.toNat, fun _ => 1⟩ : Buf K) 0 1 1 = 1 := rfl
  rw [one, one_mul, h.lambda.two_pi] at this
  exact div_ne_zero two_ne_zero (mul_ne_zero h.lambda.ne h.lambda.ne) this

/-! ## Examples -/

/-- There are finitely many squares, so some bound holds. -/
theorem accurate_exists (X : Nodes ℝ) (M N : Int) (c2l : Bool) : ∃ ε, 0 ≤ ε ∧ Accurate X M N c2l ε := by
  let f : Int × Int × Int × Int × Int → ℝ := fun t => |interpolant M (X.xj M) (kern X.lam c2l) t.1 t.2.1 t.2.2.1 t.2.2.2.1 t.2.2.2.2 - kern X.lam c2l t.2.2.2.1 t.2.2.2.2|
  let S : Finset (Int × Int × Int × Int × Int) := Finset.Icc (0, 0, 0, 0, 0) (2 * N, 2 * N, 2 * N, 2 * N, 2 * N)
  obtain ⟨ε, hε⟩ := (S.image f).bddAbove
  refine ⟨max ε 0, le_max_right _ _, fun x0 y0 h i j h1 h2 h3 h4 h5 hN pr => le_max_of_le_left (hε ?_)⟩
  refine Finset.mem_coe.2 (Finset.mem_image.2 ⟨(x0, y0, h, i, j), Finset.mem_Icc.2 ⟨?_, ?_⟩, rfl⟩)
  · refine ⟨?_, ?_, ?_, ?_, ?_⟩ <;> dsimp only <;> omega
  · refine ⟨?_, ?_, ?_, ?_, ?_⟩ <;> dsimp only <;> omega

theorem levels_ex : levels 300 10 = 3 := by
  unfold levels
  rw [show ((300 + 10 - 1 : Int) / 10).toNat = 30 from rfl, show Nat.clog 2 30 = 5 from le_antisymm ((Nat.clog_le_iff_le_pow (by norm_num)).2 (by norm_num)) (not_lt.1 fun h => absurd ((Nat.clog_le_iff_le_pow (b := 2) (by norm_num)).1 (Nat.le_of_lt_succ h)) (by norm_num))]
  rfl

theorem real_args (d : Dir) : Arguments realLam realNodes 18 300 10 d false :=
  ⟨realLam_ok, realNodes_ok (by norm_num), by norm_num, by norm_num, by norm_num, by norm_num, by rw [levels_ex]; norm_num, by simp, fun _ => realNodes_sep 18⟩

theorem real_args_lagrange (d : Dir) : Arguments realLam realNodes 2 300 10 d true :=
  ⟨realLam_ok, realNodes_ok (by norm_num), by norm_num, by norm_num, by norm_num, by norm_num, by rw [levels_ex]; norm_num, fun _ => realNodes_generic (by rw [levels_ex]; decide), fun _ => realNodes_sep 2⟩

example (dbl : Bool) (junk junk' : Int → ℝ) : ∃ P κ s out', createFmm realLam realNodes junk dbl 300 10 18 .both false = some P ∧ IsApprox realLam realNodes 18 300 s false κ ∧
    executeL2C realLam P junk' realIn 5 realOut 1 3 = some out' ∧ Keeps realOut out' 1 3 300 := by
  obtain ⟨P, s, κ, e, -, hκ, H⟩ := C63_legendre_to_chebyshev_partial (real_args .both) rfl (by simp) dbl junk
  obtain ⟨out', e', k, -⟩ := H junk' realIn realOut 5 1 3 realIn_room realOut_room
  exact ⟨P, κ, s, out', e, hκ, e', k⟩

example (dbl : Bool) (junk junk' : Int → ℝ) : ∃ P κ s out', createFmm realLam realNodes junk dbl 300 10 2 .c2l true = some P ∧ IsApprox realLam realNodes 2 300 s true κ ∧
    executeC2L realLam P junk' realIn 5 realOut 1 3 = some out' ∧ Keeps realOut out' 1 3 300 := by
  obtain ⟨P, s, κ, e, -, hκ, H⟩ := C63_chebyshev_to_legendre_partial (real_args_lagrange .c2l) rfl (by simp) dbl junk
  obtain ⟨out', e', k, -⟩ := H junk' realIn realOut 5 1 3 realIn_room realOut_room
  exact ⟨P, κ, s, out', e, hκ, e', k⟩

example (junk junk' : Int → ℝ) : ∃ P ε, createFmm realLam realNodes junk true 300 10 18 .both false = some P ∧ ∃ out', executeL2C realLam P junk' realIn 5 realOut 1 3 = some out' ∧
    ∀ c : Int → ℝ, chebSeries 300 c = legSeries 300 (at' realIn 5 3) → ∀ i, 0 ≤ i → i < 300 →
      |at' out' 1 3 i - (c i + at' realOut 1 3 i * realLam.m2pi * (if i = 0 then 1 / 2 else 1))| ≤ ε * (∑ j ∈ Finset.Ico 0 300, |at' realIn 5 3 j|) * realLam.m2pi * (if i = 0 then 1 / 2 else 1) := by
  obtain ⟨ε, ε0, hε⟩ := accurate_exists realNodes 18 300 false
  obtain ⟨P, e, H⟩ := C63_l2c_error_partial (real_args .both) rfl (by simp) realNodes_lam ε0 hε true junk
  obtain ⟨out', e', -, v⟩ := H junk' realIn realOut 5 1 3 realIn_room realOut_room
  exact ⟨P, ε, e, out', e', v⟩

example (junk junk' : Int → ℝ) : ∃ P ε, createFmm realLam realNodes junk true 300 10 2 .both true = some P ∧ ∃ out', executeC2L realLam P junk' realIn 5 realOut 1 3 = some out' ∧
    ∀ c : Int → ℝ, legSeries 300 c = chebSeries 300 (at' realIn 5 3) → ∀ i, 0 ≤ i → i < 300 →
      |at' out' 1 3 i - (c i + at' realOut 1 3 i * (i + 1 / 2))| ≤ ε * (∑ j ∈ Finset.Ico (0 : Int) 300, |(if j = 0 then 1 else (j : ℝ)) * at' realIn 5 3 j|) * (i + 1 / 2) := by
  obtain ⟨ε, ε0, hε⟩ := accurate_exists realNodes 2 300 true
  obtain ⟨P, e, H⟩ := C63_c2l_error_partial (real_args_lagrange .both) rfl (by simp) realNodes_lam ε0 hε true junk
  obtain ⟨out', e', -, v⟩ := H junk' realIn realOut 5 1 3 realIn_room realOut_room
  exact ⟨P, ε, e, out', e', v⟩

theorem levels_odd : levels 301 10 = 3 := by
  unfold levels
  rw [show ((301 + 10 - 1 : Int) / 10).toNat = 31 from rfl, show Nat.clog 2 31 = 5 from le_antisymm ((Nat.clog_le_iff_le_pow (by norm_num)).2 (by norm_num)) (not_lt.1 fun h => absurd ((Nat.clog_le_iff_le_pow (b := 2) (by norm_num)).1 (Nat.le_of_lt_succ h)) (by norm_num))]
  rfl

theorem real_args_odd (d : Dir) : Arguments realLam realNodes 18 301 10 d false :=
  ⟨realLam_ok, realNodes_ok (by norm_num), by norm_num, by norm_num, by norm_num, by norm_num, by rw [levels_odd]; norm_num, by simp, fun _ => realNodes_sep 18⟩

example (junk : Int → ℝ) : ∃ P, createFmm realLam realNodes junk true 301 10 18 .both false = some P ∧ ∀ (junk : Int → ℝ) (inp out : Buf ℝ) (bi bo st : Int), executeL2C realLam P junk inp bi out bo st = none :=
  C63_odd_length_defect (real_args_odd .both) rfl true junk

example (junk : Int → ℝ) : ∃ P, createFmm realLam realNodes junk true 301 10 18 .both false = some P ∧ executeC2L realLam P junk ⟨301, fun i => i⟩ 0 ⟨301, fun _ => 0⟩ 0 1 = none := by
  obtain ⟨P, e, H⟩ := C63_odd_length_c2l_defect (real_args_odd .both) rfl true junk
  exact ⟨P, e, H junk _ _ 0 0 1 rfl⟩

example (junk : Int → ℝ) : ∃ P out', createFmm realLam realNodes junk true 300 10 18 .l2c false = some P ∧ executeL2C realLam P junk ⟨300, fun _ => 0⟩ 0 ⟨300, fun _ => 1⟩ 0 1 = some out' ∧
    chebSeries 300 (at' out' 0 1) ≠ legSeries 300 (at' (⟨300, fun _ => 0⟩ : Buf ℝ) 0 1) := C63_accumulates_defect (real_args .l2c) rfl (by simp) true junk

end FT.Props.Lc
