import Verif.Lemmas.LegChebSum
import Verif.Lemmas.LegChebSub
import Verif.Lemmas.LegChebTabs

/-! # Plans of the fast multipole transforms -/

namespace FT.Props.Lc
open FT FT.Poly FT.Model.Lc
variable {K : Type*} [Field K] [CharZero K] [DecidableEq K]

/-- With at least one level, `N` is more than `2^(L+1)`. -/
theorem levels_big {N maxs : Int} (h1 : 1 ≤ maxs) (hL : 1 ≤ levels N maxs) : 2 ^ ((levels N maxs).toNat + 1) < N := by
  have hL' := hL
  unfold levels at hL' ⊢
  generalize e : ((N + maxs - 1) / maxs).toNat = n at *
  have c : 2 ^ (Nat.clog 2 n - 1) < n := Nat.pow_pred_clog_lt_self (by norm_num) (by
    by_contra h
    rw [Nat.clog_of_right_le_one (by omega)] at hL'
    omega)
  rw [show ((Nat.clog 2 n : Int) - 2).toNat + 1 = Nat.clog 2 n - 1 by omega]
  have c' : (2 : Int) ^ (Nat.clog 2 n - 1) < n := by exact_mod_cast c
  have q := Int.mul_ediv_add_emod (N + maxs - 1) maxs
  have q0 := Int.emod_nonneg (N + maxs - 1) (show maxs ≠ 0 by omega)
  have n0 : 2 ≤ (n : Int) := by
    have : (1 : Int) ≤ 2 ^ (Nat.clog 2 n - 1) := one_le_pow₀ (by norm_num)
    omega
  have en : (N + maxs - 1) / maxs = n := by omega
  rw [en] at q
  nlinarith

theorem leaf_pos {N : Int} {L : ℕ} (h : 2 ^ (L + 1) < N) : 1 ≤ leaf N L ∧ N ≤ leaf N L * 2 ^ (L + 2) := by
  have a : (1 : Int) ≤ 2 ^ (L + 1) := one_le_pow₀ (by norm_num)
  have b : (2 : Int) ^ (L + 2) = 2 * 2 ^ (L + 1) := by rw [pow_succ (2 : Int) (L + 1)]; ring
  unfold leaf
  generalize (2 : Int) ^ (L + 2) = t at *
  generalize (2 : Int) ^ (L + 1) = t' at *
  have q := Int.mul_ediv_add_emod (N + t - 1) t
  have q1 := Int.emod_lt_of_pos (N + t - 1) (show 0 < t by omega)
  generalize (N + t - 1) / t = s at *
  exact ⟨by nlinarith, by nlinarith⟩

theorem useFftw_false {dbl lagrange : Bool} {M : Int} (h : lagrange = false) (h' : useFftw dbl lagrange M = false) : M = 18 := by
  subst h
  unfold useFftw at h'
  cases dbl <;> simp at h'
  exact h'

/-- The matrices of one direction. -/
def Mats (lagrange : Bool) (X : Nodes K) (M s : Int) (L : ℕ) (c : Bool) (A : Buf K) : Prop :=
  (A.size : Int) = 3 * totalBlocks L * (M * M) ∧
    ∀ lev b q p, Place L lev b q p → Blk lagrange X M (hs s L lev) (cx s L lev (2 * b + p)) (cx s L lev (2 * b + 2 + q)) c A.val (3 * (totalBlocks lev + b) + (q + p))

theorem createFmm_spec {F : Lib K} (hF : IsLambda F) {X : Nodes K} {M : Int} (hX : NodesOk X M) (M2 : 2 ≤ M) (M31 : M < 2 ^ 31) {N maxs : Int} (N31 : N < 2 ^ 31) (m1 : 1 ≤ maxs)
    (hL : 1 ≤ levels N maxs) (dbl : Bool) (d : Dir) (lagrange : Bool) (hg : lagrange = true → Generic X M (leaf N (levels N maxs).toNat))
    (hd : Has d true → Dens X M (leaf N (levels N maxs).toNat) (levels N maxs).toNat) (junk : Int → K) :
    ∃ P, createFmm F X junk dbl N maxs M d lagrange = some P ∧ P.N = N ∧ P.M = M ∧ P.L = (levels N maxs).toNat ∧ P.s = leaf N P.L ∧ (N % 2 = 0 → Shape P) ∧ (∃ R, TreeOk P (bas lagrange X M) R) ∧
      DirectOk F N (decide (d ≠ .l2c)) P.D ∧ ∀ c, Has d c → ∃ A, P.A c = some A ∧ Mats lagrange X M P.s P.L c A := by
  have big := levels_big m1 hL
  unfold createFmm
  rw [if_neg (by omega)]
  dsimp only
  generalize eL : (levels N maxs).toNat = L at *
  have L1 : 1 ≤ L := by omega
  have N1 : 1 ≤ N := by
    have : (1 : Int) ≤ 2 ^ (L + 1) := one_le_pow₀ (by norm_num)
    omega
  obtain ⟨D, eD, hD⟩ := createDirect_spec hF N1 junk (decide (d ≠ .l2c))
  rw [eD, Option.bind_some]
  obtain ⟨A, eA, hA⟩ := submatrices_spec hX (by omega) (fun a b => useFftw_false a b) hd junk (fftw := useFftw dbl lagrange M)
  rw [eA, Option.bind_some]
  have hS : ∀ T B BT, N % 2 = 0 → Shape (⟨M, N, leaf N L * 2 ^ (L + 2), L, leaf N L, lagrange, A, T, B, BT, D⟩ : Plan K) := fun T B BT ev => ⟨L1, rfl, rfl, big, ev, N31⟩
  obtain ⟨s1, nn⟩ := leaf_pos big
  obtain ⟨T, eT, sT, vT⟩ := createT_spec hX M2 s1 hg junk
  rw [eT, Option.bind_some]
  have fin : ∀ B BT, (∃ R, ReExp M (bas lagrange X M) R ∧ UpOk (⟨M, N, leaf N L * 2 ^ (L + 2), L, leaf N L, lagrange, A, T, B, BT, D⟩ : Plan K) R ∧
      DownOk (⟨M, N, leaf N L * 2 ^ (L + 2), L, leaf N L, lagrange, A, T, B, BT, D⟩ : Plan K) R) →
      ∃ P, some (⟨M, N, leaf N L * 2 ^ (L + 2), L, leaf N L, lagrange, A, T, B, BT, D⟩ : Plan K) = some P ∧ P.N = N ∧ P.M = M ∧ P.L = L ∧ P.s = leaf N P.L ∧ (N % 2 = 0 → Shape P) ∧ (∃ R, TreeOk P (bas lagrange X M) R) ∧
      DirectOk F N (decide (d ≠ .l2c)) P.D ∧ ∀ c, Has d c → ∃ A, P.A c = some A ∧ Mats lagrange X M P.s P.L c A := by
    rintro B BT ⟨R, r1, r2, r3⟩
    exact ⟨_, rfl, rfl, rfl, rfl, rfl, hS _ _ _, ⟨R, L1, s1, by show 1 ≤ M; omega, rfl, by show 0 ≤ N; omega, nn, sT, vT, r1, r2, r3⟩, hD, hA⟩
  cases lagrange with
  | true =>
    obtain ⟨B, eB, sB, vB⟩ := createBL_spec hX (by omega) (hg rfl) junk
    have : createBB X junk true (useFftw dbl true M) M = some (B, ⟨0, junk⟩) := by unfold createBB; rw [if_pos rfl, eB]; rfl
    rw [this, Option.bind_some]
    refine fin B _ ⟨_, ?_, up_lagrange rfl (by show 1 ≤ M; omega) (le_of_eq sB.symm), down_lagrange rfl (by show 1 ≤ M; omega) (le_of_eq sB.symm)⟩
    exact re_lagrange hX fun e k j he k0 k1 j0 j1 => vB e j k he j0 j1 k0 k1
  | false =>
    obtain ⟨B, BT, eB, sB, sBT, vB, vBT⟩ := createBB_cheb hX (by omega) (fun a => useFftw_false rfl a) junk (fftw := useFftw dbl false M)
    rw [eB, Option.bind_some]
    refine fin B BT ⟨_, ?_, up_cheb rfl M2 M31 (le_of_eq sB.symm), down_cheb rfl M2 (le_of_eq sBT.symm) fun i d i0 d0 h => ?_⟩
    · exact re_cheb (P := ⟨M, N, leaf N L * 2 ^ (L + 2), L, leaf N L, false, A, T, B, BT, D⟩) vB
    · show BT.val (trU M i + d) = B.val (tri (i + d) + i)
      have h' : i + d < M := h
      rw [vBT i d i0 d0 h', vB (i + d) i i0 (by omega) h']

omit [DecidableEq K] in
/-- A product with the matrices is the value of the interpolant. -/
theorem interp_eq {X : Nodes K} {M : Int} (hX : NodesOk X M) {lagrange c : Bool} {s : Int} {L : ℕ} {A : Buf K} (hA : Mats lagrange X M s L c A) (s1 : 1 ≤ s) {lev : ℕ} {i j : Int} (i0 : 0 ≤ i) (hlev : lev < L)
    (jN : j < s * 2 ^ (L + 2)) (pr : j % 2 = i % 2) (hf : far (i / 2 / hs s L lev) (j / 2 / hs s L lev)) :
    ∃ x0 y0 h : Int, 1 ≤ h ∧ h ≤ x0 ∧ (y0 - x0 = 4 * h ∨ y0 - x0 = 6 * h) ∧ (x0 - h ≤ i ∧ i < x0 + h) ∧ (y0 - h ≤ j ∧ j < y0 + h) ∧
      interp M A.val (bas lagrange X M) s L (i % 2) lev (i / 2) (j / 2) = interpolant M (X.xj M) (kern X.lam c) x0 y0 h i j := by
  have h1 := hs_pos s1 L lev
  have hp : s * 2 ^ (L + 2) = 2 * (hs s L lev * 2 ^ (lev + 2)) := by
    unfold hs
    rw [show L + 2 = (L - 1 - lev) + (lev + 2) + 1 by omega, pow_succ, pow_add]; ring
  have bp := blocks_pow lev
  obtain ⟨b, q, p, hP, eρ, eκ⟩ : ∃ b q p, Place L lev b q p ∧ i / 2 / hs s L lev = 2 * b + p ∧ j / 2 / hs s L lev = 2 * b + 2 + q := by
    obtain ⟨f1, f2⟩ := hf
    have k1 : j / 2 / hs s L lev < 2 ^ (lev + 2) := Int.ediv_lt_of_lt_mul (by omega) (by rw [mul_comm]; omega)
    have r0 : 0 ≤ i / 2 / hs s L lev := Int.ediv_nonneg (by omega) (by omega)
    generalize i / 2 / hs s L lev = ρ at *
    generalize j / 2 / hs s L lev = κ at *
    exact ⟨ρ / 2, κ % 2, ρ % 2, ⟨hlev, by omega, by omega, by omega, by omega, by omega⟩, by omega, by omega⟩
  have vA := hA.2 lev b q p hP
  obtain ⟨-, b0, -, p0, pq, q1⟩ := hP
  have hK : ((hs s L lev : Int) : K) ≠ 0 := icast_ne (by omega)
  have xe : ∀ (i odd ρ : Int), odd = i % 2 → i / 2 / hs s L lev = ρ → xc (K := K) s L odd lev (i / 2) = ((i : K) - (cx s L lev ρ : Int)) / (hs s L lev : Int) := fun i odd ρ eo eρ => by
    unfold xc cx
    rw [eρ, eo, show 2 * (i / 2) + i % 2 = i by omega, eq_div_iff hK, add_mul, div_mul_cancel₀ _ hK]
    push_cast; ring
  have range : ∀ (i ρ : Int), i / 2 / hs s L lev = ρ → cx s L lev ρ - hs s L lev ≤ i ∧ i < cx s L lev ρ + hs s L lev := fun i ρ eρ => by
    have a := Int.mul_ediv_add_emod (i / 2) (hs s L lev)
    have b := Int.emod_nonneg (i / 2) (show hs s L lev ≠ 0 by omega)
    have c := Int.emod_lt_of_pos (i / 2) (show 0 < hs s L lev by omega)
    rw [eρ, mul_comm] at a
    unfold cx
    omega
  refine ⟨cx s L lev (2 * b + p), cx s L lev (2 * b + 2 + q), hs s L lev, h1, ?_, ?_, range _ _ eρ, range _ _ eκ, ?_⟩
  · have : 0 ≤ (2 * b + p) * hs s L lev := Int.mul_nonneg (by omega) (by omega)
    unfold cx; omega
  · have e : cx s L lev (2 * b + 2 + q) - cx s L lev (2 * b + p) = 4 * hs s L lev + 2 * ((q - p) * hs s L lev) := by unfold cx; ring
    rcases (show q - p = 0 ∨ q - p = 1 by omega) with h | h <;> rw [e, h] <;> omega
  · unfold interp interpolant
    rw [eρ, eκ, xe i _ _ rfl eρ, xe j _ _ pr.symm eκ]
    have em : subm lev (2 * b + p) (2 * b + 2 + q) = 3 * (totalBlocks lev + b) + (q + p) := by unfold subm; omega
    rw [em, ← coef_sum hX lagrange fun r m => kern X.lam c (((cx s L lev (2 * b + p) : Int) : K) + X.xj M r * (hs s L lev : Int)) (((cx s L lev (2 * b + 2 + q) : Int) : K) + X.xj M m * (hs s L lev : Int))]
    refine sum_Ico_congr fun k k0 k1 => sum_Ico_congr fun n n0 n1 => ?_
    rw [add_assoc, vA k n k0 k1 n0 n1]
    rfl

end FT.Props.Lc
