import Verif.Lemmas.LegChebDirect
import Verif.Lemmas.Connect
import Mathlib.Analysis.Real.Pi.Bounds

/-!
# C62: the direct transforms between Legendre and Chebyshev series

`X(create_direct)` and `X(direct)` of `/repo/src/fmm_source.c`, which `X(execute)` uses for a plan of `X(create_fmm)` without levels.
-/

namespace FT.Props.Lc
open Polynomial FT FT.Poly FT.Model.Lc
variable {K : Type*} [Field K] [CharZero K] [DecidableEq K]

/-- **C62**: a plan for either direction can be created for every `N ≥ 1`, and with it the direct method turns the Legendre coefficients in the input into the Chebyshev coefficients of the
same polynomial, at any stride, whatever the output held before, and without a change elsewhere. -/
theorem C62_legendre_to_chebyshev {F : Lib K} (hF : IsLambda F) {N : Int} (hN : 1 ≤ N) (junk : Int → K) (c2l : Bool) {u b : Buf K} {bu bb st : Int} (hu : Room u bu st N) (hb : Room b bb st N) :
    ∃ D b', createDirect F junk N c2l = some D ∧ directL2C F D u bu b bb st = some b' ∧ chebSeries N (at' b' bb st) = legSeries N (at' u bu st) ∧ Keeps b b' bb st N := by
  obtain ⟨D, e, hD⟩ := createDirect_spec hF hN junk c2l
  obtain ⟨b', e', k, v⟩ := directL2C_spec hF hN hD hu hb
  exact ⟨D, b', e, e', l2c_series _ _ v, k⟩

/-- **C62**: the direct method turns Chebyshev coefficients into the Legendre coefficients of the same polynomial. -/
theorem C62_chebyshev_to_legendre {F : Lib K} (hF : IsLambda F) {N : Int} (hN : 1 ≤ N) (junk junk' : Int → K) {u b : Buf K} {bu bb st : Int} (hu : Room u bu st N) (hb : Room b bb st N) :
    ∃ D b', createDirect F junk N true = some D ∧ directC2L F D junk' u bu b bb st = some b' ∧ legSeries N (at' b' bb st) = chebSeries N (at' u bu st) ∧ Keeps b b' bb st N := by
  obtain ⟨D, e, hD⟩ := createDirect_spec hF hN junk true
  obtain ⟨b', e', k, v⟩ := directC2L_spec hF hN hD (junk := junk') hu hb
  exact ⟨D, b', e, e', c2l_series _ _ v, k⟩

/-! ## Round trips -/

omit [DecidableEq K] in
theorem leg_graded : ∃ s : Int → K, Graded leg s := by
  refine ⟨fun n => (leg n).coeff n.toNat, fun n hn => ?_⟩
  have key : (leg (K := K) n).coeff n.toNat ≠ 0 ∧ ∀ k : ℕ, n < k → (leg (K := K) n).coeff k = 0 := by
    refine two_step (P := fun n => (leg (K := K) n).coeff n.toNat ≠ 0 ∧ ∀ k : ℕ, n < k → (leg (K := K) n).coeff k = 0) ?_ (fun n n0 ih ih' => ?_) hn
    · rw [leg_zero]
      exact ⟨by simp, fun k hk => by rw [coeff_one, if_neg (by omega)]⟩
    · have r := leg_rec (K := K) n0
      have c1 := icast_ne (K := K) (show n + 1 ≠ 0 by omega)
      have c2 := icast_ne (K := K) (show 2 * n + 1 ≠ 0 by omega)
      have prev : ∀ k : ℕ, n ≤ k → (leg (K := K) (n - 1)).coeff k = 0 := fun k hk => by
        by_cases h : n = 0
        · subst h; simp [leg]
        · exact (ih' (by omega)).2 k (by omega)
      have co : ∀ k : ℕ, n ≤ k → ((n + 1 : Int) : K) * (leg (n + 1)).coeff (k + 1) = ((2 * n + 1 : Int) : K) * (leg n).coeff k := fun k hk => by
        have := congrArg (fun p : K[X] => p.coeff (k + 1)) r
        simp only [coeff_sub, coeff_C_mul, mul_assoc, coeff_X_mul] at this
        rw [this, prev (k + 1) (by omega), mul_zero, sub_zero]
      constructor
      · rw [show (n + 1).toNat = n.toNat + 1 by omega]
        intro h
        have := co n.toNat (by omega)
        rw [h, mul_zero] at this
        exact mul_ne_zero c2 ih.1 this.symm
      · intro k hk
        obtain ⟨k, rfl⟩ : ∃ j, k = j + 1 := ⟨k - 1, by omega⟩
        have := co k (by omega)
        rw [ih.2 k (by omega), mul_zero] at this
        exact (mul_eq_zero.1 this).resolve_left c1
  exact ⟨key.1, rfl, key.2⟩

omit [DecidableEq K] in
theorem cheb_graded : Graded (fun n => Chebyshev.T K n) fun n => 2 ^ (n.natAbs - 1) := fun n hn => by
  have d := Chebyshev.natDegree_T K n
  have l := Chebyshev.leadingCoeff_T K n
  rw [leadingCoeff, d] at l
  exact ⟨pow_ne_zero _ two_ne_zero, by rw [show n.toNat = n.natAbs by omega, l], fun k hk => coeff_eq_zero_of_natDegree_lt (by rw [d]; omega)⟩

omit [DecidableEq K] in
theorem legSeries_inj {N : Int} {c d : Int → K} (h : legSeries N c = legSeries N d) : ∀ i, 0 ≤ i → i < N → c i = d i := by
  obtain ⟨s, hs⟩ := leg_graded (K := K)
  intro i i0 i1
  refine sub_eq_zero.1 (hs.indep (c := fun i => c i - d i) (m := N) ?_ i i0 i1)
  unfold legSeries at h
  rw [← sub_eq_zero, ← Finset.sum_sub_distrib] at h
  rw [← h]
  exact Finset.sum_congr rfl fun j hj => by rw [leg_nat j (Finset.mem_Ico.1 hj).1, C_sub, sub_mul]

omit [DecidableEq K] in
theorem chebSeries_inj {N : Int} {c d : Int → K} (h : chebSeries N c = chebSeries N d) : ∀ i, 0 ≤ i → i < N → c i = d i := by
  intro i i0 i1
  refine sub_eq_zero.1 (cheb_graded.indep (c := fun i => c i - d i) (m := N) ?_ i i0 i1)
  unfold chebSeries at h
  rw [← sub_eq_zero, ← Finset.sum_sub_distrib] at h
  rw [← h]
  exact Finset.sum_congr rfl fun j hj => by rw [C_sub, sub_mul]

/-- **C62**: the two directions undo each other. -/
theorem C62_round_trip {F : Lib K} (hF : IsLambda F) {N : Int} (hN : 1 ≤ N) (junk junk' : Int → K) {u b c : Buf K} {bu bb bc st : Int} (hu : Room u bu st N) (hb : Room b bb st N)
    (hc : Room c bc st N) :
    (∃ D b' c', createDirect F junk N true = some D ∧ directL2C F D u bu b bb st = some b' ∧ directC2L F D junk' b' bb c bc st = some c' ∧ ∀ i, 0 ≤ i → i < N → at' c' bc st i = at' u bu st i) ∧
    ∃ D b' c', createDirect F junk N true = some D ∧ directC2L F D junk' u bu b bb st = some b' ∧ directL2C F D b' bb c bc st = some c' ∧ ∀ i, 0 ≤ i → i < N → at' c' bc st i = at' u bu st i := by
  have room : ∀ b', Keeps b b' bb st N → Room b' bb st N := fun b' k => ⟨hb.start, hb.stride, by rw [k.1]; exact hb.last⟩
  obtain ⟨D, e, hD⟩ := createDirect_spec hF hN junk true
  constructor
  · obtain ⟨b', e', k, v⟩ := directL2C_spec hF hN hD hu hb
    obtain ⟨c', e'', -, v'⟩ := directC2L_spec hF hN hD (junk := junk') (room b' k) hc
    exact ⟨D, b', c', e, e', e'', legSeries_inj (by rw [c2l_series _ _ v', l2c_series _ _ v])⟩
  · obtain ⟨b', e', k, v⟩ := directC2L_spec hF hN hD (junk := junk') hu hb
    obtain ⟨c', e'', -, v'⟩ := directL2C_spec hF hN hD (room b' k) hc
    exact ⟨D, b', c', e, e', e'', chebSeries_inj (by rw [l2c_series _ _ v', c2l_series _ _ v])⟩

/-- A plan for `L2C` alone has no arrays for the other direction: the call dereferences a null pointer. -/
theorem C62_direction_defect {F : Lib K} (hF : IsLambda F) {N : Int} (hN : 1 ≤ N) (junk junk' : Int → K) (u b : Buf K) (bu bb st : Int) :
    ∃ D, createDirect F junk N false = some D ∧ directC2L F D junk' u bu b bb st = none := by
  obtain ⟨a, e, -, -⟩ := fillA_spec hF ⟨N.toNat, junk⟩ (by show ((N.toNat : ℕ) : Int) = N; omega)
  refine ⟨⟨N, a, none, none⟩, by unfold createDirect; rw [e]; rfl, ?_⟩
  unfold directC2L
  cases forUp 0 N (fun i b => b.wr (bb + i * st) 0) b <;> rfl

/-! ## Examples -/

/-- `Λ` at the integers with the true value of `√π`. -/
noncomputable def realLam : Lib ℝ := ⟨fun i => Real.sqrt Real.pi * cZ i, Real.sqrt Real.pi, 2 / (Real.sqrt Real.pi * Real.sqrt Real.pi), 2 / Real.sqrt Real.pi⟩

theorem realLam_ok : IsLambda realLam := by
  refine ⟨(Real.sqrt_pos.2 Real.pi_pos).ne', rfl, rfl, ?_, fun i hi => ?_⟩
  · show Real.sqrt Real.pi * cZ 0 = _; rw [cZ_zero, mul_one]; rfl
  · show Real.sqrt Real.pi * cZ (i + 1) = Real.sqrt Real.pi * cZ i * _; rw [cZ_succ hi, mul_assoc]

noncomputable def realIn : Buf ℝ := ⟨1000, fun i => i⟩
noncomputable def realOut : Buf ℝ := ⟨900, fun _ => 3⟩
theorem realIn_room : Room realIn 5 3 300 := ⟨by omega, by omega, by show (5 : Int) + (300 - 1) * 3 < ((1000 : ℕ) : Int); omega⟩
theorem realOut_room : Room realOut 1 3 300 := ⟨by omega, by omega, by show (1 : Int) + (300 - 1) * 3 < ((900 : ℕ) : Int); omega⟩

example : ∃ D b', createDirect realLam (fun _ => 7) 300 true = some D ∧ directL2C realLam D realIn 5 realOut 1 3 = some b' ∧
    chebSeries 300 (at' b' 1 3) = legSeries 300 (at' realIn 5 3) ∧ Keeps realOut b' 1 3 300 :=
  C62_legendre_to_chebyshev realLam_ok (by omega) _ _ realIn_room realOut_room

example : ∃ D b', createDirect realLam (fun _ => 7) 300 true = some D ∧ directC2L realLam D (fun _ => 8) realIn 5 realOut 1 3 = some b' ∧
    legSeries 300 (at' b' 1 3) = chebSeries 300 (at' realIn 5 3) ∧ Keeps realOut b' 1 3 300 :=
  C62_chebyshev_to_legendre realLam_ok (by omega) _ _ realIn_room realOut_room

/-- The values do not depend on `√π`, so that a rational number in its place shows them: `P_2 = (T_0 + 3 T_2) / 4` and back. -/
def ratLam : Lib ℚ := ⟨fun i => [5, 5 / 2, 15 / 8].getD i.toNat 0, 5, 2 / 25, 2 / 5⟩

example : ((createDirect ratLam (fun _ => 7) 3 true).bind fun D => (directL2C ratLam D (Buf.ofList [0, 0, 1]) 0 ⟨3, fun _ => 9⟩ 0 1).map fun b => (b.val 0, b.val 1, b.val 2)) = some (1 / 4, 0, 3 / 4) := by
  decide +kernel

example : ((createDirect ratLam (fun _ => 7) 3 true).bind fun D => (directC2L ratLam D (fun _ => 8) (Buf.ofList [1 / 4, 0, 3 / 4]) 0 ⟨3, fun _ => 9⟩ 0 1).map fun b => (b.val 0, b.val 1, b.val 2)) =
    some (0, 0, 1) := by
  decide +kernel

end FT.Props.Lc
