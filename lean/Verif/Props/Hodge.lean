import Verif.Lemmas.HodgeSolve
import Mathlib.Analysis.Real.Sqrt

/-!
# C49: gradient, curl and the Helmholtz-Hodge decomposition on the sphere

Coefficient arrays have `N` rows and `M` columns, `M` odd: column `0` has order `0`, columns `2m - 1` and `2m` have order `m`; row `l` of a column of order
`m` has degree `l + m`.  An expansion of degree below `N` uses the first `N - m` rows of a column of order `m`.
-/

set_option linter.unusedSectionVars false

namespace FT.Props
open FT FT.Hodge
variable {K : Type*} [Field K] [LinearOrder K] [IsStrictOrderedRing K] {sqrt : K → K}

/-- The order of a column. -/
def orderOf (c : Int) : Int := (c + 1) / 2

/-- The coefficients of degree `N`, the first that an expansion of degree below `N` does not use, are zero. -/
def Truncated (N M : Int) (U : Int → K) : Prop := ∀ c, 1 ≤ c → c < M → U (N - orderOf c + N * c) = 0

/-- `W` is the expansion `Q` without its constant; the entries that no expansion of degree below `N` uses are those of `W0`. -/
def Recovers (N M : Int) (Q W0 W : Int → K) : Prop := ∀ c, 0 ≤ c → c < M → ∀ l, 0 ≤ l → l < N →
  W (l + N * c) = if l + c = 0 then 0 else if l < N - orderOf c then Q (l + N * c) else W0 (l + N * c)

/-- **C49** The curl is the gradient turned by a right angle: its longitude part is the colatitude part of the gradient, its colatitude part is minus the longitude part of the gradient. -/
theorem C49_curl (hs : IsSqrt sqrt) {jB : Banded K} {jT : TB K} {N M : Int} (hN : 1 ≤ N) (odd : M % 2 = 1) (hM0 : 1 ≤ M) (hM : M < 2 * N) {U A B A' B' : Buf K} (hU : N * M ≤ U.size)
    (hA : N * M ≤ A.size) (hB : N * M ≤ B.size) :
    ∃ P, planGrad sqrt jB jT N = some P ∧ ∃ Gt Gp Ct Cp, execGrad sqrt P U A B N M = some (Gt, Gp) ∧ execCurl sqrt P U B A N M = some (Ct, Cp) ∧
      ∀ i, 0 ≤ i → i < N * M → Ct.val i = -Gp.val i ∧ Cp.val i = Gt.val i := by
  obtain ⟨P, eP, hP⟩ := planGrad_run (sqrt := sqrt) jB jT N
  have hM' : 2 * (M / 2) + 1 = M := by omega
  obtain ⟨Gt, Gp, eG, s1, s2, -, -⟩ := execGrad_run hs hP hN (by omega) (M := M) (by omega) (U := U) (Ut := A) (Up := B) (by rw [hM']; omega) (by rw [hM']; omega) (by rw [hM']; omega)
  obtain ⟨C, eC, -, hC, -⟩ := negate_run (A := Gp) (n := N * M) (by omega)
  refine ⟨P, eP, Gt, Gp, C, Gt, eG, ?_, fun i i0 i1 => ⟨hC i i0 i1, rfl⟩⟩
  unfold execCurl
  rw [eG]
  show (forUp _ _ _ _).map _ = _
  rw [eC]
  rfl

theorem sineCol_congr {N m c l : Int} {V W : Int → K} (h : ∀ k, 0 ≤ k → k < N + 1 - m → V (k + N * c) = W (k + N * c)) : sineCol sqrt N m V c l = sineCol sqrt N m W c l :=
  sum_Ico_congr fun k k0 k1 => by rw [h k k0 k1]

theorem sineCol_add {N m c l : Int} {V W : Int → K} : sineCol sqrt N m (fun i => V i + W i) c l = sineCol sqrt N m V c l + sineCol sqrt N m W c l := by
  unfold sineCol
  rw [← Finset.sum_add_distrib]
  exact Finset.sum_congr rfl fun _ _ => by ring

theorem sineCol_neg {N m c l : Int} {V : Int → K} : sineCol sqrt N m (fun i => -V i) c l = -sineCol sqrt N m V c l := by
  unfold sineCol
  rw [← Finset.sum_neg_distrib]
  exact Finset.sum_congr rfl fun _ _ => by ring

/-- **C49** The Helmholtz-Hodge routine recovers the two potentials, up to their constants, from the sum of the gradient of the first and the curl of the second: for every size, every number of columns, all potentials
of degree below `N`, and whatever the work arrays and result arrays held before. -/
theorem C49_helmholtz_hodge (hs : IsSqrt sqrt) {jB : Banded K} {jT jT' : TB K} {jF : BandedQ K} {jX : Int → K} {N M : Int} (hN : 1 ≤ N) (odd : M % 2 = 1) (hM0 : 1 ≤ M) (hM : M < 2 * N) :
    ∃ PG PH, planGrad sqrt jB jT N = some PG ∧ planHodge sqrt jT' jF jX N = some PH ∧
      ∀ Q1 Q2 At Ap Bt Bp : Buf K, N * M ≤ Q1.size → N * M ≤ Q2.size → N * M ≤ At.size → N * M ≤ Ap.size → N * M ≤ Bt.size → N * M ≤ Bp.size → Truncated N M Q1.val → Truncated N M Q2.val →
      ∃ Gt Gp Ct Cp, execGrad sqrt PG Q1 At Ap N M = some (Gt, Gp) ∧ execCurl sqrt PG Q2 Bt Bp N M = some (Ct, Cp) ∧
        ∀ V1 V2 U1 U2 : Buf K, N * M ≤ V1.size → N * M ≤ V2.size → N * M ≤ U1.size → N * M ≤ U2.size →
        (∀ i, 0 ≤ i → i < N * M → V1.val i = Gt.val i + Ct.val i ∧ V2.val i = Gp.val i + Cp.val i) →
        ∃ s, execHodge sqrt PH U1 U2 V1 V2 N M = some s ∧ Recovers N M Q1.val U1.val s.U1.val ∧ Recovers N M Q2.val U2.val s.U2.val := by
  obtain ⟨PG, eG, hG⟩ := planGrad_run (sqrt := sqrt) jB jT N
  obtain ⟨PH, eH, sX, hH⟩ := planHodge_run hs jT' jF jX N
  have hM' : 2 * (M / 2) + 1 = M := by omega
  refine ⟨PG, PH, eG, eH, fun Q1 Q2 At Ap Bt Bp q1 q2 at' ap bt bp t1 t2 => ?_⟩
  obtain ⟨Gt, Gp, e1, s1, s2, z1, g1⟩ := execGrad_run hs hG hN (by omega) (M := M) (by omega) (U := Q1) (Ut := At) (Up := Ap) (by rw [hM']; omega) (by rw [hM']; omega) (by rw [hM']; omega)
  obtain ⟨Ht, Hp, e2, s3, s4, z2, g2⟩ := execGrad_run hs hG hN (by omega) (M := M) (by omega) (U := Q2) (Ut := Bp) (Up := Bt) (by rw [hM']; omega) (by rw [hM']; omega) (by rw [hM']; omega)
  obtain ⟨C, eC, -, hC, -⟩ := negate_run (A := Hp) (n := N * M) (by omega)
  refine ⟨Gt, Gp, C, Ht, e1, ?_, fun V1 V2 U1 U2 v1 v2 u1 u2 hV => ?_⟩
  · unfold execCurl
    rw [e2]
    show (forUp _ _ _ _).map _ = _
    rw [eC]
    rfl
  have h1 : N ≤ N * M := le_mul_of_one_le_right (by omega) (by omega)
  have hV1 : ∀ i, 0 ≤ i → i < N * M → V1.val i = Gt.val i + -Hp.val i := fun i i0 i1 => by rw [(hV i i0 i1).1, hC i i0 i1]
  have hV2 : ∀ i, 0 ≤ i → i < N * M → V2.val i = Gp.val i + Ht.val i := fun i i0 i1 => (hV i i0 i1).2
  have inside : ∀ m, 1 ≤ m → m ≤ M / 2 → ∀ c, (c = 2 * m - 1 ∨ c = 2 * m) → ∀ k, 0 ≤ k → k < N + 1 - m → 0 ≤ k + N * c ∧ k + N * c < N * M := fun m m0 m1 c hc k k0 k1 => by
    have := col_mem m0 k0 k1 hc
    have b := mono (N := N) (a := 2 * m + 1) (b := M) (by omega) (by omega)
    have b' := cols m0 (show 0 ≤ N by omega)
    omega
  have d1 : ∀ m, 1 ≤ m → m ≤ M / 2 → ∀ c, (c = 2 * m - 1 ∨ c = 2 * m) → ∀ l, sineCol sqrt N m V1.val c l = sineCol sqrt N m Gt.val c l + -sineCol sqrt N m Hp.val c l := fun m m0 m1 c hc l => by
    rw [← sineCol_neg, ← sineCol_add]
    exact sineCol_congr fun k k0 k1 => hV1 _ (inside m m0 m1 c hc k k0 k1).1 (inside m m0 m1 c hc k k0 k1).2
  have d2 : ∀ m, 1 ≤ m → m ≤ M / 2 → ∀ c, (c = 2 * m - 1 ∨ c = 2 * m) → ∀ l, sineCol sqrt N m V2.val c l = sineCol sqrt N m Gp.val c l + sineCol sqrt N m Ht.val c l := fun m m0 m1 c hc l => by
    rw [← sineCol_add]
    exact sineCol_congr fun k k0 k1 => hV2 _ (inside m m0 m1 c hc k k0 k1).1 (inside m m0 m1 c hc k k0 k1).2
  obtain ⟨s, es, -, -, w1, w2, wz, wm, wo⟩ := execHodge_run hs (P := PH) (N := N) (M := M) (Q1 := Q1.val) (Q2 := Q2.val) (U1 := U1) (U2 := U2) (V1 := V1) (V2 := V2) hH (by omega) hN (by omega) (by omega)
    (by rw [hM']; omega) (by rw [hM']; omega) (by rw [hM']; omega) (by rw [hM']; omega)
    (fun l l0 l1 => by rw [hV1 l l0 (by omega), z1.1 l l0 l1, z2.2.2 l l0 (by omega), neg_zero, add_zero])
    (fun l l0 l1 => by rw [hV2 l l0 (by omega), z2.1 l l0 l1, z1.2.2 l l0 (by omega), zero_add])
    fun m m0 m1 => {
      last := fun c hc => by
        have o : orderOf c = m := by unfold orderOf; omega
        have x1 := t1 c (by omega) (by omega)
        have x2 := t2 c (by omega) (by omega)
        rw [o] at x1 x2
        exact ⟨x1, x2⟩
      one := fun l l0 l1 => by
        rw [d1 m m0 m1 _ (.inl rfl), show sineCol sqrt N m Gt.val _ l = _ from (g1 m m0 m1).1 l l0 l1 _ (.inl rfl), show sineCol sqrt N m Hp.val _ l = _ from ((g2 m m0 m1).2 l l0 l1).1, neg_neg]
      two := fun l l0 l1 => by
        rw [d2 m m0 m1 _ (.inr rfl), show sineCol sqrt N m Ht.val _ l = _ from (g2 m m0 m1).1 l l0 l1 _ (.inr rfl), show sineCol sqrt N m Gp.val _ l = _ from ((g1 m m0 m1).2 l l0 l1).2, add_comm]
      three := fun l l0 l1 => by
        rw [d1 m m0 m1 _ (.inr rfl), show sineCol sqrt N m Gt.val _ l = _ from (g1 m m0 m1).1 l l0 l1 _ (.inr rfl), show sineCol sqrt N m Hp.val _ l = _ from ((g2 m m0 m1).2 l l0 l1).2]
        ring
      four := fun l l0 l1 => by
        rw [d2 m m0 m1 _ (.inl rfl), show sineCol sqrt N m Ht.val _ l = _ from (g2 m m0 m1).1 l l0 l1 _ (.inl rfl), show sineCol sqrt N m Gp.val _ l = _ from ((g1 m m0 m1).2 l l0 l1).1]
        ring }
  have both : ∀ c, 0 ≤ c → c < M → ∀ l, 0 ≤ l → l < N →
      (s.U1.val (l + N * c) = if l + c = 0 then 0 else if l < N - orderOf c then Q1.val (l + N * c) else U1.val (l + N * c)) ∧
      (s.U2.val (l + N * c) = if l + c = 0 then 0 else if l < N - orderOf c then Q2.val (l + N * c) else U2.val (l + N * c)) := fun c c0 c1 l l0 l1 => by
    by_cases hc : c = 0
    · subst hc
      rw [mul_zero, add_zero]
      by_cases hl : l = 0
      · rw [if_pos hl, if_pos hl, hl]
        exact ⟨w1, w2⟩
      · have : l < N - orderOf 0 := by unfold orderOf; omega
        rw [if_neg hl, if_neg hl, if_pos this, if_pos this]
        exact wz l (by omega) l1
    · rw [if_neg (c := l + c = 0) (by omega), if_neg (c := l + c = 0) (by omega)]
      have o : 1 ≤ orderOf c ∧ orderOf c ≤ M / 2 ∧ (c = 2 * orderOf c - 1 ∨ c = 2 * orderOf c) := by unfold orderOf; omega
      by_cases h : l < N - orderOf c
      · rw [if_pos h, if_pos h]
        exact wm _ o.1 o.2.1 c o.2.2 l l0 h
      · rw [if_neg h, if_neg h]
        refine wo _ ?_ fun m m0 m1 c' hc' => ?_
        · have := mono (N := N) (a := 1) (b := c) (by omega) (by omega)
          omega
        · unfold Out
          rcases lt_trichotomy c c' with hlt | heq | hgt
          · have := mono (N := N) (a := c + 1) (b := c') (by omega) (by omega)
            rw [mul_add, mul_one] at this
            omega
          · obtain rfl : m = orderOf c := by omega
            subst heq
            omega
          · have := mono (N := N) (a := c' + 1) (b := c) (by omega) (by omega)
            rw [mul_add, mul_one] at this
            omega
  exact ⟨s, es, fun c c0 c1 l l0 l1 => (both c c0 c1 l l0 l1).1, fun c c0 c1 l l0 l1 => (both c c0 c1 l l0 l1).2⟩

/-! ## Concrete instances -/

/-- Four rows and seven columns. -/
example : ∃ PG PH, planGrad Real.sqrt ⟨0, 0, 0, 0, callocB 0⟩ ⟨0, 0, 0, callocB 0⟩ 4 = some PG ∧ planHodge Real.sqrt ⟨0, 0, 0, callocB 0⟩ ⟨⟨0, 0, 0, 0, callocB 0⟩, callocB 0, 'U'⟩ (fun _ => 7) 4 = some PH ∧
    ∃ Gt Gp Ct Cp, execGrad Real.sqrt PG ⟨28, fun i => if i = 4 ∨ i = 10 then 5 else 0⟩ ⟨28, fun _ => 9⟩ ⟨28, fun _ => 8⟩ 4 7 = some (Gt, Gp) ∧
      execCurl Real.sqrt PG ⟨28, fun i => if i = 1 ∨ i = 24 then 3 else 0⟩ ⟨28, fun _ => 9⟩ ⟨28, fun _ => 8⟩ 4 7 = some (Ct, Cp) ∧
      ∃ s, execHodge Real.sqrt PH ⟨28, fun _ => 0⟩ ⟨28, fun _ => 0⟩ ⟨28, fun i => Gt.val i + Ct.val i⟩ ⟨28, fun i => Gp.val i + Cp.val i⟩ 4 7 = some s ∧ s.U1.val 4 = 5 ∧ s.U1.val 5 = 0 ∧ s.U2.val 24 = 3 := by
  obtain ⟨PG, PH, e1, e2, h⟩ := C49_helmholtz_hodge (sqrt := Real.sqrt) real_isSqrt (jB := ⟨0, 0, 0, 0, callocB 0⟩) (jT := ⟨0, 0, 0, callocB 0⟩) (jT' := ⟨0, 0, 0, callocB 0⟩) (jF := ⟨⟨0, 0, 0, 0, callocB 0⟩, callocB 0, 'U'⟩)
    (jX := fun _ => 7) (N := 4) (M := 7) (by decide) (by decide) (by decide) (by decide)
  have sz : ((4 : Int) * 7 ≤ ((28 : Nat) : Int)) := by decide
  obtain ⟨Gt, Gp, Ct, Cp, e3, e4, h'⟩ := h ⟨28, fun i => if i = 4 ∨ i = 10 then 5 else 0⟩ ⟨28, fun i => if i = 1 ∨ i = 24 then 3 else 0⟩ ⟨28, fun _ => 9⟩ ⟨28, fun _ => 8⟩ ⟨28, fun _ => 9⟩ ⟨28, fun _ => 8⟩ sz sz sz sz sz sz
    (fun c c0 c1 => if_neg (by unfold orderOf; omega)) (fun c c0 c1 => if_neg (by unfold orderOf; omega))
  obtain ⟨s, e5, r1, r2⟩ := h' ⟨28, fun i => Gt.val i + Ct.val i⟩ ⟨28, fun i => Gp.val i + Cp.val i⟩ ⟨28, fun _ => 0⟩ ⟨28, fun _ => 0⟩ sz sz sz sz fun _ _ _ => ⟨rfl, rfl⟩
  refine ⟨PG, PH, e1, e2, Gt, Gp, Ct, Cp, e3, e4, s, e5, ?_, ?_, ?_⟩
  · have := r1 1 (by decide) (by decide) 0 (by decide) (by decide)
    rw [if_neg (by decide), if_pos (by decide)] at this
    exact this.trans (by norm_num)
  · have := r1 1 (by decide) (by decide) 1 (by decide) (by decide)
    rw [if_neg (by decide), if_pos (by decide)] at this
    exact this.trans (by norm_num)
  · have := r2 6 (by decide) (by decide) 0 (by decide) (by decide)
    rw [if_neg (by decide), if_pos (by decide)] at this
    exact this.trans (by norm_num)

end FT.Props
