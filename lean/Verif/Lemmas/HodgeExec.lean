import Verif.Lemmas.HodgeRun

/-! # Runs of the gradient, the curl and the Helmholtz-Hodge decomposition, all orders -/

set_option linter.unusedSectionVars false

namespace FT.Hodge
open FT FT.Props
variable {K : Type*} [Field K] [LinearOrder K] [IsStrictOrderedRing K] {sqrt : K → K}

theorem gradZonal_run {U Ut Up : Buf K} {N : Int} (hN : 1 ≤ N) (hU : N ≤ U.size) (ht : N ≤ Ut.size) (hp : N ≤ Up.size) :
    ∃ Ut' Up', gradZonal sqrt U N (Ut, Up) = some (Ut', Up') ∧ Ut'.size = Ut.size ∧ Up'.size = Up.size ∧
      (∀ l, 0 ≤ l → l < N - 1 → Ut'.val l = -sqrt (((l : K) + 1) * ((l : K) + 2)) * U.val (l + 1)) ∧ Ut'.val (N - 1) = 0 ∧ (∀ l, 0 ≤ l → l < N → Up'.val l = 0) ∧
      (∀ i, ¬ (0 ≤ i ∧ i < N) → Ut'.val i = Ut.val i) ∧ ∀ i, ¬ (0 ≤ i ∧ i < N) → Up'.val i = Up.val i := by
  obtain ⟨⟨A, B⟩, e, sA, sB, h1, h2, h3, h4⟩ := forUp_spec (lo := 0) (hi := N - 1) (s := (Ut, Up))
    (body := fun l (s : Buf K × Buf K) => (U.rd (l + 1)).bind fun v => (s.1.wr l (-sqrt (((l : K) + 1) * ((l : K) + 2)) * v)).bind fun Ut => (s.2.wr l 0).map fun Up => (Ut, Up))
    (fun k s => s.1.size = Ut.size ∧ s.2.size = Up.size ∧ (∀ l, 0 ≤ l → l < k → s.1.val l = -sqrt (((l : K) + 1) * ((l : K) + 2)) * U.val (l + 1)) ∧ (∀ l, 0 ≤ l → l < k → s.2.val l = 0) ∧
      (∀ i, ¬ (0 ≤ i ∧ i < N) → s.1.val i = Ut.val i) ∧ ∀ i, ¬ (0 ≤ i ∧ i < N) → s.2.val i = Up.val i)
    ⟨rfl, rfl, fun _ _ _ => by omega, fun _ _ _ => by omega, fun _ _ => rfl, fun _ _ => rfl⟩
    fun l l0 l1 s ⟨sA, sB, h1, h2, h3, h4⟩ => by
      refine ⟨(⟨s.1.size, Function.update s.1.val l (-sqrt (((l : K) + 1) * ((l : K) + 2)) * U.val (l + 1))⟩, ⟨s.2.size, Function.update s.2.val l 0⟩), ?_, sA, sB, fun k k0 k1 => ?_, fun k k0 k1 => ?_, fun i hi => ?_, fun i hi => ?_⟩
      · beta_reduce
        rw [Buf.rd_of (by omega) (by omega)]
        show (s.1.wr _ _).bind _ = _
        rw [Buf.wr_of (by omega) (by omega)]
        show (s.2.wr _ _).map _ = _
        rw [Buf.wr_of (by omega) (by omega)]
        rfl
      · show Function.update _ _ _ _ = _
        by_cases h : k = l
        · subst h; rw [Function.update_self]
        · rw [Function.update_of_ne h]; exact h1 k k0 (by omega)
      · show Function.update _ _ _ _ = _
        by_cases h : k = l
        · subst h; rw [Function.update_self]
        · rw [Function.update_of_ne h]; exact h2 k k0 (by omega)
      · show Function.update _ _ _ _ = _
        rw [Function.update_of_ne (by omega)]; exact h3 i hi
      · show Function.update _ _ _ _ = _
        rw [Function.update_of_ne (by omega)]; exact h4 i hi
  rw [max_eq_right (by omega)] at h1 h2
  dsimp only at sA sB h1 h2 h3 h4
  refine ⟨⟨A.size, Function.update A.val (N - 1) 0⟩, ⟨B.size, Function.update B.val (N - 1) 0⟩, ?_, sA, sB, fun l l0 l1 => ?_, ?_, fun l l0 l1 => ?_, fun i hi => ?_, fun i hi => ?_⟩
  · unfold gradZonal
    rw [e]
    show (B.wr _ _).bind _ = _
    rw [Buf.wr_of (by omega) (by omega)]
    show (A.wr _ _).map _ = _
    rw [Buf.wr_of (by omega) (by omega)]
    rfl
  · show Function.update _ _ _ _ = _
    rw [Function.update_of_ne (by omega)]; exact h1 l l0 l1
  · show Function.update _ _ _ _ = _
    rw [Function.update_self]
  · show Function.update _ _ _ _ = _
    by_cases h : l = N - 1
    · subst h; rw [Function.update_self]
    · rw [Function.update_of_ne h]; exact h2 l l0 (by omega)
  · show Function.update _ _ _ _ = _
    rw [Function.update_of_ne (by omega)]; exact h3 i hi
  · show Function.update _ _ _ _ = _
    rw [Function.update_of_ne (by omega)]; exact h4 i hi

theorem col_mem {N m k c : Int} (hm : 1 ≤ m) (k0 : 0 ≤ k) (k1 : k < N + 1 - m) (hc : c = 2 * m - 1 ∨ c = 2 * m) : N * (2 * m - 1) ≤ k + N * c ∧ k + N * c < N * (2 * m + 1) := by
  obtain ⟨c0, c1, c2⟩ := cols hm (show 0 ≤ N by omega)
  rcases hc with rfl | rfl <;> omega

theorem ThetaEq.congr {N m : Int} {U Ut Ut' : Int → K} (hm : 1 ≤ m) (h : ThetaEq sqrt N m U Ut) (hu : ∀ i, N * (2 * m - 1) ≤ i → i < N * (2 * m + 1) → Ut' i = Ut i) : ThetaEq sqrt N m U Ut' :=
  fun l l0 l1 c hc => by
    rw [← h l l0 l1 c hc]
    exact sum_Ico_congr fun k k0 k1 => by rw [hu _ (col_mem hm k0 k1 hc).1 (col_mem hm k0 k1 hc).2]

theorem PhiEq.congr {N m : Int} {U Up Up' : Int → K} (hm : 1 ≤ m) (h : PhiEq sqrt N m U Up) (hu : ∀ i, N * (2 * m - 1) ≤ i → i < N * (2 * m + 1) → Up' i = Up i) : PhiEq sqrt N m U Up' :=
  fun l l0 l1 => by
    rw [← (h l l0 l1).1, ← (h l l0 l1).2]
    exact ⟨sum_Ico_congr fun k k0 k1 => by rw [hu _ (col_mem hm k0 k1 (.inl rfl)).1 (col_mem hm k0 k1 (.inl rfl)).2],
      sum_Ico_congr fun k k0 k1 => by rw [hu _ (col_mem hm k0 k1 (.inr rfl)).1 (col_mem hm k0 k1 (.inr rfl)).2]⟩

theorem mono {N a b : Int} (hN : 0 ≤ N) (h : a ≤ b) : N * a ≤ N * b := mul_le_mul_of_nonneg_left h hN

/-- The zonal part of a gradient. -/
def ZonalEq (sqrt : K → K) (N : Int) (U Ut Up : Int → K) : Prop :=
  (∀ l, 0 ≤ l → l < N - 1 → Ut l = -sqrt (((l : K) + 1) * ((l : K) + 2)) * U (l + 1)) ∧ Ut (N - 1) = 0 ∧ ∀ l, 0 ≤ l → l < N → Up l = 0

theorem execGrad_run (hs : IsSqrt sqrt) {P : GradPlan K} {N M : Int} {U Ut Up : Buf K} (hP : ∀ m, 1 ≤ m → m ≤ N → GradOK sqrt P N m) (hN : 1 ≤ N) (hM0 : 0 ≤ M) (hM : M / 2 ≤ N)
    (hU : N * (2 * (M / 2) + 1) ≤ U.size) (ht : N * (2 * (M / 2) + 1) ≤ Ut.size) (hp : N * (2 * (M / 2) + 1) ≤ Up.size) :
    ∃ Ut' Up', execGrad sqrt P U Ut Up N M = some (Ut', Up') ∧ Ut'.size = Ut.size ∧ Up'.size = Up.size ∧ ZonalEq sqrt N U.val Ut'.val Up'.val ∧
      (∀ m, 1 ≤ m → m ≤ M / 2 → ThetaEq sqrt N m U.val Ut'.val ∧ PhiEq sqrt N m U.val Up'.val) := by
  have h1 : N ≤ N * (2 * (M / 2) + 1) := le_mul_of_one_le_right (by omega) (by omega)
  obtain ⟨A, B, e, sA, sB, z1, z2, z3, -, -⟩ := gradZonal_run (sqrt := sqrt) (U := U) (Ut := Ut) (Up := Up) hN (by omega) (by omega) (by omega)
  obtain ⟨A', e1, sA', k1, t1⟩ := forUp_spec (lo := 1) (hi := M / 2 + 1) (s := A) (body := gradTheta P U N)
    (fun m C => C.size = A.size ∧ (∀ i, i < N → C.val i = A.val i) ∧ ∀ k, 1 ≤ k → k < m → ThetaEq sqrt N k U.val C.val)
    ⟨rfl, fun _ _ => rfl, fun _ _ _ => by omega⟩
    fun m m0 m1 C ⟨sC, kC, tC⟩ => by
      have b := mono (N := N) (a := 2 * m + 1) (b := 2 * (M / 2) + 1) (by omega) (by omega)
      obtain ⟨C', e', s', t', o'⟩ := gradTheta_run hs (U := U) (Ut := C) (hP m m0 (by omega)) m0 (by omega) (by omega) (by omega)
      have b1 := mono (N := N) (a := 1) (b := 2 * m - 1) (by omega) (by omega)
      rw [mul_one] at b1
      refine ⟨C', e', by omega, fun i hi => (o' i (by omega)).trans (kC i hi), fun k k0 k1 => ?_⟩
      by_cases h : k = m
      · exact h ▸ t'
      · have b2 := mono (N := N) (a := 2 * k + 1) (b := 2 * m - 1) (by omega) (by omega)
        exact (tC k k0 (by omega)).congr k0 fun i i0 i1 => o' i (by omega)
  obtain ⟨B', e2, sB', k2, t2⟩ := forUp_spec (lo := 1) (hi := M / 2 + 1) (s := B) (body := gradPhi P U N)
    (fun m C => C.size = B.size ∧ (∀ i, i < N → C.val i = B.val i) ∧ ∀ k, 1 ≤ k → k < m → PhiEq sqrt N k U.val C.val)
    ⟨rfl, fun _ _ => rfl, fun _ _ _ => by omega⟩
    fun m m0 m1 C ⟨sC, kC, tC⟩ => by
      have b := mono (N := N) (a := 2 * m + 1) (b := 2 * (M / 2) + 1) (by omega) (by omega)
      obtain ⟨C', e', s', t', o'⟩ := gradPhi_run hs (U := U) (Up := C) (hP m m0 (by omega)) m0 (by omega) (by omega) (by omega)
      have b1 := mono (N := N) (a := 1) (b := 2 * m - 1) (by omega) (by omega)
      rw [mul_one] at b1
      refine ⟨C', e', by omega, fun i hi => (o' i (by omega)).trans (kC i hi), fun k k0 k1 => ?_⟩
      by_cases h : k = m
      · exact h ▸ t'
      · have b2 := mono (N := N) (a := 2 * k + 1) (b := 2 * m - 1) (by omega) (by omega)
        exact (tC k k0 (by omega)).congr k0 fun i i0 i1 => o' i (by omega)
  refine ⟨A', B', ?_, by omega, by omega, ⟨fun l l0 l1 => (k1 l (by omega)).trans (z1 l l0 l1), (k1 _ (by omega)).trans z2, fun l l0 l1 => (k2 l l1).trans (z3 l l0 l1)⟩,
    fun m m0 m1 => ⟨t1 m m0 (by omega), t2 m m0 (by omega)⟩⟩
  unfold execGrad
  rw [e]
  show (forUp _ _ _ A).bind _ = _
  rw [e1]
  show (forUp _ _ _ B).map _ = _
  rw [e2]
  rfl

theorem negate_run {A : Buf K} {n : Int} (h : n ≤ A.size) :
    ∃ A', forUp 0 n (fun i (Ut : Buf K) => (Ut.rd i).bind fun v => Ut.wr i (-v)) A = some A' ∧ A'.size = A.size ∧ (∀ i, 0 ≤ i → i < n → A'.val i = -A.val i) ∧ ∀ i, n ≤ i → A'.val i = A.val i := by
  obtain ⟨A', e, s, h1, h2⟩ := forUp_spec (lo := 0) (hi := n) (s := A) (body := fun i (Ut : Buf K) => (Ut.rd i).bind fun v => Ut.wr i (-v))
    (fun k C => C.size = A.size ∧ (∀ i, 0 ≤ i → i < k → C.val i = -A.val i) ∧ ∀ i, k ≤ i → C.val i = A.val i)
    ⟨rfl, fun _ _ _ => by omega, fun _ _ => rfl⟩
    fun l l0 l1 C ⟨sC, h1, h2⟩ => by
      refine ⟨⟨C.size, Function.update C.val l (-C.val l)⟩, ?_, sC, fun i i0 i1 => ?_, fun i hi => ?_⟩
      · beta_reduce
        rw [Buf.rd_of (by omega) (by omega)]
        show C.wr _ _ = _
        rw [Buf.wr_of (by omega) (by omega)]
      · show Function.update _ _ _ _ = _
        by_cases h : i = l
        · subst h; rw [Function.update_self, h2 i le_rfl]
        · rw [Function.update_of_ne h]; exact h1 i i0 (by omega)
      · show Function.update _ _ _ _ = _
        rw [Function.update_of_ne (by omega)]; exact h2 i (by omega)
  rcases le_or_gt 0 n with hn | hn
  · rw [max_eq_right hn] at h1 h2
    exact ⟨A', e, s, h1, h2⟩
  · rw [max_eq_left hn.le] at h1 h2
    exact ⟨A, by unfold forUp; rw [show (n - 0).toNat = 0 by omega]; rfl, rfl, fun _ _ _ => by omega, fun _ _ => rfl⟩

/-- The matrices of order `m` of a Helmholtz-Hodge plan. -/
def HodgeOK (sqrt : K → K) (P : HodgePlan K) (n m : Int) : Prop :=
  ∃ T F, P.T.rd (m - 1) = some T ∧ StoresT T (n + 1 - m) 2 (sineM sqrt m (n + 1 - m) (n - 1 - m)) ∧ P.F.rd (m - 1) = some F ∧
    ∀ (b : Buf K) (x : Int → K), 2 * n + 4 - 2 * m ≤ b.size → (∀ r, 0 ≤ r → r < 2 * n + 4 - 2 * m → ∑ c ∈ Finset.Ico 0 (2 * n + 2 - 2 * m), hodgeM sqrt m (n + 1 - m) (n - m) r c * x c = b.val r) →
      ∃ y z, bqmv 'T' F b = some y ∧ brsv 'N' F.factors y = some z ∧ z.size = b.size ∧ ∀ c, 0 ≤ c → c < 2 * n + 2 - 2 * m → z.val c = x c

theorem planHodge_run (hs : IsSqrt sqrt) (junkT : TB K) (junkF : BandedQ K) (junk : Int → K) (n : Int) :
    ∃ P, planHodge sqrt junkT junkF junk n = some P ∧ P.X.size = (2 * n + 2).toNat ∧ ∀ m, 1 ≤ m → m ≤ n → HodgeOK sqrt P n m := by
  obtain ⟨s, e, -, -, h⟩ := forUp_spec (lo := 1) (hi := n + 1) (s := ((⟨n.toNat, fun _ => junkT⟩, ⟨n.toNat, fun _ => junkF⟩) : Buf (TB K) × Buf (BandedQ K)))
    (body := fun m (s : Buf (TB K) × Buf (BandedQ K)) =>
      (sineMul sqrt n m).bind fun t => (s.1.wr (m - 1) t).bind fun T => (hodgeConv sqrt n m).bind fun A => (qrfact sqrt A).bind fun f => (s.2.wr (m - 1) f).map fun F => (T, F))
    (fun m s => s.1.size = n.toNat ∧ s.2.size = n.toNat ∧ ∀ k, 1 ≤ k → k < m → HodgeOK sqrt ⟨s.1, s.2, ⟨(2 * n + 2).toNat, junk⟩, n⟩ n k)
    ⟨rfl, rfl, fun k _ _ => by omega⟩
    fun m m0 m1 s ⟨s1, s2, hk⟩ => by
      obtain ⟨t, et, ht⟩ := sine_run (sqrt := sqrt) (n := n) m0 (by omega)
      obtain ⟨A, eA, hA⟩ := hodge_run (sqrt := sqrt) (n := n) m0 (by omega)
      obtain ⟨F, eF, hF⟩ := C20_qr_solve hs hA (by omega) (by omega) (by decide) (by decide) (hodge_indep hs m0 (by omega))
      have w1 := Buf.wr_of (b := s.1) (i := m - 1) (v := t) (by omega) (by omega)
      have w2 := Buf.wr_of (b := s.2) (i := m - 1) (v := F) (by omega) (by omega)
      refine ⟨(⟨s.1.size, Function.update s.1.val (m - 1) t⟩, ⟨s.2.size, Function.update s.2.val (m - 1) F⟩), ?_, s1, s2, fun k k0 k1 => ?_⟩
      · beta_reduce
        rw [et]
        show (s.1.wr _ _).bind _ = _
        rw [w1]
        show (hodgeConv _ _ _).bind _ = _
        rw [eA]
        show (qrfact _ _).bind _ = _
        rw [eF]
        show (s.2.wr _ _).map _ = _
        rw [w2]
        rfl
      · by_cases h : k = m
        · subst h
          refine ⟨t, F, (rd_upd w1).trans (if_pos rfl), ht, (rd_upd w2).trans (if_pos rfl), fun b x hb hx => ?_⟩
          obtain ⟨y, z, ey, ez, sz, hz, -⟩ := hF b x hb hx
          exact ⟨y, z, ey, ez, sz, hz⟩
        · obtain ⟨T, F', e1, h1, e2, h2⟩ := hk k k0 (by omega)
          exact ⟨T, F', (rd_upd w1).trans ((if_neg (by omega)).trans e1), h1, (rd_upd w2).trans ((if_neg (by omega)).trans e2), h2⟩
  refine ⟨⟨s.1, s.2, ⟨(2 * n + 2).toNat, junk⟩, n⟩, ?_, rfl, fun m m0 m1 => h m m0 (by omega)⟩
  unfold planHodge
  rw [e]
  rfl

end FT.Hodge
