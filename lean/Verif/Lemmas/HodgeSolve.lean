import Verif.Lemmas.HodgeExec

/-! # Runs of the Helmholtz-Hodge decomposition -/

set_option linter.unusedSectionVars false

namespace FT.Hodge
open FT FT.Props
variable {K : Type*} [Field K] [LinearOrder K] [IsStrictOrderedRing K] {sqrt : K → K}

theorem hodgeIn_run {V1 V2 X : Buf K} {N m c1 c2 : Int} {sg : K} (hm : 1 ≤ m) (hN : m ≤ N) (a1 : 0 ≤ N * c1) (a2 : 0 ≤ N * c2) (b1 : N * c1 + N ≤ V1.size) (b2 : N * c2 + N ≤ V2.size) (hX : 2 * N + 2 ≤ X.size) :
    ∃ X', hodgeIn V1 V2 N m c1 c2 sg X = some X' ∧ X'.size = X.size ∧ (∀ l, 0 ≤ l → l < N + 1 - m → X'.val (2 * l) = V1.val (l + N * c1) ∧ X'.val (2 * l + 1) = sg * V2.val (l + N * c2)) ∧
      X'.val (2 * N + 2 - 2 * m) = 0 ∧ X'.val (2 * N + 3 - 2 * m) = 0 := by
  obtain ⟨Y, e, sY, y0, y1, y2⟩ := forUp_spec (lo := 0) (hi := N - m) (s := (⟨X.size, Function.update (Function.update X.val 0 (V1.val (N * c1))) (2 * N + 1 - 2 * m) (sg * V2.val (N - m + N * c2))⟩ : Buf K))
    (body := fun l X => (V2.rd (l + N * c2)).bind fun v => (X.wr (2 * l + 1) (sg * v)).bind fun X => (V1.rd (l + 1 + N * c1)).bind fun v => X.wr (2 * l + 2) v)
    (fun k Y => Y.size = X.size ∧ Y.val 0 = V1.val (N * c1) ∧ Y.val (2 * N + 1 - 2 * m) = sg * V2.val (N - m + N * c2) ∧
      ∀ l, 0 ≤ l → l < k → Y.val (2 * l + 1) = sg * V2.val (l + N * c2) ∧ Y.val (2 * l + 2) = V1.val (l + 1 + N * c1))
    ⟨rfl, by show Function.update _ _ _ _ = _; rw [Function.update_of_ne (by omega), Function.update_self], by show Function.update _ _ _ _ = _; rw [Function.update_self], fun _ _ _ => by omega⟩
    fun l l0 l1 Y ⟨sY, y0, y1, y2⟩ => by
      refine ⟨⟨Y.size, Function.update (Function.update Y.val (2 * l + 1) (sg * V2.val (l + N * c2))) (2 * l + 2) (V1.val (l + 1 + N * c1))⟩, ?_, sY, ?_, ?_, fun k k0 k1 => ⟨?_, ?_⟩⟩
      · beta_reduce
        rw [Buf.rd_of (by omega) (by omega)]
        show (Y.wr _ _).bind _ = _
        rw [Buf.wr_of (by omega) (by omega)]
        show (V1.rd _).bind _ = _
        rw [Buf.rd_of (by omega) (by omega)]
        show Buf.wr _ _ _ = _
        rw [Buf.wr_of (by omega) (by show _ < ((Y.size : Nat) : Int); omega)]
      · show Function.update _ _ _ _ = _
        rw [Function.update_of_ne (by omega), Function.update_of_ne (by omega)]; exact y0
      · show Function.update _ _ _ _ = _
        rw [Function.update_of_ne (by omega), Function.update_of_ne (by omega)]; exact y1
      · show Function.update _ _ _ _ = _
        rw [Function.update_of_ne (by omega)]
        by_cases h : k = l
        · subst h; rw [Function.update_self]
        · rw [Function.update_of_ne (by omega)]; exact (y2 k k0 (by omega)).1
      · show Function.update _ _ _ _ = _
        by_cases h : k = l
        · subst h; rw [Function.update_self]
        · rw [Function.update_of_ne (by omega), Function.update_of_ne (by omega)]; exact (y2 k k0 (by omega)).2
  rw [max_eq_right (by omega)] at y2
  refine ⟨⟨Y.size, Function.update (Function.update Y.val (2 * N + 3 - 2 * m) 0) (2 * N + 2 - 2 * m) 0⟩, ?_, sY, fun l l0 l1 => ⟨?_, ?_⟩, ?_, ?_⟩
  · unfold hodgeIn
    rw [Buf.rd_of (by omega) (by omega)]
    show (X.wr _ _).bind _ = _
    rw [Buf.wr_of (by omega) (by omega)]
    show (V2.rd _).bind _ = _
    rw [Buf.rd_of (by omega) (by omega)]
    show (Buf.wr _ _ _).bind _ = _
    rw [Buf.wr_of (by omega) (by show _ < ((X.size : Nat) : Int); omega)]
    show (forUp _ _ _ _).bind _ = _
    rw [e]
    show (Y.wr _ _).bind _ = _
    rw [Buf.wr_of (by omega) (by omega)]
    show Buf.wr _ _ _ = _
    rw [Buf.wr_of (by omega) (by show _ < ((Y.size : Nat) : Int); omega)]
  · show Function.update _ _ _ _ = _
    rw [Function.update_of_ne (by omega), Function.update_of_ne (by omega)]
    by_cases h : l = 0
    · subst h; rw [mul_zero, zero_add]; exact y0
    · have := (y2 (l - 1) (by omega) (by omega)).2
      rwa [show 2 * (l - 1) + 2 = 2 * l by ring, sub_add_cancel] at this
  · show Function.update _ _ _ _ = _
    rw [Function.update_of_ne (by omega), Function.update_of_ne (by omega)]
    by_cases h : l = N - m
    · subst h; rw [show 2 * (N - m) + 1 = 2 * N + 1 - 2 * m by ring]; exact y1
    · exact (y2 l l0 (by omega)).1
  · show Function.update _ _ _ _ = _
    rw [Function.update_self]
  · show Function.update _ _ _ _ = _
    rw [Function.update_of_ne (by omega), Function.update_self]

theorem hodgeOut_run {X U1 U2 : Buf K} {N m c1 c2 : Int} {sg : K} (hm : 1 ≤ m) (hN : m < N) (a1 : 0 ≤ N * c1) (a2 : 0 ≤ N * c2) (b1 : N * c1 + N ≤ U1.size) (b2 : N * c2 + N ≤ U2.size) (hX : 2 * N + 2 ≤ X.size) :
    ∃ W1 W2, hodgeOut X N m c1 c2 sg U1 U2 = some (W1, W2) ∧ W1.size = U1.size ∧ W2.size = U2.size ∧
      (∀ l, 0 ≤ l → l < N - m → W1.val (l + N * c1) = X.val (2 * l) ∧ W2.val (l + N * c2) = sg * X.val (2 * l + 1)) ∧
      (∀ i, ¬ (N * c1 ≤ i ∧ i < N * c1 + (N - m)) → W1.val i = U1.val i) ∧ ∀ i, ¬ (N * c2 ≤ i ∧ i < N * c2 + (N - m)) → W2.val i = U2.val i := by
  obtain ⟨⟨A, B⟩, e, sA, sB, v0, v, oA, oB⟩ := forUp_spec (lo := 0) (hi := N - 1 - m)
    (s := ((⟨U1.size, Function.update U1.val (N * c1) (X.val 0)⟩, ⟨U2.size, Function.update U2.val (N * c2) (X.val (N - m))⟩) : Buf K × Buf K))
    (body := fun l (s : Buf K × Buf K) => (X.rd (2 * l + 2)).bind fun v => (s.1.wr (l + 1 + N * c1) v).bind fun U1 => (X.rd (2 * l + 1)).bind fun v => (s.2.wr (l + N * c2) (sg * v)).map fun U2 => (U1, U2))
    (fun k s => s.1.size = U1.size ∧ s.2.size = U2.size ∧ s.1.val (N * c1) = X.val 0 ∧
      (∀ l, 0 ≤ l → l < k → s.1.val (l + 1 + N * c1) = X.val (2 * l + 2) ∧ s.2.val (l + N * c2) = sg * X.val (2 * l + 1)) ∧
      (∀ i, ¬ (N * c1 ≤ i ∧ i < N * c1 + (N - m)) → s.1.val i = U1.val i) ∧ ∀ i, ¬ (N * c2 ≤ i ∧ i < N * c2 + (N - m)) → s.2.val i = U2.val i)
    ⟨rfl, rfl, by show Function.update _ _ _ _ = _; rw [Function.update_self], fun _ _ _ => by omega,
      fun i hi => by show Function.update _ _ _ _ = _; rw [Function.update_of_ne (by omega)], fun i hi => by show Function.update _ _ _ _ = _; rw [Function.update_of_ne (by omega)]⟩
    fun l l0 l1 s ⟨sA, sB, v0, v, oA, oB⟩ => by
      refine ⟨(⟨s.1.size, Function.update s.1.val (l + 1 + N * c1) (X.val (2 * l + 2))⟩, ⟨s.2.size, Function.update s.2.val (l + N * c2) (sg * X.val (2 * l + 1))⟩), ?_, sA, sB, ?_, fun k k0 k1 => ⟨?_, ?_⟩, fun i hi => ?_, fun i hi => ?_⟩
      · beta_reduce
        rw [Buf.rd_of (by omega) (by omega)]
        show (s.1.wr _ _).bind _ = _
        rw [Buf.wr_of (by omega) (by omega)]
        show (X.rd _).bind _ = _
        rw [Buf.rd_of (by omega) (by omega)]
        show (s.2.wr _ _).map _ = _
        rw [Buf.wr_of (by omega) (by omega)]
        rfl
      · show Function.update _ _ _ _ = _
        rw [Function.update_of_ne (by omega)]; exact v0
      · show Function.update _ _ _ _ = _
        by_cases h : k = l
        · subst h; rw [Function.update_self]
        · rw [Function.update_of_ne (by omega)]; exact (v k k0 (by omega)).1
      · show Function.update _ _ _ _ = _
        by_cases h : k = l
        · subst h; rw [Function.update_self]
        · rw [Function.update_of_ne (by omega)]; exact (v k k0 (by omega)).2
      · show Function.update _ _ _ _ = _
        rw [Function.update_of_ne (by omega)]; exact oA i hi
      · show Function.update _ _ _ _ = _
        rw [Function.update_of_ne (by omega)]; exact oB i hi
  rw [max_eq_right (by omega)] at v
  dsimp only at sA sB v0 v oA oB
  refine ⟨A, ⟨B.size, Function.update B.val (N - 1 - m + N * c2) (sg * X.val (2 * N - 2 * m - 1))⟩, ?_, sA, sB, fun l l0 l1 => ⟨?_, ?_⟩, oA, fun i hi => ?_⟩
  · unfold hodgeOut
    rw [Buf.rd_of (by omega) (by omega)]
    show (U1.wr _ _).bind _ = _
    rw [Buf.wr_of (by omega) (by omega)]
    show (X.rd _).bind _ = _
    rw [Buf.rd_of (by omega) (by omega)]
    show (U2.wr _ _).bind _ = _
    rw [Buf.wr_of (by omega) (by omega)]
    show (forUp _ _ _ _).bind _ = _
    rw [e]
    show (X.rd _).bind _ = _
    rw [Buf.rd_of (by omega) (by omega)]
    show (B.wr _ _).map _ = _
    rw [Buf.wr_of (by omega) (by omega)]
    rfl
  · by_cases h : l = 0
    · subst h; rw [mul_zero, zero_add]; exact v0
    · have := (v (l - 1) (by omega) (by omega)).1
      rwa [show 2 * (l - 1) + 2 = 2 * l by ring, sub_add_cancel] at this
  · show Function.update _ _ _ _ = _
    by_cases h : l = N - 1 - m
    · subst h
      rw [Function.update_self, show 2 * (N - 1 - m) + 1 = 2 * N - 2 * m - 1 by ring]
    · rw [Function.update_of_ne (by omega)]; exact (v l l0 (by omega)).2
  · show Function.update _ _ _ _ = _
    rw [Function.update_of_ne (by omega)]; exact oB i hi

/-- Outside the rows written in column `c`. -/
def Out (N m c i : Int) : Prop := ¬ (N * c ≤ i ∧ i < N * c + (N - m))

theorem hodgeSolve_run {F : BandedQ K} {N m c1 c2 : Int} {sg : K} {s : HodgeState K} (hm : 1 ≤ m) (hN : m < N) (a1 : 0 ≤ N * c1) (a2 : 0 ≤ N * c2)
    (b1 : N * c1 + N ≤ s.U1.size) (b2 : N * c2 + N ≤ s.U2.size) (d1 : N * c1 + N ≤ s.V1.size) (d2 : N * c2 + N ≤ s.V2.size) (hX : 2 * N + 2 ≤ s.X.size)
    (hF : ∀ (b : Buf K) (x : Int → K), 2 * N + 4 - 2 * m ≤ b.size → (∀ r, 0 ≤ r → r < 2 * N + 4 - 2 * m → ∑ c ∈ Finset.Ico 0 (2 * N + 2 - 2 * m), hodgeM sqrt m (N + 1 - m) (N - m) r c * x c = b.val r) →
      ∃ y z, bqmv 'T' F b = some y ∧ brsv 'N' F.factors y = some z ∧ z.size = b.size ∧ ∀ c, 0 ≤ c → c < 2 * N + 2 - 2 * m → z.val c = x c)
    {u v : Int → K} (hu : u (N - m) = 0) (hv : v (N - m) = 0)
    (h1 : ∀ l, 0 ≤ l → l < N + 1 - m → s.V1.val (l + N * c1) = row sqrt N m l u + (m : K) * v l) (h2 : ∀ l, 0 ≤ l → l < N + 1 - m → sg * s.V2.val (l + N * c2) = row sqrt N m l v + (m : K) * u l) :
    ∃ s', hodgeSolve F N m c1 c2 sg s = some s' ∧ s'.X.size = s.X.size ∧ s'.U1.size = s.U1.size ∧ s'.U2.size = s.U2.size ∧ s'.V1 = s.V1 ∧ s'.V2 = s.V2 ∧
      (∀ l, 0 ≤ l → l < N - m → s'.U1.val (l + N * c1) = u l ∧ s'.U2.val (l + N * c2) = sg * v l) ∧
      (∀ i, Out N m c1 i → s'.U1.val i = s.U1.val i) ∧ ∀ i, Out N m c2 i → s'.U2.val i = s.U2.val i := by
  obtain ⟨X, eX, sX, vX, x1, x2⟩ := hodgeIn_run (V1 := s.V1) (V2 := s.V2) (X := s.X) (sg := sg) hm hN.le a1 a2 d1 d2 hX
  obtain ⟨y, z, ey, ez, sz, hz⟩ := hF X (fun c => if c % 2 = 0 then u (c / 2) else v (c / 2)) (by omega) fun r r0 r1 => by
    have ev : ∀ k : Int, (if 2 * k % 2 = 0 then u (2 * k / 2) else v (2 * k / 2)) = u k := fun k => by rw [if_pos (by omega), show 2 * k / 2 = k by omega]
    have od : ∀ k : Int, (if (2 * k + 1) % 2 = 0 then u ((2 * k + 1) / 2) else v ((2 * k + 1) / 2)) = v k := fun k => by rw [if_neg (by omega), show (2 * k + 1) / 2 = k by omega]
    by_cases h : r < 2 * N + 2 - 2 * m
    · rcases (show r = 2 * (r / 2) ∨ r = 2 * (r / 2) + 1 by omega) with h' | h'
      · rw [h', hodge_even (by omega) (by omega), (vX (r / 2) (by omega) (by omega)).1, h1 (r / 2) (by omega) (by omega), od]
        simp only [ev]
      · rw [h', hodge_odd (by omega) (by omega), (vX (r / 2) (by omega) (by omega)).2, h2 (r / 2) (by omega) (by omega), ev]
        simp only [od]
    · rcases (show r = 2 * N + 2 - 2 * m + 0 ∨ r = 2 * N + 2 - 2 * m + 1 by omega) with h' | h'
      · rw [h', hodge_last hN.le le_rfl (by decide), add_zero, add_zero, ev, hu, mul_zero, x1]
      · rw [h', hodge_last hN.le (by decide) (by decide), od, hv, mul_zero, ← x2]
        congr 1
        ring
  obtain ⟨W1, W2, eW, s1, s2, vW, o1, o2⟩ := hodgeOut_run (X := z) (U1 := s.U1) (U2 := s.U2) (sg := sg) hm hN a1 a2 b1 b2 (by omega)
  refine ⟨⟨z, W1, W2, s.V1, s.V2⟩, ?_, sz.trans sX, s1, s2, rfl, rfl, fun l l0 l1 => ?_, o1, o2⟩
  · unfold hodgeSolve
    rw [eX]
    show (bqmv _ _ _).bind _ = _
    rw [ey]
    show (brsv _ _ _).bind _ = _
    rw [ez]
    show (hodgeOut _ _ _ _ _ _ _ _).map _ = _
    rw [eW]
    rfl
  · obtain ⟨e1, e2⟩ := vW l l0 l1
    rw [hz _ (by omega) (by omega), if_pos (by omega), show 2 * l / 2 = l by omega] at e1
    rw [hz _ (by omega) (by omega), if_neg (by omega), show (2 * l + 1) / 2 = l by omega] at e2
    exact ⟨e1, e2⟩

/-- Multiplication of a column by the sine. -/
noncomputable def sineCol (sqrt : K → K) (N m : Int) (V : Int → K) (c l : Int) : K := ∑ k ∈ Finset.Ico 0 (N + 1 - m), sineM sqrt m (N + 1 - m) (N - 1 - m) l k * V (k + N * c)

theorem sine2_run {T : TB K} {N m : Int} {V : Buf K} (hT : StoresT T (N + 1 - m) 2 (sineM sqrt m (N + 1 - m) (N - 1 - m))) (hm : 1 ≤ m) (hN : m ≤ N) (hV : N * (2 * m + 1) ≤ V.size) :
    ∃ A V', onTail (tbmv 'N' T) (N * (2 * m - 1)) V = some A ∧ onTail (tbmv 'N' T) (N * (2 * m)) A = some V' ∧ V'.size = V.size ∧
      (∀ l, 0 ≤ l → l < N + 1 - m → ∀ c, (c = 2 * m - 1 ∨ c = 2 * m) → V'.val (l + N * c) = sineCol sqrt N m V.val c l) ∧ ∀ i, ¬ (N * (2 * m - 1) ≤ i ∧ i < N * (2 * m + 1)) → V'.val i = V.val i := by
  obtain ⟨c0, c1, c2⟩ := cols hm (show 0 ≤ N by omega)
  have hM := C18_tbmv hT (by decide) (tr := 'N') (.inl rfl)
  obtain ⟨A, e1, s1, v1, o1⟩ := tail_mult hM (o := N * (2 * m - 1)) (b := V) (by omega) (by omega) (by omega)
  obtain ⟨B, e2, s2, v2, o2⟩ := tail_mult hM (o := N * (2 * m)) (b := A) (by omega) (by omega) (by omega)
  refine ⟨A, B, e1, e2, by omega, fun l l0 l1 c hc => ?_, fun i hi => by rw [o2 i (by omega), o1 i (by omega)]⟩
  rcases hc with rfl | rfl
  · rw [o2 _ (by omega), v1 l l0 l1]
    rfl
  · rw [v2 l l0 l1]
    exact sum_Ico_congr fun k k0 k1 => by rw [o1 _ (by omega)]; rfl

theorem hodgeZonal_run (hs : IsSqrt sqrt) {N : Int} {s : HodgeState K} (hN : 1 ≤ N) (u1 : N ≤ s.U1.size) (u2 : N ≤ s.U2.size) (v1 : N ≤ s.V1.size) (v2 : N ≤ s.V2.size) :
    ∃ W1 W2, hodgeZonal sqrt N s = some ⟨s.X, W1, W2, s.V1, s.V2⟩ ∧ W1.size = s.U1.size ∧ W2.size = s.U2.size ∧ W1.val 0 = 0 ∧ W2.val 0 = 0 ∧
      (∀ l, 0 ≤ l → l < N - 1 → W1.val (l + 1) = -s.V1.val l / sqrt (((l : K) + 1) * ((l : K) + 2)) ∧ W2.val (l + 1) = -s.V2.val l / sqrt (((l : K) + 1) * ((l : K) + 2))) ∧
      (∀ i, N ≤ i → W1.val i = s.U1.val i) ∧ ∀ i, N ≤ i → W2.val i = s.U2.val i := by
  obtain ⟨⟨A, B⟩, e, sA, sB, z1, z2, v, o1, o2⟩ := forUp_spec (lo := 0) (hi := N - 1) (s := ((⟨s.U1.size, Function.update s.U1.val 0 0⟩, ⟨s.U2.size, Function.update s.U2.val 0 0⟩) : Buf K × Buf K))
    (body := fun l (u : Buf K × Buf K) => (s.V1.rd l).bind fun v => (divC (-v) (sqrt (((l : K) + 1) * ((l : K) + 2)))).bind fun v => (u.1.wr (l + 1) v).bind fun U1 =>
      (s.V2.rd l).bind fun v => (divC (-v) (sqrt (((l : K) + 1) * ((l : K) + 2)))).bind fun v => (u.2.wr (l + 1) v).map fun U2 => (U1, U2))
    (fun k u => u.1.size = s.U1.size ∧ u.2.size = s.U2.size ∧ u.1.val 0 = 0 ∧ u.2.val 0 = 0 ∧
      (∀ l, 0 ≤ l → l < k → u.1.val (l + 1) = -s.V1.val l / sqrt (((l : K) + 1) * ((l : K) + 2)) ∧ u.2.val (l + 1) = -s.V2.val l / sqrt (((l : K) + 1) * ((l : K) + 2))) ∧
      (∀ i, N ≤ i → u.1.val i = s.U1.val i) ∧ ∀ i, N ≤ i → u.2.val i = s.U2.val i)
    ⟨rfl, rfl, Function.update_self (0 : Int) (0 : K) s.U1.val, Function.update_self (0 : Int) (0 : K) s.U2.val, fun _ _ _ => by omega,
      fun i hi => by show Function.update _ _ _ _ = _; rw [Function.update_of_ne (by omega)], fun i hi => by show Function.update _ _ _ _ = _; rw [Function.update_of_ne (by omega)]⟩
    fun l l0 l1 u ⟨sA, sB, z1, z2, v, o1, o2⟩ => by
      have hd : sqrt (((l : K) + 1) * ((l : K) + 2)) ≠ 0 := (sqrt_pos hs (by have : (0 : K) ≤ l := by exact_mod_cast l0
                                                                             positivity)).ne'
      refine ⟨(⟨u.1.size, Function.update u.1.val (l + 1) (-s.V1.val l / sqrt (((l : K) + 1) * ((l : K) + 2)))⟩, ⟨u.2.size, Function.update u.2.val (l + 1) (-s.V2.val l / sqrt (((l : K) + 1) * ((l : K) + 2)))⟩), ?_, sA, sB, ?_, ?_,
        fun k k0 k1 => ?_, fun i hi => ?_, fun i hi => ?_⟩
      · beta_reduce
        rw [Buf.rd_of (by omega) (by omega)]
        show (divC _ _).bind _ = _
        rw [divC_of hd]
        show (u.1.wr _ _).bind _ = _
        rw [Buf.wr_of (by omega) (by omega)]
        show (s.V2.rd _).bind _ = _
        rw [Buf.rd_of (by omega) (by omega)]
        show (divC _ _).bind _ = _
        rw [divC_of hd]
        show (u.2.wr _ _).map _ = _
        rw [Buf.wr_of (by omega) (by omega)]
        rfl
      · show Function.update _ _ _ _ = _
        rw [Function.update_of_ne (by omega)]; exact z1
      · show Function.update _ _ _ _ = _
        rw [Function.update_of_ne (by omega)]; exact z2
      · show Function.update _ _ _ _ = _ ∧ Function.update _ _ _ _ = _
        by_cases h : k = l
        · subst h; rw [Function.update_self, Function.update_self]; exact ⟨rfl, rfl⟩
        · rw [Function.update_of_ne (by omega), Function.update_of_ne (by omega)]; exact v k k0 (by omega)
      · show Function.update _ _ _ _ = _
        rw [Function.update_of_ne (by omega)]; exact o1 i hi
      · show Function.update _ _ _ _ = _
        rw [Function.update_of_ne (by omega)]; exact o2 i hi
  rw [max_eq_right (by omega)] at v
  refine ⟨A, B, ?_, sA, sB, z1, z2, v, o1, o2⟩
  unfold hodgeZonal
  rw [Buf.wr_of (by omega) (by omega)]
  show (s.U1.wr _ _).bind _ = _
  rw [Buf.wr_of (by omega) (by omega)]
  show (forUp _ _ _ _).map _ = _
  rw [e]
  rfl

/-- The data of order `m` come from the potentials `Q1`, `Q2` (whose last row, of degree `N`, vanishes). -/
structure Data (sqrt : K → K) (N m : Int) (Q1 Q2 V1 V2 : Int → K) : Prop where
  last : ∀ c, (c = 2 * m - 1 ∨ c = 2 * m) → Q1 (N - m + N * c) = 0 ∧ Q2 (N - m + N * c) = 0
  one : ∀ l, 0 ≤ l → l < N + 1 - m → sineCol sqrt N m V1 (2 * m - 1) l = row sqrt N m l (fun k => Q1 (k + N * (2 * m - 1))) + (m : K) * Q2 (l + N * (2 * m))
  two : ∀ l, 0 ≤ l → l < N + 1 - m → sineCol sqrt N m V2 (2 * m) l = row sqrt N m l (fun k => Q2 (k + N * (2 * m))) + (m : K) * Q1 (l + N * (2 * m - 1))
  three : ∀ l, 0 ≤ l → l < N + 1 - m → sineCol sqrt N m V1 (2 * m) l = row sqrt N m l (fun k => Q1 (k + N * (2 * m))) - (m : K) * Q2 (l + N * (2 * m - 1))
  four : ∀ l, 0 ≤ l → l < N + 1 - m → sineCol sqrt N m V2 (2 * m - 1) l = row sqrt N m l (fun k => Q2 (k + N * (2 * m - 1))) - (m : K) * Q1 (l + N * (2 * m))

theorem row_neg {n m l : Int} (u : Int → K) : row sqrt n m l (fun k => -u k) = -row sqrt n m l u := by
  unfold row
  split_ifs <;> ring

/-- The potentials are recovered in the orders below `m`; the arrays of the data are unchanged from order `m` on. -/
structure Inv (N : Int) (Q1 Q2 : Int → K) (s0 : HodgeState K) (m : Int) (s : HodgeState K) : Prop where
  sX : s.X.size = s0.X.size
  sU1 : s.U1.size = s0.U1.size
  sU2 : s.U2.size = s0.U2.size
  sV1 : s.V1.size = s0.V1.size
  sV2 : s.V2.size = s0.V2.size
  v1 : ∀ i, N * (2 * m - 1) ≤ i → s.V1.val i = s0.V1.val i
  v2 : ∀ i, N * (2 * m - 1) ≤ i → s.V2.val i = s0.V2.val i
  done : ∀ k, 1 ≤ k → k < m → ∀ c, (c = 2 * k - 1 ∨ c = 2 * k) → ∀ l, 0 ≤ l → l < N - k → s.U1.val (l + N * c) = Q1 (l + N * c) ∧ s.U2.val (l + N * c) = Q2 (l + N * c)
  rest : ∀ i, (∀ k, 1 ≤ k → k < m → ∀ c, (c = 2 * k - 1 ∨ c = 2 * k) → Out N k c i) → s.U1.val i = s0.U1.val i ∧ s.U2.val i = s0.U2.val i

theorem hodgeStep_run {P : HodgePlan K} {N m : Int} {Q1 Q2 : Int → K} {s0 s : HodgeState K} (hP : HodgeOK sqrt P N m) (hm : 1 ≤ m) (hN : m < N) (hI : Inv N Q1 Q2 s0 m s)
    (hX : 2 * N + 2 ≤ s0.X.size) (u1 : N * (2 * m + 1) ≤ s0.U1.size) (u2 : N * (2 * m + 1) ≤ s0.U2.size) (w1 : N * (2 * m + 1) ≤ s0.V1.size) (w2 : N * (2 * m + 1) ≤ s0.V2.size)
    (hD : Data sqrt N m Q1 Q2 s0.V1.val s0.V2.val) :
    ∃ s', ((P.T.rd (m - 1)).bind fun T => (P.F.rd (m - 1)).bind fun F => (hodgeSine T N m s).bind fun s => (hodgeSolve F N m (2 * m - 1) (2 * m) 1 s).bind fun s => hodgeSolve F N m (2 * m) (2 * m - 1) (-1) s) = some s' ∧
      Inv N Q1 Q2 s0 (m + 1) s' := by
  obtain ⟨T, F, eT, hT, eF, hF⟩ := hP
  obtain ⟨c0, c1, c2⟩ := cols hm (show 0 ≤ N by omega)
  have sX := hI.sX
  have sU1 := hI.sU1
  have sU2 := hI.sU2
  have sV1 := hI.sV1
  have sV2 := hI.sV2
  obtain ⟨A1, B1, ea1, eb1, sB1, vB1, oB1⟩ := sine2_run hT hm hN.le (V := s.V1) (by omega)
  obtain ⟨A2, B2, ea2, eb2, sB2, vB2, oB2⟩ := sine2_run hT hm hN.le (V := s.V2) (by omega)
  have e1 : ∀ c, (c = 2 * m - 1 ∨ c = 2 * m) → ∀ l, sineCol sqrt N m s.V1.val c l = sineCol sqrt N m s0.V1.val c l := fun c hc l => by
    exact sum_Ico_congr fun k k0 k1 => by rw [hI.v1 _ (col_mem hm k0 k1 hc).1]
  have e2 : ∀ c, (c = 2 * m - 1 ∨ c = 2 * m) → ∀ l, sineCol sqrt N m s.V2.val c l = sineCol sqrt N m s0.V2.val c l := fun c hc l => by
    exact sum_Ico_congr fun k k0 k1 => by rw [hI.v2 _ (col_mem hm k0 k1 hc).1]
  obtain ⟨s1, es1, x1, su1, su2, sv1, sv2, r1, p1, p2⟩ := hodgeSolve_run (sqrt := sqrt) (F := F) (N := N) (m := m) (c1 := 2 * m - 1) (c2 := 2 * m) (sg := 1) (s := ⟨s.X, s.U1, s.U2, B1, B2⟩) hm hN (by omega) (by omega)
    (show _ ≤ ((s.U1.size : Nat) : Int) by omega) (show _ ≤ ((s.U2.size : Nat) : Int) by omega) (show _ ≤ ((B1.size : Nat) : Int) by omega) (show _ ≤ ((B2.size : Nat) : Int) by omega) (show _ ≤ ((s.X.size : Nat) : Int) by omega) hF
    (u := fun k => Q1 (k + N * (2 * m - 1))) (v := fun k => Q2 (k + N * (2 * m))) (hD.last _ (.inl rfl)).1 (hD.last _ (.inr rfl)).2
    (fun l l0 l1 => by show B1.val _ = _; rw [vB1 l l0 l1 _ (.inl rfl), e1 _ (.inl rfl), hD.one l l0 l1])
    (fun l l0 l1 => by show 1 * B2.val _ = _; rw [one_mul, vB2 l l0 l1 _ (.inr rfl), e2 _ (.inr rfl), hD.two l l0 l1])
  dsimp only at x1 su1 su2 sv1 sv2 p1 p2
  obtain ⟨s2, es2, x2, tu1, tu2, tv1, tv2, r2, q1, q2⟩ := hodgeSolve_run (sqrt := sqrt) (F := F) (N := N) (m := m) (c1 := 2 * m) (c2 := 2 * m - 1) (sg := -1) (s := s1) hm hN (by omega) (by omega)
    (by omega) (by omega) (by rw [sv1]; omega) (by rw [sv2]; omega) (by omega) hF
    (u := fun k => Q1 (k + N * (2 * m))) (v := fun k => -Q2 (k + N * (2 * m - 1))) (hD.last _ (.inr rfl)).1 (by rw [(hD.last _ (.inl rfl)).2, neg_zero])
    (fun l l0 l1 => by rw [sv1, vB1 l l0 l1 _ (.inr rfl), e1 _ (.inr rfl), hD.three l l0 l1]; ring)
    (fun l l0 l1 => by rw [sv2, vB2 l l0 l1 _ (.inl rfl), e2 _ (.inl rfl), hD.four l l0 l1, row_neg]; ring)
  have b2 : N * (2 * (m + 1) - 1) = N * (2 * m - 1) + N + N := by ring
  refine ⟨s2, ?_, ⟨by omega, by omega, by omega, by rw [tv1, sv1]; omega, by rw [tv2, sv2]; omega, fun i hi => ?_, fun i hi => ?_, fun k k0 k1 c hc l l0 l1 => ?_, fun i hi => ?_⟩⟩
  · rw [eT]
    show (P.F.rd _).bind _ = _
    rw [eF]
    show (hodgeSine _ _ _ _).bind _ = _
    have : hodgeSine T N m s = some ⟨s.X, s.U1, s.U2, B1, B2⟩ := by
      unfold hodgeSine
      rw [ea1]
      show (onTail _ _ _).bind _ = _
      rw [eb1]
      show (onTail _ _ _).bind _ = _
      rw [ea2]
      show (onTail _ _ _).map _ = _
      rw [eb2]
      rfl
    rw [this]
    show (hodgeSolve _ _ _ _ _ _ _).bind _ = _
    rw [es1]
    exact es2
  · rw [tv1, sv1, oB1 i (by omega), hI.v1 i (by omega)]
  · rw [tv2, sv2, oB2 i (by omega), hI.v2 i (by omega)]
  · by_cases h : k = m
    · subst h
      rcases hc with rfl | rfl
      · rw [q1 _ (by unfold Out; omega), (r1 l l0 l1).1, (r2 l l0 l1).2, neg_mul, one_mul, neg_neg]
        exact ⟨rfl, rfl⟩
      · rw [(r2 l l0 l1).1, q2 _ (by unfold Out; omega), (r1 l l0 l1).2, one_mul]
        exact ⟨rfl, rfl⟩
    · have b := mono (N := N) (a := 2 * k + 1) (b := 2 * m - 1) (by omega) (by omega)
      have b' := (col_mem k0 l0 (show l < N + 1 - k by omega) hc).2
      rw [q1 _ (by unfold Out; omega), q2 _ (by unfold Out; omega), p1 _ (by unfold Out; omega), p2 _ (by unfold Out; omega)]
      exact hI.done k k0 (by omega) c hc l l0 l1
  · have o1 := hi m hm (by omega) _ (.inl rfl)
    have o2 := hi m hm (by omega) _ (.inr rfl)
    rw [q1 i o2, q2 i o1, p1 i o1, p2 i o2]
    exact hI.rest i fun k k0 k1 => hi k k0 (by omega)

theorem execHodge_run (hs : IsSqrt sqrt) {P : HodgePlan K} {N M : Int} {Q1 Q2 : Int → K} {U1 U2 V1 V2 : Buf K} (hP : ∀ m, 1 ≤ m → m ≤ N → HodgeOK sqrt P N m) (hX : 2 * N + 2 ≤ P.X.size) (hN : 1 ≤ N) (hM0 : 0 ≤ M) (hM : M / 2 < N)
    (u1 : N * (2 * (M / 2) + 1) ≤ U1.size) (u2 : N * (2 * (M / 2) + 1) ≤ U2.size) (w1 : N * (2 * (M / 2) + 1) ≤ V1.size) (w2 : N * (2 * (M / 2) + 1) ≤ V2.size)
    (z1 : ∀ l, 0 ≤ l → l < N - 1 → V1.val l = -sqrt (((l : K) + 1) * ((l : K) + 2)) * Q1 (l + 1)) (z2 : ∀ l, 0 ≤ l → l < N - 1 → V2.val l = -sqrt (((l : K) + 1) * ((l : K) + 2)) * Q2 (l + 1))
    (hD : ∀ m, 1 ≤ m → m ≤ M / 2 → Data sqrt N m Q1 Q2 V1.val V2.val) :
    ∃ s, execHodge sqrt P U1 U2 V1 V2 N M = some s ∧ s.U1.size = U1.size ∧ s.U2.size = U2.size ∧ s.U1.val 0 = 0 ∧ s.U2.val 0 = 0 ∧
      (∀ l, 1 ≤ l → l < N → s.U1.val l = Q1 l ∧ s.U2.val l = Q2 l) ∧
      (∀ m, 1 ≤ m → m ≤ M / 2 → ∀ c, (c = 2 * m - 1 ∨ c = 2 * m) → ∀ l, 0 ≤ l → l < N - m → s.U1.val (l + N * c) = Q1 (l + N * c) ∧ s.U2.val (l + N * c) = Q2 (l + N * c)) ∧
      ∀ i, N ≤ i → (∀ m, 1 ≤ m → m ≤ M / 2 → ∀ c, (c = 2 * m - 1 ∨ c = 2 * m) → Out N m c i) → s.U1.val i = U1.val i ∧ s.U2.val i = U2.val i := by
  have h1 : N ≤ N * (2 * (M / 2) + 1) := le_mul_of_one_le_right (by omega) (by omega)
  obtain ⟨W1, W2, e, sW1, sW2, x1, x2, v, o1, o2⟩ := hodgeZonal_run hs (s := ⟨P.X, U1, U2, V1, V2⟩) hN (show N ≤ ((U1.size : Nat) : Int) by omega) (show N ≤ ((U2.size : Nat) : Int) by omega)
    (show N ≤ ((V1.size : Nat) : Int) by omega) (show N ≤ ((V2.size : Nat) : Int) by omega)
  dsimp only at sW1 sW2 v o1 o2
  obtain ⟨s, es, hI⟩ := forUp_spec (lo := 1) (hi := M / 2 + 1) (s := (⟨P.X, W1, W2, V1, V2⟩ : HodgeState K))
    (body := fun m s => (P.T.rd (m - 1)).bind fun T => (P.F.rd (m - 1)).bind fun F =>
      (hodgeSine T N m s).bind fun s => (hodgeSolve F N m (2 * m - 1) (2 * m) 1 s).bind fun s => hodgeSolve F N m (2 * m) (2 * m - 1) (-1) s)
    (fun m s => Inv N Q1 Q2 ⟨P.X, W1, W2, V1, V2⟩ m s)
    ⟨rfl, rfl, rfl, rfl, rfl, fun _ _ => rfl, fun _ _ => rfl, fun _ _ _ => by omega, fun _ _ => ⟨rfl, rfl⟩⟩
    fun m m0 m1 s hI => by
      have b := mono (N := N) (a := 2 * m + 1) (b := 2 * (M / 2) + 1) (by omega) (by omega)
      exact hodgeStep_run (hP m m0 (by omega)) m0 (by omega) hI hX (show _ ≤ ((W1.size : Nat) : Int) by omega) (show _ ≤ ((W2.size : Nat) : Int) by omega) (show _ ≤ ((V1.size : Nat) : Int) by omega)
        (show _ ≤ ((V2.size : Nat) : Int) by omega) (hD m m0 (by omega))
  rw [max_eq_right (by omega)] at hI
  have lowOut : ∀ i, i < N → ∀ k, 1 ≤ k → k < M / 2 + 1 → ∀ c, (c = 2 * k - 1 ∨ c = 2 * k) → Out N k c i := fun i hi k k0 _ c hc => by
    have b1 := mono (N := N) (a := 1) (b := 2 * k - 1) (by omega) (by omega)
    obtain ⟨c0, c1, c2⟩ := cols k0 (show 0 ≤ N by omega)
    rw [mul_one] at b1
    unfold Out
    rcases hc with rfl | rfl <;> omega
  have low := fun i hi => hI.rest i (lowOut i hi)
  have quo : ∀ (l : Int) (a b : K), 0 ≤ l → a = -sqrt (((l : K) + 1) * ((l : K) + 2)) * b → -a / sqrt (((l : K) + 1) * ((l : K) + 2)) = b := fun l a b l0 h => by
    have hd : sqrt (((l : K) + 1) * ((l : K) + 2)) ≠ 0 := (sqrt_pos hs (by
      have : (0 : K) ≤ l := by exact_mod_cast l0
      positivity)).ne'
    rw [h, div_eq_iff hd]
    ring
  refine ⟨s, ?_, hI.sU1.trans sW1, hI.sU2.trans sW2, (low 0 (by omega)).1.trans x1, (low 0 (by omega)).2.trans x2, fun l l0 l1 => ?_, fun m m0 m1 c hc l l0 l1 => hI.done m m0 (by omega) c hc l l0 l1, fun i hi h => ?_⟩
  · unfold execHodge
    rw [e]
    exact es
  · have := v (l - 1) (by omega) (by omega)
    rw [quo _ _ _ (by omega) (z1 (l - 1) (by omega) (by omega)), quo _ _ _ (by omega) (z2 (l - 1) (by omega) (by omega)), sub_add_cancel] at this
    exact ⟨(low l l1).1.trans this.1, (low l l1).2.trans this.2⟩
  · have := hI.rest i fun k k0 k1 => h k k0 (by omega)
    exact ⟨this.1.trans (o1 i hi), this.2.trans (o2 i hi)⟩

end FT.Hodge
