import Verif.Lemmas.Hodge

/-! # Runs of the gradient and of the Helmholtz-Hodge decomposition -/

set_option linter.unusedSectionVars false

namespace FT.Hodge
open FT FT.Props
variable {K : Type*} [Field K] [LinearOrder K] [IsStrictOrderedRing K]

section tail

theorem onTail_run {f : Buf K → Option (Buf K)} {o : Int} {b y : Buf K} (o0 : 0 ≤ o) (o1 : o ≤ b.size) (e : f ⟨(b.size - o).toNat, fun i => b.val (o + i)⟩ = some y) :
    onTail f o b = some (b.paste o y) := by
  unfold onTail Buf.tail
  rw [if_pos ⟨o0, o1⟩]
  show (f _).map _ = _
  rw [e]
  rfl

theorem paste_lo {o : Int} {b y : Buf K} {i : Int} (h : i < o) : (b.paste o y).val i = b.val i := if_pos h
theorem paste_hi {o : Int} {b y : Buf K} {i : Int} (h : 0 ≤ i) : (b.paste o y).val (i + o) = y.val i := by
  show (if i + o < o then _ else _) = _
  rw [if_neg (by omega), add_sub_cancel_right]

theorem tail_solves {f : Buf K → Option (Buf K)} {n : Int} {a : Int → Int → K} (h : SolvesSystem f n a) {o : Int} {b : Buf K} (o0 : 0 ≤ o) (o1 : o + n ≤ b.size) (n0 : 0 ≤ n) :
    ∃ b', onTail f o b = some b' ∧ b'.size = b.size ∧ (∀ i, 0 ≤ i → i < n → ∑ k ∈ Finset.Ico 0 n, a i k * b'.val (k + o) = b.val (i + o)) ∧ ∀ i, ¬ (o ≤ i ∧ i < o + n) → b'.val i = b.val i := by
  obtain ⟨y, e, -, v, u⟩ := h ⟨(b.size - o).toNat, fun i => b.val (o + i)⟩ (by show n ≤ (((b.size - o).toNat : Nat) : Int); omega)
  refine ⟨_, onTail_run o0 (by omega) e, rfl, fun i i0 i1 => ?_, fun i hi => ?_⟩
  · rw [sum_Ico_congr (g := fun k => a i k * y.val k) fun k k0 _ => by rw [paste_hi k0], v i i0 i1]
    exact congrArg b.val (add_comm o i)
  · by_cases hlt : i < o
    · exact paste_lo hlt
    · have : i = i - o + o := by ring
      rw [this, paste_hi (by omega), u _ (by omega)]
      show b.val (o + (i - o)) = _
      rw [add_comm o]

theorem tail_mult {f : Buf K → Option (Buf K)} {n : Int} {a : Int → Int → K} (h : Multiplies f n a) {o : Int} {b : Buf K} (o0 : 0 ≤ o) (o1 : o + n ≤ b.size) (n0 : 0 ≤ n) :
    ∃ b', onTail f o b = some b' ∧ b'.size = b.size ∧ (∀ i, 0 ≤ i → i < n → b'.val (i + o) = ∑ k ∈ Finset.Ico 0 n, a i k * b.val (k + o)) ∧ ∀ i, ¬ (o ≤ i ∧ i < o + n) → b'.val i = b.val i := by
  obtain ⟨y, e, -, v, u⟩ := h ⟨(b.size - o).toNat, fun i => b.val (o + i)⟩ (by show n ≤ (((b.size - o).toNat : Nat) : Int); omega)
  refine ⟨_, onTail_run o0 (by omega) e, rfl, fun i i0 i1 => ?_, fun i hi => ?_⟩
  · rw [paste_hi i0, v i i0 i1]
    exact sum_Ico_congr fun k _ _ => by rw [add_comm k o]
  · by_cases hlt : i < o
    · exact paste_lo hlt
    · have : i = i - o + o := by ring
      rw [this, paste_hi (by omega), u _ (by omega)]
      show b.val (o + (i - o)) = _
      rw [add_comm o]

theorem tail_gbmv {A : Banded K} {n l u : Int} {a : Int → Int → K} (h : Stores A n n l u a) {o : Int} {b x : Buf K} (o0 : 0 ≤ o) (o1 : o + n ≤ b.size) (n0 : 0 ≤ n) (hx : o + n ≤ x.size) :
    ∃ b', (x.tail o).bind (fun w => onTail (gbmv 1 A w 0) o b) = some b' ∧ b'.size = b.size ∧ (∀ i, 0 ≤ i → i < n → b'.val (i + o) = ∑ k ∈ Finset.Ico 0 n, a i k * x.val (k + o)) ∧
      ∀ i, ¬ (o ≤ i ∧ i < o + n) → b'.val i = b.val i := by
  obtain ⟨y, e, -, v, w⟩ := C17_gbmv h 1 0 (x := ⟨(x.size - o).toNat, fun i => x.val (o + i)⟩) (y := ⟨(b.size - o).toNat, fun i => b.val (o + i)⟩) n0
    (by show n ≤ (((x.size - o).toNat : Nat) : Int); omega) (by show n ≤ (((b.size - o).toNat : Nat) : Int); omega)
  refine ⟨b.paste o y, ?_, rfl, fun i i0 i1 => ?_, fun i hi => ?_⟩
  · unfold Buf.tail
    rw [if_pos ⟨o0, by omega⟩]
    exact onTail_run o0 (by omega) e
  · rw [paste_hi i0, v i i0 i1, one_mul, zero_mul, add_zero]
    exact sum_Ico_congr fun k _ _ => by rw [add_comm k o]
  · by_cases hlt : i < o
    · exact paste_lo hlt
    · have : i = i - o + o := by ring
      rw [this, paste_hi (by omega), w _ (by omega)]
      show b.val (o + (i - o)) = _
      rw [add_comm o]

end tail

variable {sqrt : K → K}

/-- The matrices of order `m` of a gradient plan. -/
def GradOK (sqrt : K → K) (P : GradPlan K) (n m : Int) : Prop :=
  ∃ B T, P.B.rd (m - 1) = some B ∧ Stores B (n + 1 - m) (n + 1 - m) 1 1 (thetaM sqrt m (n + 1 - m) (n - m)) ∧
    P.T.rd (m - 1) = some T ∧ StoresT T (n + 1 - m) 2 (sineM sqrt m (n + 1 - m) (n - 1 - m))

theorem rd_upd {α : Type*} {b b' : Buf α} {i j : Int} {v : α} (h : b.wr i v = some b') : b'.rd j = if j = i then some v else b.rd j := by
  unfold Buf.wr at h
  split_ifs at h with hi
  obtain rfl := Option.some.inj h
  unfold Buf.rd
  by_cases hj : j = i
  · subst hj
    rw [if_pos hi, if_pos rfl]
    simp
  · rw [if_neg hj]
    simp [Function.update_of_ne hj]

theorem planGrad_run (junkB : Banded K) (junkT : TB K) (n : Int) :
    ∃ P, planGrad sqrt junkB junkT n = some P ∧ ∀ m, 1 ≤ m → m ≤ n → GradOK sqrt P n m := by
  obtain ⟨s, e, -, -, h⟩ := forUp_spec (lo := 1) (hi := n + 1) (s := ((⟨n.toNat, fun _ => junkB⟩, ⟨n.toNat, fun _ => junkT⟩) : Buf (Banded K) × Buf (TB K)))
    (body := fun m (s : Buf (Banded K) × Buf (TB K)) =>
      (thetaDer sqrt n m).bind fun b => (s.1.wr (m - 1) b).bind fun B => (sineMul sqrt n m).bind fun t => (s.2.wr (m - 1) t).map fun T => (B, T))
    (fun m s => s.1.size = n.toNat ∧ s.2.size = n.toNat ∧ ∀ k, 1 ≤ k → k < m → GradOK sqrt ⟨s.1, s.2, n⟩ n k)
    ⟨rfl, rfl, fun k _ _ => by omega⟩
    fun m m0 m1 s ⟨s1, s2, hk⟩ => by
      obtain ⟨b, eb, hb⟩ := theta_run (sqrt := sqrt) (n := n) m0 (by omega)
      obtain ⟨t, et, ht⟩ := sine_run (sqrt := sqrt) (n := n) m0 (by omega)
      have w1 := Buf.wr_of (b := s.1) (i := m - 1) (v := b) (by omega) (by omega)
      have w2 := Buf.wr_of (b := s.2) (i := m - 1) (v := t) (by omega) (by omega)
      refine ⟨(⟨s.1.size, Function.update s.1.val (m - 1) b⟩, ⟨s.2.size, Function.update s.2.val (m - 1) t⟩), ?_, ?_⟩
      · beta_reduce
        rw [eb]
        show (s.1.wr _ _).bind _ = _
        rw [w1]
        show (sineMul _ _ _).bind _ = _
        rw [et]
        show (s.2.wr _ _).map _ = _
        rw [w2]
        rfl
      · refine ⟨s1, s2, fun k k0 k1 => ?_⟩
        by_cases h : k = m
        · subst h
          exact ⟨b, t, (rd_upd w1).trans (if_pos rfl), hb, (rd_upd w2).trans (if_pos rfl), ht⟩
        · obtain ⟨B, T, e1, h1, e2, h2⟩ := hk k k0 (by omega)
          exact ⟨B, T, (rd_upd w1).trans ((if_neg (by omega)).trans e1), h1, (rd_upd w2).trans ((if_neg (by omega)).trans e2), h2⟩
  refine ⟨⟨s.1, s.2, n⟩, ?_, fun m m0 m1 => h m m0 (by omega)⟩
  unfold planGrad
  rw [e]
  rfl

/-- Equations of order `m` between a potential and the colatitude part of its gradient. -/
def ThetaEq (sqrt : K → K) (N m : Int) (U Ut : Int → K) : Prop := ∀ l, 0 ≤ l → l < N + 1 - m → ∀ c, (c = 2 * m - 1 ∨ c = 2 * m) →
  ∑ k ∈ Finset.Ico 0 (N + 1 - m), sineM sqrt m (N + 1 - m) (N - 1 - m) l k * Ut (k + N * c) = row sqrt N m l fun k => U (k + N * c)

/-- The same for the longitude part. -/
def PhiEq (sqrt : K → K) (N m : Int) (U Up : Int → K) : Prop := ∀ l, 0 ≤ l → l < N + 1 - m →
  ∑ k ∈ Finset.Ico 0 (N + 1 - m), sineM sqrt m (N + 1 - m) (N - 1 - m) l k * Up (k + N * (2 * m - 1)) = -((m : K) * U (l + N * (2 * m))) ∧
  ∑ k ∈ Finset.Ico 0 (N + 1 - m), sineM sqrt m (N + 1 - m) (N - 1 - m) l k * Up (k + N * (2 * m)) = (m : K) * U (l + N * (2 * m - 1))

theorem cols {N m : Int} (hm : 1 ≤ m) (hN : 0 ≤ N) : 0 ≤ N * (2 * m - 1) ∧ N * (2 * m) = N * (2 * m - 1) + N ∧ N * (2 * m + 1) = N * (2 * m - 1) + N + N :=
  ⟨mul_nonneg hN (by omega), by ring, by ring⟩

theorem gradTheta_run (hs : IsSqrt sqrt) {P : GradPlan K} {N m : Int} {U Ut : Buf K} (hP : GradOK sqrt P N m) (hm : 1 ≤ m) (hN : m ≤ N) (hU : N * (2 * m + 1) ≤ U.size) (ht : N * (2 * m + 1) ≤ Ut.size) :
    ∃ Ut', gradTheta P U N m Ut = some Ut' ∧ Ut'.size = Ut.size ∧ ThetaEq sqrt N m U.val Ut'.val ∧ ∀ i, ¬ (N * (2 * m - 1) ≤ i ∧ i < N * (2 * m + 1)) → Ut'.val i = Ut.val i := by
  obtain ⟨B, T, eB, hB, eT, hT⟩ := hP
  obtain ⟨c0, c1, c2⟩ := cols hm (show 0 ≤ N by omega)
  have hTs := (C18_tbsv hT (by decide) (sine_diag hs hm) (tr := 'N') (.inl rfl)).1
  obtain ⟨A1, e1, s1, v1, o1⟩ := tail_gbmv hB (o := N * (2 * m - 1)) (b := Ut) (x := U) (by omega) (by omega) (by omega) (by omega)
  obtain ⟨A2, e2, s2, v2, o2⟩ := tail_gbmv hB (o := N * (2 * m)) (b := A1) (x := U) (by omega) (by omega) (by omega) (by omega)
  obtain ⟨A3, e3, s3, v3, o3⟩ := tail_solves hTs (o := N * (2 * m - 1)) (b := A2) (by omega) (by omega) (by omega)
  obtain ⟨A4, e4, s4, v4, o4⟩ := tail_solves hTs (o := N * (2 * m)) (b := A3) (by omega) (by omega) (by omega)
  have t1 : U.tail (N * (2 * m - 1)) = some ⟨(U.size - N * (2 * m - 1)).toNat, fun i => U.val (N * (2 * m - 1) + i)⟩ := if_pos ⟨by omega, by omega⟩
  have t2 : U.tail (N * (2 * m)) = some ⟨(U.size - N * (2 * m)).toNat, fun i => U.val (N * (2 * m) + i)⟩ := if_pos ⟨by omega, by omega⟩
  rw [t1] at e1
  rw [t2] at e2
  refine ⟨A4, ?_, by omega, fun l l0 l1 c hc => ?_, fun i hi => ?_⟩
  · unfold gradTheta
    rw [eB]
    show (P.T.rd _).bind _ = _
    rw [eT]
    show (U.tail _).bind _ = _
    rw [t1]
    show (U.tail _).bind _ = _
    rw [t2]
    show (onTail _ _ _).bind _ = _
    rw [show onTail _ _ _ = _ from e1]
    show (onTail _ _ _).bind _ = _
    rw [show onTail _ _ _ = _ from e2]
    show (onTail _ _ _).bind _ = _
    rw [e3]
    exact e4
  · rw [← theta_row l0 l1]
    rcases hc with rfl | rfl
    · rw [sum_Ico_congr (g := fun k => sineM sqrt m (N + 1 - m) (N - 1 - m) l k * A3.val (k + N * (2 * m - 1))) fun k k0 k1 => by rw [o4 _ (by omega)],
        show (∑ k ∈ Finset.Ico 0 (N + 1 - m), sineM sqrt m (N + 1 - m) (N - 1 - m) l k * A3.val (k + N * (2 * m - 1))) = _ from v3 l l0 l1, o2 _ (by omega), v1 l l0 l1]
    · rw [show (∑ k ∈ Finset.Ico 0 (N + 1 - m), sineM sqrt m (N + 1 - m) (N - 1 - m) l k * A4.val (k + N * (2 * m))) = _ from v4 l l0 l1, o3 _ (by omega), v2 l l0 l1]
  · rw [o4 i (by omega), o3 i (by omega), o2 i (by omega), o1 i (by omega)]

theorem gradPhi_run (hs : IsSqrt sqrt) {P : GradPlan K} {N m : Int} {U Up : Buf K} (hP : GradOK sqrt P N m) (hm : 1 ≤ m) (hN : m ≤ N) (hU : N * (2 * m + 1) ≤ U.size) (ht : N * (2 * m + 1) ≤ Up.size) :
    ∃ Up', gradPhi P U N m Up = some Up' ∧ Up'.size = Up.size ∧ PhiEq sqrt N m U.val Up'.val ∧ ∀ i, ¬ (N * (2 * m - 1) ≤ i ∧ i < N * (2 * m + 1)) → Up'.val i = Up.val i := by
  obtain ⟨B, T, eB, hB, eT, hT⟩ := hP
  obtain ⟨c0, c1, c2⟩ := cols hm (show 0 ≤ N by omega)
  have hTs := (C18_tbsv hT (by decide) (sine_diag hs hm) (tr := 'N') (.inl rfl)).1
  obtain ⟨A2, e2, s2, v2, o2⟩ := forUp_spec (lo := 0) (hi := N + 1 - m) (s := Up)
    (body := fun l Up => (U.rd (l + N * (2 * m))).bind fun v => (Up.wr (l + N * (2 * m - 1)) (((-m : Int) : K) * v)).bind fun Up =>
      (U.rd (l + N * (2 * m - 1))).bind fun v => Up.wr (l + N * (2 * m)) ((m : K) * v))
    (fun k A => A.size = Up.size ∧ (∀ l, 0 ≤ l → l < k → A.val (l + N * (2 * m - 1)) = -((m : K) * U.val (l + N * (2 * m))) ∧ A.val (l + N * (2 * m)) = (m : K) * U.val (l + N * (2 * m - 1))) ∧
      ∀ i, ¬ (N * (2 * m - 1) ≤ i ∧ i < N * (2 * m + 1)) → A.val i = Up.val i)
    ⟨rfl, fun l _ _ => by omega, fun _ _ => rfl⟩
    fun l l0 l1 A ⟨hA, hv, ho⟩ => by
      have w1 := Buf.wr_of (b := A) (i := l + N * (2 * m - 1)) (v := ((-m : Int) : K) * U.val (l + N * (2 * m))) (by omega) (by omega)
      have w2 := Buf.wr_of (b := ⟨A.size, Function.update A.val (l + N * (2 * m - 1)) (((-m : Int) : K) * U.val (l + N * (2 * m)))⟩) (i := l + N * (2 * m))
        (v := (m : K) * U.val (l + N * (2 * m - 1))) (by omega) (by show _ < ((A.size : Nat) : Int); omega)
      refine ⟨⟨A.size, Function.update (Function.update A.val (l + N * (2 * m - 1)) (((-m : Int) : K) * U.val (l + N * (2 * m)))) (l + N * (2 * m)) ((m : K) * U.val (l + N * (2 * m - 1)))⟩, ?_, ?_⟩
      · beta_reduce
        rw [Buf.rd_of (by omega) (by omega)]
        show (A.wr _ _).bind _ = _
        rw [w1]
        show (U.rd _).bind _ = _
        rw [Buf.rd_of (by omega) (by omega)]
        exact w2
      · refine ⟨hA, fun k k0 k1 => ?_, fun i hi => ?_⟩
        · constructor
          · show Function.update (Function.update A.val _ _) _ _ _ = _
            rw [Function.update_of_ne (by omega)]
            by_cases h : k = l
            · subst h
              rw [Function.update_self]; push_cast; ring
            · rw [Function.update_of_ne (by omega)]
              exact (hv k k0 (by omega)).1
          · show Function.update (Function.update A.val _ _) _ _ _ = _
            by_cases h : k = l
            · subst h
              rw [Function.update_self]
            · rw [Function.update_of_ne (by omega), Function.update_of_ne (by omega)]
              exact (hv k k0 (by omega)).2
        · show Function.update (Function.update A.val _ _) _ _ _ = _
          rw [Function.update_of_ne (by omega), Function.update_of_ne (by omega)]
          exact ho i hi
  rw [max_eq_right (by omega)] at v2
  obtain ⟨A3, e3, s3, v3, o3⟩ := tail_solves hTs (o := N * (2 * m - 1)) (b := A2) (by omega) (by omega) (by omega)
  obtain ⟨A4, e4, s4, v4, o4⟩ := tail_solves hTs (o := N * (2 * m)) (b := A3) (by omega) (by omega) (by omega)
  refine ⟨A4, ?_, by omega, fun l l0 l1 => ⟨?_, ?_⟩, fun i hi => ?_⟩
  · unfold gradPhi
    rw [e2]
    show (P.T.rd _).bind _ = _
    rw [eT]
    show (onTail _ _ _).bind _ = _
    rw [e3]
    exact e4
  · rw [sum_Ico_congr (g := fun k => sineM sqrt m (N + 1 - m) (N - 1 - m) l k * A3.val (k + N * (2 * m - 1))) fun k k0 k1 => by rw [o4 _ (by omega)],
        show (∑ k ∈ Finset.Ico 0 (N + 1 - m), sineM sqrt m (N + 1 - m) (N - 1 - m) l k * A3.val (k + N * (2 * m - 1))) = _ from v3 l l0 l1, (v2 l l0 l1).1]
  · rw [show (∑ k ∈ Finset.Ico 0 (N + 1 - m), sineM sqrt m (N + 1 - m) (N - 1 - m) l k * A4.val (k + N * (2 * m))) = _ from v4 l l0 l1, o3 _ (by omega), (v2 l l0 l1).2]
  · rw [o4 i (by omega), o3 i (by omega), o2 i (by omega)]

end FT.Hodge
