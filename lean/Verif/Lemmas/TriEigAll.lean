import Verif.Lemmas.TriEigStep
import Verif.Props.TriEigSpec

/-! # Lemmas for C68: all eigenvalues, the sort and the signs -/

namespace FT
open FT.Props
variable {K : Type*} [Field K] [LinearOrder K] [IsStrictOrderedRing K]

theorem Gh.mono {n : Int} {V0 : Int → Int → K} {V : Buf K} {U E : Int → Int → K} {tau tau' : K} (h : Gh n V0 V U E tau) (ht : tau ≤ tau') : Gh n V0 V U E tau' :=
  ⟨h.orth, h.vu, h.sym, fun x => le_trans (h.bd x) (mul_le_mul_of_nonneg_right ht (Finset.sum_nonneg fun _ _ => mul_self_nonneg _))⟩

/-- Neglecting the entry `e_a`. -/
theorem QI.drop {n l a : Int} (l0 : 0 ≤ l) (la : l ≤ a) (an : a < n) {A V0 E : Int → Int → K} {tau : K} {st : TqlSt K} (h : QI n l A V0 E tau st st.e.val) (he : st.e.val (n - 1) = 0) :
    ∃ E', QI n l A V0 E' (tau + |st.e.val a|) st (Function.update st.e.val a 0) := by
  by_cases hl : a = n - 1
  · refine ⟨E, h.sd, h.se, h.sV, ?_⟩
    rw [hl, he, abs_zero, add_zero, show Function.update st.e.val (n - 1) 0 = st.e.val by rw [← he, Function.update_eq_self]]
    exact h.gh
  · obtain ⟨sd, se, sV, U, g, hU⟩ := h
    refine ⟨dropE E U a (st.e.val a), sd, se, sV, U, g.drop (by omega) (by omega) _, fun k k0 k1 => ⟨fun j j0 j1 => ?_, fun j j0 j1 => ?_⟩⟩
    · rw [aeu_drop (by omega) (by omega) g _ j0 (by omega), if_neg (by omega), if_neg (by omega), sub_zero]
      exact (hU k k0 k1).fin j j0 j1
    · rw [aeu_drop (by omega) (by omega) g _ (by omega) j1, (hU k k0 k1).low j j0 j1]
      unfold triRow
      by_cases h1 : j = a
      · subst h1
        rw [if_pos rfl, Function.update_self]
        by_cases h2 : l < j
        · rw [if_pos h2, if_pos h2, Function.update_of_ne (by omega)]; ring
        · rw [if_neg h2, if_neg h2]; ring
      · rw [if_neg h1, Function.update_of_ne h1]
        by_cases h2 : j = a + 1
        · subst h2
          rw [if_pos rfl, if_pos (by omega), if_pos (by omega), show a + 1 - 1 = a by omega, Function.update_self]; ring
        · rw [if_neg h2, Function.update_of_ne (show j - 1 ≠ a by omega)]; ring

theorem tqlOuter_spec {negl : K → K → Bool} {eta : K} (hN : NeglOk negl eta) {sqrt : K → K} (hsq : IsSqrt sqrt) {n : Int} {A V0 : Int → Int → K} :
    ∀ (k : Nat) (l : Int), 0 ≤ l → l + k = n → ∀ (tst : K) (st : TqlSt K), 0 ≤ tst → (∃ E, QI n l A V0 E (2 * l * eta * tst) st st.e.val) → st.e.val (n - 1) = 0 →
      ∃ b tst' st' E tau ee l', tqlOuter negl sqrt n k l tst st = some (b, tst', st') ∧ QI n l' A V0 E tau st' ee ∧ (b = true → l' = n ∧ tau = 2 * n * eta * tst')
  | 0, l, _, hk, tst, st, _, ⟨E, h⟩, _ => ⟨true, tst, st, E, _, _, l, rfl, h, fun _ => by
      have : l = n := by simpa using hk
      rw [this]; exact ⟨rfl, rfl⟩⟩
  | k + 1, l, l0, hk, tst, st, ht, ⟨E, h⟩, he => by
    push_cast at hk
    have hd := h.sd
    have hse := h.se
    obtain ⟨t1, ht1⟩ : ∃ t1, t1 = if tst < |st.d.val l| + |st.e.val l| then |st.d.val l| + |st.e.val l| else tst := ⟨_, rfl⟩
    have hle : tst ≤ t1 := by rw [ht1]; split <;> [exact le_of_lt ‹_›; exact le_refl _]
    have ht10 : 0 ≤ t1 := le_trans ht hle
    have hlK : (0 : K) ≤ (l : K) := by exact_mod_cast l0
    have key : ∀ x y : K, x ≤ eta * t1 → y ≤ eta * t1 → 2 * l * eta * tst + x + y ≤ 2 * ((l + 1 : Int) : K) * eta * t1 := fun x y hx hy => by
      have h1 : 2 * l * eta * tst ≤ 2 * l * eta * t1 := mul_le_mul_of_nonneg_left hle (mul_nonneg (mul_nonneg (by norm_num) hlK) hN.eta0)
      push_cast
      linarith
    obtain ⟨m, em, m0, m1, m2, m3⟩ := tqlSearch_spec (negl := negl) (tst := t1) hse (by rw [he, abs_zero]; exact hN.zero _) (n - l).toNat l l0 (by omega) (by omega)
    have hsm := hN.small _ _ ht10 (abs_nonneg _) m2
    have fin : ∀ (st : TqlSt K) (tau : K), (∃ E, QI n l A V0 E tau st (Function.update st.e.val l 0)) → tau ≤ 2 * ((l + 1 : Int) : K) * eta * t1 → st.e.val (n - 1) = 0 →
        ∃ b tst' st' E tau ee l', ((st.d.rd l).bind fun v => (st.d.wr l (v + st.f)).bind fun d => tqlOuter negl sqrt n k (l + 1) t1 { st with d := d }) = some (b, tst', st') ∧
          QI n l' A V0 E tau st' ee ∧ (b = true → l' = n ∧ tau = 2 * n * eta * tst') := by
      intro st tau ⟨E, hq⟩ htau hlast
      have := hq.sd
      rw [Buf.rd_of l0 (by omega), Option.bind_some, Buf.wr_of l0 (by omega), Option.bind_some]
      refine tqlOuter_spec hN hsq k (l + 1) (by omega) (by omega) t1 _ ht10 ⟨E, hq.sd, hq.se, hq.sV, ?_⟩ hlast
      obtain ⟨U, g, hU⟩ := hq.gh
      exact ⟨U, g.mono htau, fun k k0 k1 => r0_next (by omega) (hU k k0 k1)⟩
    unfold tqlOuter
    rw [Buf.rd_of l0 (by omega), Option.bind_some, Buf.rd_of l0 (by omega), Option.bind_some]
    simp only
    rw [← ht1, em, Option.bind_some]
    by_cases hml : m = l
    · rw [if_pos hml, Option.bind_some]
      simp only [if_true]
      refine fin st _ (h.drop l0 (le_refl _) (by omega) he) ?_ he
      rw [hml] at hsm
      have := key _ 0 hsm (mul_nonneg hN.eta0 ht10)
      linarith
    · rw [if_neg hml]
      obtain ⟨E1, h1⟩ := h.drop l0 m0 m1 he
      obtain ⟨b, st', ee, e1, q1, q2⟩ := tqlIter_spec (negl := negl) hsq (hN.zero t1) l0 (by omega) m1 60 st h1
        (fun j j0 j1 e0 => by have := m3 j j0 j1; rw [e0, abs_zero, hN.zero] at this; cases this) fun _ => he
      rw [e1, Option.bind_some]
      cases b with
      | false =>
        simp only [Bool.false_eq_true, if_false]
        exact ⟨false, t1, st', E1, _, ee, l, rfl, q1, fun h => by cases h⟩
      | true =>
        simp only [if_true]
        obtain ⟨rfl, q3, q4⟩ := q2 rfl
        exact fin st' _ (q1.drop l0 (le_refl _) (by omega) q4) (key _ _ hsm (hN.small _ _ ht10 (abs_nonneg _) q3)) q4

/-! ## The sort -/

/-- `(A + E) U = U diag(d)`. -/
def Cols (n : Int) (A E U : Int → Int → K) (d : Int → K) : Prop := ∀ k j, 0 ≤ k → k < n → 0 ≤ j → j < n → AEU n A E U k j = d j * U k j

def swI (a b j : Int) : Int := if j = a then b else if j = b then a else j

omit [Field K] [LinearOrder K] [IsStrictOrderedRing K] in
theorem swapC_eq (a b : Int) (u : Int → K) (j : Int) : swapC a b u j = u (swI a b j) := by
  unfold swapC swI
  split
  · rfl
  · split <;> rfl

theorem swI_range {a b j n : Int} (a0 : 0 ≤ a) (a1 : a < n) (b0 : 0 ≤ b) (b1 : b < n) (j0 : 0 ≤ j) (j1 : j < n) : 0 ≤ swI a b j ∧ swI a b j < n := by
  unfold swI
  split
  · exact ⟨b0, b1⟩
  · split
    · exact ⟨a0, a1⟩
    · exact ⟨j0, j1⟩

theorem swI_inj {a b j k : Int} : swI a b j = swI a b k ↔ j = k := by
  constructor
  · unfold swI
    split <;> split <;> (try split) <;> (try split) <;> omega
  · rintro rfl; rfl

omit [IsStrictOrderedRing K] in
theorem Gh.swap {n a b : Int} (a0 : 0 ≤ a) (a1 : a < n) (b0 : 0 ≤ b) (b1 : b < n) {V0 : Int → Int → K} {V V' : Buf K} {U E : Int → Int → K} {tau : K} (h : Gh n V0 V U E tau)
    (hV : ∀ k j, 0 ≤ k → k < n → V'.val (k + n * j) = swapC a b (fun j => V.val (k + n * j)) j) : Gh n V0 V' (fun r j => U r (swI a b j)) E tau := by
  refine ⟨fun j k j0 j1 k0 k1 => ?_, fun k j k0 k1 j0 j1 => ?_, h.sym, h.bd⟩
  · have hj := swI_range a0 a1 b0 b1 j0 j1
    have hk := swI_range a0 a1 b0 b1 k0 k1
    rw [h.orth _ _ hj.1 hj.2 hk.1 hk.2]
    simp only [swI_inj]
  · have hj := swI_range a0 a1 b0 b1 j0 j1
    rw [hV k j k0 k1, swapC_eq, h.vu k _ k0 k1 hj.1 hj.2]

theorem tqlSelect_spec {n ii : Int} (i1 : 1 ≤ ii) (i2 : ii < n) {A V0 E U : Int → Int → K} {tau : K} {d V : Buf K} (hd : (d.size : Int) = n) (hV : (V.size : Int) = n * n) (g : Gh n V0 V U E tau)
    (hc : Cols n A E U d.val) (hs : ∀ a b, 0 ≤ a → a < b → b < n → a < ii - 1 → d.val a ≤ d.val b) :
    ∃ d' V' U', tqlSelect n ii (d, V) = some (d', V') ∧ (d'.size : Int) = n ∧ (V'.size : Int) = n * n ∧ Gh n V0 V' U' E tau ∧ Cols n A E U' d'.val ∧
      ∀ a b, 0 ≤ a → a < b → b < n → a < ii → d'.val a ≤ d'.val b := by
  unfold tqlSelect
  simp only
  rw [Buf.rd_of (by omega) (by omega), Option.bind_some]
  obtain ⟨kp, ek, k1, k2, k3, k4⟩ := forUp_spec (lo := ii) (hi := n) (body := fun j (kp : Int × K) => (d.rd j).map fun v => if v ≥ kp.2 then kp else (j, v)) (s := (ii - 1, d.val (ii - 1)))
    (fun i kp => ii - 1 ≤ kp.1 ∧ kp.1 < n ∧ kp.2 = d.val kp.1 ∧ ∀ j, ii - 1 ≤ j → j < i → kp.2 ≤ d.val j)
    ⟨le_refl _, by show ii - 1 < n; omega, rfl, fun j j0 j1 => by rw [show j = ii - 1 by omega]⟩
    (fun i i0 i1 kp h => by
      obtain ⟨h1, h2, h3, h4⟩ := h
      rw [Buf.rd_of (by omega) (by omega), Option.map_some]
      by_cases hv : d.val i ≥ kp.2
      · rw [if_pos hv]
        refine ⟨kp, rfl, h1, h2, h3, fun j j0 j1 => ?_⟩
        by_cases hj : j = i
        · rw [hj]; exact hv
        · exact h4 j j0 (by omega)
      · rw [if_neg hv]
        refine ⟨_, rfl, ?_, ?_, rfl, fun j j0 j1 => ?_⟩
        · show ii - 1 ≤ i; omega
        · exact i1
        · by_cases hj : j = i
          · rw [hj]
          · exact le_of_lt (lt_of_lt_of_le (not_le.1 hv) (h4 j j0 (by omega))))
  rw [max_eq_right (by omega)] at k4
  rw [ek, Option.bind_some]
  by_cases hk : kp.1 = ii - 1
  · rw [if_pos hk]
    refine ⟨d, V, U, rfl, hd, hV, g, hc, fun a b a0 ab bn ai => ?_⟩
    by_cases ha : a = ii - 1
    · subst ha
      rw [← hk, ← k3]
      exact k4 b (by omega) bn
    · exact hs a b a0 ab bn (by omega)
  · rw [if_neg hk, Buf.wr_of (by omega) (by omega), Option.bind_some, Buf.wr_of (by omega) (by show _ < (d.size : Int); omega), Option.bind_some]
    obtain ⟨V', eV, sV, vV⟩ := tqlSwap_spec (i := ii - 1) (l := kp.1) (by omega) (by omega) (by omega) k2 hk hV
    rw [eV, Option.map_some]
    have hv : ∀ j, Function.update (Function.update d.val kp.1 (d.val (ii - 1))) (ii - 1) kp.2 j = d.val (swI (ii - 1) kp.1 j) := fun j => by
      unfold swI
      by_cases h1 : j = ii - 1
      · rw [if_pos h1, h1, Function.update_self, k3]
      · rw [if_neg h1, Function.update_of_ne h1]
        by_cases h2 : j = kp.1
        · rw [if_pos h2, h2, Function.update_self]
        · rw [if_neg h2, Function.update_of_ne h2]
    refine ⟨_, V', _, rfl, hd, by rw [sV, hV], g.swap (by omega) (by omega) (by omega) k2 vV, fun k j k0 k1 j0 j1 => ?_, fun a b a0 ab bn ai => ?_⟩
    · have hj := swI_range (n := n) (a := ii - 1) (b := kp.1) (by omega) (by omega) (by omega) k2 j0 j1
      show AEU n A E (fun r j => U r (swI (ii - 1) kp.1 j)) k j = Function.update (Function.update d.val kp.1 (d.val (ii - 1))) (ii - 1) kp.2 j * _
      rw [hv]
      exact hc k _ k0 k1 hj.1 hj.2
    · show Function.update (Function.update d.val kp.1 (d.val (ii - 1))) (ii - 1) kp.2 a ≤ Function.update (Function.update d.val kp.1 (d.val (ii - 1))) (ii - 1) kp.2 b
      by_cases ha : a = ii - 1
      · rw [ha, Function.update_self, hv b]
        have hb := swI_range (n := n) (a := ii - 1) (b := kp.1) (by omega) (by omega) (by omega) k2 (show 0 ≤ b by omega) bn
        refine k4 _ ?_ hb.2
        unfold swI
        rw [if_neg (by omega)]
        split <;> omega
      · rw [hv, hv]
        have hb := swI_range (n := n) (a := ii - 1) (b := kp.1) (by omega) (by omega) (by omega) k2 (show 0 ≤ b by omega) bn
        rw [show swI (ii - 1) kp.1 a = a by unfold swI; rw [if_neg ha, if_neg (by omega)]]
        refine hs a _ a0 ?_ hb.2 (by omega)
        unfold swI
        split
        · omega
        · split <;> omega

theorem tqlSort_spec {n : Int} (n1 : 1 ≤ n) {A V0 E U : Int → Int → K} {tau : K} {d V : Buf K} (hd : (d.size : Int) = n) (hV : (V.size : Int) = n * n) (g : Gh n V0 V U E tau) (hc : Cols n A E U d.val) :
    ∃ d' V' U', forUp 1 n (tqlSelect n) (d, V) = some (d', V') ∧ (d'.size : Int) = n ∧ (V'.size : Int) = n * n ∧ Gh n V0 V' U' E tau ∧ Cols n A E U' d'.val ∧
      ∀ a b, 0 ≤ a → a ≤ b → b < n → d'.val a ≤ d'.val b := by
  obtain ⟨⟨d', V'⟩, e, h1, h2, U', h3, h4, h5⟩ := forUp_spec (lo := 1) (hi := n) (body := tqlSelect n) (s := (d, V))
    (fun ii dv => (dv.1.size : Int) = n ∧ (dv.2.size : Int) = n * n ∧ ∃ U', Gh n V0 dv.2 U' E tau ∧ Cols n A E U' dv.1.val ∧ ∀ a b, 0 ≤ a → a < b → b < n → a < ii - 1 → dv.1.val a ≤ dv.1.val b)
    ⟨hd, hV, U, g, hc, fun a b a0 ab bn ai => by omega⟩
    (fun ii i0 i1 dv h => by
      obtain ⟨h1, h2, U', h3, h4, h5⟩ := h
      obtain ⟨d', V', U', q1, q2, q3, q4, q5, q6⟩ := tqlSelect_spec i0 i1 h1 h2 h3 h4 h5
      exact ⟨(d', V'), q1, q2, q3, U', q4, q5, fun a b a0 ab bn ai => q6 a b a0 ab bn (by omega)⟩)
  rw [max_eq_right n1] at h5
  refine ⟨d', V', U', e, h1, h2, h3, h4, fun a b a0 ab bn => ?_⟩
  rcases eq_or_lt_of_le ab with h | h
  · rw [h]
  · exact h5 a b a0 h bn (by omega)

/-! ## The signs -/

omit [LinearOrder K] [IsStrictOrderedRing K] in
theorem neg_col {n j : Int} (j0 : 0 ≤ j) (j1 : j < n) {V : Buf K} (hV : (V.size : Int) = n * n) :
    ∃ V', forUp 0 n (fun i V => (V.rd (i + n * j)).bind fun w => V.wr (i + n * j) (-w)) V = some V' ∧ V'.size = V.size ∧
      ∀ k i, 0 ≤ k → k < n → V'.val (k + n * i) = if i = j then - V.val (k + n * i) else V.val (k + n * i) := by
  refine row_loop (N := V.size) (phi := fun u i => if i = j then - u i else u i) (by omega) rfl fun k k0 k1 W hW => ?_
  have b1 := cm_lt k0 k1 j0 j1
  have hWs : (W.size : Int) = n * n := by rw [hW, hV]
  rw [Buf.rd_of b1.1 (by omega), Option.bind_some, Buf.wr_of b1.1 (by omega)]
  refine ⟨_, rfl, hW, fun i => ?_, fun k' i k0' k1' hk => ?_⟩
  · show Function.update _ _ _ _ = _
    dsimp only
    by_cases h : i = j
    · rw [if_pos h, h, Function.update_self]
    · rw [if_neg h, Function.update_of_ne (fun e => h (cm_inj k0 k1 k0 k1 e).2)]
  · show Function.update _ _ _ _ = _
    rw [Function.update_of_ne (fun e => hk (cm_inj k0' k1' k0 k1 e).1)]

theorem tqlSigns_spec {n : Int} (n0 : 0 ≤ n) {V : Buf K} (hV : (V.size : Int) = n * n) :
    ∃ (V' : Buf K) (sg : Int → K), tqlSigns n V = some V' ∧ V'.size = V.size ∧ (∀ j, sg j = 1 ∨ sg j = -1) ∧ (∀ k j, 0 ≤ k → k < n → 0 ≤ j → j < n → V'.val (k + n * j) = sg j * V.val (k + n * j)) ∧
      ∀ j, 0 ≤ j → j < n → 0 ≤ V'.val (j + n * j) := by
  obtain ⟨V', e, h1, sg, h2, h3, h4, _⟩ := forUp_spec (lo := 0) (hi := n) (s := V)
    (body := fun j V => (V.rd (j + n * j)).bind fun v => if v < 0 then forUp 0 n (fun i V => (V.rd (i + n * j)).bind fun w => V.wr (i + n * j) (-w)) V else some V)
    (fun i V' => V'.size = V.size ∧ ∃ sg : Int → K, (∀ j, sg j = 1 ∨ sg j = -1) ∧ (∀ k j, 0 ≤ k → k < n → 0 ≤ j → j < n → V'.val (k + n * j) = sg j * V.val (k + n * j)) ∧
      (∀ j, 0 ≤ j → j < i → 0 ≤ V'.val (j + n * j)) ∧ ∀ j, i ≤ j → sg j = 1)
    ⟨rfl, fun _ => 1, fun _ => Or.inl rfl, fun k j _ _ _ _ => (one_mul _).symm, fun j _ _ => by omega, fun _ _ => rfl⟩
    (fun j j0 j1 W h => by
      obtain ⟨h1, sg, h2, h3, h4, h5⟩ := h
      have b := cm_lt j0 j1 j0 j1
      have hWs : (W.size : Int) = n * n := by rw [h1, hV]
      rw [Buf.rd_of b.1 (by omega), Option.bind_some]
      by_cases hn : W.val (j + n * j) < 0
      · rw [if_pos hn]
        obtain ⟨W', e1, s1, v1⟩ := neg_col j0 j1 hWs
        refine ⟨W', e1, by rw [s1, h1], Function.update sg j (-1), fun i => ?_, fun k i k0 k1 i0 i1 => ?_, fun i i0 i1 => ?_, fun i hi => ?_⟩
        · by_cases hi : i = j
          · rw [hi, Function.update_self]; exact Or.inr rfl
          · rw [Function.update_of_ne hi]; exact h2 i
        · rw [v1 k i k0 k1]
          by_cases hi : i = j
          · rw [if_pos hi, h3 k i k0 k1 i0 i1, hi, Function.update_self, h5 j (le_refl _)]; ring
          · rw [if_neg hi, Function.update_of_ne hi, h3 k i k0 k1 i0 i1]
        · rw [v1 i i i0 (by omega)]
          by_cases hi : i = j
          · rw [if_pos hi, hi]
            linarith
          · rw [if_neg hi]
            exact h4 i i0 (by omega)
        · rw [Function.update_of_ne (by omega)]
          exact h5 i (by omega)
      · rw [if_neg hn]
        refine ⟨W, rfl, h1, sg, h2, h3, fun i i0 i1 => ?_, fun i hi => h5 i (by omega)⟩
        by_cases hi : i = j
        · rw [hi]; exact not_lt.1 hn
        · exact h4 i i0 (by omega))
  rw [max_eq_right n0] at h4
  exact ⟨V', sg, e, h1, h2, h3, h4⟩

omit [IsStrictOrderedRing K] in
theorem Gh.sign {n : Int} {V0 : Int → Int → K} {V V' : Buf K} {U E : Int → Int → K} {tau : K} {sg : Int → K} (h : Gh n V0 V U E tau) (hsg : ∀ j, sg j = 1 ∨ sg j = -1)
    (hV : ∀ k j, 0 ≤ k → k < n → 0 ≤ j → j < n → V'.val (k + n * j) = sg j * V.val (k + n * j)) : Gh n V0 V' (fun r j => sg j * U r j) E tau := by
  refine ⟨fun j k j0 j1 k0 k1 => ?_, fun k j k0 k1 j0 j1 => ?_, h.sym, h.bd⟩
  · rw [Finset.sum_congr rfl (g := fun r => sg j * sg k * (U r j * U r k)) fun r _ => by ring, ← Finset.mul_sum, h.orth j k j0 j1 k0 k1]
    by_cases hjk : j = k
    · rw [if_pos hjk, hjk]
      rcases hsg k with h | h <;> rw [h] <;> ring
    · rw [if_neg hjk, mul_zero]
  · rw [hV k j k0 k1 j0 j1, h.vu k j k0 k1 j0 j1, Finset.mul_sum]
    exact Finset.sum_congr rfl fun r _ => by ring

omit [LinearOrder K] [IsStrictOrderedRing K] in
theorem Cols.sign {n : Int} {A E U : Int → Int → K} {d sg : Int → K} (h : Cols n A E U d) : Cols n A E (fun r j => sg j * U r j) d := fun k j k0 k1 j0 j1 => by
  have : AEU n A E (fun r j => sg j * U r j) k j = sg j * AEU n A E U k j := by
    unfold AEU rowMul
    rw [Finset.mul_sum]
    exact Finset.sum_congr rfl fun r _ => by ring
  rw [this, h k j k0 k1 j0 j1]
  ring

/-! ## Everything -/

omit [IsStrictOrderedRing K] in
theorem r0_init {n : Int} {d e : Int → K} {k : Int} (k0 : 0 ≤ k) : R0 n 0 d e 0 (AEU n (triMat d e) (fun _ _ => 0) eyeM k) (eyeM k) := by
  refine ⟨fun j j0 j1 => by omega, fun j j0 j1 => ?_⟩
  have : AEU n (triMat d e) (fun _ _ => 0) eyeM k j = triMat d e k j := by
    unfold AEU rowMul eyeM
    rw [Finset.sum_eq_single j]
    · dsimp only; rw [if_pos rfl, mul_one, add_zero]
    · intro b _ hb; dsimp only; rw [if_neg hb, mul_zero]
    · intro h; exact absurd (Finset.mem_Ico.2 ⟨j0, j1⟩) h
  rw [this]
  unfold triRow eyeM triMat
  by_cases h1 : k = j
  · subst h1
    rw [if_pos rfl, if_pos rfl, if_neg (c := k = k - 1) (by omega), if_neg (c := k = k + 1) (by omega)]
    simp
  · rw [if_neg h1, if_neg h1]
    by_cases h2 : j = k + 1
    · subst h2
      rw [if_pos rfl, if_pos (by omega), if_pos (by omega), if_neg (by omega), show k + 1 - 1 = k by omega]
      ring
    · rw [if_neg h2, if_neg (c := k = j - 1) (by omega)]
      by_cases h3 : k = j + 1
      · rw [if_pos h3, if_pos h3]
        simp
      · rw [if_neg h3, if_neg h3]
        simp

theorem gh_init {n : Int} (V : Buf K) : Gh n (fun k r => V.val (k + n * r)) V eyeM (fun _ _ => 0) 0 := by
  refine ⟨fun j k j0 j1 k0 k1 => ?_, fun k j k0 k1 j0 j1 => ?_, fun _ _ => rfl, fun x => ?_⟩
  · unfold eyeM
    rw [Finset.sum_eq_single j]
    · rw [if_pos rfl, one_mul]
    · intro b _ hb; rw [if_neg hb, zero_mul]
    · intro h; exact absurd (Finset.mem_Ico.2 ⟨j0, j1⟩) h
  · unfold eyeM
    rw [Finset.sum_eq_single j]
    · rw [if_pos rfl, mul_one]
    · intro b _ hb; rw [if_neg hb, mul_zero]
    · intro h; exact absurd (Finset.mem_Ico.2 ⟨j0, j1⟩) h
  · unfold rowMul
    simp

omit [LinearOrder K] [IsStrictOrderedRing K] in
/-- The first two loops. -/
theorem tql_copy {A : SymTri K} (n1 : 1 ≤ A.n) (ha : A.n ≤ A.a.size) (hb : A.n - 1 ≤ A.b.size) (j1 j2 : Int → K) : ∃ d e : Buf K, sweepUp 0 A.n (fun i _ => A.a.rd i) ⟨A.n.toNat, j1⟩ = some d ∧
    ((sweepUp 0 (A.n - 1) (fun i _ => A.b.rd i) ⟨A.n.toNat, j2⟩).bind fun e => e.wr (A.n - 1) 0) = some e ∧ (d.size : Int) = A.n ∧ (e.size : Int) = A.n ∧ (∀ i, 0 ≤ i → i < A.n → d.val i = A.a.val i) ∧
    (∀ i, 0 ≤ i → i < A.n - 1 → e.val i = A.b.val i) ∧ e.val (A.n - 1) = 0 := by
  have hs1 : ((⟨A.n.toNat, j1⟩ : Buf K).size : Int) = A.n := by show (A.n.toNat : Int) = _; omega
  have hs2 : ((⟨A.n.toNat, j2⟩ : Buf K).size : Int) = A.n := by show (A.n.toNat : Int) = _; omega
  rw [sweepUp_eq (fun i => A.a.val i) (le_refl _) (by omega) (fun i i0 i1 => Buf.rd_of i0 (by omega)),
    sweepUp_eq (fun i => A.b.val i) (le_refl _) (by omega) (fun i i0 i1 => Buf.rd_of i0 (by omega)), Option.bind_some, Buf.wr_of (by omega) (by rw [mix_size]; omega)]
  refine ⟨_, _, rfl, rfl, hs1, hs2, fun i i0 i1 => mix_val_in i0 i1, fun i i0 i1 => ?_, Function.update_self _ _ _⟩
  show Function.update _ _ _ i = _
  rw [Function.update_of_ne (by omega)]
  exact mix_val_in i0 i1

omit [LinearOrder K] [IsStrictOrderedRing K] in
theorem triMat_congr {n : Int} {a b a' b' : Int → K} (ha : ∀ i, 0 ≤ i → i < n → a i = a' i) (hb : ∀ i, 0 ≤ i → i < n - 1 → b i = b' i) {i j : Int} (i0 : 0 ≤ i) (i1 : i < n) (j0 : 0 ≤ j) (j1 : j < n) :
    triMat a b i j = triMat a' b' i j := by
  unfold triMat
  split
  · exact ha i i0 i1
  · split
    · exact hb i i0 (by omega)
    · split
      · exact hb j j0 (by omega)
      · rfl

theorem symTri_core {negl : K → K → Bool} {eta : K} (hN : NeglOk negl eta) {sqrt : K → K} (hsq : IsSqrt sqrt) {A : SymTri K} (n1 : 1 ≤ A.n) (ha : A.n ≤ A.a.size) (hb : A.n - 1 ≤ A.b.size)
    {V lambda : Buf K} (hV : (V.size : Int) = A.n * A.n) (hl : A.n ≤ lambda.size) (j1 j2 : Int → K) :
    ∃ out U E tau, symTriEig negl sqrt j1 j2 A V lambda = some out ∧ out.V.size = V.size ∧ out.lambda.size = lambda.size ∧ (∀ i, ¬ (0 ≤ i ∧ i < A.n) → out.lambda.val i = lambda.val i) ∧
      Gh A.n (fun k r => V.val (k + A.n * r)) out.V U E tau ∧ (∀ j, 0 ≤ j → j < A.n → 0 ≤ out.V.val (j + A.n * j)) ∧
      (out.ok = true → Cols A.n (triMat A.a.val A.b.val) E U out.lambda.val ∧ (∀ i j, 0 ≤ i → i ≤ j → j < A.n → out.lambda.val i ≤ out.lambda.val j) ∧ tau = 2 * A.n * eta * out.tst) := by
  obtain ⟨d, e, ed, ee, sd, se, vd, ve, he⟩ := tql_copy n1 ha hb j1 j2
  obtain ⟨n, hn⟩ : ∃ n, n = A.n := ⟨_, rfl⟩
  have hAE : ∀ E U : Int → Int → K, ∀ k, 0 ≤ k → k < n → AEU n (triMat d.val e.val) E U k = AEU n (triMat A.a.val A.b.val) E U k := fun E U k k0 k1 => by
    funext j
    unfold AEU rowMul
    refine Finset.sum_congr rfl fun r hr => ?_
    rw [Finset.mem_Ico] at hr
    dsimp only
    rw [triMat_congr (n := n) (by rw [hn]; exact vd) (by rw [hn]; exact ve) k0 k1 hr.1 hr.2]
  have main : ∃ ok tst dV U E tau, (if n = 1 then some (true, 0, d, V)
      else (tqlOuter negl sqrt n n.toNat 0 0 ⟨d, e, V, 0⟩).bind fun (ok, tst, st) =>
        if ok then (forUp 1 n (tqlSelect n) (st.d, st.V)).map fun dv => (true, tst, dv.1, dv.2) else some (false, tst, st.d, st.V)) = some ((ok, tst, dV) : Bool × K × Buf K × Buf K) ∧
      (dV.1.size : Int) = n ∧ (dV.2.size : Int) = n * n ∧ Gh n (fun k r => V.val (k + n * r)) dV.2 U E tau ∧
      (ok = true → Cols n (triMat A.a.val A.b.val) E U dV.1.val ∧ (∀ i j, 0 ≤ i → i ≤ j → j < n → dV.1.val i ≤ dV.1.val j) ∧ tau = 2 * n * eta * tst) := by
    rw [← hn] at sd se vd ve he hV n1
    by_cases h1 : n = 1
    · rw [if_pos h1]
      refine ⟨_, _, _, eyeM, fun _ _ => 0, 0, rfl, sd, hV, gh_init V, fun _ => ⟨fun k j k0 k1 j0 j1 => ?_, fun i j i0 ij j1 => ?_, by ring⟩⟩
      · rw [← hAE _ _ k k0 k1, (r0_init k0).low j j0 j1]
        unfold triRow
        rw [if_neg (by omega), show j = n - 1 by omega, he]
        ring
      · show d.val i ≤ d.val j
        rw [show i = j by omega]
    · rw [if_neg h1]
      obtain ⟨b, tst, st, E, tau, ee, l', q1, q2, q3⟩ := tqlOuter_spec hN hsq (A := triMat d.val e.val) (V0 := fun k r => V.val (k + n * r)) n.toNat 0 (le_refl _) (by omega) 0 ⟨d, e, V, 0⟩ (le_refl _)
        ⟨fun _ _ => 0, sd, se, hV, eyeM, (gh_init V).mono (by simp), fun k k0 k1 => r0_init k0⟩ he
      rw [q1, Option.bind_some]
      obtain ⟨U, g, hU⟩ := q2.gh
      cases b with
      | false => exact ⟨false, tst, (st.d, st.V), U, E, tau, rfl, q2.sd, q2.sV, g, fun h => by cases h⟩
      | true =>
        obtain ⟨rfl, q4⟩ := q3 rfl
        obtain ⟨d', V', U', w1, w2, w3, w4, w5, w6⟩ := tqlSort_spec n1 (A := triMat d.val e.val) q2.sd q2.sV g fun k j k0 k1 j0 j1 => (hU k k0 k1).fin j j0 j1
        simp only [if_true]
        rw [w1, Option.map_some]
        refine ⟨true, tst, (d', V'), U', E, tau, rfl, w2, w3, w4, fun _ => ⟨fun k j k0 k1 j0 j1 => ?_, w6, q4⟩⟩
        rw [← hAE _ _ k k0 k1]
        exact w5 k j k0 k1 j0 j1
  obtain ⟨ok, tst, ⟨d', V'⟩, U, E, tau, m1, m2, m3, m4, m5⟩ := main
  dsimp only at m2 m3 m4 m5
  unfold symTriEig
  simp only
  rw [ed, Option.bind_some, ← Option.bind_assoc, ee, Option.bind_some, ← hn, m1, Option.bind_some]
  simp only
  rw [sweepUp_eq (fun i => d'.val i) (le_refl _) (by omega) (fun i i0 i1 => Buf.rd_of i0 (by omega)), Option.bind_some]
  obtain ⟨V2, sg, eV, sV, hsg, vV, pV⟩ := tqlSigns_spec (n := n) (by omega) m3
  rw [eV, Option.map_some]
  refine ⟨_, fun r j => sg j * U r j, E, tau, rfl, ?_, rfl, fun i hi => mix_val_out hi, m4.sign hsg vV, pV, fun h => ?_⟩
  · show V2.size = V.size
    have : (V2.size : Int) = V.size := by rw [sV, m3, hV, hn]
    exact_mod_cast this
  · obtain ⟨c1, c2, c3⟩ := m5 h
    refine ⟨Cols.sign fun k j k0 k1 j0 j1 => ?_, fun i j i0 ij j1 => ?_, c3⟩
    · show _ = (mix lambda 0 n _).val j * _
      rw [mix_val_in j0 j1]
      exact c1 k j k0 k1 j0 j1
    · show (mix lambda 0 n _).val i ≤ (mix lambda 0 n _).val j
      rw [mix_val_in i0 (by omega), mix_val_in (by omega) j1]
      exact c2 i j i0 ij j1

end FT
