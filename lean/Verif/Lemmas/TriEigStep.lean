import Verif.Lemmas.TriEigRow

/-! # Lemmas for C68: the iterations of the QL method -/

namespace FT
open FT.Props
variable {K : Type*} [Field K] [LinearOrder K] [IsStrictOrderedRing K]

/-- The shift is an eigenvalue of the leading two by two block. -/
theorem shift_spec {sqrt : K → K} (hsq : IsSqrt sqrt) (p : K) : p + copysignS (hypotS sqrt p 1) p ≠ 0 ∧
    (p + copysignS (hypotS sqrt p 1) p) * (p + copysignS (hypotS sqrt p 1) p) - 1 = 2 * p * (p + copysignS (hypotS sqrt p 1) p) := by
  obtain ⟨h0, h1⟩ := hypotS_spec hsq (a := p) (one_ne_zero (α := K))
  unfold copysignS
  rw [abs_of_pos h0]
  split
  · rename_i h
    exact ⟨ne_of_lt (by linarith), by linear_combination h1⟩
  · rename_i h
    exact ⟨ne_of_gt (by linarith), by linear_combination h1⟩

/-- What holds of the arrays of the eigensolver. -/
structure QI (n l : Int) (A V0 E : Int → Int → K) (tau : K) (st : TqlSt K) (ee : Int → K) : Prop where
  sd : (st.d.size : Int) = n
  se : (st.e.size : Int) = n
  sV : (st.V.size : Int) = n * n
  gh : ∃ U, Gh n V0 st.V U E tau ∧ ∀ k, 0 ≤ k → k < n → R0 n l st.d.val ee st.f (AEU n A E U k) (U k)

theorem tqlStep_spec {sqrt : K → K} (hsq : IsSqrt sqrt) {n l m : Int} (l0 : 0 ≤ l) (lm : l < m) (mn : m < n) {A V0 E : Int → Int → K} {tau : K} {st : TqlSt K}
    (h : QI n l A V0 E tau st (Function.update st.e.val m 0)) (hz : ∀ j, l ≤ j → j < m → st.e.val j ≠ 0) :
    ∃ st', tqlStep sqrt n l m st = some st' ∧ QI n l A V0 E tau st' st'.e.val ∧ (∀ j, l < j → j < m → st'.e.val j ≠ 0) ∧ st'.e.val m = 0 ∧ (∀ j, m < j → st'.e.val j = st.e.val j) ∧ (m = l + 1 → st'.e.val l = 0) := by
  obtain ⟨sd, se, sV, U, g, hU⟩ := h
  have hel := hz l (le_refl _) lm
  obtain ⟨p0, hp0⟩ : ∃ p0, p0 = (st.d.val (l + 1) - st.d.val l) / (2 * st.e.val l) := ⟨_, rfl⟩
  have h2el : 2 * st.e.val l ≠ 0 := mul_ne_zero two_ne_zero hel
  have hp1 : 2 * st.e.val l * p0 = st.d.val (l + 1) - st.d.val l := by rw [hp0]; exact mul_div_cancel₀ _ h2el
  obtain ⟨q, hq⟩ : ∃ q, q = p0 + copysignS (hypotS sqrt p0 1) p0 := ⟨_, rfl⟩
  obtain ⟨q0, q1⟩ := shift_spec hsq p0
  rw [← hq] at q0 q1
  obtain ⟨dl, hdl⟩ : ∃ dl, dl = st.e.val l / q := ⟨_, rfl⟩
  have hdl1 : dl * q = st.e.val l := by rw [hdl]; exact div_mul_cancel₀ _ q0
  have hg1 : st.e.val l * q = st.d.val (l + 1) - (st.d.val l - dl) := by
    have : (st.e.val l * q - st.d.val (l + 1) + st.d.val l - dl) * q = 0 := by
      linear_combination st.e.val l * q1 + q * hp1 - hdl1
    rcases mul_eq_zero.1 this with h | h
    · linear_combination h
    · exact absurd h q0
  unfold tqlStep
  rw [Buf.rd_of l0 (by omega), Option.bind_some, Buf.rd_of (by omega) (by omega), Option.bind_some, Buf.rd_of l0 (by omega), Option.bind_some, divC_of h2el, Option.bind_some, ← hp0]
  simp only
  rw [← hq, divC_of q0, Option.bind_some, ← hdl, Buf.wr_of l0 (by omega), Option.bind_some, Buf.wr_of (by omega) (by show _ < (st.d.size : Int); omega), Option.bind_some]
  obtain ⟨d0, hd0⟩ : ∃ d0 : Buf K, d0 = ⟨st.d.size, Function.update (Function.update st.d.val l dl) (l + 1) (st.e.val l * q)⟩ := ⟨_, rfl⟩
  rw [← hd0]
  have d0l : d0.val l = dl := by rw [hd0]; show Function.update _ _ _ l = _; rw [Function.update_of_ne (by omega), Function.update_self]
  have d0l1 : d0.val (l + 1) = st.e.val l * q := by rw [hd0]; exact Function.update_self _ _ _
  have d0o : ∀ j, j ≠ l → j ≠ l + 1 → d0.val j = st.d.val j := fun j h1 h2 => by
    rw [hd0]; show Function.update _ _ _ j = _; rw [Function.update_of_ne h2, Function.update_of_ne h1]
  have d0s : d0.size = st.d.size := by rw [hd0]
  rw [sweepUp_eq (lo := l + 2) (hi := n) (y := fun i => d0.val i - (st.d.val l - dl)) (by omega) (by omega) (fun i i0 i1 => by
    rw [Buf.rd_of (by omega) (by rw [mix_size]; omega), Option.map_some, mix_val_out (by omega)]), Option.bind_some]
  obtain ⟨d1, hd1⟩ : ∃ d1, d1 = mix d0 (l + 2) n (fun i => d0.val i - (st.d.val l - dl)) := ⟨_, rfl⟩
  rw [← hd1]
  have s1 : (d1.size : Int) = n := by rw [hd1, mix_size, d0s, sd]
  have d1l : d1.val l = dl := by rw [hd1, mix_val_out (by omega), d0l]
  have d1l1 : d1.val (l + 1) = st.e.val l * q := by rw [hd1, mix_val_out (by omega), d0l1]
  have d1s : ∀ j, l ≤ j → j < n → d1.val j = st.d.val j - (st.d.val l - dl) := fun j j0 j1 => by
    by_cases h1 : j = l
    · rw [h1, d1l]; ring
    · by_cases h2 : j = l + 1
      · rw [h2, d1l1, hg1]
      · rw [hd1, mix_val_in (by omega) (by omega), d0o j h1 h2]
  have d1o : ∀ j, 0 ≤ j → j < l → d1.val j = st.d.val j := fun j j0 j1 => by rw [hd1, mix_val_out (by omega), d0o j (by omega) (by omega)]
  rw [Buf.rd_of (by omega) (by omega), Option.bind_some, Buf.rd_of (by omega) (by omega), Option.bind_some]
  obtain ⟨w, ew, hw⟩ := sweep_spec hsq l0 lm mn (A := A) (V0 := V0) (E := E) (tau := tau) (f := st.f + (st.d.val l - dl)) s1 se sV hz
    ⟨U, g, fun k k0 k1 => r0_shift (hU k k0 k1) d1o d1s⟩
  rw [ew, Option.bind_some]
  obtain ⟨wd, we, wV, ⟨U', g', hU'⟩, pp, prev, wdl, wel, ez, _, _, em, eh, s20⟩ := hw
  obtain ⟨r, _, er, cr⟩ := prev lm
  have hwel : w.e.val l = st.e.val l := wel l (le_refl _)
  have hpf : -w.s * w.s2 * w.c3 * st.e.val (l + 1) * st.e.val l / (st.e.val l * q) = w.p := by
    rw [div_eq_iff (mul_ne_zero hel q0), pp, d1l]
    rw [d1l1] at cr
    linear_combination (-st.e.val l * w.s) * cr + (- w.c * st.e.val l) * er + (- w.c * st.e.val l) * hdl1
  rw [Buf.rd_of l0 (by omega), Option.bind_some, hwel, divC_of (mul_ne_zero hel q0), Option.bind_some, hpf, Buf.wr_of l0 (by omega), Option.bind_some, Buf.wr_of l0 (by omega), Option.map_some]
  refine ⟨_, rfl, ⟨wd, we, wV, U', g', fun k k0 k1 => r1_end (hU' k k0 k1) (by omega)⟩, fun j j0 j1 => ?_, ?_, fun j j0 => ?_, fun hm => ?_⟩
  · show Function.update _ _ _ j ≠ 0
    rw [Function.update_of_ne (by omega)]
    exact ez j j0 j1
  · show Function.update _ _ _ m = 0
    rw [Function.update_of_ne (by omega)]
    exact em lm
  · show Function.update _ _ _ j = _
    rw [Function.update_of_ne (by omega)]
    exact eh j j0
  · show Function.update _ _ _ l = 0
    rw [Function.update_self, ← hpf, s20 (by omega)]
    ring

/-- The iterations for one eigenvalue. -/
theorem tqlIter_spec {negl : K → K → Bool} {sqrt : K → K} (hsq : IsSqrt sqrt) {tst : K} (hn : negl tst 0 = true) {n l m : Int} (l0 : 0 ≤ l) (lm : l < m) (mn : m < n) {A V0 E : Int → Int → K} {tau : K} :
    ∀ (k : Nat) (st : TqlSt K), QI n l A V0 E tau st (Function.update st.e.val m 0) → (∀ j, l ≤ j → j < m → st.e.val j ≠ 0) → (m < n - 1 → st.e.val (n - 1) = 0) →
      ∃ b st' ee, tqlIter negl sqrt tst n l m k st = some (b, st') ∧ QI n l A V0 E tau st' ee ∧ (b = true → ee = st'.e.val ∧ negl tst |st'.e.val l| = true ∧ st'.e.val (n - 1) = 0)
  | 0, st, h, _, _ => ⟨false, st, _, rfl, h, fun h => by cases h⟩
  | k + 1, st, h, hz, he => by
    obtain ⟨st', es, h', hz', hm, ho, _⟩ := tqlStep_spec hsq l0 lm mn h hz
    have hu : Function.update st'.e.val m 0 = st'.e.val := by rw [← hm, Function.update_eq_self]
    have hlast : st'.e.val (n - 1) = 0 := by
      by_cases hmn : m = n - 1
      · rw [← hmn, hm]
      · rw [ho _ (by omega), he (by omega)]
    unfold tqlIter
    rw [es, Option.bind_some, Buf.rd_of l0 (by have := h'.se; omega), Option.bind_some]
    by_cases hs : negl tst |st'.e.val l| = true
    · rw [if_pos hs]
      exact ⟨true, st', _, rfl, h', fun _ => ⟨rfl, hs, hlast⟩⟩
    · rw [if_neg hs]
      refine tqlIter_spec hsq hn l0 lm mn k st' (by rw [hu]; exact h') (fun j j0 j1 => ?_) fun _ => hlast
      by_cases hj : j = l
      · subst hj
        intro e
        exact hs (by rw [e, abs_zero, hn])
      · exact hz' j (by omega) j1

omit [IsStrictOrderedRing K] in
/-- The search stops at the first negligible entry. -/
theorem tqlSearch_spec {negl : K → K → Bool} {tst : K} {e : Buf K} {n : Int} (he : (e.size : Int) = n) (hl : negl tst |e.val (n - 1)| = true) :
    ∀ (k : Nat) (l : Int), 0 ≤ l → l + k = n → 0 < k → ∃ m, tqlSearch negl tst e k l = some m ∧ l ≤ m ∧ m < n ∧ negl tst |e.val m| = true ∧ ∀ j, l ≤ j → j < m → negl tst |e.val j| = false
  | 0, _, _, _, h => absurd h (lt_irrefl _)
  | k + 1, l, l0, hk, _ => by
    push_cast at hk
    unfold tqlSearch
    rw [Buf.rd_of l0 (by omega), Option.bind_some]
    by_cases hs : negl tst |e.val l| = true
    · rw [if_pos hs]
      exact ⟨l, rfl, le_refl _, by omega, hs, fun j _ _ => by omega⟩
    · rw [if_neg hs]
      by_cases k0 : k = 0
      · subst k0
        rw [show n - 1 = l by simp at hk; omega] at hl
        exact absurd hl hs
      · obtain ⟨m, e1, m0, m1, m2, m3⟩ := tqlSearch_spec he hl k (l + 1) (by omega) (by omega) (by omega)
        refine ⟨m, e1, by omega, m1, m2, fun j j0 j1 => ?_⟩
        by_cases hj : j = l
        · rw [hj]; simpa using hs
        · exact m3 j (by omega) j1

end FT
