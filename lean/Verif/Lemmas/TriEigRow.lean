import Verif.Lemmas.TriEigGhost
import Verif.Lemmas.Sqrt

/-! # Lemmas for C68: loops over the rows of `V`, and one sweep -/

namespace FT
open FT.Props
variable {K : Type*}

theorem cm_inj {n k k' j j' : Int} (h0 : 0 ≤ k) (h1 : k < n) (h0' : 0 ≤ k') (h1' : k' < n) (h : k + n * j = k' + n * j') : k = k' ∧ j = j' := by
  have hj : j = j' := by
    rcases lt_trichotomy j j' with hlt | he | hgt
    · exfalso; nlinarith
    · exact he
    · exfalso; nlinarith
  subst hj
  exact ⟨by omega, rfl⟩

theorem cm_lt {n k j : Int} (k0 : 0 ≤ k) (k1 : k < n) (j0 : 0 ≤ j) (j1 : j < n) : 0 ≤ k + n * j ∧ k + n * j < n * n := ⟨by nlinarith, by nlinarith⟩

/-- A loop over the rows that changes one row at a time. -/
theorem row_loop {n : Int} (hn : 0 ≤ n) {N : Nat} {body : Int → Buf K → Option (Buf K)} {phi : (Int → K) → Int → K} {V : Buf K} (hV : V.size = N)
    (hb : ∀ k, 0 ≤ k → k < n → ∀ V : Buf K, V.size = N → ∃ V', body k V = some V' ∧ V'.size = N ∧ (∀ j, V'.val (k + n * j) = phi (fun j => V.val (k + n * j)) j) ∧
      ∀ k' j, 0 ≤ k' → k' < n → k' ≠ k → V'.val (k' + n * j) = V.val (k' + n * j)) :
    ∃ V', forUp 0 n body V = some V' ∧ V'.size = N ∧ ∀ k j, 0 ≤ k → k < n → V'.val (k + n * j) = phi (fun j => V.val (k + n * j)) j := by
  obtain ⟨V', e, h1, h2, _⟩ := forUp_spec (lo := 0) (hi := n) (body := body) (s := V)
    (fun i V' => V'.size = N ∧ (∀ k j, 0 ≤ k → k < i → V'.val (k + n * j) = phi (fun j => V.val (k + n * j)) j) ∧ ∀ k j, i ≤ k → k < n → V'.val (k + n * j) = V.val (k + n * j))
    ⟨hV, fun k j k0 k1 => by omega, fun k j _ _ => rfl⟩
    (fun i i0 i1 W hW => by
      obtain ⟨h1, h2, h3⟩ := hW
      obtain ⟨W', e, s, q1, q2⟩ := hb i i0 i1 W h1
      refine ⟨W', e, s, fun k j k0 k1 => ?_, fun k j k0 k1 => ?_⟩
      · by_cases hk : k = i
        · subst hk
          rw [q1 j]
          congr 1
          funext j
          exact h3 k j (le_refl _) i1
        · rw [q2 k j k0 (by omega) hk, h2 k j k0 (by omega)]
      · rw [q2 k j (by omega) k1 (by omega), h3 k j (by omega) k1])
  rw [max_eq_right hn] at h2
  exact ⟨V', e, h1, h2⟩

section
variable [Field K] [LinearOrder K]

theorem tqlRot_spec {n i : Int} (i0 : 0 ≤ i) (i1 : i + 1 < n) (c s : K) {V : Buf K} (hV : (V.size : Int) = n * n) :
    ∃ V', tqlRot n i c s V = some V' ∧ V'.size = V.size ∧ ∀ k j, 0 ≤ k → k < n → V'.val (k + n * j) = rotC c s i (fun j => V.val (k + n * j)) j := by
  refine row_loop (N := V.size) (by omega) rfl fun k k0 k1 W hW => ?_
  have b1 := cm_lt k0 k1 (show 0 ≤ i + 1 by omega) i1
  have b2 := cm_lt k0 k1 i0 (show i < n by omega)
  have hWs : (W.size : Int) = n * n := by rw [hW, hV]
  rw [Buf.rd_of b1.1 (by omega), Option.bind_some, Buf.rd_of b2.1 (by omega), Option.bind_some, Buf.wr_of b1.1 (by omega), Option.bind_some, Buf.wr_of b2.1 (by show _ < (W.size : Int); omega)]
  have ne : k + n * i ≠ k + n * (i + 1) := fun h => by have := (cm_inj k0 k1 k0 k1 h).2; omega
  refine ⟨_, rfl, hW, fun j => ?_, fun k' j k0' k1' hk => ?_⟩
  · show Function.update (Function.update W.val (k + n * (i + 1)) _) (k + n * i) _ (k + n * j) = _
    by_cases h1 : j = i
    · subst h1
      rw [Function.update_self, rotC_l]
    · rw [Function.update_of_ne (fun h => h1 (cm_inj k0 k1 k0 k1 h).2)]
      by_cases h2 : j = i + 1
      · subst h2
        rw [Function.update_self, rotC_r]
      · rw [Function.update_of_ne (fun h => h2 (cm_inj k0 k1 k0 k1 h).2), rotC_o h1 h2]
  · show Function.update (Function.update W.val (k + n * (i + 1)) _) (k + n * i) _ (k' + n * j) = _
    rw [Function.update_of_ne (fun h => hk (cm_inj k0' k1' k0 k1 h).1), Function.update_of_ne (fun h => hk (cm_inj k0' k1' k0 k1 h).1)]

/-- Two columns exchanged. -/
def swapC (a b : Int) (u : Int → K) (j : Int) : K := if j = a then u b else if j = b then u a else u j

theorem tqlSwap_spec {n i l : Int} (i0 : 0 ≤ i) (i1 : i < n) (l0 : 0 ≤ l) (l1 : l < n) (hil : l ≠ i) {V : Buf K} (hV : (V.size : Int) = n * n) :
    ∃ V', tqlSwap n i l V = some V' ∧ V'.size = V.size ∧ ∀ k j, 0 ≤ k → k < n → V'.val (k + n * j) = swapC i l (fun j => V.val (k + n * j)) j := by
  refine row_loop (N := V.size) (by omega) rfl fun k k0 k1 W hW => ?_
  have b1 := cm_lt k0 k1 l0 l1
  have b2 := cm_lt k0 k1 i0 i1
  have hWs : (W.size : Int) = n * n := by rw [hW, hV]
  rw [Buf.rd_of b2.1 (by omega), Option.bind_some, Buf.rd_of b1.1 (by omega), Option.bind_some, Buf.wr_of b2.1 (by omega), Option.bind_some, Buf.wr_of b1.1 (by show _ < (W.size : Int); omega)]
  refine ⟨_, rfl, hW, fun j => ?_, fun k' j k0' k1' hk => ?_⟩
  · show Function.update (Function.update W.val (k + n * i) _) (k + n * l) _ (k + n * j) = _
    unfold swapC
    by_cases h1 : j = l
    · subst h1
      rw [Function.update_self, if_neg hil, if_pos rfl]
    · rw [Function.update_of_ne (fun h => h1 (cm_inj k0 k1 k0 k1 h).2)]
      by_cases h2 : j = i
      · subst h2
        rw [Function.update_self, if_pos rfl]
      · rw [Function.update_of_ne (fun h => h2 (cm_inj k0 k1 k0 k1 h).2), if_neg h2, if_neg h1]
  · show Function.update (Function.update W.val (k + n * i) _) (k + n * l) _ (k' + n * j) = _
    rw [Function.update_of_ne (fun h => hk (cm_inj k0' k1' k0 k1 h).1), Function.update_of_ne (fun h => hk (cm_inj k0' k1' k0 k1 h).1)]

end

section
variable [Field K] [LinearOrder K] [IsStrictOrderedRing K]

theorem hypotS_spec {sqrt : K → K} (hsq : IsSqrt sqrt) {a b : K} (h : b ≠ 0) : 0 < hypotS sqrt a b ∧ hypotS sqrt a b * hypotS sqrt a b = a * a + b * b := by
  have h0 : 0 < a * a + b * b := add_pos_of_nonneg_of_pos (mul_self_nonneg a) (mul_self_pos.2 h)
  exact ⟨sqrt_pos hsq h0, (hsq _ (le_of_lt h0)).2⟩

/-- One rotation of the sweep. -/
theorem tqlBody_spec {sqrt : K → K} (hsq : IsSqrt sqrt) {n a : Int} (a0 : 0 ≤ a) (a1 : a + 1 < n) {st : TqlSweep K} (hd : (st.d.size : Int) = n) (he : (st.e.size : Int) = n)
    (hV : (st.V.size : Int) = n * n) (hz : st.e.val a ≠ 0) :
    ∃ r c s V', 0 < r ∧ st.e.val a = s * r ∧ st.p = c * r ∧ c * c + s * s = 1 ∧ V'.size = st.V.size ∧ (∀ k j, 0 ≤ k → k < n → V'.val (k + n * j) = rotC c s a (fun j => st.V.val (k + n * j)) j) ∧
      tqlBody sqrt n a st = some ⟨⟨st.d.size, Function.update st.d.val (a + 1) (st.c * st.p + s * (c * (st.c * st.e.val a) + s * st.d.val a))⟩, ⟨st.e.size, Function.update st.e.val (a + 1) (st.s * r)⟩, V',
        c * st.d.val a - s * (st.c * st.e.val a), c, s, st.c, st.c2, st.s⟩ := by
  obtain ⟨hr, hrr⟩ := hypotS_spec hsq (a := st.p) hz
  have hr0 := ne_of_gt hr
  obtain ⟨V', eV, sV, vV⟩ := tqlRot_spec a0 a1 (st.p / hypotS sqrt st.p (st.e.val a)) (st.e.val a / hypotS sqrt st.p (st.e.val a)) hV
  refine ⟨hypotS sqrt st.p (st.e.val a), st.p / hypotS sqrt st.p (st.e.val a), st.e.val a / hypotS sqrt st.p (st.e.val a), V', hr, (div_mul_cancel₀ _ hr0).symm, (div_mul_cancel₀ _ hr0).symm, ?_, sV, vV, ?_⟩
  · rw [div_mul_div_comm, div_mul_div_comm, ← add_div, hrr]
    exact div_self (by rw [← hrr]; exact mul_ne_zero hr0 hr0)
  · unfold tqlBody
    rw [Buf.rd_of a0 (by omega), Option.bind_some]
    simp only
    rw [Buf.wr_of (by omega) (by omega), Option.bind_some, divC_of hr0, Option.bind_some, divC_of hr0, Option.bind_some, Buf.rd_of a0 (by omega), Option.bind_some, Buf.wr_of (by omega) (by omega),
      Option.bind_some, eV, Option.map_some]

/-- What holds when the sweep reached `i`. -/
structure SwInv (n l m i : Int) (A V0 E : Int → Int → K) (tau f : K) (d0 e0 : Int → K) (st : TqlSweep K) : Prop where
  sd : (st.d.size : Int) = n
  se : (st.e.size : Int) = n
  sV : (st.V.size : Int) = n * n
  gh : ∃ U, Gh n V0 st.V U E tau ∧ ∀ k, 0 ≤ k → k < n → R1 n l i st.d.val st.e.val f st.c st.s st.p (AEU n A E U k) (U k)
  pp : st.p = st.c * d0 i - st.s * st.c2 * e0 i
  prev : i < m → ∃ r, r ≠ 0 ∧ e0 i = st.s * r ∧ st.c * r = st.c2 * d0 (i + 1) - st.s2 * st.c3 * e0 (i + 1)
  d : ∀ j, j ≤ i → st.d.val j = d0 j
  e : ∀ j, j ≤ i → st.e.val j = e0 j
  ez : ∀ j, i < j → j < m → st.e.val j ≠ 0
  s0 : i = m → st.s = 0
  sn : i < m → st.s ≠ 0
  em : i < m → st.e.val m = 0
  eh : ∀ j, m < j → st.e.val j = e0 j
  s20 : i = m - 1 → st.s2 = 0

theorem sweep_spec {sqrt : K → K} (hsq : IsSqrt sqrt) {n l m : Int} (l0 : 0 ≤ l) (lm : l < m) (mn : m < n) {A V0 E : Int → Int → K} {tau f : K} {d e V : Buf K} (hd : (d.size : Int) = n)
    (he : (e.size : Int) = n) (hV : (V.size : Int) = n * n) (hz : ∀ j, l ≤ j → j < m → e.val j ≠ 0)
    (hg : ∃ U, Gh n V0 V U E tau ∧ ∀ k, 0 ≤ k → k < n → R0 n l d.val (Function.update e.val m 0) f (AEU n A E U k) (U k)) :
    ∃ w, forUp 1 (m - l + 1) (fun ii st => tqlBody sqrt n (m - ii) st) ⟨d, e, V, d.val m, 1, 0, 1, 1, 0⟩ = some w ∧ SwInv n l m l A V0 E tau f d.val e.val w := by
  obtain ⟨w, ew, hw⟩ := forUp_spec (lo := 1) (hi := m - l + 1) (body := fun ii st => tqlBody sqrt n (m - ii) st) (s := (⟨d, e, V, d.val m, 1, 0, 1, 1, 0⟩ : TqlSweep K))
    (fun ii st => SwInv n l m (m - ii + 1) A V0 E tau f d.val e.val st)
    (by
      rw [show m - 1 + 1 = m by omega]
      obtain ⟨U, g, hU⟩ := hg
      exact ⟨hd, he, hV, ⟨U, g, fun k k0 k1 => r1_start lm mn (hU k k0 k1)⟩, by show d.val m = 1 * d.val m - 0 * 1 * e.val m; ring, fun h => absurd h (lt_irrefl _), fun _ _ => rfl, fun _ _ => rfl,
        fun j h1 h2 => by omega, fun _ => rfl, fun h => absurd h (lt_irrefl _), fun h => absurd h (lt_irrefl _), fun _ _ => rfl, fun h => by omega⟩)
    (fun ii i0 i1 st h => by
      obtain ⟨a, ha⟩ : ∃ a, a = m - ii := ⟨_, rfl⟩
      rw [show m - ii + 1 = a + 1 by omega] at h
      rw [show m - (ii + 1) + 1 = a by omega, ← ha]
      obtain ⟨sd, se, sV, ⟨U, g, hU⟩, pp, prev, hd', he', ez, s0, sn, em, eh, _⟩ := h
      have hea : st.e.val a = e.val a := he' a (by omega)
      have hda : st.d.val a = d.val a := hd' a (by omega)
      obtain ⟨r, c, s, V', hr, h1, h2, h3, h4, h5, h6⟩ := tqlBody_spec hsq (a := a) (by omega) (by omega) sd se sV (by rw [hea]; exact hz a (by omega) (by omega))
      have hs : s ≠ 0 := fun e0 => hz a (by omega) (by omega) (by rw [← hea, h1, e0, zero_mul])
      refine ⟨_, h6, sd, se, by rw [← sV]; exact congrArg _ h4, ⟨fun r => rotC c s a (U r), g.rot (by omega) (by omega) h3 fun k j k0 k1 _ _ => h5 k j k0 k1, fun k k0 k1 => ?_⟩, ?_, fun _ => ⟨r, ne_of_gt hr, ?_, ?_⟩,
        fun j hj => ?_, fun j hj => ?_, fun j j0 j1 => ?_, fun h => by omega, fun _ => hs, fun _ => ?_, fun j hj => ?_, fun h => s0 (by omega)⟩
      · rw [aeu_rot]
        exact r1_step (by omega) (hU k k0 k1) h1 h2 h3
      · show c * st.d.val a - s * (st.c * st.e.val a) = c * d.val a - s * st.c * e.val a
        rw [hda, hea]; ring
      · show e.val a = s * r
        rw [← hea, h1]
      · show c * r = st.c * d.val (a + 1) - st.s * st.c2 * e.val (a + 1)
        rw [← h2, pp]
      · show Function.update _ _ _ j = _
        rw [Function.update_of_ne (by omega), hd' j (by omega)]
      · show Function.update _ _ _ j = _
        rw [Function.update_of_ne (by omega), he' j (by omega)]
      · show Function.update _ _ _ j ≠ 0
        by_cases hj : j = a + 1
        · subst hj
          rw [Function.update_self]
          exact mul_ne_zero (sn j1) (ne_of_gt hr)
        · rw [Function.update_of_ne hj]
          exact ez j (by omega) j1
      · show Function.update _ _ _ m = 0
        by_cases hm : m = a + 1
        · rw [← hm, Function.update_self, s0 hm.symm, zero_mul]
        · rw [Function.update_of_ne hm]
          exact em (by omega)
      · show Function.update _ _ _ j = _
        rw [Function.update_of_ne (by omega), eh j hj])
  rw [max_eq_right (by omega), show m - (m - l + 1) + 1 = l by omega] at hw
  exact ⟨w, ew, hw⟩

end

end FT
