import Verif.Lemmas.Sort

/-! # Lemmas on the in-place permutation and on bisection -/

namespace FT
variable {α : Type*}

/-- The first `n` entries of `p` are a permutation of `0, …, n-1`. -/
structure IsPerm (n : Int) (p : Buf Int) : Prop where
  le : n ≤ p.size
  lo : ∀ k, 0 ≤ k → k < n → 0 ≤ p.val k
  hi : ∀ k, 0 ≤ k → k < n → p.val k < n
  inj : ∀ k l, 0 ≤ k → k < n → 0 ≤ l → l < n → p.val k = p.val l → k = l

/-- `p` with the entries outside `V` marked. -/
def markP (n : Int) (p : Buf Int) (V : Finset Int) : Buf Int := ⟨p.size, fun k => if 0 ≤ k ∧ k < n ∧ k ∉ V then p.val k - n else p.val k⟩

theorem markP_unmark {n : Int} {p : Buf Int} (hp : IsPerm n p) {V : Finset Int} {k : Int} (k0 : 0 ≤ k) (k1 : k < n) (hk : k ∉ V) :
    unmark n (markP n p V) k = some (markP n p (insert k V), p.val k) := by
  have := hp.le
  unfold unmark
  rw [Buf.rd_of (b := markP n p V) k0 (by show k < (p.size : Int); omega), Option.bind_some]
  have e : (markP n p V).val k = p.val k - n := if_pos ⟨k0, k1, hk⟩
  rw [e, sub_add_cancel, Buf.wr_of (b := markP n p V) k0 (by show k < (p.size : Int); omega)]
  show some _ = some _
  congr 1
  refine Prod.ext (Buf.ext' rfl fun j => ?_) rfl
  show Function.update (markP n p V).val k (p.val k) j = (markP n p (insert k V)).val j
  by_cases hj : j = k
  · subst hj
    rw [Function.update_self]
    exact (if_neg (fun h => h.2.2 (Finset.mem_insert_self _ _))).symm
  · rw [Function.update_of_ne hj]
    show (if _ then _ else _) = if _ then _ else _
    simp only [Finset.mem_insert, hj, false_or]

theorem markP_rd {n : Int} {p : Buf Int} (hp : IsPerm n p) (V : Finset Int) {k : Int} (k0 : 0 ≤ k) (k1 : k < n) :
    ∃ v, (markP n p V).rd k = some v ∧ (v < 0 ↔ k ∉ V) := by
  have := hp.le
  have h0 := hp.lo k k0 k1
  have h1 := hp.hi k k0 k1
  refine ⟨_, Buf.rd_of (b := markP n p V) k0 (by show k < (p.size : Int); omega), ?_⟩
  by_cases hk : k ∈ V
  · have e : (markP n p V).val k = p.val k := if_neg (fun h => h.2.2 hk)
    rw [e]
    exact ⟨fun h => absurd h (by omega), fun h => absurd hk h⟩
  · have e : (markP n p V).val k = p.val k - n := if_pos ⟨k0, k1, hk⟩
    rw [e]
    exact ⟨fun _ => hk, fun _ => by omega⟩

/-- The part of the invariant of the cycle loops that is about the visited set: the cycle was entered at `i`, the last index visited is `u`. -/
structure Cyc (n : Int) (p : Buf Int) (V : Finset Int) (i u : Int) : Prop where
  sub : V ⊆ Finset.Ico 0 n
  mi : i ∈ V
  mu : u ∈ V
  fwd : ∀ v ∈ V, v ≠ u → p.val v ∈ V ∧ p.val v ≠ i
  bwd : ∀ v ∈ V, v ≠ i → ∀ w, 0 ≤ w → w < n → p.val w = v → w ∈ V ∧ w ≠ u

/-- Closed under the permutation and its inverse. -/
structure Closed (n : Int) (p : Buf Int) (V : Finset Int) : Prop where
  sub : V ⊆ Finset.Ico 0 n
  fwd : ∀ v ∈ V, p.val v ∈ V
  bwd : ∀ v ∈ V, ∀ w, 0 ≤ w → w < n → p.val w = v → w ∈ V

theorem Cyc.start {n : Int} {p : Buf Int} {V : Finset Int} (h : Closed n p V) {i : Int} (i0 : 0 ≤ i) (i1 : i < n) (hi : i ∉ V) : Cyc n p (insert i V) i i where
  sub := Finset.insert_subset (Finset.mem_Ico.2 ⟨i0, i1⟩) h.sub
  mi := Finset.mem_insert_self _ _
  mu := Finset.mem_insert_self _ _
  fwd v hv hn := by
    have hv := (Finset.mem_insert.1 hv).resolve_left hn
    exact ⟨Finset.mem_insert_of_mem (h.fwd v hv), fun e => hi (e ▸ h.fwd v hv)⟩
  bwd v hv hn w w0 w1 hw := by
    have hv := (Finset.mem_insert.1 hv).resolve_left hn
    have hw := h.bwd v hv w w0 w1 hw
    exact ⟨Finset.mem_insert_of_mem hw, fun e => hi (e ▸ hw)⟩

theorem Cyc.range {n : Int} {p : Buf Int} (hp : IsPerm n p) {V : Finset Int} {i u : Int} (h : Cyc n p V i u) : (0 ≤ u ∧ u < n) ∧ (0 ≤ i ∧ i < n) ∧ 0 ≤ p.val u ∧ p.val u < n := by
  have hu := Finset.mem_Ico.1 (h.sub h.mu)
  have hi := Finset.mem_Ico.1 (h.sub h.mi)
  exact ⟨hu, hi, hp.lo u hu.1 hu.2, hp.hi u hu.1 hu.2⟩

theorem Cyc.next {n : Int} {p : Buf Int} (hp : IsPerm n p) {V : Finset Int} {i u : Int} (h : Cyc n p V i u) (hk : p.val u ∉ V) : Cyc n p (insert (p.val u) V) i (p.val u) where
  sub := Finset.insert_subset (Finset.mem_Ico.2 (h.range hp).2.2) h.sub
  mi := Finset.mem_insert_of_mem h.mi
  mu := Finset.mem_insert_self _ _
  fwd v hv hn := by
    have hv := (Finset.mem_insert.1 hv).resolve_left hn
    by_cases e : v = u
    · subst e; exact ⟨Finset.mem_insert_self _ _, fun e => hk (e ▸ h.mi)⟩
    · exact ⟨Finset.mem_insert_of_mem (h.fwd v hv e).1, (h.fwd v hv e).2⟩
  bwd v hv hn w w0 w1 hw := by
    by_cases e : v = p.val u
    · have hwu : w = u := hp.inj w u w0 w1 (h.range hp).1.1 (h.range hp).1.2 (by rw [hw, e])
      subst hwu
      exact ⟨Finset.mem_insert_of_mem h.mu, fun e => hk (e ▸ h.mu)⟩
    · have hv := (Finset.mem_insert.1 hv).resolve_left e
      have := (h.bwd v hv hn w w0 w1 hw).1
      exact ⟨Finset.mem_insert_of_mem this, fun e => hk (e ▸ this)⟩

theorem Cyc.close {n : Int} {p : Buf Int} (hp : IsPerm n p) {V : Finset Int} {i u : Int} (h : Cyc n p V i u) (hk : p.val u ∈ V) : p.val u = i ∧ Closed n p V := by
  have hr := h.range hp
  have e : p.val u = i := by
    by_contra hne
    exact (h.bwd _ hk hne u hr.1.1 hr.1.2 rfl).2 rfl
  refine ⟨e, h.sub, fun v hv => ?_, fun v hv w w0 w1 hw => ?_⟩
  · by_cases hvu : v = u
    · rw [hvu]; exact hk
    · exact (h.fwd v hv hvu).1
  · by_cases hvi : v = i
    · rw [hp.inj w u w0 w1 hr.1.1 hr.1.2 (by rw [hw, e, hvi])]; exact h.mu
    · exact (h.bwd v hv hvi w w0 w1 hw).1

theorem Cyc.card {n : Int} {p : Buf Int} {V : Finset Int} {i u : Int} (h : Cyc n p V i u) : (V.card : Int) ≤ n := by
  have := Finset.card_le_card h.sub
  rw [Int.card_Ico] at this
  have := Finset.mem_Ico.1 (h.sub h.mi)
  omega

theorem cycN_spec {n : Int} {p : Buf Int} (hp : IsPerm n p) {x0 : Buf α} (hx : n ≤ x0.size) {i : Int} : ∀ (f : Nat) (V : Finset Int) (u : Int) (x : Buf α), Cyc n p V i u → n + 1 ≤ V.card + f →
    x.size = x0.size → (∀ v ∈ V, v ≠ u → x.val v = x0.val (p.val v)) → x.val u = x0.val i → (∀ w, w ∉ V → x.val w = x0.val w) →
    ∃ W x', cycN n f u (p.val u) x (markP n p V) = some (x', markP n p W) ∧ V ⊆ W ∧ Closed n p W ∧ x'.size = x0.size ∧ (∀ v ∈ W, x'.val v = x0.val (p.val v)) ∧ (∀ w, w ∉ W → x'.val w = x0.val w)
  | 0, V, u, x, h, hf, _, _, _, _ => by have := h.card; omega
  | f + 1, V, u, x, h, hf, hs, h1, h2, h3 => by
    have hr := h.range hp
    obtain ⟨v, ev, hv⟩ := markP_rd hp V hr.2.2.1 hr.2.2.2
    rw [cycN, ev, Option.bind_some]
    by_cases hk : p.val u ∈ V
    · rw [if_neg (fun h' => hv.1 h' hk)]
      obtain ⟨e, hc⟩ := h.close hp hk
      refine ⟨V, x, rfl, subset_rfl, hc, hs, fun v hv => ?_, h3⟩
      by_cases hvu : v = u
      · rw [hvu, h2, e]
      · exact h1 v hv hvu
    · rw [if_pos (hv.2 hk), swapB_eq (by omega) (by rw [hs]; omega) (by omega) (by rw [hs]; omega), Option.bind_some, markP_unmark hp hr.2.2.1 hr.2.2.2 hk, Option.bind_some]
      have hne : u ≠ p.val u := fun e => hk (by rw [← e]; exact h.mu)
      obtain ⟨W, x', e, w1, w2, w3, w4, w5⟩ := cycN_spec hp hx f (insert (p.val u) V) (p.val u) (x.pm (Equiv.swap u (p.val u))) (h.next hp hk)
        (by rw [Finset.card_insert_of_notMem hk]; push_cast at *; omega) hs
        (fun v hv hn => by
          have hv := (Finset.mem_insert.1 hv).resolve_left hn
          show x.val (Equiv.swap u (p.val u) v) = _
          by_cases hvu : v = u
          · rw [hvu, Equiv.swap_apply_left]; exact h3 _ hk
          · rw [Equiv.swap_apply_of_ne_of_ne hvu hn]; exact h1 v hv hvu)
        (by
          show x.val (Equiv.swap u (p.val u) (p.val u)) = _
          rw [Equiv.swap_apply_right]; exact h2)
        (fun w hw => by
          rw [Finset.mem_insert, not_or] at hw
          show x.val (Equiv.swap u (p.val u) w) = _
          rw [Equiv.swap_apply_of_ne_of_ne (show w ≠ u from fun e => hw.2 (by rw [e]; exact h.mu)) hw.1]; exact h3 w hw.2)
      exact ⟨W, x', e, fun v hv => w1 (Finset.mem_insert_of_mem hv), w2, w3, w4, w5⟩

theorem cycT_spec {n : Int} {p : Buf Int} (hp : IsPerm n p) {x0 : Buf α} (hx : n ≤ x0.size) {i : Int} : ∀ (f : Nat) (V : Finset Int) (u : Int) (x : Buf α), Cyc n p V i u → n + 1 ≤ V.card + f →
    x.size = x0.size → (∀ v ∈ V, v ≠ u → x.val (p.val v) = x0.val v) → x.val i = x0.val u → (∀ w, w ∉ V → x.val w = x0.val w) →
    ∃ W x', cycT n i f (p.val u) x (markP n p V) = some (x', markP n p W) ∧ V ⊆ W ∧ Closed n p W ∧ x'.size = x0.size ∧ (∀ v ∈ W, x'.val (p.val v) = x0.val v) ∧ (∀ w, w ∉ W → x'.val w = x0.val w)
  | 0, V, u, x, h, hf, _, _, _, _ => by have := h.card; omega
  | f + 1, V, u, x, h, hf, hs, h1, h2, h3 => by
    have hr := h.range hp
    obtain ⟨v, ev, hv⟩ := markP_rd hp V hr.2.2.1 hr.2.2.2
    rw [cycT, ev, Option.bind_some]
    by_cases hk : p.val u ∈ V
    · rw [if_neg (fun h' => hv.1 h' hk)]
      obtain ⟨e, hc⟩ := h.close hp hk
      refine ⟨V, x, rfl, subset_rfl, hc, hs, fun v hv => ?_, h3⟩
      by_cases hvu : v = u
      · rw [hvu, e, h2]
      · exact h1 v hv hvu
    · rw [if_pos (hv.2 hk), swapB_eq (by omega) (by rw [hs]; omega) (by omega) (by rw [hs]; omega), Option.bind_some, markP_unmark hp hr.2.2.1 hr.2.2.2 hk, Option.bind_some]
      have hne : i ≠ p.val u := fun e => hk (by rw [← e]; exact h.mi)
      obtain ⟨W, x', e, w1, w2, w3, w4, w5⟩ := cycT_spec hp hx f (insert (p.val u) V) (p.val u) (x.pm (Equiv.swap i (p.val u))) (h.next hp hk)
        (by rw [Finset.card_insert_of_notMem hk]; push_cast at *; omega) hs
        (fun v hv hn => by
          have hv := (Finset.mem_insert.1 hv).resolve_left hn
          show x.val (Equiv.swap i (p.val u) (p.val v)) = _
          by_cases hvu : v = u
          · rw [hvu, Equiv.swap_apply_right]; exact h2
          · have hf := h.fwd v hv hvu
            rw [Equiv.swap_apply_of_ne_of_ne hf.2 (show p.val v ≠ p.val u from fun e => hk (by rw [← e]; exact hf.1))]; exact h1 v hv hvu)
        (by
          show x.val (Equiv.swap i (p.val u) i) = _
          rw [Equiv.swap_apply_left]; exact h3 _ hk)
        (fun w hw => by
          rw [Finset.mem_insert, not_or] at hw
          show x.val (Equiv.swap i (p.val u) w) = _
          rw [Equiv.swap_apply_of_ne_of_ne (show w ≠ i from fun e => hw.2 (by rw [e]; exact h.mi)) hw.1]; exact h3 w hw.2)
      exact ⟨W, x', e, fun v hv => w1 (Finset.mem_insert_of_mem hv), w2, w3, w4, w5⟩

theorem mark_eq {n : Int} {p : Buf Int} (hp : IsPerm n p) : sweepUp 0 n (fun i p => (p.rd i).map fun v => v - n) p = some (markP n p ∅) := by
  have := hp.le
  rw [sweepUp_eq (fun k => p.val k - n) (le_refl 0) hp.le fun i i0 i1 => by
    rw [Buf.rd_of (b := mix p 0 i _) i0 (by show i < (p.size : Int); omega), mix_val_out (by omega)]; rfl]
  congr 1
  refine Buf.ext' rfl fun k => ?_
  show (if _ then _ else _) = if _ then _ else _
  simp only [Finset.notMem_empty, not_false_iff, and_true]

theorem markP_full {n : Int} {p : Buf Int} {V : Finset Int} (h : ∀ k, 0 ≤ k → k < n → k ∈ V) : markP n p V = p :=
  Buf.ext' rfl fun k => if_neg fun hk => hk.2.2 (h k hk.1 hk.2.1)

/-- Common loop over the starting points of the cycles. -/
theorem cycles_spec {n : Int} {p : Buf Int} (hp : IsPerm n p) {x0 : Buf α} (R : Int → Buf α → Prop) {go : Int → Int → Buf α → Buf Int → Option (Buf α × Buf Int)}
    (hgo : ∀ i V x, 0 ≤ i → i < n → i ∉ V → Closed n p V → x.size = x0.size → (∀ v ∈ V, R v x) → (∀ w, w ∉ V → x.val w = x0.val w) →
      ∃ W x', go i (p.val i) x (markP n p (insert i V)) = some (x', markP n p W) ∧ insert i V ⊆ W ∧ Closed n p W ∧ x'.size = x0.size ∧ (∀ v ∈ W, R v x') ∧ (∀ w, w ∉ W → x'.val w = x0.val w)) :
    ∃ x', forUp 0 n (fun i s => (s.2.rd i).bind fun v => if v ≥ 0 then some s else (unmark n s.2 i).bind fun q => go i q.2 s.1 q.1) (x0, markP n p ∅) = some (x', p) ∧
      x'.size = x0.size ∧ (∀ v, 0 ≤ v → v < n → R v x') ∧ (∀ w, ¬ (0 ≤ w ∧ w < n) → x'.val w = x0.val w) := by
  obtain ⟨s, e, V, e2, hc, hs, h1, h2, h3⟩ := forUp_spec (lo := 0) (hi := n)
    (body := fun i (s : Buf α × Buf Int) => (s.2.rd i).bind fun v => if v ≥ 0 then some s else (unmark n s.2 i).bind fun q => go i q.2 s.1 q.1) (s := (x0, markP n p ∅))
    (fun i s => ∃ V, s.2 = markP n p V ∧ Closed n p V ∧ s.1.size = x0.size ∧ (∀ v ∈ V, R v s.1) ∧ (∀ w, w ∉ V → s.1.val w = x0.val w) ∧ ∀ k, 0 ≤ k → k < i → k ∈ V)
    ⟨∅, rfl, ⟨by simp, by simp, by simp⟩, rfl, by simp, fun _ _ => rfl, fun k k0 k1 => by omega⟩
    (fun i i0 i1 s ⟨V, e, hc, hs, h1, h2, h3⟩ => by
      obtain ⟨x, q⟩ := s
      simp only at e hs h1 h2
      subst e
      obtain ⟨v, ev, hv⟩ := markP_rd hp V i0 i1
      simp only [ev, Option.bind_some]
      by_cases hi : i ∈ V
      · have : ¬ v < 0 := fun h => hv.1 h hi
        rw [if_pos (by omega)]
        refine ⟨_, rfl, V, rfl, hc, hs, h1, h2, fun k k0 k1 => ?_⟩
        by_cases hk : k = i
        · rw [hk]; exact hi
        · exact h3 k k0 (by omega)
      · have := hv.2 hi
        rw [if_neg (by omega), markP_unmark hp i0 i1 hi, Option.bind_some]
        obtain ⟨W, x', e, w1, w2, w3, w4, w5⟩ := hgo i V x i0 i1 hi hc hs h1 h2
        refine ⟨_, e, W, rfl, w2, w3, w4, w5, fun k k0 k1 => w1 (Finset.mem_insert.2 ?_)⟩
        by_cases hk : k = i
        · exact .inl hk
        · exact .inr (h3 k k0 (by omega)))
  obtain ⟨x', q⟩ := s
  simp only at e2 hs h1 h2
  subst e2
  have full : ∀ k, 0 ≤ k → k < n → k ∈ V := fun k k0 k1 => h3 k k0 (by omega)
  rw [markP_full full] at e
  exact ⟨x', e, hs, fun v v0 v1 => h1 v (full v v0 v1), fun w hw => h2 w fun h => hw (by have := Finset.mem_Ico.1 (hc.sub h); exact this)⟩

theorem perm_N_eq {n : Int} {p : Buf Int} (hp : IsPerm n p) {x : Buf α} (hx : n ≤ x.size) : ∃ x', perm 'N' x p n = some (x', p) ∧ x'.size = x.size ∧
    (∀ i, 0 ≤ i → i < n → x'.val i = x.val (p.val i)) ∧ ∀ i, ¬ (0 ≤ i ∧ i < n) → x'.val i = x.val i := by
  unfold perm
  rw [mark_eq hp, Option.bind_some, if_pos rfl]
  refine cycles_spec hp (fun v x' => x'.val v = x.val (p.val v)) (go := fun i k x p => cycN n n.toNat i k x p) fun i V y i0 i1 hi hc hs h1 h2 => ?_
  exact cycN_spec hp hx n.toNat (insert i V) i y (Cyc.start hc i0 i1 hi) (by rw [Finset.card_insert_of_notMem hi]; push_cast; omega) hs
    (fun v hv hn => h1 v ((Finset.mem_insert.1 hv).resolve_left hn)) (h2 i hi) (fun w hw => h2 w fun h => hw (Finset.mem_insert_of_mem h))

theorem perm_T_eq {n : Int} {p : Buf Int} (hp : IsPerm n p) {x : Buf α} (hx : n ≤ x.size) : ∃ x', perm 'T' x p n = some (x', p) ∧ x'.size = x.size ∧
    (∀ i, 0 ≤ i → i < n → x'.val (p.val i) = x.val i) ∧ ∀ i, ¬ (0 ≤ i ∧ i < n) → x'.val i = x.val i := by
  unfold perm
  rw [mark_eq hp, Option.bind_some, if_neg (by decide), if_pos rfl]
  refine cycles_spec hp (fun v x' => x'.val (p.val v) = x.val v) (go := fun i k x p => cycT n i n.toNat k x p) fun i V y i0 i1 hi hc hs h1 h2 => ?_
  exact cycT_spec hp hx n.toNat (insert i V) i y (Cyc.start hc i0 i1 hi) (by rw [Finset.card_insert_of_notMem hi]; push_cast; omega) hs
    (fun v hv hn => h1 v ((Finset.mem_insert.1 hv).resolve_left hn)) (h2 i hi) (fun w hw => h2 w fun h => hw (Finset.mem_insert_of_mem h))

/-- The permutation is onto. -/
theorem IsPerm.surj {n : Int} {p : Buf Int} (hp : IsPerm n p) {k : Int} (k0 : 0 ≤ k) (k1 : k < n) : ∃ i, 0 ≤ i ∧ i < n ∧ p.val i = k := by
  have h := Finset.surj_on_of_inj_on_of_card_le (s := Finset.Ico 0 n) (t := Finset.Ico 0 n) (fun i _ => p.val i)
    (fun i hi => by rw [Finset.mem_Ico] at *; exact ⟨hp.lo i hi.1 hi.2, hp.hi i hi.1 hi.2⟩)
    (fun i j hi hj e => by rw [Finset.mem_Ico] at *; exact hp.inj i j hi.1 hi.2 hj.1 hj.2 e) (le_refl _) k (Finset.mem_Ico.2 ⟨k0, k1⟩)
  obtain ⟨i, hi, e⟩ := h
  exact ⟨i, (Finset.mem_Ico.1 hi).1, (Finset.mem_Ico.1 hi).2, e.symm⟩

end FT
