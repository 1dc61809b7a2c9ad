import Verif.Model.Factor
import Verif.Lemmas.Banded
import Verif.Lemmas.Tridiag
import Verif.Lemmas.Sqrt

/-! # Lemmas on the banded factorisations -/

namespace FT
variable {K : Type*}

/-- The data array as a `w × n` array. -/
def sl (w : Int) (D : Buf K) (q c : Int) : K := D.val (q + c * w)

/-- The data array as a matrix, zero outside of the band (the rows are not restricted). -/
def bval [Zero K] (l u : Int) (D : Buf K) (r c : Int) : K := if -u ≤ r - c ∧ r - c ≤ l then sl (l + u + 1) D (u + r - c) c else 0

theorem slot_range {w a b q j c : Int} (a0 : 0 ≤ a) (bw : b ≤ w) (q0 : 0 ≤ q) (qw : q < w) : (a + j * w ≤ q + c * w ∧ q + c * w < b + j * w) ↔ (c = j ∧ a ≤ q ∧ q < b) := by
  constructor
  · rintro ⟨h1, h2⟩
    have h3 : q + c * w = (q + c * w - j * w) + j * w := by ring
    obtain ⟨h4, h5⟩ := slot_inj q0 qw (show 0 ≤ q + c * w - j * w by omega) (show q + c * w - j * w < w by omega) h3
    subst h5
    omega
  · rintro ⟨rfl, h1, h2⟩; omega

theorem sl_mix {w a b c0 : Int} {D : Buf K} {y : Int → K} (a0 : 0 ≤ a) (bw : b ≤ w) {q c : Int} (q0 : 0 ≤ q) (qw : q < w) :
    sl w (mix D (a + c0 * w) (b + c0 * w) y) q c = if c = c0 ∧ a ≤ q ∧ q < b then y (q + c0 * w) else sl w D q c := by
  unfold sl mix
  simp only
  by_cases h : c = c0 ∧ a ≤ q ∧ q < b
  · rw [if_pos h, if_pos ((slot_range a0 bw q0 qw).2 h), h.1]
  · rw [if_neg h, if_neg (mt (slot_range a0 bw q0 qw).1 h)]

theorem sl_wr {w q0 c0 : Int} {D : Buf K} {v : K} (h0 : 0 ≤ q0) (h1 : q0 < w) {q c : Int} (hq0 : 0 ≤ q) (hqw : q < w) :
    sl w ⟨D.size, Function.update D.val (q0 + c0 * w) v⟩ q c = if c = c0 ∧ q = q0 then v else sl w D q c := by
  show Function.update D.val (q0 + c0 * w) v (q + c * w) = if c = c0 ∧ q = q0 then v else D.val (q + c * w)
  rw [Function.update_apply]
  by_cases h : c = c0 ∧ q = q0
  · rw [if_pos h, if_pos (by rw [h.1, h.2])]
  · rw [if_neg h, if_neg]
    intro e
    exact h ⟨(slot_inj hq0 hqw h0 h1 e).2, (slot_inj hq0 hqw h0 h1 e).1⟩

/-- A loop over columns, each step of which changes one column as a function of column `j` and of itself. -/
theorem cols_eq {body : Int → Buf K → Option (Buf K)} {w n j kmax : Int} {cc : Int → Int} {D1 : Buf K} {G : Int → Int → K}
    (hcc : ∀ k k', 1 ≤ k → 1 ≤ k' → cc k = cc k' → k = k') (hj : ∀ k, 1 ≤ k → cc k ≠ j)
    (h : ∀ k D, 1 ≤ k → k ≤ kmax → D.size = D1.size → (∀ q, 0 ≤ q → q < w → sl w D q j = sl w D1 q j) → (∀ q, 0 ≤ q → q < w → sl w D q (cc k) = sl w D1 q (cc k)) →
      ∃ D', body k D = some D' ∧ D'.size = D.size ∧ (∀ q, 0 ≤ q → q < w → sl w D' q (cc k) = G q (cc k)) ∧ ∀ q c, 0 ≤ q → q < w → 0 ≤ c → c < n → c ≠ cc k → sl w D' q c = sl w D q c)
    (hjn : 0 ≤ j ∧ j < n) (hcn : ∀ k, 1 ≤ k → k ≤ kmax → 0 ≤ cc k ∧ cc k < n) (hk : 0 ≤ kmax) :
    ∃ D', forUp 1 (kmax + 1) body D1 = some D' ∧ D'.size = D1.size ∧ (∀ k q, 1 ≤ k → k ≤ kmax → 0 ≤ q → q < w → sl w D' q (cc k) = G q (cc k)) ∧
      ∀ q c, 0 ≤ q → q < w → 0 ≤ c → c < n → (∀ k, 1 ≤ k → k ≤ kmax → c ≠ cc k) → sl w D' q c = sl w D1 q c := by
  obtain ⟨D', e, s, p1, p2⟩ := forUp_spec (body := body) (lo := 1) (hi := kmax + 1) (s := D1)
    (fun k D => D.size = D1.size ∧ (∀ k' q, 1 ≤ k' → k' < k → 0 ≤ q → q < w → sl w D q (cc k') = G q (cc k')) ∧
      ∀ q c, 0 ≤ q → q < w → 0 ≤ c → c < n → (∀ k', 1 ≤ k' → k' < k → c ≠ cc k') → sl w D q c = sl w D1 q c)
    ⟨rfl, fun k q _ _ => by omega, fun _ _ _ _ _ _ _ => rfl⟩
    (fun k k0 k1 D ⟨s, p1, p2⟩ => by
      obtain ⟨D', e, s', q1, q2⟩ := h k D k0 (by omega) s (fun q q0 qw => p2 q j q0 qw hjn.1 hjn.2 fun k' h1 _ => (hj k' h1).symm)
        (fun q q0 qw => p2 q _ q0 qw (hcn k k0 (by omega)).1 (hcn k k0 (by omega)).2 fun k' h1 h2 he => by have := hcc k k' k0 h1 he; omega)
      refine ⟨D', e, s'.trans s, fun k' q h1 h2 q0 qw => ?_, fun q c q0 qw c0 cn hc => ?_⟩
      · by_cases hk' : k' = k
        · subst hk'; exact q1 q q0 qw
        · rw [q2 q _ q0 qw (hcn k' h1 (by omega)).1 (hcn k' h1 (by omega)).2 fun he => hk' (hcc k' k h1 k0 he)]
          exact p1 k' q h1 (by omega) q0 qw
      · rw [q2 q c q0 qw c0 cn (hc k k0 (by omega))]
        exact p2 q c q0 qw c0 cn fun k' h1 h2 => hc k' h1 (by omega))
  rw [max_eq_right (by omega)] at p1 p2
  exact ⟨D', e, s, fun k q h1 h2 => p1 k q h1 (by omega), fun q c q0 qw c0 cn hc => p2 q c q0 qw c0 cn fun k h1 h2 => hc k h1 (by omega)⟩

section LU
variable [Field K] [DecidableEq K]

theorem elemCompute_eq {len o : Int} {D : Buf K} (h0 : 0 ≤ o) (h1 : o + len ≤ D.size) (hp : len ≤ 1 ∨ D.val o ≠ 0) :
    elemCompute len o D = some (mix D (o + 1) (o + len) fun s => D.val s / D.val o) := by
  unfold elemCompute
  rw [sweepOff_eq (fun i => D.val (o + i) / D.val o) (by omega) h1]
  · simp only [add_sub_cancel]
  · intro i i0 i1
    rw [Buf.rd_of (b := mix _ _ _ _) (by omega) (by rw [mix_size]; omega), Option.bind_some, Buf.rd_of (b := mix _ _ _ _) (by omega) (by rw [mix_size]; omega), Option.bind_some,
      mix_val_out (by omega), mix_val_out (by omega), divC_of (by rcases hp with h | h; omega; exact h)]

theorem elemApply_eq {len o p : Int} {D : Buf K} (h0 : 0 ≤ o) (h1 : o + len ≤ D.size) (h2 : 0 ≤ p) (h3 : p + len ≤ D.size) (hd : o + len ≤ p + 1) :
    elemApply len o p D = some (mix D (p + 1) (p + len) fun s => D.val s - D.val (o + (s - p)) * D.val p) := by
  unfold elemApply
  rw [sweepOff_eq (fun i => D.val (p + i) - D.val (o + i) * D.val p) (by omega) h3]
  · simp only [add_sub_cancel]
  · intro i i0 i1
    rw [Buf.rd_of (b := mix _ _ _ _) (by omega) (by rw [mix_size]; omega), Option.bind_some, Buf.rd_of (b := mix _ _ _ _) (by omega) (by rw [mix_size]; omega), Option.bind_some,
      Buf.rd_of (b := mix _ _ _ _) (by omega) (by rw [mix_size]; omega), Option.map_some, mix_val_out (by omega), mix_val_out (by omega), mix_val_out (by omega)]

/-- One step of elimination on a matrix. -/
def luF (M : Int → Int → K) (j r c : Int) : K :=
  if r ≤ j then M r c else if c = j then M r j / M j j else if j < c then M r c - M r j / M j j * M j c else M r c

/-- The offsets used by step `j`. -/
theorem step_geom {n l u j k w : Int} (hw : w = l + u + 1) (hl : 0 ≤ l) (hu : 0 ≤ u) (j0 : 0 ≤ j) (jn : j < n) (k0 : 1 ≤ k) (ku : k ≤ u) (kn : k ≤ n - j - 1) :
    0 ≤ u + j * w ∧ u + j * w + (l + 1) ≤ n * w ∧ 0 ≤ u - k + (j + k) * w ∧ u - k + (j + k) * w + (l + 1) ≤ n * w ∧ u + j * w + (l + 1) ≤ u - k + (j + k) * w + 1 := by
  have h1 := slot_lt (n := n) (w := w) (q := u) (j := j) hu (by omega) j0 jn
  have h2 := slot_lt (n := n) (w := w) (q := u + l) (j := j) (by omega) (by omega) j0 jn
  have h3 := slot_lt (n := n) (w := w) (q := u - k) (j := j + k) (by omega) (by omega) (by omega) (by omega)
  have h4 := slot_lt (n := n) (w := w) (q := u - k + l) (j := j + k) (by omega) (by omega) (by omega) (by omega)
  have h5 : (j + k) * w = j * w + k * w := by ring
  have h6 : 0 ≤ (k - 1) * (l + u) := Int.mul_nonneg (by omega) (by omega)
  have h7 : (k - 1) * (l + u) = k * w - k - l - u := by rw [hw]; ring
  omega

theorem elemCompute_sl {n l u j len : Int} {D : Buf K} (hl : 0 ≤ l) (hu : 0 ≤ u) (j0 : 0 ≤ j) (jn : j < n) (hs : n * (l + u + 1) ≤ D.size) (h1 : len ≤ l + 1)
    (hp : len ≤ 1 ∨ sl (l + u + 1) D u j ≠ 0) :
    ∃ D', elemCompute len (u + j * (l + u + 1)) D = some D' ∧ D'.size = D.size ∧ ∀ q c, 0 ≤ q → q < l + u + 1 →
      sl (l + u + 1) D' q c = if c = j ∧ u < q ∧ q < u + len then sl (l + u + 1) D q j / sl (l + u + 1) D u j else sl (l + u + 1) D q c := by
  generalize hw : l + u + 1 = w at *
  have g1 := slot_lt (n := n) (w := w) (q := u) (j := j) hu (by omega) j0 jn
  have g2 := slot_lt (n := n) (w := w) (q := u + l) (j := j) (by omega) (by omega) j0 jn
  rw [elemCompute_eq (by omega) (by omega) hp]
  refine ⟨_, rfl, rfl, fun q c q0 qw => ?_⟩
  rw [show u + j * w + 1 = u + 1 + j * w by ring, show u + j * w + len = u + len + j * w by ring, sl_mix (by omega) (by omega) q0 qw]
  exact if_congr (by omega) rfl rfl

theorem elemApply_sl {n l u j k len : Int} {D : Buf K} (hl : 0 ≤ l) (hu : 0 ≤ u) (j0 : 0 ≤ j) (jn : j < n) (hs : n * (l + u + 1) ≤ D.size) (h1 : len ≤ l + 1)
    (k0 : 1 ≤ k) (ku : k ≤ u) (kn : k ≤ n - j - 1) :
    ∃ D', elemApply len (u + j * (l + u + 1)) (u - k + (j + k) * (l + u + 1)) D = some D' ∧ D'.size = D.size ∧ ∀ q c, 0 ≤ q → q < l + u + 1 →
      sl (l + u + 1) D' q c = if c = j + k ∧ u - k < q ∧ q < u - k + len then sl (l + u + 1) D q c - sl (l + u + 1) D (q + k) j * sl (l + u + 1) D (u - k) c else sl (l + u + 1) D q c := by
  generalize hw : l + u + 1 = w at *
  obtain ⟨g1, g2, g3, g4, g5⟩ := step_geom hw.symm hl hu j0 jn k0 ku kn
  rw [elemApply_eq g1 (by omega) g3 (by omega) (by omega)]
  refine ⟨_, rfl, rfl, fun q c q0 qw => ?_⟩
  rw [show u - k + (j + k) * w + 1 = u - k + 1 + (j + k) * w by ring, show u - k + (j + k) * w + len = u - k + len + (j + k) * w by ring, sl_mix (by omega) (by omega) q0 qw]
  by_cases h : c = j + k ∧ u - k + 1 ≤ q ∧ q < u - k + len
  · rw [if_pos h, if_pos (by omega), h.1]
    unfold sl
    rw [show u + j * w + (q + (j + k) * w - (u - k + (j + k) * w)) = q + k + j * w by ring]
  · rw [if_neg h, if_neg (by omega)]

theorem luStep_eq {n l u j : Int} {D : Buf K} (hl : 0 ≤ l) (hu : 0 ≤ u) (j0 : 0 ≤ j) (jn : j < n) (hs : n * (l + u + 1) ≤ D.size) (hp : l = 0 ∨ bval l u D j j ≠ 0) :
    ∃ D', luStep n l u j D = some D' ∧ D'.size = D.size ∧ ∀ r c, 0 ≤ r → r < n → 0 ≤ c → c < n → bval l u D' r c = luF (bval l u D) j r c := by
  have hjj : bval l u D j j = sl (l + u + 1) D u j := by unfold bval; rw [if_pos (by omega)]; congr 1; ring
  generalize hlen : min (l + 1) (n - j + 1) = len
  obtain ⟨D1, e1, s1, p1⟩ := elemCompute_sl (len := len) hl hu j0 jn hs (by omega) (by rw [← hjj]; rcases hp with h | h; left; omega; exact Or.inr h)
  unfold luStep
  rw [hlen, e1, Option.bind_some]
  obtain ⟨D', e, s, q1, q2⟩ := cols_eq (w := l + u + 1) (n := n) (j := j) (kmax := min u (n - j - 1)) (cc := fun k => j + k) (D1 := D1)
    (G := fun q c => if u + j - c < q ∧ q < u + j - c + len then sl (l + u + 1) D1 q c - sl (l + u + 1) D1 (q + (c - j)) j * sl (l + u + 1) D1 (u + j - c) c else sl (l + u + 1) D1 q c)
    (body := fun k D => elemApply len (u + j * (l + u + 1)) (u - k + (j + k) * (l + u + 1)) D) (fun k k' _ _ h => by omega) (fun k _ => by omega)
    (fun k D k0 k1 hs' hj hc => by
      obtain ⟨D', e, s, p⟩ := elemApply_sl (k := k) (len := len) hl hu j0 jn (show n * (l + u + 1) ≤ D.size by omega) (by omega) k0 (by omega) (by omega)
      refine ⟨D', e, s, fun q q0 qw => ?_, fun q c q0 qw _ _ hne => ?_⟩
      · rw [p q _ q0 qw]
        simp only [show u + j - (j + k) = u - k by ring, show j + k - j = k by ring]
        by_cases h : u - k < q ∧ q < u - k + len
        · rw [if_pos ⟨trivial, h⟩, if_pos h, hc q q0 qw, hc (u - k) (by omega) (by omega), hj (q + k) (by omega) (by omega)]
        · rw [if_neg (fun h' => h h'.2), if_neg h, hc q q0 qw]
      · rw [p q c q0 qw, if_neg (fun h => hne h.1)])
    ⟨j0, jn⟩ (fun k k0 k1 => by omega) (by omega)
  refine ⟨D', e, s.trans s1, fun r c r0 rn c0 cn => ?_⟩
  unfold luF
  have col : ∀ c, 0 ≤ c → c < n → ∀ q, 0 ≤ q → q < l + u + 1 → sl (l + u + 1) D' q c =
      if j < c ∧ c ≤ j + u ∧ u + j - c < q ∧ q < u + j - c + len then sl (l + u + 1) D1 q c - sl (l + u + 1) D1 (q + (c - j)) j * sl (l + u + 1) D1 (u + j - c) c else sl (l + u + 1) D1 q c := by
    intro c c0 cn q q0 qw
    by_cases h : j < c ∧ c ≤ j + u
    · have := q1 (c - j) q (by omega) (by omega) q0 qw
      simp only [add_sub_cancel] at this
      rw [this]
      exact if_congr (by omega) rfl rfl
    · rw [q2 q c q0 qw c0 cn (fun k k0 k1 => by omega), if_neg (by omega)]
  have z : ∀ {r c}, ¬ (-u ≤ r - c ∧ r - c ≤ l) → bval l u D r c = 0 := fun h => if_neg h
  by_cases hb : -u ≤ r - c ∧ r - c ≤ l
  · have e1 : bval l u D' r c = sl (l + u + 1) D' (u + r - c) c := if_pos hb
    have e2 : bval l u D r c = sl (l + u + 1) D (u + r - c) c := if_pos hb
    rw [e1, col c c0 cn _ (by omega) (by omega)]
    by_cases h1 : r ≤ j
    · rw [if_pos h1, if_neg (by omega), p1 _ _ (by omega) (by omega), if_neg (by omega), e2]
    rw [if_neg h1]
    by_cases h2 : c = j
    · subst h2
      rw [if_pos rfl, if_neg (by omega), p1 _ _ (by omega) (by omega), if_pos (by omega), e2, hjj]
    rw [if_neg h2]
    by_cases h3 : j < c
    · rw [if_pos h3]
      by_cases h4 : c ≤ j + u ∧ r < j + len
      · rw [if_pos (by omega), p1 _ _ (by omega) (by omega), if_neg (by omega), p1 _ _ (by omega) (by omega), if_pos (by omega), p1 _ _ (by omega) (by omega), if_neg (by omega),
          e2, hjj]
        have e3 : bval l u D r j = sl (l + u + 1) D (u + r - c + (c - j)) j := by unfold bval; rw [if_pos (by omega)]; congr 1; ring
        have e4 : bval l u D j c = sl (l + u + 1) D (u + j - c) c := by unfold bval; rw [if_pos (by omega)]
        rw [e3, e4]
      · rw [if_neg (by omega), p1 _ _ (by omega) (by omega), if_neg (by omega), e2]
        by_cases h5 : c ≤ j + u
        · rw [z (r := r) (c := j) (by omega), zero_div, zero_mul, sub_zero]
        · rw [z (r := j) (c := c) (by omega), mul_zero, sub_zero]
    · rw [if_neg h3, if_neg (by omega), p1 _ _ (by omega) (by omega), if_neg (by omega), e2]
  · rw [show bval l u D' r c = 0 from if_neg hb, z hb]
    by_cases h1 : r ≤ j
    · rw [if_pos h1]
    rw [if_neg h1]
    by_cases h2 : c = j
    · subst h2; rw [if_pos rfl, z hb, zero_div]
    rw [if_neg h2]
    split_ifs with h3
    · by_cases h5 : c ≤ j + u
      · rw [z (r := r) (c := j) (by omega), zero_div, zero_mul, sub_zero]
      · rw [z (r := j) (c := c) (by omega), mul_zero, sub_zero]
    · rfl

theorem elemCompute_pivot {n l u j : Int} {D D' : Buf K} (hl : 0 ≤ l) (hu : 0 ≤ u) (jn : j < n) (e : elemCompute (min (l + 1) (n - j + 1)) (u + j * (l + u + 1)) D = some D') : l = 0 ∨ bval l u D j j ≠ 0 := by
  by_contra hc
  have hl' : l ≠ 0 := fun h => hc (Or.inl h)
  have hz : bval l u D j j = 0 := by by_contra h; exact hc (Or.inr h)
  have : elemCompute (min (l + 1) (n - j + 1)) (u + j * (l + u + 1)) D = none := by
    unfold elemCompute sweepOff forUp
    refine loop_none 0 (by omega) (fun s' hs => ?_)
    rw [loop_zero] at hs; injection hs with hs; subst hs
    show Option.bind (Option.bind (D.rd _) fun x => Option.bind (D.rd _) fun p => divC x p) _ = none
    have hv : ∀ x, (Option.bind (D.rd (u + j * (l + u + 1))) fun p => divC x p) = none := fun x => by
      cases hr : D.rd (u + j * (l + u + 1)) with
      | none => rfl
      | some p =>
        have hp := (Buf.rd_eq_some_iff.1 hr).2
        unfold bval sl at hz
        rw [if_pos (by omega), show u + j - j = u by ring, hp] at hz
        rw [Option.bind_some, hz]; exact if_pos rfl
    simp only [hv]
    cases D.rd _ <;> rfl
  rw [this] at e; exact absurd e (by simp)

/-- A step that returns met a nonzero pivot, unless there is nothing below the diagonal. -/
theorem luStep_pivot {n l u j : Int} {D D' : Buf K} (hl : 0 ≤ l) (hu : 0 ≤ u) (jn : j < n) (h : luStep n l u j D = some D') : l = 0 ∨ bval l u D j j ≠ 0 := by
  obtain ⟨D1, e, _⟩ := Option.bind_eq_some_iff.1 h
  exact elemCompute_pivot hl hu jn e

end LU

section Chol
variable [Field K] [LinearOrder K]

theorem symCompute_sl {sqrt : K → K} {n l u j len : Int} {D : Buf K} (hl : 0 ≤ l) (hu : 0 ≤ u) (j0 : 0 ≤ j) (jn : j < n) (hs : n * (l + u + 1) ≤ D.size) (h1 : len ≤ l + 1)
    (hp : 0 ≤ sl (l + u + 1) D u j) (hp' : len ≤ 1 ∨ sl (l + u + 1) D u j ≠ 0) :
    ∃ D', symCompute sqrt len (u + j * (l + u + 1)) D = some D' ∧ D'.size = D.size ∧ ∀ q c, 0 ≤ q → q < l + u + 1 →
      sl (l + u + 1) D' q c = if c = j ∧ q = u then sqrt (sl (l + u + 1) D u j) else if c = j ∧ u < q ∧ q < u + len then sl (l + u + 1) D q j / sl (l + u + 1) D u j else sl (l + u + 1) D q c := by
  obtain ⟨D1, e1, s1, p1⟩ := elemCompute_sl (len := len) hl hu j0 jn hs h1 hp'
  have g1 := slot_lt (n := n) (w := l + u + 1) (q := u) (j := j) hu (by omega) j0 jn
  have hv : D1.val (u + j * (l + u + 1)) = sl (l + u + 1) D u j := by
    have := p1 u j hu (by omega); rw [if_neg (by omega)] at this; exact this
  unfold symCompute
  rw [e1, Option.bind_some, Buf.rd_of (by omega) (by omega), Option.bind_some, hv, show sqrtC sqrt (sl (l + u + 1) D u j) = some (sqrt (sl (l + u + 1) D u j)) from if_neg (not_lt_of_ge hp),
    Option.bind_some, Buf.wr_of (by omega) (by omega)]
  refine ⟨_, rfl, s1, fun q c q0 qw => ?_⟩
  rw [sl_wr hu (by omega) q0 qw, p1 q c q0 qw]

theorem symApply_sl {n l u j k len : Int} {D : Buf K} (hl : 0 ≤ l) (hu : 0 ≤ u) (j0 : 0 ≤ j) (jn : j < n) (hs : n * (l + u + 1) ≤ D.size) (h1 : len ≤ l + 1)
    (k0 : 1 ≤ k) (ku : k ≤ u) (kn : k ≤ n - j - 1) (hp : sl (l + u + 1) D u j ≠ 0) :
    ∃ D', symApply len (u + j * (l + u + 1)) (u - k + (j + k) * (l + u + 1)) D = some D' ∧ D'.size = D.size ∧ ∀ q c, 0 ≤ q → q < l + u + 1 →
      sl (l + u + 1) D' q c = if c = j + k ∧ q = u - k then sl (l + u + 1) D q c / sl (l + u + 1) D u j
        else if c = j + k ∧ u - k < q ∧ q < u - k + len then sl (l + u + 1) D q c - sl (l + u + 1) D (q + k) j * sl (l + u + 1) D (u - k) c else sl (l + u + 1) D q c := by
  obtain ⟨D1, e1, s1, p1⟩ := elemApply_sl (len := len) (k := k) hl hu j0 jn hs h1 k0 ku kn
  obtain ⟨g1, g2, g3, g4, g5⟩ := step_geom rfl hl hu j0 jn k0 ku kn
  have hv : D1.val (u + j * (l + u + 1)) = sl (l + u + 1) D u j := by
    have := p1 u j hu (by omega); rw [if_neg (by omega)] at this; exact this
  have hv' : D1.val (u - k + (j + k) * (l + u + 1)) = sl (l + u + 1) D (u - k) (j + k) := by
    have := p1 (u - k) (j + k) (by omega) (by omega); rw [if_neg (by omega)] at this; exact this
  unfold symApply
  rw [e1, Option.bind_some, Buf.rd_of (by omega) (by omega), Option.bind_some, hv', Buf.rd_of (by omega) (by omega), Option.bind_some, hv, divC_of hp, Option.bind_some,
    Buf.wr_of (by omega) (by omega)]
  refine ⟨_, rfl, s1, fun q c q0 qw => ?_⟩
  rw [sl_wr (by omega) (by omega) q0 qw, p1 q c q0 qw]
  by_cases h : c = j + k ∧ q = u - k
  · rw [if_pos h, if_pos h, h.1, h.2]
  · rw [if_neg h, if_neg h]

/-- One step of symmetric elimination on a matrix. -/
def cholF (sqrt : K → K) (M : Int → Int → K) (j r c : Int) : K :=
  if r = j ∧ c = j then sqrt (M j j) else if r = j ∧ j < c then M j c / sqrt (M j j) else luF M j r c

theorem cholStep_eq [IsStrictOrderedRing K] {sqrt : K → K} (hsq : IsSqrt sqrt) {n l u j : Int} {D : Buf K} (hl : 0 ≤ l) (hu : 0 ≤ u) (j0 : 0 ≤ j) (jn : j < n) (hs : n * (l + u + 1) ≤ D.size) (hp : 0 ≤ bval l u D j j)
    (hp' : (l = 0 ∧ u = 0) ∨ bval l u D j j ≠ 0) : ∃ D', cholStep sqrt n l u j D = some D' ∧ D'.size = D.size ∧ ∀ r c, 0 ≤ r → r < n → 0 ≤ c → c < n → bval l u D' r c = cholF sqrt (bval l u D) j r c := by
  have hjj : bval l u D j j = sl (l + u + 1) D u j := by unfold bval; rw [if_pos (by omega)]; congr 1; ring
  generalize hlen : min (l + 1) (n - j + 1) = len
  have hr0 : u ≠ 0 → sqrt (bval l u D j j) ≠ 0 := fun h => ne_of_gt (sqrt_pos hsq (lt_of_le_of_ne hp (hp'.resolve_left fun h' => h h'.2).symm))
  rw [hjj] at hp hp' hr0
  obtain ⟨D1, e1, s1, p1⟩ := symCompute_sl (len := len) (sqrt := sqrt) hl hu j0 jn hs (by omega) hp (by rcases hp' with h | h; left; omega; exact Or.inr h)
  have hd1 : sl (l + u + 1) D1 u j = sqrt (sl (l + u + 1) D u j) := by rw [p1 u j hu (by omega), if_pos ⟨rfl, rfl⟩]
  unfold cholStep
  rw [hlen, e1, Option.bind_some]
  obtain ⟨D', e, s, q1, q2⟩ := cols_eq (w := l + u + 1) (n := n) (j := j) (kmax := min u (n - j - 1)) (cc := fun k => j + k) (D1 := D1)
    (G := fun q c => if q = u + j - c then sl (l + u + 1) D1 q c / sqrt (sl (l + u + 1) D u j)
      else if u + j - c < q ∧ q < u + j - c + len then sl (l + u + 1) D1 q c - sl (l + u + 1) D1 (q + (c - j)) j * sl (l + u + 1) D1 (u + j - c) c else sl (l + u + 1) D1 q c)
    (body := fun k D => symApply len (u + j * (l + u + 1)) (u - k + (j + k) * (l + u + 1)) D) (fun k k' _ _ h => by omega) (fun k _ => by omega)
    (fun k D k0 k1 hs' hj hc => by
      obtain ⟨D', e, s, p⟩ := symApply_sl (k := k) (len := len) hl hu j0 jn (show n * (l + u + 1) ≤ D.size by omega) (by omega) k0 (by omega) (by omega) (by rw [hj u hu (by omega), hd1]; exact hr0 (by omega))
      refine ⟨D', e, s, fun q q0 qw => ?_, fun q c q0 qw _ _ hne => ?_⟩
      · rw [p q _ q0 qw]
        simp only [show u + j - (j + k) = u - k by ring, show j + k - j = k by ring]
        by_cases h0 : q = u - k
        · rw [if_pos ⟨trivial, h0⟩, if_pos h0, hc q q0 qw, hj u hu (by omega), hd1]
        rw [if_neg (fun h' => h0 h'.2), if_neg h0]
        by_cases h : u - k < q ∧ q < u - k + len
        · rw [if_pos ⟨trivial, h⟩, if_pos h, hc q q0 qw, hc (u - k) (by omega) (by omega), hj (q + k) (by omega) (by omega)]
        · rw [if_neg (fun h' => h h'.2), if_neg h, hc q q0 qw]
      · rw [p q c q0 qw, if_neg (fun h => hne h.1), if_neg (fun h => hne h.1)])
    ⟨j0, jn⟩ (fun k k0 k1 => by omega) (by omega)
  refine ⟨D', e, s.trans s1, fun r c r0 rn c0 cn => ?_⟩
  have col : ∀ c, 0 ≤ c → c < n → ∀ q, 0 ≤ q → q < l + u + 1 → sl (l + u + 1) D' q c =
      if j < c ∧ c ≤ j + u ∧ q = u + j - c then sl (l + u + 1) D1 q c / sqrt (sl (l + u + 1) D u j)
      else if j < c ∧ c ≤ j + u ∧ u + j - c < q ∧ q < u + j - c + len then sl (l + u + 1) D1 q c - sl (l + u + 1) D1 (q + (c - j)) j * sl (l + u + 1) D1 (u + j - c) c else sl (l + u + 1) D1 q c := by
    intro c c0 cn q q0 qw
    by_cases h : j < c ∧ c ≤ j + u
    · have := q1 (c - j) q (by omega) (by omega) q0 qw
      simp only [add_sub_cancel] at this
      rw [this]
      exact if_congr (by omega) rfl (if_congr (by omega) rfl rfl)
    · rw [q2 q c q0 qw c0 cn (fun k k0 k1 => by omega), if_neg (by omega), if_neg (by omega)]
  have z : ∀ {r c}, ¬ (-u ≤ r - c ∧ r - c ≤ l) → bval l u D r c = 0 := fun h => if_neg h
  unfold cholF luF
  by_cases hb : -u ≤ r - c ∧ r - c ≤ l
  · have e1 : bval l u D' r c = sl (l + u + 1) D' (u + r - c) c := if_pos hb
    have e2 : bval l u D r c = sl (l + u + 1) D (u + r - c) c := if_pos hb
    rw [e1, col c c0 cn _ (by omega) (by omega)]
    by_cases h0 : r = j
    · subst h0
      by_cases hc : c = r
      · subst hc
        rw [if_neg (by omega), if_neg (by omega), if_pos ⟨rfl, rfl⟩, p1 _ _ (by omega) (by omega), if_pos (by omega), hjj]
      by_cases hc' : r < c
      · rw [if_pos (show r < c ∧ c ≤ r + u ∧ u + r - c = u + r - c by omega), if_neg (show ¬ (r = r ∧ c = r) by omega), if_pos (show r = r ∧ r < c by omega), p1 _ _ (by omega) (by omega), if_neg (by omega), if_neg (by omega), e2, hjj]
      · rw [if_neg (by omega), if_neg (by omega), if_neg (show ¬ (r = r ∧ c = r) by omega), if_neg (show ¬ (r = r ∧ r < c) by omega), if_pos (le_refl _), p1 _ _ (by omega) (by omega), if_neg (by omega), if_neg (by omega), e2]
    rw [if_neg (show ¬ (j < c ∧ c ≤ j + u ∧ u + r - c = u + j - c) by omega), if_neg (show ¬ (r = j ∧ c = j) from fun h => h0 h.1), if_neg (show ¬ (r = j ∧ j < c) from fun h => h0 h.1)]
    by_cases h1 : r ≤ j
    · rw [if_pos h1, if_neg (by omega), p1 _ _ (by omega) (by omega), if_neg (by omega), if_neg (by omega), e2]
    rw [if_neg h1]
    by_cases h2 : c = j
    · subst h2
      rw [if_pos rfl, if_neg (by omega), p1 _ _ (by omega) (by omega), if_neg (by omega), if_pos (by omega), e2, hjj]
    rw [if_neg h2]
    by_cases h3 : j < c
    · rw [if_pos h3]
      by_cases h4 : c ≤ j + u ∧ r < j + len
      · rw [if_pos (by omega), p1 _ _ (by omega) (by omega), if_neg (by omega), if_neg (by omega), p1 _ _ (by omega) (by omega), if_neg (by omega), if_pos (by omega), p1 _ _ (by omega) (by omega),
          if_neg (by omega), if_neg (by omega), e2, hjj]
        have e3 : bval l u D r j = sl (l + u + 1) D (u + r - c + (c - j)) j := by unfold bval; rw [if_pos (by omega)]; congr 1; ring
        have e4 : bval l u D j c = sl (l + u + 1) D (u + j - c) c := by unfold bval; rw [if_pos (by omega)]
        rw [e3, e4]
      · rw [if_neg (by omega), p1 _ _ (by omega) (by omega), if_neg (by omega), if_neg (by omega), e2]
        by_cases h5 : c ≤ j + u
        · rw [z (r := r) (c := j) (by omega), zero_div, zero_mul, sub_zero]
        · rw [z (r := j) (c := c) (by omega), mul_zero, sub_zero]
    · rw [if_neg h3, if_neg (by omega), p1 _ _ (by omega) (by omega), if_neg (by omega), if_neg (by omega), e2]
  · rw [show bval l u D' r c = 0 from if_neg hb, z hb, if_neg (by omega)]
    by_cases h0 : r = j ∧ j < c
    · rw [if_pos h0, ← h0.1, z hb, zero_div]
    rw [if_neg h0]
    by_cases h1 : r ≤ j
    · rw [if_pos h1]
    rw [if_neg h1]
    by_cases h2 : c = j
    · subst h2; rw [if_pos rfl, z hb, zero_div]
    rw [if_neg h2]
    split_ifs with h3
    · by_cases h5 : c ≤ j + u
      · rw [z (r := r) (c := j) (by omega), zero_div, zero_mul, sub_zero]
      · rw [z (r := j) (c := c) (by omega), mul_zero, sub_zero]
    · rfl

/-- A step that returns met a nonnegative pivot, and a positive one unless the matrix is diagonal. -/
theorem cholStep_pivot {sqrt : K → K} {n l u j : Int} {D D' : Buf K} (hl : 0 ≤ l) (hu : 0 ≤ u) (j0 : 0 ≤ j) (jn : j < n) (hs : n * (l + u + 1) ≤ D.size)
    (h : cholStep sqrt n l u j D = some D') : 0 ≤ bval l u D j j ∧ (l = 0 ∨ bval l u D j j ≠ 0) := by
  obtain ⟨D1, e, _⟩ := Option.bind_eq_some_iff.1 h
  obtain ⟨D2, e1, e2⟩ := Option.bind_eq_some_iff.1 e
  have hjj : bval l u D j j = sl (l + u + 1) D u j := by unfold bval; rw [if_pos (by omega)]; congr 1; ring
  have hp := elemCompute_pivot hl hu jn e1
  refine ⟨?_, hp⟩
  obtain ⟨D3, e1', s1, p1⟩ := elemCompute_sl (len := min (l + 1) (n - j + 1)) hl hu j0 jn hs (by omega) (by rw [← hjj]; rcases hp with h | h; left; omega; exact Or.inr h)
  rw [e1] at e1'; injection e1' with e1'; subst e1'
  obtain ⟨p, e3, e4⟩ := Option.bind_eq_some_iff.1 e2
  obtain ⟨r, e5, e6⟩ := Option.bind_eq_some_iff.1 e4
  have hpv := (Buf.rd_eq_some_iff.1 e3).2
  have := p1 u j hu (by omega)
  rw [if_neg (by omega)] at this
  rw [hjj, ← this]
  unfold sl
  rw [hpv]
  by_contra hneg
  unfold sqrtC at e5
  rw [if_pos (not_le.1 hneg)] at e5; exact absurd e5 (by simp)

end Chol
end FT
