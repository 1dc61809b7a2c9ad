import Verif.Lemmas.Qr

/-! # Sequences of reflections -/

namespace FT
variable {K : Type*}

/-- `H 0`, then `H 1`, ..., then `H (k-1)`. -/
def hseq (H : Int → (Int → K) → Int → K) : Nat → (Int → K) → Int → K
  | 0, x => x
  | k + 1, x => H k (hseq H k x)

/-- `H (k-1)`, then `H (k-2)`, ..., then `H 0`. -/
def hrev (H : Int → (Int → K) → Int → K) : Nat → (Int → K) → Int → K
  | 0, x => x
  | k + 1, x => hrev H k (H k x)

theorem hseq_congr {H H' : Int → (Int → K) → Int → K} : ∀ {k : Nat}, (∀ i : Int, 0 ≤ i → i < k → H i = H' i) → ∀ x, hseq H k x = hseq H' k x
  | 0, _, _ => rfl
  | k + 1, h, x => by
    show H k (hseq H k x) = H' k (hseq H' k x)
    rw [hseq_congr (fun i i0 i1 => h i i0 (by push_cast; omega)), h k (by omega) (by push_cast; omega)]

theorem hrev_hseq {H : Int → (Int → K) → Int → K} : ∀ {k : Nat}, (∀ i : Int, 0 ≤ i → i < k → ∀ x, H i (H i x) = x) → ∀ x, hrev H k (hseq H k x) = x
  | 0, _, _ => rfl
  | k + 1, h, x => by
    show hrev H k (H k (H k (hseq H k x))) = x
    rw [h k (by omega) (by push_cast; omega), hrev_hseq (fun i i0 i1 => h i i0 (by push_cast; omega))]

theorem hseq_hrev {H : Int → (Int → K) → Int → K} : ∀ {k : Nat}, (∀ i : Int, 0 ≤ i → i < k → ∀ x, H i (H i x) = x) → ∀ x, hseq H k (hrev H k x) = x
  | 0, _, _ => rfl
  | k + 1, h, x => by
    show H k (hseq H k (hrev H k (H k x))) = x
    rw [hseq_hrev (fun i i0 i1 => h i i0 (by push_cast; omega)), h k (by omega) (by push_cast; omega)]

theorem hseq_inv {H : Int → (Int → K) → Int → K} {P : (Int → K) → (Int → K) → Prop} : ∀ {k : Nat}, (∀ i : Int, 0 ≤ i → i < k → ∀ x y, P x y → P (H i x) (H i y)) → ∀ x y, P x y → P (hseq H k x) (hseq H k y)
  | 0, _, _, _, h => h
  | k + 1, h, x, y, h0 => h k (by omega) (by push_cast; omega) _ _ (hseq_inv (fun i i0 i1 => h i i0 (by push_cast; omega)) x y h0)

theorem hrev_inv {H : Int → (Int → K) → Int → K} {P : (Int → K) → (Int → K) → Prop} : ∀ {k : Nat}, (∀ i : Int, 0 ≤ i → i < k → ∀ x y, P x y → P (H i x) (H i y)) → ∀ x y, P x y → P (hrev H k x) (hrev H k y)
  | 0, _, _, _, h => h
  | k + 1, h, x, y, h0 => hrev_inv (P := P) (fun i i0 i1 => h i i0 (by push_cast; omega)) (H k x) (H k y) (h k (by omega) (by push_cast; omega) x y h0)

/-- Running downwards from `N - 1`. -/
theorem hrev_eq_hseq {H : Int → (Int → K) → Int → K} (N : Nat) : ∀ (k : Nat), k ≤ N → ∀ x, hrev H N x = hrev H (N - k) (hseq (fun i => H (N - 1 - i)) k x)
  | 0, _, _ => rfl
  | k + 1, h, x => by
    rw [hrev_eq_hseq N k (by omega) x, show N - k = (N - (k + 1)) + 1 by omega]
    show hrev H (N - (k + 1)) (H ((N - (k + 1) : Nat) : Int) _) = hrev H (N - (k + 1)) (H ((N : Int) - 1 - k) _)
    rw [show ((N - (k + 1) : Nat) : Int) = (N : Int) - 1 - k by omega]

theorem loopUp_eq {N m : Int} {step : Int → Buf K → Option (Buf K)} {H : Int → (Int → K) → Int → K} (hN : 0 ≤ N) (h : ∀ i, 0 ≤ i → i < N → ∀ x : Buf K, m ≤ x.size → step i x = some ⟨x.size, H i x.val⟩)
    {x : Buf K} (hx : m ≤ x.size) : forUp 0 N step x = some ⟨x.size, hseq H N.toNat x.val⟩ := by
  obtain ⟨s, e, p⟩ := forUp_spec (body := step) (lo := 0) (hi := N) (s := x) (fun j s => s = ⟨x.size, hseq H j.toNat x.val⟩) rfl
    (fun j j0 jn s p => ⟨_, h j j0 jn s (by rw [p]; exact hx), by
      rw [p, show (j + 1).toNat = j.toNat + 1 by omega]
      show (⟨x.size, H j (hseq H j.toNat x.val)⟩ : Buf K) = ⟨x.size, H (j.toNat : Int) (hseq H j.toNat x.val)⟩
      rw [show ((j.toNat : Nat) : Int) = j by omega]⟩)
  rw [e, p, max_eq_right hN]

theorem loopDown_eq {N m : Int} {step : Int → Buf K → Option (Buf K)} {H : Int → (Int → K) → Int → K} (hN : 0 ≤ N) (h : ∀ i, 0 ≤ i → i < N → ∀ x : Buf K, m ≤ x.size → step i x = some ⟨x.size, H i x.val⟩)
    {x : Buf K} (hx : m ≤ x.size) : forDown (N - 1) 0 step x = some ⟨x.size, hrev H N.toNat x.val⟩ := by
  obtain ⟨s, e, p⟩ := forDown_spec (body := step) (lo := 0) (hi := N - 1) (s := x) (fun j s => s = ⟨x.size, hseq (fun i => H (N - 1 - i)) (N - 1 - j).toNat x.val⟩) (by rw [sub_self]; rfl)
    (fun j j0 jn s p => ⟨_, h j j0 (by omega) s (by rw [p]; exact hx), by
      rw [p, show (N - 1 - (j - 1)).toNat = (N - 1 - j).toNat + 1 by omega]
      show (⟨x.size, H j _⟩ : Buf K) = ⟨x.size, H (N - 1 - ((N - 1 - j).toNat : Int)) _⟩
      rw [show N - 1 - ((N - 1 - j).toNat : Int) = j by omega]⟩)
  rw [e, p, min_eq_right (by omega), show N - 1 - (0 - 1) = N by ring, hrev_eq_hseq N.toNat N.toNat (le_refl _), Nat.sub_self, show ((N.toNat : Nat) : Int) = N by omega]
  rfl

/-- Copying the columns of one array into the middle of those of another. -/
theorem copyCols_eq [Zero K] {n w w' off : Int} {B : Buf K} (hw : 0 ≤ w) (hoff : 0 ≤ off) (hw' : off + w ≤ w') (hB : n * w ≤ B.size) :
    ∃ D, forUp 0 n (fun j => forUp 0 w fun i D => (B.rd (i + j * w)).bind fun v => D.wr (off + i + j * w') v) (callocB (n * w')) = some D ∧ D.size = (n * w').toNat ∧
      ∀ q c, 0 ≤ q → q < w' → 0 ≤ c → c < n → sl w' D q c = if off ≤ q ∧ q < off + w then B.val (q - off + c * w) else 0 := by
  obtain ⟨D, e, s, p⟩ := forUp_spec (lo := 0) (hi := n) (s := callocB (K := K) (n * w')) (body := fun j => forUp 0 w fun i D => (B.rd (i + j * w)).bind fun v => D.wr (off + i + j * w') v)
    (fun j D => D.size = (n * w').toNat ∧ ∀ q c, 0 ≤ q → q < w' → 0 ≤ c → c < n → sl w' D q c = if c < j ∧ off ≤ q ∧ q < off + w then B.val (q - off + c * w) else 0)
    ⟨rfl, fun q c _ _ c0 _ => by rw [if_neg (by omega)]; rfl⟩
    (fun j j0 jn D ⟨s, p⟩ => by
      obtain ⟨D', e, s', p'⟩ := forUp_spec (lo := 0) (hi := w) (s := D) (body := fun i D => (B.rd (i + j * w)).bind fun v => D.wr (off + i + j * w') v)
        (fun i D' => D'.size = (n * w').toNat ∧ ∀ q c, 0 ≤ q → q < w' → 0 ≤ c → c < n → sl w' D' q c = if c = j ∧ off ≤ q ∧ q < off + i then B.val (q - off + c * w) else sl w' D q c)
        ⟨s, fun q c _ _ c0 _ => by rw [if_neg (by omega)]⟩
        (fun i i0 i1 D' ⟨s', p'⟩ => by
          have g1 := slot_lt (n := n) (w := w) (q := i) (j := j) i0 i1 j0 jn
          have g2 := slot_lt (n := n) (w := w') (q := off + i) (j := j) (by omega) (by omega) j0 jn
          have g3 : 0 ≤ i + j * w := by have := mul_nonneg j0 hw; omega
          rw [Buf.rd_of g3 (by omega), Option.bind_some, Buf.wr_of (by omega) (by omega)]
          refine ⟨_, rfl, s', fun q c q0 qw c0 cn => ?_⟩
          rw [sl_wr (by omega) (by omega) q0 qw, p' q c q0 qw c0 cn]
          by_cases h : c = j ∧ q = off + i
          · rw [if_pos h, if_pos (by omega), h.1, h.2, show off + i - off = i by ring]
          · rw [if_neg h]
            exact if_congr (by omega) rfl rfl)
      refine ⟨D', e, s', fun q c q0 qw c0 cn => ?_⟩
      rw [p' q c q0 qw c0 cn, p q c q0 qw c0 cn, max_eq_right hw]
      by_cases h : c = j ∧ off ≤ q ∧ q < off + w
      · rw [if_pos h, if_pos (by omega)]
      · rw [if_neg h]
        exact if_congr (by omega) rfl rfl)
  refine ⟨D, e, s, fun q c q0 qw c0 cn => ?_⟩
  rw [p q c q0 qw c0 cn]
  exact if_congr (by omega) rfl rfl

section Field
variable [Field K] [LinearOrder K]

/-- The reflection stored in column `i`. -/
noncomputable def qrH (m l u : Int) (D tau : Buf K) (i : Int) : (Int → K) → Int → K := hh i (min (i + l + 1) m) (unitAt i fun r => bval l u D r i) (tau.val i)
noncomputable def qlH (l u : Int) (D tau : Buf K) (i : Int) : (Int → K) → Int → K := hh (max (i - u) 0) (i + 1) (unitAt i fun r => bval l u D r i) (tau.val i)

theorem qrApply_eq {m n l u j : Int} {D tau x : Buf K} (hl : 0 ≤ l) (hu : 0 ≤ u) (j0 : 0 ≤ j) (jm : j < m) (jn : j < n) (hs : n * (l + u + 1) ≤ D.size) (hx : m ≤ x.size) :
    applyReflector (min (l + 1) (m - j)) D (u + j * (l + u + 1)) (tau.val j) j x = some ⟨x.size, qrH m l u D tau j x.val⟩ := by
  have g1 := slot_lt (n := n) (w := l + u + 1) (q := u) (j := j) hu (by omega) j0 jn
  have g2 := slot_lt (n := n) (w := l + u + 1) (q := u + l) (j := j) (by omega) (by omega) j0 jn
  rw [applyReflector_eq' (by omega) (by omega) (by omega) (by omega) (by omega)]
  congr 2
  funext r
  unfold qrH
  rw [show j + min (l + 1) (m - j) = min (j + l + 1) m by omega]
  refine hh_congr (fun i i0 i1 => ?_) (fun _ _ _ => rfl) rfl
  unfold unitAt
  simp only
  rw [bval_in (r := i) (c := j) (by omega), show i - j + (u + j * (l + u + 1)) = i + (u - j + j * (l + u + 1)) by ring]
  exact if_congr (by omega) rfl rfl

theorem qlApply_eq {n l u j : Int} {D tau x : Buf K} (hl : 0 ≤ l) (hu : 0 ≤ u) (j0 : 0 ≤ j) (jn : j < n) (hs : n * (l + u + 1) ≤ D.size) (hx : j < x.size) :
    applyQlReflector (min (u + 1) (j + 1)) D (u + 1 - min (u + 1) (j + 1) + j * (l + u + 1)) (tau.val j) (-min (u + 1) (j + 1) + 1 + j) x = some ⟨x.size, qlH l u D tau j x.val⟩ := by
  generalize hlh : min (u + 1) (j + 1) = lh
  have g1 := slot_lt (n := n) (w := l + u + 1) (q := u + 1 - lh) (j := j) (by omega) (by omega) j0 jn
  have g2 := slot_lt (n := n) (w := l + u + 1) (q := u) (j := j) (by omega) (by omega) j0 jn
  rw [applyQlReflector_eq (by omega) (by omega) (by omega) (by omega) (by omega)]
  congr 2
  funext r
  unfold qlH
  rw [show -lh + 1 + j = max (j - u) 0 by omega, show max (j - u) 0 + lh = j + 1 by omega]
  refine hh_congr (fun i i0 i1 => ?_) (fun _ _ _ => rfl) rfl
  unfold unitAt
  simp only
  rw [bval_in (r := i) (c := j) (by omega), show i - max (j - u) 0 + (u + 1 - lh + j * (l + u + 1)) = i + (u - j + j * (l + u + 1)) by omega]
  exact if_congr (by omega) rfl rfl

variable [IsStrictOrderedRing K]

/-- The state of the QR factorisation after `j` steps. -/
structure QrInv (m n l u u0 : Int) (a : Int → Int → K) (j : Int) (s : Buf K × Buf K) : Prop where
  size : n * (l + u + 1) ≤ s.1.size
  tsize : s.2.size = (min m n).toNat
  fill : ∀ r c, j ≤ r → r < m → 0 ≤ c → c < n → r + u0 < c → j - 1 + u < c → bval l u s.1 r c = 0
  unit : ∀ i, 0 ≤ i → i < j → s.2.val i * (s.2.val i * (∑ r ∈ Finset.Ico i (min (i + l + 1) m), unitAt i (fun r => bval l u s.1 r i) r * unitAt i (fun r => bval l u s.1 r i) r) - 2) = 0
  fact : ∀ r c, 0 ≤ r → r < m → 0 ≤ c → c < n → hseq (qrH m l u s.1 s.2) j.toNat (fun r => if r < m then a r c else 0) r = if c < j ∧ c < r then 0 else bval l u s.1 r c

theorem qrStep_inv {sqrt : K → K} (hsq : IsSqrt sqrt) {m n l u u0 j : Int} {a : Int → Int → K} {s : Buf K × Buf K} (hl : 0 ≤ l) (hu : 0 ≤ u0) (hu0 : u = l + u0) (j0 : 0 ≤ j) (jN : j < min m n)
    (h : QrInv m n l u u0 a j s) : ∃ s', qrStep sqrt m n l u j s = some s' ∧ QrInv m n l u u0 a (j + 1) s' := by
  obtain ⟨D, tau⟩ := s
  obtain ⟨h1, h2, h3, h4, h5⟩ := h
  simp only at h1 h2 h3 h4 h5
  obtain ⟨D', t, e, g⟩ := qrStep_eq hsq (m := m) (n := n) (l := l) (u := u) (j := j) (D := D) (tau := tau) hl (by omega) j0 (by omega) (by omega) h1 (by omega)
    (fun r c r0 rm rl hc cn => h3 r c r0 rm (by omega) cn (by omega) (by omega))
  have tv : ∀ i, i ≠ j → Function.update tau.val j t i = tau.val i := fun i hi => Function.update_of_ne hi ..
  have tj : Function.update tau.val j t j = t := Function.update_self ..
  have hzj : ∀ c, j + u < c → c < n → ∀ r, j ≤ r → r < min (j + l + 1) m → bval l u D r c = 0 := fun c hc cn r r0 r1 => h3 r c r0 (by omega) (by omega) cn (by omega) (by omega)
  refine ⟨_, e, ⟨by have := g.size; simp only; omega, h2, fun r c r0 rm c0 cn hc hc' => ?_, fun i i0 i1 => ?_, fun r c r0 rm c0 cn => ?_⟩⟩
  · simp only
    rw [g.later r c c0 cn (by omega), hh_zero (hzj c (by omega) cn), h3 r c (by omega) rm c0 cn hc (by omega)]
  · simp only
    by_cases hij : i = j
    · subst hij; rw [tj]; exact g.refl.unit
    · rw [tv i hij]
      have e : ∀ r, bval l u D' r i = bval l u D r i := fun r => g.earlier r i i0 (by omega) hij (by omega)
      simp only [e]
      exact h4 i i0 (by omega)
  · simp only
    have eH : ∀ i, 0 ≤ i → i < ((j.toNat : Nat) : Int) → qrH m l u D' ⟨tau.size, Function.update tau.val j t⟩ i = qrH m l u D tau i := fun i i0 i1 => by
      unfold qrH
      simp only
      rw [tv i (by omega)]
      have e : ∀ r, bval l u D' r i = bval l u D r i := fun r => g.earlier r i i0 (by omega) (by omega) (by omega)
      simp only [e]
    have step : ∀ r, hseq (qrH m l u D' ⟨tau.size, Function.update tau.val j t⟩) (j + 1).toNat (fun r => if r < m then a r c else 0) r =
        hh j (min (j + l + 1) m) (unitAt j fun r => bval l u D' r j) t (hseq (qrH m l u D tau) j.toNat (fun r => if r < m then a r c else 0)) r := fun r => by
      rw [show (j + 1).toNat = j.toNat + 1 by omega]
      show qrH m l u D' _ ((j.toNat : Nat) : Int) (hseq _ j.toNat _) r = _
      rw [hseq_congr eH, show ((j.toNat : Nat) : Int) = j by omega]
      unfold qrH
      simp only
      rw [tj]
    rw [step]
    have hin : ∀ r, 0 ≤ r → r < m → hseq (qrH m l u D tau) j.toNat (fun r => if r < m then a r c else 0) r = if c < j ∧ c < r then 0 else bval l u D r c := fun r r0 rm => h5 r c r0 rm c0 cn
    by_cases c1 : c < j
    · rw [hh_zero (fun r r0 r1 => by rw [hin r (by omega) (by omega), if_pos (by omega)]), hin r r0 rm, g.earlier r c c0 cn (by omega) (by omega)]
      exact if_congr (by omega) rfl rfl
    by_cases c2 : c = j
    · subst c2
      rw [hh_congr (y := fun r => bval l u D r c) (fun _ _ _ => rfl) (fun r r0 r1 => by rw [hin r (by omega) (by omega), if_neg (by omega)]) (by rw [hin r r0 rm, if_neg (by omega)])]
      by_cases hr : c ≤ r ∧ r < min (c + l + 1) m
      · rw [g.refl.maps r hr.1 hr.2]
        by_cases hrc : r = c
        · rw [if_pos hrc, if_neg (by omega), hrc]
        · rw [if_neg hrc, if_pos (by omega)]
      · rw [hh_out hr]
        by_cases hrc : c < r
        · rw [if_pos (by omega)]
          unfold bval; rw [if_neg (by omega)]
        · rw [if_neg (by omega), g.col r hr]
    · rw [hh_congr (y := fun r => bval l u D r c) (fun _ _ _ => rfl) (fun r r0 r1 => by rw [hin r (by omega) (by omega), if_neg (by omega)]) (by rw [hin r r0 rm, if_neg (by omega)]), if_neg (by omega),
        g.later r c c0 cn (by omega)]

/-- The state of the QL factorisation when column `j` is next. -/
structure QlInv (m n l u l0 : Int) (a : Int → Int → K) (j : Int) (s : Buf K × Buf K) : Prop where
  size : n * (l + u + 1) ≤ s.1.size
  tsize : s.2.size = (min m n).toNat
  fill : ∀ r c, 0 ≤ r → r ≤ j → 0 ≤ c → c < r - l0 → c < j + 1 - l → bval l u s.1 r c = 0
  unit : ∀ i, j < i → i < min m n → s.2.val i * (s.2.val i * (∑ r ∈ Finset.Ico (max (i - u) 0) (i + 1), unitAt i (fun r => bval l u s.1 r i) r * unitAt i (fun r => bval l u s.1 r i) r) - 2) = 0
  fact : ∀ r c, 0 ≤ r → r < m → 0 ≤ c → c < min m n →
    hseq (fun i => qlH l u s.1 s.2 (min m n - 1 - i)) (min m n - 1 - j).toNat (fun r => if r < m then a r c else 0) r = if j < c ∧ r < c then 0 else bval l u s.1 r c

theorem qlStep_inv {sqrt : K → K} (hsq : IsSqrt sqrt) {m n l u l0 j : Int} {a : Int → Int → K} {s : Buf K × Buf K} (hl : 0 ≤ l0) (hu : 0 ≤ u) (hl0 : l = l0 + u) (j0 : 0 ≤ j) (jN : j < min m n)
    (h : QlInv m n l u l0 a j s) : ∃ s', qlStep sqrt l u j s = some s' ∧ QlInv m n l u l0 a (j - 1) s' := by
  obtain ⟨D, tau⟩ := s
  obtain ⟨h1, h2, h3, h4, h5⟩ := h
  simp only at h1 h2 h3 h4 h5
  obtain ⟨D', t, e, g⟩ := qlStep_eq hsq (n := n) (l := l) (u := u) (j := j) (D := D) (tau := tau) (by omega) hu j0 (by omega) h1 (by omega)
    (fun r c r0 rj ru hc c0 => h3 r c r0 rj c0 (by omega) (by omega))
  have tv : ∀ i, i ≠ j → Function.update tau.val j t i = tau.val i := fun i hi => Function.update_of_ne hi ..
  have tj : Function.update tau.val j t j = t := Function.update_self ..
  have hzj : ∀ c, 0 ≤ c → c < j - l → ∀ r, max (j - u) 0 ≤ r → r < j + 1 → bval l u D r c = 0 := fun c c0 hc r r0 r1 => h3 r c (by omega) (by omega) c0 (by omega) (by omega)
  generalize hN : min m n = N at *
  refine ⟨_, e, ⟨by have := g.size; simp only; omega, by simp only; rw [h2, hN], fun r c r0 rm c0 hc hc' => ?_, fun i i0 i1 => ?_, fun r c r0 rm c0 cn => ?_⟩⟩
  · simp only
    rw [g.later r c c0 (by omega) (by omega), hh_zero (hzj c c0 (by omega)), h3 r c r0 (by omega) c0 hc (by omega)]
  · simp only
    by_cases hij : i = j
    · subst hij; rw [tj]; exact g.refl.unit
    · rw [tv i hij]
      have e : ∀ r, bval l u D' r i = bval l u D r i := fun r => g.earlier r i (by omega) (by omega) hij (by omega)
      simp only [e]
      exact h4 i (by omega) (by omega)
  · rw [hN] at cn ⊢
    simp only
    have eH : ∀ i, 0 ≤ i → i < (((N - 1 - j).toNat : Nat) : Int) → qlH l u D' ⟨tau.size, Function.update tau.val j t⟩ (N - 1 - i) = qlH l u D tau (N - 1 - i) := fun i i0 i1 => by
      unfold qlH
      simp only
      rw [tv _ (by omega)]
      have e : ∀ r, bval l u D' r (N - 1 - i) = bval l u D r (N - 1 - i) := fun r => g.earlier r _ (by omega) (by omega) (by omega) (by omega)
      simp only [e]
    have step : ∀ r, hseq (fun i => qlH l u D' ⟨tau.size, Function.update tau.val j t⟩ (N - 1 - i)) (N - 1 - (j - 1)).toNat (fun r => if r < m then a r c else 0) r =
        hh (max (j - u) 0) (j + 1) (unitAt j fun r => bval l u D' r j) t (hseq (fun i => qlH l u D tau (N - 1 - i)) (N - 1 - j).toNat (fun r => if r < m then a r c else 0)) r := fun r => by
      rw [show (N - 1 - (j - 1)).toNat = (N - 1 - j).toNat + 1 by omega]
      show qlH l u D' _ (N - 1 - (((N - 1 - j).toNat : Nat) : Int)) (hseq _ (N - 1 - j).toNat _) r = _
      rw [hseq_congr eH, show N - 1 - (((N - 1 - j).toNat : Nat) : Int) = j by omega]
      unfold qlH
      simp only
      rw [tj]
    rw [step]
    have hin : ∀ r, 0 ≤ r → r < m → hseq (fun i => qlH l u D tau (N - 1 - i)) (N - 1 - j).toNat (fun r => if r < m then a r c else 0) r = if j < c ∧ r < c then 0 else bval l u D r c := fun r r0 rm => h5 r c r0 rm c0 cn
    by_cases c1 : j < c
    · rw [hh_zero (fun r r0 r1 => by rw [hin r (by omega) (by omega), if_pos (by omega)]), hin r r0 rm, g.earlier r c c0 (by omega) (by omega) (by omega)]
      exact if_congr (by omega) rfl rfl
    by_cases c2 : c = j
    · subst c2
      rw [hh_congr (y := fun r => bval l u D r c) (fun _ _ _ => rfl) (fun r r0 r1 => by rw [hin r (by omega) (by omega), if_neg (by omega)]) (by rw [hin r r0 rm, if_neg (by omega)])]
      by_cases hr : max (c - u) 0 ≤ r ∧ r < c + 1
      · rw [g.refl.maps r hr.1 hr.2]
        by_cases hrc : r = c
        · rw [if_pos hrc, if_neg (by omega), hrc]
        · rw [if_neg hrc, if_pos (by omega)]
      · rw [hh_out hr]
        by_cases hrc : r < c
        · rw [if_pos (by omega)]
          unfold bval; rw [if_neg (by omega)]
        · rw [if_neg (by omega), g.col r hr]
    · rw [hh_congr (y := fun r => bval l u D r c) (fun _ _ _ => rfl) (fun r r0 r1 => by rw [hin r (by omega) (by omega), if_neg (by omega)]) (by rw [hin r r0 rm, if_neg (by omega)]), if_neg (by omega),
        g.later r c c0 (by omega) (by omega)]

end Field
end FT
