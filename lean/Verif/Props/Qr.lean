import Verif.Lemmas.QrSeq
import Verif.Props.Factor
import Verif.Props.Scalar

/-! # C20: the orthogonal factors of the banded QR and QL factorisations -/

namespace FT.Props
open FT
variable {K : Type*} [Field K] [LinearOrder K]

/-- Applying `Q` and applying `Qᵀ` undo each other and preserve the inner product of the first `m` entries; they return for every vector of at least `m` entries and leave the others alone. -/
def Orthogonal (F : BandedQ K) (m : Int) : Prop :=
  ∀ tr tr', (tr = 'N' ∧ tr' = 'T') ∨ (tr = 'T' ∧ tr' = 'N') → ∀ x x' : Buf K, m ≤ x.size → m ≤ x'.size →
    ∃ y y', bqmv tr F x = some y ∧ bqmv tr F x' = some y' ∧ y.size = x.size ∧ bqmv tr' F y = some x ∧ (∀ r, ¬ (0 ≤ r ∧ r < m) → y.val r = x.val r) ∧
      ∑ r ∈ Finset.Ico 0 m, y.val r * y'.val r = ∑ r ∈ Finset.Ico 0 m, x.val r * x'.val r

/-- `Q` times column `c` of `R` is column `c` of `A`. -/
def Reproduces (F : BandedQ K) (m n : Int) (R a : Int → Int → K) : Prop :=
  ∀ c, 0 ≤ c → c < n → ∀ x : Buf K, m ≤ x.size → (∀ r, 0 ≤ r → r < m → x.val r = R r c) → ∃ y, bqmv 'N' F x = some y ∧ ∀ r, 0 ≤ r → r < m → y.val r = a r c

theorem bval_ent {A : Banded K} {m n l u : Int} {D : Buf K} (d : A = ⟨m, n, l, u, D⟩) {r c : Int} (r0 : 0 ≤ r) (rm : r < m) (c0 : 0 ≤ c) (cn : c < n) : A.ent r c = FT.bval l u D r c := by
  subst d
  unfold Banded.ent FT.bval sl
  by_cases h : -u ≤ r - c ∧ r - c ≤ l
  · rw [if_pos h, if_pos (show (⟨m, n, l, u, D⟩ : Banded K).InBand r c by unfold Banded.InBand; simp only; omega)]
    show D.val _ = D.val _
    congr 1; ring
  · rw [if_neg h, if_neg (show ¬ (⟨m, n, l, u, D⟩ : Banded K).InBand r c by unfold Banded.InBand; simp only; omega)]

omit [LinearOrder K] in
theorem hh_keeps {p q m : Int} {w : Int → K} {t : K} (hp : 0 ≤ p) (hq : q ≤ m) (x y : Int → K) (h : ∀ r, 0 ≤ r → r < m → x r = y r) (r : Int) (r0 : 0 ≤ r) (rm : r < m) : hh p q w t x r = hh p q w t y r :=
  hh_congr (fun _ _ _ => rfl) (fun i i0 i1 => h i (by omega) (by omega)) (h r r0 rm)

/-- From the sequence of reflections to the API; `b` applies the reflections in increasing order, `b'` in decreasing order. -/
theorem orth_of {F : BandedQ K} {m N : Int} {H : Int → (Int → K) → Int → K} {pp qq : Int → Int} {w : Int → Int → K} {t : Int → K} (hN : 0 ≤ N)
    (hH : ∀ i, H i = hh (pp i) (qq i) (w i) (t i)) (hpq : ∀ i, 0 ≤ i → i < N → 0 ≤ pp i ∧ qq i ≤ m) (hu : ∀ i, 0 ≤ i → i < N → t i * (t i * (∑ r ∈ Finset.Ico (pp i) (qq i), w i r * w i r) - 2) = 0)
    {b b' : Char} (hbb : (b = 'N' ∧ b' = 'T') ∨ (b = 'T' ∧ b' = 'N'))
    (h1 : ∀ x : Buf K, m ≤ x.size → bqmv b F x = some ⟨x.size, hseq H N.toNat x.val⟩) (h2 : ∀ x : Buf K, m ≤ x.size → bqmv b' F x = some ⟨x.size, hrev H N.toNat x.val⟩) : Orthogonal F m := by
  have inv : ∀ i : Int, 0 ≤ i → i < (N.toNat : Nat) → ∀ x, H i (H i x) = x := fun i i0 i1 x => by
    rw [hH]; exact funext fun r => hh_hh (hu i i0 (by omega)) x r
  have iso : ∀ S : K, ∀ i : Int, 0 ≤ i → i < (N.toNat : Nat) → ∀ x y : Int → K, ∑ r ∈ Finset.Ico 0 m, x r * y r = S → ∑ r ∈ Finset.Ico 0 m, H i x r * H i y r = S := fun S i i0 i1 x y h => by
    rw [hH, hh_isom (hpq i i0 (by omega)).1 (hpq i i0 (by omega)).2 (hu i i0 (by omega)), h]
  have out : ∀ z : Int → K, ∀ i : Int, 0 ≤ i → i < (N.toNat : Nat) → ∀ x y : Int → K, (∀ r, ¬ (0 ≤ r ∧ r < m) → x r = z r) → ∀ r, ¬ (0 ≤ r ∧ r < m) → H i x r = z r := fun z i i0 i1 x y h r hr => by
    have := hpq i i0 (by omega)
    rw [hH, hh_out (by omega), h r hr]
  intro tr tr' htr x x' hx hx'
  have hcase : (tr = b ∧ tr' = b') ∨ (tr = b' ∧ tr' = b) := by
    rcases hbb with ⟨rfl, rfl⟩ | ⟨rfl, rfl⟩ <;> rcases htr with ⟨rfl, rfl⟩ | ⟨rfl, rfl⟩ <;> simp
  rcases hcase with ⟨rfl, rfl⟩ | ⟨rfl, rfl⟩
  · refine ⟨_, _, h1 x hx, h1 x' hx', rfl, ?_, ?_, ?_⟩
    · rw [h2 _ (by exact hx)]; simp only; rw [hrev_hseq inv]
    · exact hseq_inv (P := fun x _ => ∀ r, ¬ (0 ≤ r ∧ r < m) → x r = _) (out x.val) x.val x.val fun _ _ => rfl
    · exact hseq_inv (P := fun x y => ∑ r ∈ Finset.Ico 0 m, x r * y r = _) (iso _) x.val x'.val rfl
  · refine ⟨_, _, h2 x hx, h2 x' hx', rfl, ?_, ?_, ?_⟩
    · rw [h1 _ (by exact hx)]; simp only; rw [hseq_hrev inv]
    · exact hrev_inv (P := fun x _ => ∀ r, ¬ (0 ≤ r ∧ r < m) → x r = _) (out x.val) x.val x.val fun _ _ => rfl
    · exact hrev_inv (P := fun x y => ∑ r ∈ Finset.Ico 0 m, x r * y r = _) (iso _) x.val x'.val rfl

variable [IsStrictOrderedRing K]

/-- **C20 (reflectors).** The reflector computed from a column maps this column, wherever it is stored, onto a multiple of the first unit vector: the multiple left at the place of the pivot. -/
theorem C20_reflector {sqrt : K → K} (hs : IsSqrt sqrt) {len o : Int} {D : Buf K} (h1 : 1 ≤ len) (o0 : 0 ≤ o) (o1 : o + len ≤ D.size) :
    ∃ t D', computeReflector sqrt len o D = some (t, D') ∧ D'.size = D.size ∧ (∀ s, ¬ (o ≤ s ∧ s < o + len) → D'.val s = D.val s) ∧
      D'.val o * D'.val o = ∑ i ∈ Finset.Ico 0 len, D.val (o + i) * D.val (o + i) ∧
      ∀ (p : Int) (X : Buf K), 0 ≤ p → p + len ≤ X.size → (∀ i, 0 ≤ i → i < len → X.val (p + i) = D.val (o + i)) →
        ∃ X', applyReflector len D' o t p X = some X' ∧ X'.val p = D'.val o ∧ ∀ i, 1 ≤ i → i < len → X'.val (p + i) = 0 := by
  obtain ⟨t, D', e, s, r, out⟩ := computeReflector_eq hs h1 o0 o1
  refine ⟨t, D', e, s, out, ?_, fun p X p0 p1 hX => ?_⟩
  · have := hh_isom (le_refl o) (le_refl (o + len)) r.unit D.val D.val
    rw [sum_Ico_congr (f := fun q => hh o (o + len) (unitAt o D'.val) t D.val q * hh o (o + len) (unitAt o D'.val) t D.val q) (g := fun q => if q = o then D'.val o * D'.val o else 0) fun q q0 q1 => by
      rw [r.maps q q0 q1]; split_ifs <;> simp] at this
    rw [sum_Ico_delta (le_refl o) (by omega) fun _ => D'.val o * D'.val o] at this
    rw [this, show o + len = len + o by ring, show Finset.Ico o (len + o) = Finset.Ico (0 + o) (len + o) by rw [zero_add], ← Finset.sum_Ico_add' (fun i => D.val i * D.val i) 0 len o]
    exact sum_Ico_congr fun k _ _ => by rw [add_comm]
  · have key : ∀ i, 0 ≤ i → i < len → hh p (p + len) (fun s => unitAt o D'.val (s - p + o)) t X.val (p + i) = if i = 0 then D'.val o else 0 := fun i i0 i1 => by
      have e1 : hh p (p + len) (fun s => unitAt o D'.val (s - p + o)) t X.val (p + i) = hh o (o + len) (unitAt o D'.val) t D.val (o + i) := by
        have e3 := hh_shift (p := o) (q := o + len) (d := p - o) (w := fun s => unitAt o D'.val (s - p + o)) (t := t) (x := X.val) (o + i)
        rw [show o + (p - o) = p by ring, show o + len + (p - o) = p + len by ring, show o + i + (p - o) = p + i by ring] at e3
        rw [e3]
        refine hh_congr (fun k k0 k1 => by rw [show k + (p - o) - p + o = k by ring]) (fun k k0 k1 => ?_) ?_
        · have := hX (k - o) (by omega) (by omega)
          rw [show p + (k - o) = k + (p - o) by ring, show o + (k - o) = k by ring] at this
          exact this
        · have := hX i i0 i1
          rw [show o + i + (p - o) = p + i by ring]
          exact this
      rw [e1, r.maps _ (by omega) (by omega)]
      exact if_congr (by omega) rfl rfl
    refine ⟨_, applyReflector_eq' h1 o0 (by omega) p0 p1, ?_, fun i i0 i1 => ?_⟩
    · have := key 0 (le_refl _) (by omega)
      rw [if_pos rfl, add_zero] at this; exact this
    · have := key i (by omega) i1
      rw [if_neg (by omega)] at this; exact this

/-- **C20 (reflectors from the bottom).** The same with the last unit vector. -/
theorem C20_ql_reflector {sqrt : K → K} (hs : IsSqrt sqrt) {len o : Int} {D : Buf K} (h1 : 1 ≤ len) (o0 : 0 ≤ o) (o1 : o + len ≤ D.size) :
    ∃ t D', computeQlReflector sqrt len o D = some (t, D') ∧ D'.size = D.size ∧ (∀ s, ¬ (o ≤ s ∧ s < o + len) → D'.val s = D.val s) ∧
      ∀ (p : Int) (X : Buf K), 0 ≤ p → p + len ≤ X.size → (∀ i, 0 ≤ i → i < len → X.val (p + i) = D.val (o + i)) →
        ∃ X', applyQlReflector len D' o t p X = some X' ∧ X'.val (p + (len - 1)) = D'.val (o + (len - 1)) ∧ ∀ i, 0 ≤ i → i < len - 1 → X'.val (p + i) = 0 := by
  obtain ⟨t, D', e, s, r, out⟩ := computeQlReflector_eq hs h1 o0 o1
  refine ⟨t, D', e, s, out, fun p X p0 p1 hX => ?_⟩
  have key : ∀ i, 0 ≤ i → i < len → hh p (p + len) (fun s => unitAt (o + (len - 1)) D'.val (s - p + o)) t X.val (p + i) = if i = len - 1 then D'.val (o + (len - 1)) else 0 := fun i i0 i1 => by
    have e1 : hh p (p + len) (fun s => unitAt (o + (len - 1)) D'.val (s - p + o)) t X.val (p + i) = hh o (o + len) (unitAt (o + (len - 1)) D'.val) t D.val (o + i) := by
      have e3 := hh_shift (p := o) (q := o + len) (d := p - o) (w := fun s => unitAt (o + (len - 1)) D'.val (s - p + o)) (t := t) (x := X.val) (o + i)
      rw [show o + (p - o) = p by ring, show o + len + (p - o) = p + len by ring, show o + i + (p - o) = p + i by ring] at e3
      rw [e3]
      refine hh_congr (fun k k0 k1 => by rw [show k + (p - o) - p + o = k by ring]) (fun k k0 k1 => ?_) ?_
      · have := hX (k - o) (by omega) (by omega)
        rw [show p + (k - o) = k + (p - o) by ring, show o + (k - o) = k by ring] at this
        exact this
      · have := hX i i0 i1
        rw [show o + i + (p - o) = p + i by ring]
        exact this
    rw [e1, r.maps _ (by omega) (by omega)]
    exact if_congr (by omega) rfl rfl
  refine ⟨_, applyQlReflector_eq h1 o0 (by omega) p0 p1, ?_, fun i i0 i1 => ?_⟩
  · have := key (len - 1) (by omega) (by omega)
    rw [if_pos rfl] at this; exact this
  · have := key i (by omega) (by omega)
    rw [if_neg (by omega)] at this; exact this

/-- **C20 (QR).** For every banded matrix, square or not, the factorisation returns; its `Q` is orthogonal, and `Q` times the upper triangle of the factors is the matrix. -/
theorem C20_qr {sqrt : K → K} (hs : IsSqrt sqrt) {A : Banded K} {m n l u a} (hA : Stores A m n l u a) (hm : 0 ≤ m) (hn : 0 ≤ n) (hl : 0 ≤ l) (hu : 0 ≤ u) :
    ∃ F f, qrfact sqrt A = some F ∧ Stores F.factors m n l (l + u) f ∧ Orthogonal F m ∧ Reproduces F m n (upperPart f) a := by
  obtain ⟨d1, d2, d3, d4⟩ := hA.dims
  obtain ⟨D0, e0, s0, p0⟩ := copyCols_eq (n := n) (w := l + u + 1) (w' := 2 * l + u + 1) (off := l) (B := A.D) (by omega) hl (by omega) hA.alloc
  have nn : 0 ≤ n * (2 * l + u + 1) := mul_nonneg hn (by omega)
  have hw : l + (l + u) + 1 = 2 * l + u + 1 := by ring
  have start : QrInv m n l (l + u) u a 0 (D0, callocB (min m n)) := by
    have hv : ∀ r c, 0 ≤ r → r < m → 0 ≤ c → c < n → FT.bval l (l + u) D0 r c = a r c := fun r c r0 rm c0 cn => by
      rw [← hA.ent, bval_ent hA.eq r0 rm c0 cn]
      unfold FT.bval
      by_cases h : -(l + u) ≤ r - c ∧ r - c ≤ l
      · rw [if_pos h, hw, p0 _ _ (by omega) (by omega) c0 cn]
        by_cases h' : -u ≤ r - c ∧ r - c ≤ l
        · rw [if_pos (by omega), if_pos h', show l + u + r - c - l = u + r - c by ring]; rfl
        · rw [if_neg (by omega), if_neg h']
      · rw [if_neg h, if_neg (by omega)]
    refine ⟨by simp only; rw [hw]; omega, rfl, fun r c r0 rm c0 cn hc _ => ?_, fun i i0 i1 => by omega, fun r c r0 rm c0 cn => ?_⟩
    · simp only
      rw [hv r c r0 rm c0 cn, ← hA.ent, bval_ent hA.eq r0 rm c0 cn]
      unfold FT.bval; rw [if_neg (by omega)]
    · rw [if_neg (by omega), hv r c r0 rm c0 cn]
      show (if r < m then a r c else 0) = _
      rw [if_pos rm]
  obtain ⟨⟨D, tau⟩, e, g1, g2, _, g4, g5⟩ := forUp_spec (body := qrStep sqrt m n l (l + u)) (lo := 0) (hi := min m n) (QrInv m n l (l + u) u a) start
    (fun j j0 jn s h => qrStep_inv hs hl hu rfl j0 jn h)
  rw [max_eq_right (by omega)] at g4 g5
  simp only at g1 g2 g4 g5
  have up : ∀ i, 0 ≤ i → i < min m n → ∀ x : Buf K, m ≤ x.size →
      ((tau.rd i).bind fun t => applyReflector (min (l + 1) (m - i)) D (l + u + i * (l + (l + u) + 1)) t i x) = some ⟨x.size, qrH m l (l + u) D tau i x.val⟩ := fun i i0 i1 x hx => by
    rw [Buf.rd_of i0 (by omega), Option.bind_some, qrApply_eq hl (by omega) i0 (by omega) (by omega) g1 hx]
  have hT : ∀ x : Buf K, m ≤ x.size → bqmv 'T' ⟨⟨m, n, l, l + u, D⟩, tau, 'U'⟩ x = some ⟨x.size, hseq (qrH m l (l + u) D tau) (min m n).toNat x.val⟩ := fun x hx => loopUp_eq (by omega) up hx
  have hN : ∀ x : Buf K, m ≤ x.size → bqmv 'N' ⟨⟨m, n, l, l + u, D⟩, tau, 'U'⟩ x = some ⟨x.size, hrev (qrH m l (l + u) D tau) (min m n).toNat x.val⟩ := fun x hx => loopDown_eq (by omega) up hx
  refine ⟨⟨⟨m, n, l, l + u, D⟩, tau, 'U'⟩, (⟨m, n, l, l + u, D⟩ : Banded K).ent, ?_, .mk' ⟨rfl, rfl, rfl, rfl⟩ g1 fun _ _ => rfl, ?_, ?_⟩
  · unfold qrfact
    rw [d1, d2, d3, d4, hw, e0, Option.bind_some, e]; rfl
  · exact orth_of (pp := fun i => i) (qq := fun i => min (i + l + 1) m) (by omega) (fun i => rfl) (fun i i0 i1 => ⟨i0, by omega⟩) (fun i i0 i1 => g4 i i0 i1) (Or.inr ⟨rfl, rfl⟩) hT hN
  · intro c c0 cn x hx hxv
    refine ⟨_, hN x hx, fun r r0 rm => ?_⟩
    have e1 := hrev_inv (H := qrH m l (l + u) D tau) (k := (min m n).toNat) (P := fun x y => ∀ r, 0 ≤ r → r < m → x r = y r) (fun i i0 i1 => hh_keeps i0 (by omega)) x.val
      (hseq (qrH m l (l + u) D tau) (min m n).toNat fun r => if r < m then a r c else 0) (fun r r0 rm => by
        rw [g5 r c r0 rm c0 cn, hxv r r0 rm]
        unfold upperPart
        by_cases h : r ≤ c
        · rw [if_pos h, if_neg (by omega), bval_ent rfl r0 rm c0 cn]
        · rw [if_neg h, if_pos (by omega)]) r r0 rm
    rw [hrev_hseq (H := qrH m l (l + u) D tau) (k := (min m n).toNat) (fun i i0 i1 x => funext fun r => hh_hh (g4 i i0 (by omega)) x r), if_pos rm] at e1
    exact e1

/-- **C20 (QL).** The same for the QL factorisation of a banded matrix; the matrix is reproduced when it has at least as many rows as columns (the source says "Doesn't work for rectangular"). -/
theorem C20_ql {sqrt : K → K} (hs : IsSqrt sqrt) {A : Banded K} {m n l u a} (hA : Stores A m n l u a) (hm : 0 ≤ m) (hn : 0 ≤ n) (hl : 0 ≤ l) (hu : 0 ≤ u) :
    ∃ F f, qlfact sqrt A = some F ∧ Stores F.factors m n (l + u) u f ∧ Orthogonal F m ∧ (n ≤ m → Reproduces F m n (lowerPart f) a) := by
  obtain ⟨d1, d2, d3, d4⟩ := hA.dims
  obtain ⟨D0, e0, s0, p0⟩ := copyCols_eq (n := n) (w := l + u + 1) (w' := l + 2 * u + 1) (off := 0) (B := A.D) (by omega) (le_refl 0) (by omega) hA.alloc
  simp only [zero_add] at e0
  have nn : 0 ≤ n * (l + 2 * u + 1) := mul_nonneg hn (by omega)
  have hw : l + u + u + 1 = l + 2 * u + 1 := by ring
  have start : QlInv m n (l + u) u l a (min m n - 1) (D0, callocB (min m n)) := by
    have hv : ∀ r c, 0 ≤ r → r < m → 0 ≤ c → c < n → FT.bval (l + u) u D0 r c = a r c := fun r c r0 rm c0 cn => by
      rw [← hA.ent, bval_ent hA.eq r0 rm c0 cn]
      unfold FT.bval
      by_cases h : -u ≤ r - c ∧ r - c ≤ l + u
      · rw [if_pos h, hw, p0 _ _ (by omega) (by omega) c0 cn]
        by_cases h' : -u ≤ r - c ∧ r - c ≤ l
        · rw [if_pos (by omega), if_pos h', sub_zero]; rfl
        · rw [if_neg (by omega), if_neg h']
      · rw [if_neg h, if_neg (by omega)]
    refine ⟨by simp only; rw [hw]; omega, rfl, fun r c r0 rm c0 hc _ => ?_, fun i i0 i1 => by omega, fun r c r0 rm c0 cn => ?_⟩
    · simp only
      rw [hv r c r0 (by omega) c0 (by omega), ← hA.ent, bval_ent hA.eq r0 (by omega) c0 (by omega)]
      unfold FT.bval; rw [if_neg (by omega)]
    · rw [if_neg (by omega), hv r c r0 rm c0 (by omega), sub_self]
      show (if r < m then a r c else 0) = _
      rw [if_pos rm]
  obtain ⟨⟨D, tau⟩, e, g1, g2, _, g4, g5⟩ := forDown_spec (body := qlStep sqrt (l + u) u) (hi := min m n - 1) (lo := 0) (QlInv m n (l + u) u l a) start
    (fun j j0 jn s h => qlStep_inv hs hl hu rfl j0 (by omega) h)
  rw [min_eq_right (show (0 : Int) - 1 ≤ min m n - 1 by omega)] at g4 g5
  simp only at g1 g2 g4 g5
  have up : ∀ i, 0 ≤ i → i < min m n → ∀ x : Buf K, m ≤ x.size →
      ((tau.rd i).bind fun t => applyQlReflector (min (u + 1) (i + 1)) D (u + 1 - min (u + 1) (i + 1) + i * (l + u + u + 1)) t (-min (u + 1) (i + 1) + 1 + i) x) = some ⟨x.size, qlH (l + u) u D tau i x.val⟩ := fun i i0 i1 x hx => by
    rw [Buf.rd_of i0 (by omega), Option.bind_some, qlApply_eq (n := n) (by omega) hu i0 (by omega) g1 (by omega)]
  have hN : ∀ x : Buf K, m ≤ x.size → bqmv 'N' ⟨⟨m, n, l + u, u, D⟩, tau, 'L'⟩ x = some ⟨x.size, hseq (qlH (l + u) u D tau) (min m n).toNat x.val⟩ := fun x hx => loopUp_eq (by omega) up hx
  have hT : ∀ x : Buf K, m ≤ x.size → bqmv 'T' ⟨⟨m, n, l + u, u, D⟩, tau, 'L'⟩ x = some ⟨x.size, hrev (qlH (l + u) u D tau) (min m n).toNat x.val⟩ := fun x hx => loopDown_eq (by omega) up hx
  refine ⟨⟨⟨m, n, l + u, u, D⟩, tau, 'L'⟩, (⟨m, n, l + u, u, D⟩ : Banded K).ent, ?_, .mk' ⟨rfl, rfl, rfl, rfl⟩ g1 fun _ _ => rfl, ?_, fun hnm => ?_⟩
  · unfold qlfact
    rw [d1, d2, d3, d4, hw, e0, Option.bind_some, e]; rfl
  · exact orth_of (pp := fun i => max (i - u) 0) (qq := fun i => i + 1) (by omega) (fun i => rfl) (fun i i0 i1 => ⟨by omega, by omega⟩) (fun i i0 i1 => g4 i (by omega) i1) (Or.inl ⟨rfl, rfl⟩) hN hT
  · intro c c0 cn x hx hxv
    refine ⟨_, hN x hx, fun r r0 rm => ?_⟩
    have e1 := hseq_inv (H := qlH (l + u) u D tau) (k := (min m n).toNat) (P := fun x y => ∀ r, 0 ≤ r → r < m → x r = y r) (fun i i0 i1 => hh_keeps (by omega) (by omega)) x.val
      (hrev (qlH (l + u) u D tau) (min m n).toNat fun r => if r < m then a r c else 0) (fun r r0 rm => by
        have := g5 r c r0 rm c0 (by omega)
        rw [show min m n - 1 - (0 - 1) = min m n by ring] at this
        rw [hrev_eq_hseq _ _ (le_refl _), Nat.sub_self, show (((min m n).toNat : Nat) : Int) = min m n by omega]
        show _ = hseq _ _ _ r
        rw [this, hxv r r0 rm]
        unfold lowerPart
        by_cases h : c ≤ r
        · rw [if_pos h, if_neg (by omega), bval_ent rfl r0 rm c0 cn]
        · rw [if_neg h, if_pos (by omega)]) r r0 rm
    rw [hseq_hrev (H := qlH (l + u) u D tau) (k := (min m n).toNat) (fun i i0 i1 x => funext fun r => hh_hh (g4 i (by omega) (by omega)) x r), if_pos rm] at e1
    exact e1

/-! ## Concrete instances -/

/-- A tall bidiagonal real matrix. -/
example : ∃ F f, qrfact Real.sqrt (⟨3, 2, 1, 0, .ofList [3, 4, 1, 2]⟩ : Banded ℝ) = some F ∧ Stores F.factors 3 2 1 1 f ∧ Orthogonal F 3 ∧
    Reproduces F 3 2 (upperPart f) (⟨3, 2, 1, 0, .ofList [3, 4, 1, 2]⟩ : Banded ℝ).ent :=
  C20_qr real_isSqrt (A := ⟨3, 2, 1, 0, .ofList [3, 4, 1, 2]⟩) (.mk' ⟨rfl, rfl, rfl, rfl⟩ (show (2 : Int) * (1 + 0 + 1) ≤ 4 by decide) fun _ _ => rfl) (by decide) (by decide) (by decide) (by decide)

example : ∃ F f, qlfact Real.sqrt (⟨2, 2, 0, 1, .ofList [0, 3, 4, 1]⟩ : Banded ℝ) = some F ∧ Stores F.factors 2 2 1 1 f ∧ Orthogonal F 2 ∧
    ((2 : Int) ≤ 2 → Reproduces F 2 2 (lowerPart f) (⟨2, 2, 0, 1, .ofList [0, 3, 4, 1]⟩ : Banded ℝ).ent) :=
  C20_ql real_isSqrt (A := ⟨2, 2, 0, 1, .ofList [0, 3, 4, 1]⟩) (.mk' ⟨rfl, rfl, rfl, rfl⟩ (show (2 : Int) * (0 + 1 + 1) ≤ 4 by decide) fun _ _ => rfl) (by decide) (by decide) (by decide) (by decide)

/-- The reflector of `(3, 4)`. -/
example : ∃ t D', computeReflector Real.sqrt 2 0 (.ofList [3, 4]) = some (t, D') ∧ D'.val 0 * D'.val 0 = ∑ i ∈ Finset.Ico 0 2, (Buf.ofList [(3 : ℝ), 4]).val (0 + i) * (Buf.ofList [(3 : ℝ), 4]).val (0 + i) := by
  obtain ⟨t, D', e, _, _, h, _⟩ := C20_reflector real_isSqrt (len := 2) (o := 0) (D := .ofList [(3 : ℝ), 4]) (by decide) (by decide) (show (0 : Int) + 2 ≤ 2 by decide)
  exact ⟨t, D', e, h⟩

end FT.Props
