import Verif.Model.EigFmm
import Verif.Lemmas.Modified
import Verif.Lemmas.EigVec
import Verif.Props.TbEig

/-!
# The columns of the factors of a divide-and-conquer factorisation
-/

set_option linter.unusedSectionVars false

namespace FT.Fmm
open FT FT.Model FT.Prog FT.Props FT.Props.Hier FT.Props.TbEig
variable {K : Type*} [Field K] [LinearOrder K]

/-- The `n` entries from `d` on are related to what they were, the others are as before. -/
structure ColRel (n d : Int) (X X' : Buf K) (R : (Int → K) → (Int → K) → Prop) : Prop where
  size : X'.size = X.size
  rel : R (fun i => X.val (d + i)) fun i => X'.val (d + i)
  keep : ∀ k, ¬ (d ≤ k ∧ k < d + n) → X'.val k = X.val k

theorem onCol_of {junk : Int → K} {top n d : Int} {X : Buf K} {prog : Ptr → Prog K Unit} {R : (Int → K) → (Int → K) → Prop} (hd : 0 ≤ d) (hs : d + n ≤ X.size)
    (hp : ∀ M : Buf K, M.size = (top + n).toNat → ∃ M', (prog ⟨top, n, 0⟩).run M = some ((), M') ∧
      ∀ u u', (∀ i, 0 ≤ i → i < n → u i = M.val (top + i)) → (∀ i, 0 ≤ i → i < n → u' i = M'.val (top + i)) → R u u') :
    ∃ X', onCol junk top n prog X d = some X' ∧ ColRel n d X X' R := by
  obtain ⟨M', e, r⟩ := hp ⟨(top + n).toNat, fun a => if a < top then junk a else X.val (d + (a - top))⟩ rfl
  refine ⟨⟨X.size, fun k => if d ≤ k ∧ k < d + n then M'.val (top + (k - d)) else X.val k⟩, ?_, rfl, r _ _ (fun i i0 i1 => ?_) (fun i i0 i1 => ?_), fun k hk => if_neg hk⟩
  · unfold onCol
    rw [if_pos ⟨hd, hs⟩, e]
    rfl
  · show _ = if top + i < top then _ else _
    rw [if_neg (by omega), add_sub_cancel_left]
  · show (if d ≤ d + i ∧ d + i < d + n then _ else _) = _
    rw [if_pos (by omega), add_sub_cancel_left]

theorem onCol_tbsv {junk : Int → K} {top n d b : Int} {X : Buf K} {B : TB K} {a : Int → Int → K} (h0 : 0 ≤ top) (n0 : 0 ≤ n) (hd : 0 ≤ d) (hs : d + n ≤ X.size) (hB : StoresT B n b a) (hb : 0 ≤ b)
    (hz : ∀ i, 0 ≤ i → i < n → a i i ≠ 0) :
    ∃ X', onCol junk top n (tbsvP 'N' B) X d = some X' ∧ ColRel n d X X' fun u u' => ∀ i, 0 ≤ i → i < n → ∑ k ∈ Finset.Ico 0 n, a i k * u' k = u i := by
  refine onCol_of hd hs fun M hM => ?_
  have hx : (⟨top, n, 0⟩ : Ptr).Ok n M.size := by simp only [Ptr.Ok]; omega
  obtain ⟨y, e, s, v, -⟩ := (C18_tbsv hB hb hz (tr := 'N') (.inl rfl)).1 ⟨n.toNat, fun i => M.val (top + i)⟩ (by show n ≤ (n.toNat : Int); omega)
  obtain ⟨M', e', -, w, -⟩ := tbsvP_sim (x := ⟨top, n, 0⟩) (n := n) 'N' B M _ y hx ⟨by show (n.toNat : Int) = n; omega, fun i i0 i1 => by simp [Ptr.at]⟩ e
  refine ⟨M', e', fun u u' hu hu' i i0 i1 => ?_⟩
  rw [hu i i0 i1, ← v i i0 i1]
  refine sum_Ico_congr fun k k0 k1 => ?_
  rw [hu' k k0 k1, w.2 k k0 k1]
  simp [opEnt, Ptr.at]

theorem allocd_mono {p : Int} {s s' : Nat} {l : List (Ptr × Int)} (h : Allocd p s l) (hs : s ≤ s') : Allocd p s' l :=
  ⟨fun q hq => by obtain ⟨h1, h2, h3, h4⟩ := h.1 q hq; exact ⟨h1, h2, h3, by omega⟩, h.2⟩

section col
variable {junk : Int → K} {BS p top n d : Int} {X : Buf K} {F : TbEig K}

theorem col_ok (h0 : 0 ≤ top) (hn : F.n = n) (n0 : 0 ≤ n) (hp : 1 ≤ p) (hS : ESized BS F) (hA : Allocd p top.toNat (eArrs F)) {M : Buf K} (hM : M.size = (top + n).toNat) :
    (⟨top, n, 0⟩ : Ptr).Ok F.n M.size ∧ EScrOk 0 M.size F ∧ ∀ j, 0 ≤ j → j < F.n → ¬ EScr 0 F ((⟨top, n, 0⟩ : Ptr).at j) := by
  have hx : (⟨top, n, 0⟩ : Ptr).Ok F.n M.size := by simp only [Ptr.Ok]; omega
  have hA' : Allocd p M.size (eArrs F) := allocd_mono hA (by omega)
  refine ⟨hx, eScrOk_alloc le_rfl (by omega) hS hA', fun j j0 j1 => not_scr hA' le_rfl (by omega) hx (fun q hq => ?_) j0 j1⟩
  obtain ⟨-, h2, h3, h4⟩ := hA.1 q hq
  simp only [Apart]
  omega

theorem onCol_bfsv (h0 : 0 ≤ top) (hn : F.n = n) (n0 : 0 ≤ n) (hp : 1 ≤ p) (hS : ESized BS F) (hr : Regular F) (hA : Allocd p top.toNat (eArrs F)) (hd : 0 ≤ d) (hs : d + n ≤ X.size) :
    ∃ X', onCol junk top n (bfsvP BS 'N' 0 F) X d = some X' ∧ ColRel n d X X' fun u u' => ∀ i, 0 ≤ i → i < n → ∑ k ∈ Finset.Ico 0 n, mat F i k * u' k = u i := by
  refine onCol_of hd hs fun M hM => ?_
  obtain ⟨c1, c2, c3⟩ := col_ok h0 hn n0 hp hS hA hM
  obtain ⟨M', e, -, v, -⟩ := C22_solve (tr := 'N') (.inl rfl) hS hr c1 c2 c3
  refine ⟨M', e, fun u u' hu hu' i i0 i1 => ?_⟩
  have := v i i0 (by omega)
  simp only [if_true, Ptr.at, add_zero] at this
  rw [hu i i0 i1, ← this, hn]
  exact sum_Ico_congr fun k k0 k1 => by rw [hu' k k0 k1]

theorem onCol_bfmvT (h0 : 0 ≤ top) (hn : F.n = n) (n0 : 0 ≤ n) (hp : 1 ≤ p) (hS : ESized BS F) (hA : Allocd p top.toNat (eArrs F)) (hd : 0 ≤ d) (hs : d + n ≤ X.size) :
    ∃ X', onCol junk top n (bfmvP BS 'T' 0 F) X d = some X' ∧ ColRel n d X X' fun u u' => ∀ i, 0 ≤ i → i < n → u' i = ∑ k ∈ Finset.Ico 0 n, mat F k i * u k := by
  refine onCol_of hd hs fun M hM => ?_
  obtain ⟨c1, c2, c3⟩ := col_ok h0 hn n0 hp hS hA hM
  obtain ⟨M', e, -, v, -⟩ := C22_apply (tr := 'T') (.inr rfl) hS c1 c2 c3
  refine ⟨M', e, fun u u' hu hu' i i0 i1 => ?_⟩
  have := v i i0 (by omega)
  simp only [if_neg (show ¬ 'T' = 'N' by decide), Ptr.at, add_zero] at this
  rw [hu' i i0 i1, this, hn]
  exact sum_Ico_congr fun k k0 k1 => by rw [hu k k0 k1]

end col

/-- Positions of different columns differ. -/
theorem col_range {s j b : Int} (s0 : 0 ≤ s) (j0 : 0 ≤ j) (j1 : j < b) : 0 ≤ j * s ∧ j * s + s ≤ s * b := by
  have h1 := mul_nonneg j0 s0
  have h2 : s * (j + 1) ≤ s * b := Int.mul_le_mul_of_nonneg_left (by omega) s0
  rw [Int.mul_add, Int.mul_one, Int.mul_comm s j] at h2
  exact ⟨h1, h2⟩

theorem col_apart {s i j k : Int} (i0 : 0 ≤ i) (i1 : i < s) (hjk : j ≠ k) : ¬ (k * s ≤ i + j * s ∧ i + j * s < k * s + s) := by
  rintro ⟨h1, h2⟩
  rcases lt_or_gt_of_ne hjk with h | h
  · have : (j + 1) * s ≤ k * s := Int.mul_le_mul_of_nonneg_right (by omega) (by omega)
    rw [Int.add_mul, Int.one_mul] at this
    omega
  · have : (k + 1) * s ≤ j * s := Int.mul_le_mul_of_nonneg_right (by omega) (by omega)
    rw [Int.add_mul, Int.one_mul] at this
    omega

/-- The columns of `X` solve `B₁ V₁ x = e`, for the last `b` unit vectors. -/
theorem fmmX_run {E : FmmEnv K} {top s b bB p : Int} {B1 : TB K} {F1 : TbEig K} {a : Int → Int → K} (h0 : 0 ≤ top) (hn : F1.n = s) (b0 : 0 ≤ b) (hbs : b ≤ s) (hB : StoresT B1 s bB a) (hb : 0 ≤ bB)
    (hz : ∀ i, 0 ≤ i → i < s → a i i ≠ 0) (hp : 1 ≤ p) (hS : ESized E.BS F1) (hr : Regular F1) (hA : Allocd p top.toNat (eArrs F1)) :
    ∃ X, fmmX E top s b B1 F1 = some X ∧ s * b ≤ X.size ∧ ∀ i j, 0 ≤ i → i < s → 0 ≤ j → j < b →
      ∑ k ∈ Finset.Ico 0 s, a i k * ∑ l ∈ Finset.Ico 0 s, mat F1 k l * X.val (l + j * s) = if i = s - b + j then 1 else 0 := by
  unfold fmmX
  obtain ⟨X, e, q1, q2, -⟩ := forUp_spec (lo := 0) (hi := b) (s := (callocB (s * b) : Buf K)) (body := fun j X => do
      let X ← X.wr (s - b + j + j * s) 1
      let X ← onCol E.junk top s (tbsvP 'N' B1) X (j * s)
      onCol E.junk top s (bfsvP E.BS 'N' 0 F1) X (j * s))
    (fun J X => s * b ≤ X.size ∧ (∀ i j, 0 ≤ i → i < s → 0 ≤ j → j < J → ∑ k ∈ Finset.Ico 0 s, a i k * ∑ l ∈ Finset.Ico 0 s, mat F1 k l * X.val (l + j * s) = if i = s - b + j then 1 else 0) ∧
      ∀ i j, 0 ≤ i → i < s → J ≤ j → X.val (i + j * s) = 0)
    ⟨by show s * b ≤ ((s * b).toNat : Int); omega, fun i j _ _ h1 h2 => by omega, fun _ _ _ _ _ => rfl⟩
    (fun j j0 j1 X h => by
      obtain ⟨x1, x2, x3⟩ := h
      obtain ⟨r1, r2⟩ := col_range (s := s) (by omega) j0 j1
      have e0 : X.wr (s - b + j + j * s) 1 = some ⟨X.size, Function.update X.val (s - b + j + j * s) 1⟩ := Buf.wr_of (by omega) (by omega)
      obtain ⟨X1, e1, c1⟩ := onCol_tbsv (junk := E.junk) (X := ⟨X.size, Function.update X.val (s - b + j + j * s) 1⟩) h0 (by omega) r1 (by show j * s + s ≤ (X.size : Int); omega) hB hb hz
      obtain ⟨X2, e2, c2⟩ := onCol_bfsv (junk := E.junk) (X := X1) h0 hn (by omega) hp hS hr hA r1 (by rw [c1.size]; show j * s + s ≤ (X.size : Int); omega)
      have keep : ∀ i k, 0 ≤ i → i < s → k ≠ j → X2.val (i + k * s) = X.val (i + k * s) := fun i k i0 i1 hk => by
        have h := col_apart i0 i1 hk
        rw [c2.keep _ h, c1.keep _ h]
        exact Function.update_of_ne (by intro h'; exact h ⟨by omega, by omega⟩) _ _
      refine ⟨X2, ?_, by rw [c2.size, c1.size]; exact x1, fun i k i0 i1 k0 k1 => ?_, fun i k i0 i1 k1 => ?_⟩
      · show (X.wr (s - b + j + j * s) 1).bind _ = _
        rw [e0]
        show (onCol E.junk top s (tbsvP 'N' B1) _ (j * s)).bind _ = _
        rw [e1]
        exact e2
      · by_cases hk : k = j
        · subst hk
          have t1 := c1.rel i i0 i1
          have t2 := c2.rel
          rw [sum_Ico_congr (g := fun k' => a i k' * X1.val (k * s + k')) fun k' k0' k1' => by
            have t := t2 k' k0' k1'
            beta_reduce at t
            rw [← t]
            exact congrArg _ (sum_Ico_congr fun l _ _ => by rw [add_comm l])]
          rw [t1]
          show Function.update X.val (s - b + k + k * s) 1 (k * s + i) = _
          by_cases hi : i = s - b + k
          · rw [if_pos hi, hi, add_comm (k * s), Function.update_self]
          · rw [if_neg hi, Function.update_of_ne (by omega), add_comm, x3 i k i0 i1 le_rfl]
        · rw [← x2 i k i0 i1 k0 (by omega)]
          exact sum_Ico_congr fun k' _ _ => congrArg _ (sum_Ico_congr fun l l0 l1 => by rw [keep l k l0 l1 hk])
      · rw [keep i k i0 i1 (by omega), x3 i k i0 i1 (by omega)])
  rw [max_eq_right b0] at q2
  exact ⟨X, e, q1, q2⟩

theorem fmmCorner_run {s m b cols n : Int} {A : TB K} {a : Int → Int → K} (hA : StoresT A n b a) (m0 : 0 ≤ m) (b0 : 0 ≤ b) (hbm : b ≤ m) (hc : b ≤ cols) :
    ∃ Y, fmmCorner s m b cols A = some Y ∧ m * cols ≤ Y.size ∧ ∀ j k, 0 ≤ j → j < m → 0 ≤ k → Y.val (j + k * m) = if k < b then a (k + s - b) (j + s) else 0 := by
  have az : ∀ j k, k < j → a (k + s - b) (j + s) = 0 := fun j k h => C14_zero_outside_tri hA (by unfold band; omega)
  obtain ⟨Y, e, q1, q2⟩ := forUp_spec (lo := 0) (hi := b) (s := (callocB (m * cols) : Buf K))
    (body := fun j Y => forUp j b (fun k Y => (A.get (k + s - b) (j + s)).bind fun v => Y.wr (j + k * m) v) Y)
    (fun J Y => m * cols ≤ Y.size ∧ ∀ j k, 0 ≤ j → j < m → 0 ≤ k → Y.val (j + k * m) = if k < b ∧ j < J then a (k + s - b) (j + s) else 0)
    ⟨by show m * cols ≤ ((m * cols).toNat : Int); omega, fun j k j0 _ _ => by rw [if_neg (by omega)]; rfl⟩
    (fun J J0 J1 Y h => by
      obtain ⟨h1, h2⟩ := h
      obtain ⟨Y', e', q1, q2⟩ := forUp_spec (lo := J) (hi := b) (s := Y) (body := fun k Y => (A.get (k + s - b) (J + s)).bind fun v => Y.wr (J + k * m) v)
        (fun k' Y' => m * cols ≤ Y'.size ∧ ∀ j k, 0 ≤ j → j < m → 0 ≤ k → Y'.val (j + k * m) = if j = J ∧ J ≤ k ∧ k < k' then a (k + s - b) (j + s) else Y.val (j + k * m))
        ⟨h1, fun j k _ _ _ => by rw [if_neg (by omega)]⟩
        (fun k k0 k1 Y' g => by
          obtain ⟨g1, g2⟩ := g
          obtain ⟨r1, r2⟩ := col_range (s := m) (b := cols) m0 (show 0 ≤ k by omega) (by omega)
          refine ⟨⟨Y'.size, Function.update Y'.val (J + k * m) (a (k + s - b) (J + s))⟩, by rw [hA.get, Option.bind_some, Buf.wr_of (by omega) (by omega)], g1, fun j l j0 j1 l0 => ?_⟩
          by_cases hh : j = J ∧ l = k
          · obtain ⟨rfl, rfl⟩ := hh
            rw [if_pos (by omega)]
            exact Function.update_self _ _ _
          · refine (Function.update_of_ne (fun h => hh (ij_inj j0 j1 (by omega) (by omega) h)) _ _).trans ?_
            rw [g2 j l j0 j1 l0]
            split_ifs <;> first | rfl | omega)
      refine ⟨Y', e', q1, fun j k j0 j1 k0 => ?_⟩
      rw [q2 j k j0 j1 k0, max_eq_right (le_of_lt J1), h2 j k j0 j1 k0]
      by_cases hj : j = J
      · subst hj
        by_cases hk : j ≤ k
        · by_cases hk' : k < b
          · rw [if_pos (by omega), if_pos (by omega)]
          · rw [if_neg (by omega), if_neg (by omega), if_neg (by omega)]
        · rw [if_neg (by omega), if_neg (by omega)]
          split_ifs
          · rw [az j k (by omega)]
          · rfl
      · rw [if_neg (by omega)]
        split_ifs <;> first | rfl | omega)
  refine ⟨Y, e, q1, fun j k j0 j1 k0 => ?_⟩
  rw [q2 j k j0 j1 k0, max_eq_right b0]
  by_cases hk : k < b
  · rw [if_pos hk]
    by_cases hj : j < b
    · rw [if_pos ⟨hk, hj⟩]
    · rw [if_neg (by omega), az j k (by omega)]
  · rw [if_neg hk, if_neg (by omega)]

theorem fmmMul_run {E : FmmEnv K} {top m b cols p : Int} {F2 : TbEig K} {Y : Buf K} (h0 : 0 ≤ top) (hn : F2.n = m) (m0 : 0 ≤ m) (b0 : 0 ≤ b) (hc : b ≤ cols) (hp : 1 ≤ p) (hS : ESized E.BS F2)
    (hA : Allocd p top.toNat (eArrs F2)) (hY : m * cols ≤ Y.size) :
    ∃ Y', fmmMul E top m b F2 Y = some Y' ∧ m * cols ≤ Y'.size ∧ ∀ j k, 0 ≤ j → j < m → 0 ≤ k →
      Y'.val (j + k * m) = if k < b then ∑ l ∈ Finset.Ico 0 m, mat F2 l j * Y.val (l + k * m) else Y.val (j + k * m) := by
  unfold fmmMul
  obtain ⟨Y', e, q1, q2⟩ := forUp_spec (lo := 0) (hi := b) (s := Y) (body := fun j Y => onCol E.junk top m (bfmvP E.BS 'T' 0 F2) Y (j * m))
    (fun J Y' => m * cols ≤ Y'.size ∧ ∀ j k, 0 ≤ j → j < m → 0 ≤ k → Y'.val (j + k * m) = if k < J then ∑ l ∈ Finset.Ico 0 m, mat F2 l j * Y.val (l + k * m) else Y.val (j + k * m))
    ⟨hY, fun j k _ _ _ => by rw [if_neg (by omega)]⟩
    (fun J J0 J1 Y' h => by
      obtain ⟨h1, h2⟩ := h
      obtain ⟨r1, r2⟩ := col_range (s := m) (b := cols) m0 J0 (by omega)
      obtain ⟨Y2, e2, c⟩ := onCol_bfmvT (junk := E.junk) (X := Y') h0 hn m0 hp hS hA r1 (by omega)
      refine ⟨Y2, e2, by rw [c.size]; exact h1, fun j k j0 j1 k0 => ?_⟩
      by_cases hk : k = J
      · subst hk
        have := c.rel j j0 j1
        beta_reduce at this
        rw [if_pos (by omega), add_comm j, this]
        exact sum_Ico_congr fun l l0 l1 => by rw [add_comm (k * m), h2 l k l0 l1 k0, if_neg (by omega)]
      · rw [c.keep _ (col_apart j0 j1 hk), h2 j k j0 j1 k0]
        split_ifs <;> first | rfl | omega)
  rw [max_eq_right b0] at q2
  exact ⟨Y', e, q1, q2⟩

theorem fmmCombine_run {m b b2 : Int} {lam Y2 Y : Buf K} (m0 : 0 ≤ m) (b0 : 0 ≤ b2) (hb : b2 ≤ b) (hl : m ≤ lam.size) (h2 : m * b2 ≤ Y2.size) (hY : m * b ≤ Y.size) :
    ∃ Y', fmmCombine m b b2 lam Y2 Y = some Y' ∧ m * b ≤ Y'.size ∧ ∀ i k, 0 ≤ i → i < m → 0 ≤ k →
      Y'.val (i + k * m) = if b - b2 ≤ k ∧ k < b then Y.val (i + k * m) - lam.val i * Y2.val (i + (k - (b - b2)) * m) else Y.val (i + k * m) := by
  unfold fmmCombine
  obtain ⟨Y', e, q1, q2⟩ := forUp_spec (lo := 0) (hi := b2) (s := Y)
    (body := fun j Y => forUp 0 m (fun i Y => do
      let u ← Y.rd (i + (j + b - b2) * m)
      let l ← lam.rd i
      let v ← Y2.rd (i + j * m)
      Y.wr (i + (j + b - b2) * m) (u - l * v)) Y)
    (fun J Y' => m * b ≤ Y'.size ∧ ∀ i k, 0 ≤ i → i < m → 0 ≤ k →
      Y'.val (i + k * m) = if b - b2 ≤ k ∧ k < b - b2 + J then Y.val (i + k * m) - lam.val i * Y2.val (i + (k - (b - b2)) * m) else Y.val (i + k * m))
    ⟨hY, fun i k _ _ _ => by rw [if_neg (by omega)]⟩
    (fun J J0 J1 Z h => by
      obtain ⟨h3, h4⟩ := h
      obtain ⟨r1, r2⟩ := col_range (s := m) (b := b) m0 (show 0 ≤ J + b - b2 by omega) (by omega)
      obtain ⟨t1, t2⟩ := col_range (s := m) (b := b2) m0 J0 J1
      obtain ⟨Z', e', q1, q2⟩ := forUp_spec (lo := 0) (hi := m) (s := Z)
        (body := fun i Y => do
          let u ← Y.rd (i + (J + b - b2) * m)
          let l ← lam.rd i
          let v ← Y2.rd (i + J * m)
          Y.wr (i + (J + b - b2) * m) (u - l * v))
        (fun I Z' => m * b ≤ Z'.size ∧ ∀ i k, 0 ≤ i → i < m → 0 ≤ k →
          Z'.val (i + k * m) = if k = J + b - b2 ∧ i < I then Z.val (i + k * m) - lam.val i * Y2.val (i + J * m) else Z.val (i + k * m))
        ⟨h3, fun i k i0 _ _ => by rw [if_neg (by omega)]⟩
        (fun i i0 i1 W g => by
          obtain ⟨g1, g2⟩ := g
          have e1 : W.rd (i + (J + b - b2) * m) = some (Z.val (i + (J + b - b2) * m)) := by
            rw [Buf.rd_of (by omega) (by omega), g2 i _ i0 i1 (by omega), if_neg (by omega)]
          refine ⟨⟨W.size, Function.update W.val (i + (J + b - b2) * m) (Z.val (i + (J + b - b2) * m) - lam.val i * Y2.val (i + J * m))⟩, ?_, g1, fun j k j0 j1 k0 => ?_⟩
          · show (W.rd (i + (J + b - b2) * m)).bind _ = _
            rw [e1]
            show (lam.rd i).bind _ = _
            rw [Buf.rd_of i0 (by omega)]
            show (Y2.rd (i + J * m)).bind _ = _
            rw [Buf.rd_of (by omega) (by omega)]
            exact Buf.wr_of (by omega) (by omega)
          · by_cases hh : j = i ∧ k = J + b - b2
            · obtain ⟨rfl, rfl⟩ := hh
              rw [if_pos (by omega)]
              exact Function.update_self _ _ _
            · refine (Function.update_of_ne (fun h => hh (ij_inj j0 j1 i0 i1 h)) _ _).trans ?_
              rw [g2 j k j0 j1 k0]
              split_ifs <;> first | rfl | omega)
      refine ⟨Z', e', q1, fun i k i0 i1 k0 => ?_⟩
      rw [q2 i k i0 i1 k0, max_eq_right m0, h4 i k i0 i1 k0]
      by_cases hk : k = J + b - b2
      · subst hk
        rw [if_pos (by omega), if_neg (by omega), if_pos (by omega), show J + b - b2 - (b - b2) = J by ring]
      · rw [if_neg (by omega)]
        split_ifs <;> first | rfl | omega)
  refine ⟨Y', e, q1, fun i k i0 i1 k0 => ?_⟩
  rw [q2 i k i0 i1 k0, max_eq_right b0]
  split_ifs <;> first | rfl | omega

/-- The columns of `Y`: rows of the corner of `A - B λ`, times the eigenvectors of the second half. -/
theorem fmmY_run {E : FmmEnv K} {top s m n bA bB p : Int} {A B : TB K} {F2 : TbEig K} {lam : Buf K} {a b : Int → Int → K} (h0 : 0 ≤ top) (hn : F2.n = m) (hA : StoresT A n bA a) (hB : StoresT B n bB b)
    (b0 : 0 ≤ bB) (hb : bB ≤ bA) (hm : bA ≤ m) (hp : 1 ≤ p) (hS : ESized E.BS F2) (hF : Allocd p top.toNat (eArrs F2)) (hl : m ≤ lam.size) :
    ∃ Y, fmmY E top s m A B F2 lam = some Y ∧ m * bA ≤ Y.size ∧ ∀ j k, 0 ≤ j → j < m → 0 ≤ k → k < bA →
      Y.val (j + k * m) = ∑ l ∈ Finset.Ico 0 m, (a (k + s - bA) (l + s) - lam.val j * b (k + s - bA) (l + s)) * mat F2 l j := by
  have m0 : 0 ≤ m := by omega
  obtain ⟨Y1, e1, s1, v1⟩ := fmmCorner_run (s := s) (cols := bA) hA m0 (by omega) hm le_rfl
  obtain ⟨Z1, f1, t1, w1⟩ := fmmCorner_run (s := s) (cols := bB) hB m0 b0 (by omega) le_rfl
  obtain ⟨Y2, e2, s2, v2⟩ := fmmMul_run (b := bA) (cols := bA) h0 hn m0 (by omega) le_rfl hp hS hF s1
  obtain ⟨Z2, f2, t2, w2⟩ := fmmMul_run (b := bB) (cols := bB) h0 hn m0 b0 le_rfl hp hS hF t1
  obtain ⟨Y3, e3, s3, v3⟩ := fmmCombine_run m0 b0 hb hl t2 s2
  refine ⟨Y3, ?_, s3, fun j k j0 j1 k0 k1 => ?_⟩
  · unfold fmmY
    rw [hA.dims.2, hB.dims.2, max_eq_left hb]
    show (fmmCorner s m bA bA A).bind _ = _
    rw [e1]
    show (fmmCorner s m bB bB B).bind _ = _
    rw [f1]
    show (fmmMul E top m bA F2 Y1).bind _ = _
    rw [e2]
    show (fmmMul E top m bB F2 Z1).bind _ = _
    rw [f2]
    exact e3
  · have y2 : Y2.val (j + k * m) = ∑ l ∈ Finset.Ico 0 m, mat F2 l j * a (k + s - bA) (l + s) := by
      rw [v2 j k j0 j1 k0, if_pos k1]
      exact sum_Ico_congr fun l l0 l1 => by rw [v1 l k l0 l1 k0, if_pos k1]
    rw [v3 j k j0 j1 k0, y2]
    by_cases hk : bA - bB ≤ k
    · rw [if_pos ⟨hk, k1⟩, w2 j _ j0 j1 (by omega), if_pos (by omega), Finset.mul_sum, ← Finset.sum_sub_distrib]
      refine sum_Ico_congr fun l l0 l1 => ?_
      rw [w1 l _ l0 l1 (by omega), if_pos (by omega), show k - (bA - bB) + s - bB = k + s - bA by ring]
      ring
    · rw [if_neg (by omega)]
      refine sum_Ico_congr fun l l0 l1 => ?_
      rw [C14_zero_outside_tri hB (i := k + s - bA) (j := l + s) (by unfold band; omega)]
      ring

end FT.Fmm
