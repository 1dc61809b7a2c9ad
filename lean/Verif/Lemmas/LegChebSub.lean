import Verif.Lemmas.LegChebCells

/-! # The submatrices of a plan of the fast multipole transforms -/

namespace FT.Props.Lc
open FT FT.Poly FT.Model.Lc
variable {K : Type*} [Field K] [CharZero K] [DecidableEq K]

/-- The matrix with the number `k`. -/
def Blk (lagrange : Bool) (X : Nodes K) (M h x0 y0 : Int) (c2l : Bool) (A : Int → K) (k : Int) : Prop :=
  ∀ r m, 0 ≤ r → r < M → 0 ≤ m → m < M → A (k * (M * M) + (r * M + m)) = coef lagrange X M (grid X M h x0 y0 c2l) r m

/-- The values that are kept for all blocks of a level. -/
def Slot (X : Nodes K) (M h : Int) (fx0 : Buf K) (d : Int) : Prop := ∀ r m, 0 ≤ r → r < M → 0 ≤ m → m < M → fx0.val (d * (M * M) + (r * M + m)) = val0 X M h d r m

def Fx1 (X : Nodes K) (M h x0 y0 : Int) (fx1 : Buf K) : Prop := ∀ r m, 0 ≤ r → r < M → 0 ≤ m → m < M → fx1.val (r * M + m) = val1 X M h x0 y0 r m

omit [CharZero K] [DecidableEq K] in
theorem Blk.congr {lagrange : Bool} {X : Nodes K} {M h x0 y0 : Int} {c2l : Bool} {A A' : Int → K} {k : Int} (H : Blk lagrange X M h x0 y0 c2l A k) (e : ∀ u, k * (M * M) ≤ u → u < (k + 1) * (M * M) → A' u = A u) :
    Blk lagrange X M h x0 y0 c2l A' k := fun r m r0 r1 m0 m1 => by
  have := row_bound (M := M) (k := m) r0 r1 m0 m1
  have f : (k + 1) * (M * M) = k * (M * M) + M * M := by ring
  rw [e _ (by omega) (by omega)]
  exact H r m r0 r1 m0 m1

theorem oneDir_spec {X : Nodes K} {M : Int} (hX : NodesOk X M) (M1 : 1 ≤ M) {lagrange fftw : Bool} (h18 : lagrange = false → fftw = false → M = 18) {h x0 y0 q p block : Int} {di0 c2l : Bool}
    (hq : 0 ≤ p ∧ p ≤ q ∧ q ≤ 1) (hy : y0 - x0 = 2 * (2 + (q - p)) * h) (hd : c2l = true → ∀ r m, 0 ≤ r → r < M → 0 ≤ m → m < M → Den X M h x0 y0 r m) (junk : Int → K) {w : Work K}
    (z0 : (w.fx0.size : Int) = 2 * (M * M)) (z1 : (w.fx1.size : Int) = M * M) (k0 : 0 ≤ w.kk) {A : Buf K} (eA : w.A c2l = some A) (zA : (w.kk + 1) * (M * M) ≤ A.size)
    (p0 : ¬ (di0 = true ∧ block = 0 ∧ p = 0) → Slot X M h w.fx0 (q - p)) (p1 : di0 = false → Fx1 X M h x0 y0 w.fx1) :
    ∃ w', oneDir X junk lagrange fftw M h x0 y0 q p block di0 c2l w = some w' ∧ w'.kk = w.kk ∧ w'.fx0.size = w.fx0.size ∧ w'.fx1.size = w.fx1.size ∧ Slot X M h w'.fx0 (q - p) ∧
      (∀ d, d ≠ q - p → Slot X M h w.fx0 d → Slot X M h w'.fx0 d) ∧ Fx1 X M h x0 y0 w'.fx1 ∧ (∀ c, c ≠ c2l → w'.A c = w.A c) ∧
      ∃ A', w'.A c2l = some A' ∧ A'.size = A.size ∧ Blk lagrange X M h x0 y0 c2l A'.val w.kk ∧ ∀ u, ¬ (w.kk * (M * M) ≤ u ∧ u < (w.kk + 1) * (M * M)) → A'.val u = A.val u := by
  have MM : 0 ≤ M * M := Int.mul_nonneg (by omega) (by omega)
  have f : (w.kk + 1) * (M * M) = w.kk * (M * M) + M * M := by ring
  have f0 : 0 ≤ w.kk * (M * M) := Int.mul_nonneg k0 MM
  obtain ⟨corner, hcn⟩ : ∃ c, c = (di0 && decide (block = 0) && decide (p = 0)) := ⟨_, rfl⟩
  have hc : corner = true ↔ di0 = true ∧ block = 0 ∧ p = 0 := by rw [hcn]; simp [and_assoc]
  have hcf : corner = false ↔ ¬ (di0 = true ∧ block = 0 ∧ p = 0) := by rw [← hc]; simp
  have slots : ∀ t : Buf K, (∀ u, (corner = false ∨ ¬ (q * (M * M) ≤ u ∧ u < (q + 1) * (M * M))) → t.val u = w.fx0.val u) → ∀ d, d ≠ q - p → Slot X M h w.fx0 d → Slot X M h t d := by
    intro t ht d dn hs r m r0 r1 m0 m1
    have := row_bound (M := M) (k := m) r0 r1 m0 m1
    rw [ht, hs r m r0 r1 m0 m1]
    by_cases c : corner = false
    · exact Or.inl c
    · have hp := (hc.1 (by simpa using c)).2.2
      refine Or.inr fun hu => row_out (M := M * M) (k := r * M + m) dn (by omega) (by omega) ⟨?_, ?_⟩
      · rw [hp, sub_zero]; exact hu.1
      · have : (q + 1) * (M * M) = q * (M * M) + M * M := by ring
        rw [hp, sub_zero]; omega
  unfold oneDir
  rw [eA, Option.bind_some, ← hcn]
  cases lagrange with
  | true =>
    rw [if_pos rfl]
    obtain ⟨t, e, ht⟩ := cells_spec (X := X) (x0 := x0) (y0 := y0) (off := w.kk * (M * M)) (t0 := ⟨w.fx0, w.fx1, A⟩) (corner := corner) (di0 := di0) hX.anti M1 hq (fun c => (hc.1 c).2.2) hy hd z0 z1 f0 (by dsimp only; omega)
      (fun c => p0 (hcf.1 c)) p1
    rw [e, Option.bind_some]
    refine ⟨_, rfl, rfl, ht.s0, ht.s1, fun r m r0 r1 m0 m1 => ht.v0 r m r0 r1 m0 m1 (by unfold Seen; omega), slots _ ht.f0, fun r m r0 r1 m0 m1 => ht.v1 r m r0 r1 m0 m1 (by unfold Seen; omega),
      fun c hcn => Function.update_of_ne hcn _ _, t.ff, Function.update_self _ _ _, ht.sf, fun r m r0 r1 m0 m1 => ht.vf r m r0 r1 m0 m1 (by unfold Seen; omega), fun u hu => ht.ff u (by omega)⟩
  | false =>
    rw [if_neg (by simp)]
    obtain ⟨t, e, ht⟩ := cells_spec (X := X) (x0 := x0) (y0 := y0) (off := 0) (t0 := ⟨w.fx0, w.fx1, ⟨(M * M).toNat, junk⟩⟩) (corner := corner) (di0 := di0) hX.anti M1 hq (fun c => (hc.1 c).2.2) hy hd z0 z1 le_rfl
      (by show 0 + M * M ≤ (((M * M).toNat : ℕ) : Int); omega) (fun c => p0 (hcf.1 c)) p1
    rw [e, Option.bind_some]
    have sf : (t.ff.size : Int) = M * M := by rw [ht.sf]; show (((M * M).toNat : ℕ) : Int) = _; omega
    obtain ⟨g, eg, sg, vg⟩ := coeffs_spec hX M1 (h18 rfl) sf
    obtain ⟨A', e', s', v', fr⟩ := place_spec (A := A) (off := w.kk * (M * M)) MM (by rw [sg]) f0 (by omega)
    rw [eg, Option.bind_some, e', Option.bind_some]
    refine ⟨_, rfl, rfl, ht.s0, ht.s1, fun r m r0 r1 m0 m1 => ht.v0 r m r0 r1 m0 m1 (by unfold Seen; omega), slots _ ht.f0, fun r m r0 r1 m0 m1 => ht.v1 r m r0 r1 m0 m1 (by unfold Seen; omega),
      fun c hcn => Function.update_of_ne hcn _ _, A', Function.update_self _ _ _, s', fun r m r0 r1 m0 m1 => ?_, fun u hu => fr u (by omega)⟩
    have := row_bound (M := M) (k := m) r0 r1 m0 m1
    rw [v' _ (by omega) (by omega), vg r m r0 r1 m0 m1]
    unfold coef
    rw [if_neg (by simp), if_neg (by simp)]
    congr 1
    refine sum_Ico_congr fun i i0 i1 => sum_Ico_congr fun j j0 j1 => ?_
    have := ht.vf i j i0 i1 j0 j1 (by unfold Seen; omega)
    rw [zero_add] at this
    beta_reduce
    rw [this]

/-- The directions a plan is made for. -/
def Has (d : Dir) (c : Bool) : Prop := d = .both ∨ (d = .c2l ↔ c = true)

/-- The centres of the blocks. -/
def cx (s : Int) (L lev : ℕ) (ρ : Int) : Int := 2 * (ρ * hs s L lev) + hs s L lev

/-- The places of `(lev, b, q, p)` that are meant. -/
def Place (L lev : ℕ) (b q p : Int) : Prop := lev < L ∧ 0 ≤ b ∧ b < blocks lev ∧ 0 ≤ p ∧ p ≤ q ∧ q ≤ 1

/-- The matrices that have been computed, `D` tells which. -/
structure SubInv (lagrange : Bool) (X : Nodes K) (M s : Int) (L : ℕ) (d : Dir) (D : ℕ → Int → Int → Int → Prop) (kk : Int) (w : Work K) : Prop where
  kk : w.kk = kk
  z0 : (w.fx0.size : Int) = 2 * (M * M)
  z1 : (w.fx1.size : Int) = M * M
  A : ∀ c, Has d c → ∃ A, w.A c = some A ∧ (A.size : Int) = 3 * totalBlocks L * (M * M) ∧
    ∀ lev b q p, Place L lev b q p → D lev b q p → Blk lagrange X M (hs s L lev) (cx s L lev (2 * b + p)) (cx s L lev (2 * b + 2 + q)) c A.val (3 * (totalBlocks lev + b) + (q + p))

theorem place_lt {L lev : ℕ} {b q p : Int} (h : Place L lev b q p) : 3 * (totalBlocks lev + b) + (q + p) < 3 * totalBlocks L := by
  obtain ⟨h1, h2, h3, h4⟩ := h
  have := totalBlocks_mono (show lev + 1 ≤ L from h1)
  rw [totalBlocks_succ] at this
  omega

/-- No quotient by zero. -/
def Dens (X : Nodes K) (M s : Int) (L : ℕ) : Prop :=
  ∀ lev b q p r m, Place L lev b q p → 0 ≤ r → r < M → 0 ≤ m → m < M → Den X M (hs s L lev) (cx s L lev (2 * b + p)) (cx s L lev (2 * b + 2 + q)) r m

theorem dirs_spec {X : Nodes K} {M s : Int} {L : ℕ} (hX : NodesOk X M) (M1 : 1 ≤ M) {lagrange fftw : Bool} (h18 : lagrange = false → fftw = false → M = 18) {d : Dir} (hd : Has d true → Dens X M s L) (junk : Int → K)
    {lev : ℕ} {b q p kk : Int} (hp : Place L lev b q p) {D : ℕ → Int → Int → Int → Prop} {w : Work K} (hw : SubInv lagrange X M s L d D kk w) (ek : kk = 3 * (totalBlocks lev + b) + (q + p))
    (hD : ∀ lev b q p, Place L lev b q p → D lev b q p → 3 * (totalBlocks lev + b) + (q + p) < kk) (p0 : ¬ (b = 0 ∧ p = 0) → Slot X M (hs s L lev) w.fx0 (q - p)) :
    ∃ w', dirs X junk lagrange fftw d M (hs s L lev) (cx s L lev (2 * b + p)) (cx s L lev (2 * b + 2 + q)) q p b w = some w' ∧
      SubInv lagrange X M s L d (fun lev' b' q' p' => D lev' b' q' p' ∨ (lev' = lev ∧ b' = b ∧ q' = q ∧ p' = p)) (kk + 1) w' ∧ Slot X M (hs s L lev) w'.fx0 (q - p) ∧
      ∀ d, d ≠ q - p → Slot X M (hs s L lev) w.fx0 d → Slot X M (hs s L lev) w'.fx0 d := by
  have lt := place_lt hp
  have MM : 0 ≤ M * M := Int.mul_nonneg (by omega) (by omega)
  have tb := totalBlocks_nonneg lev
  have hq : 0 ≤ p ∧ p ≤ q ∧ q ≤ 1 := hp.2.2.2
  have k0 : 0 ≤ kk := by have := hp.2.1; omega
  have room : (kk + 1) * (M * M) ≤ 3 * totalBlocks L * (M * M) := Int.mul_le_mul_of_nonneg_right (by omega) MM
  have hy : cx s L lev (2 * b + 2 + q) - cx s L lev (2 * b + p) = 2 * (2 + (q - p)) * hs s L lev := by unfold cx; ring
  have disj : ∀ k u, k < kk → k * (M * M) ≤ u → u < (k + 1) * (M * M) → ¬ (kk * (M * M) ≤ u ∧ u < (kk + 1) * (M * M)) := fun k u hk a c e => by
    have := Int.mul_le_mul_of_nonneg_right (show k + 1 ≤ kk by omega) MM
    omega
  -- what one direction does
  have one := fun (di0 c : Bool) (v : Work K) (hc : Has d c) (e : v.kk = kk) (z0 : (v.fx0.size : Int) = 2 * (M * M)) (z1 : (v.fx1.size : Int) = M * M) (A : Buf K) (eA : v.A c = some A)
      (zA : (A.size : Int) = 3 * totalBlocks L * (M * M)) (a0 : ¬ (di0 = true ∧ b = 0 ∧ p = 0) → Slot X M (hs s L lev) v.fx0 (q - p))
      (a1 : di0 = false → Fx1 X M (hs s L lev) (cx s L lev (2 * b + p)) (cx s L lev (2 * b + 2 + q)) v.fx1) =>
    oneDir_spec hX M1 h18 (block := b) (di0 := di0) (c2l := c) hq hy (fun h r m => hd (h ▸ hc) lev b q p r m hp) junk z0 z1 (by omega) eA (by rw [e, zA]; exact room) a0 a1
  -- the array of one direction
  have arr : ∀ (c : Bool) (A A' : Buf K), (A.size : Int) = 3 * totalBlocks L * (M * M) →
      (∀ lev b q p, Place L lev b q p → D lev b q p → Blk lagrange X M (hs s L lev) (cx s L lev (2 * b + p)) (cx s L lev (2 * b + 2 + q)) c A.val (3 * (totalBlocks lev + b) + (q + p))) →
      A'.size = A.size → Blk lagrange X M (hs s L lev) (cx s L lev (2 * b + p)) (cx s L lev (2 * b + 2 + q)) c A'.val kk → (∀ u, ¬ (kk * (M * M) ≤ u ∧ u < (kk + 1) * (M * M)) → A'.val u = A.val u) →
      (A'.size : Int) = 3 * totalBlocks L * (M * M) ∧ ∀ lev' b' q' p', Place L lev' b' q' p' → (D lev' b' q' p' ∨ (lev' = lev ∧ b' = b ∧ q' = q ∧ p' = p)) →
        Blk lagrange X M (hs s L lev') (cx s L lev' (2 * b' + p')) (cx s L lev' (2 * b' + 2 + q')) c A'.val (3 * (totalBlocks lev' + b') + (q' + p')) := by
    intro c A A' zA hA s' hb fr
    refine ⟨by rw [s']; exact zA, fun lev' b' q' p' hp' hDD => ?_⟩
    rcases hDD with h | ⟨rfl, rfl, rfl, rfl⟩
    · exact (hA lev' b' q' p' hp' h).congr fun u a e => fr u (disj _ u (hD lev' b' q' p' hp' h) a e)
    · rw [← ek]; exact hb
  unfold dirs
  cases d with
  | both =>
    obtain ⟨A, eA, zA, hA⟩ := hw.A false (Or.inl rfl)
    obtain ⟨B, eB, zB, hB⟩ := hw.A true (Or.inl rfl)
    obtain ⟨w1, e1, k1, s10, s11, sl1, so1, f1, o1, A', eA', sA', bA', fA'⟩ := one true false w (Or.inl rfl) hw.kk hw.z0 hw.z1 A eA zA (fun h => p0 fun g => h ⟨rfl, g⟩) (by simp)
    rw [hw.kk] at k1 bA' fA'
    obtain ⟨w2, e2, k2, s20, s21, sl2, so2, f2, o2, B', eB', sB', bB', fB'⟩ := one false true w1 (Or.inl rfl) k1 (by rw [s10, hw.z0]) (by rw [s11, hw.z1])
      B (by rw [o1 true (by simp), eB]) zB (fun _ => sl1) (fun _ => f1)
    rw [k1] at k2 bB' fB'
    rw [show (oneDir X junk lagrange fftw M (hs s L lev) (cx s L lev (2 * b + p)) (cx s L lev (2 * b + 2 + q)) q p b true false w) = some w1 from e1]
    simp only [Option.bind_some, e2]
    refine ⟨_, rfl, ⟨by dsimp only; omega, by dsimp only; rw [s20, s10, hw.z0], by dsimp only; rw [s21, s11, hw.z1], fun c hc => ?_⟩, sl2, fun d hd hs => so2 d hd (so1 d hd hs)⟩
    cases c with
    | false =>
      obtain ⟨zA', hA'⟩ := arr false A A' zA hA sA' bA' fA'
      exact ⟨A', by dsimp only; rw [o2 false (by simp), eA'], zA', hA'⟩
    | true =>
      obtain ⟨zB', hB'⟩ := arr true B B' zB hB sB' bB' fB'
      exact ⟨B', eB', zB', hB'⟩
  | l2c =>
    obtain ⟨A, eA, zA, hA⟩ := hw.A false (Or.inr (by simp))
    obtain ⟨w1, e1, k1, s10, s11, sl1, so1, f1, o1, A', eA', sA', bA', fA'⟩ := one true false w (Or.inr (by simp)) hw.kk hw.z0 hw.z1 A eA zA (fun h => p0 fun g => h ⟨rfl, g⟩) (by simp)
    rw [hw.kk] at k1 bA' fA'
    simp only [Option.bind_some, e1]
    refine ⟨_, rfl, ⟨by dsimp only; omega, by dsimp only; rw [s10, hw.z0], by dsimp only; rw [s11, hw.z1], fun c hc => ?_⟩, sl1, so1⟩
    cases c with
    | false =>
      obtain ⟨zA', hA'⟩ := arr false A A' zA hA sA' bA' fA'
      exact ⟨A', eA', zA', hA'⟩
    | true => exact absurd hc (by unfold Has; simp)
  | c2l =>
    obtain ⟨A, eA, zA, hA⟩ := hw.A true (Or.inr (by simp))
    obtain ⟨w1, e1, k1, s10, s11, sl1, so1, f1, o1, A', eA', sA', bA', fA'⟩ := one true true w (Or.inr (by simp)) hw.kk hw.z0 hw.z1 A eA zA (fun h => p0 fun g => h ⟨rfl, g⟩) (by simp)
    rw [hw.kk] at k1 bA' fA'
    simp only [Option.bind_some, e1]
    refine ⟨_, rfl, ⟨by dsimp only; omega, by dsimp only; rw [s10, hw.z0], by dsimp only; rw [s11, hw.z1], fun c hc => ?_⟩, sl1, so1⟩
    cases c with
    | true =>
      obtain ⟨zA', hA'⟩ := arr true A A' zA hA sA' bA' fA'
      exact ⟨A', eA', zA', hA'⟩
    | false => exact absurd hc (by unfold Has; simp)

omit [CharZero K] [DecidableEq K] in
theorem SubInv.mono {lagrange : Bool} {X : Nodes K} {M s : Int} {L : ℕ} {d : Dir} {D D' : ℕ → Int → Int → Int → Prop} {kk kk' : Int} {w : Work K} (h : SubInv lagrange X M s L d D kk w) (e : kk' = kk)
    (H : ∀ lev b q p, Place L lev b q p → D' lev b q p → D lev b q p) : SubInv lagrange X M s L d D' kk' w :=
  ⟨by rw [h.kk, e], h.z0, h.z1, fun c hc => by
    obtain ⟨A, e, z, v⟩ := h.A c hc
    exact ⟨A, e, z, fun lev b q p hp hd => v lev b q p hp (H lev b q p hp hd)⟩⟩

/-- The places before the block `B` of the level `n`. -/
def Before (n : ℕ) (B : Int) (lev : ℕ) (b _q _p : Int) : Prop := lev < n ∨ (lev = n ∧ b < B)

theorem before_lt {L n lev : ℕ} {B b q p : Int} (hn : n < L) (B0 : 0 ≤ B) (hp : Place L lev b q p) (h : Before n B lev b q p) : 3 * (totalBlocks lev + b) + (q + p) < 3 * (totalBlocks n + B) := by
  obtain ⟨h1, h2, h3, h4⟩ := hp
  rcases h with h | ⟨rfl, h⟩
  · have := totalBlocks_mono (show lev + 1 ≤ n from h)
    rw [totalBlocks_succ] at this
    omega
  · omega

theorem oneBlock_spec {X : Nodes K} {M s : Int} {L : ℕ} (hX : NodesOk X M) (M1 : 1 ≤ M) {lagrange fftw : Bool} (h18 : lagrange = false → fftw = false → M = 18) {d : Dir} (hd : Has d true → Dens X M s L) (junk : Int → K)
    {n : ℕ} {B : Int} (hn : n < L) (B0 : 0 ≤ B) (B1 : B < blocks n) {w : Work K} (hw : SubInv lagrange X M s L d (Before n B) (3 * (totalBlocks n + B)) w)
    (p0 : 0 < B → Slot X M (hs s L n) w.fx0 0 ∧ Slot X M (hs s L n) w.fx0 1) :
    ∃ w', oneBlock X junk lagrange fftw d M s L n B w = some w' ∧ SubInv lagrange X M s L d (Before n (B + 1)) (3 * (totalBlocks n + (B + 1))) w' ∧ Slot X M (hs s L n) w'.fx0 0 ∧ Slot X M (hs s L n) w'.fx0 1 := by
  have eh : s * getH n L = hs s L n := by unfold getH hs; rw [Nat.sub_right_comm]
  have ex : ∀ p, 2 * ((getIJ n B s L).1 + p * hs s L n) + hs s L n = cx s L n (2 * B + p) := fun p => by unfold getIJ cx; rw [← eh]; ring
  have ey : ∀ q, 2 * ((getIJ n B s L).2 + q * hs s L n) + hs s L n = cx s L n (2 * B + 2 + q) := fun q => by unfold getIJ cx; rw [← eh]; ring
  have un : oneBlock X junk lagrange fftw d M s L n B w = (dirs X junk lagrange fftw d M (hs s L n) (cx s L n (2 * B + 0)) (cx s L n (2 * B + 2 + 0)) 0 0 B w).bind fun w =>
      (dirs X junk lagrange fftw d M (hs s L n) (cx s L n (2 * B + 0)) (cx s L n (2 * B + 2 + 1)) 1 0 B w).bind (dirs X junk lagrange fftw d M (hs s L n) (cx s L n (2 * B + 1)) (cx s L n (2 * B + 2 + 1)) 1 1 B) := by
    rw [← ex 0, ← ey 0, ← ey 1, ← ex 1, ← eh]; rfl
  have P : ∀ q p, 0 ≤ p → p ≤ q → q ≤ 1 → Place L n B q p := fun q p a b c => ⟨hn, B0, B1, a, b, c⟩
  rw [un]
  obtain ⟨w1, e1, h1, a1, b1⟩ := dirs_spec hX M1 h18 hd junk (P 0 0 le_rfl le_rfl (by omega)) hw (by ring) (fun lev b q p hp h => before_lt hn B0 hp h)
    (fun h => by rw [sub_zero]; exact (p0 (by omega)).1)
  rw [sub_zero] at a1 b1
  obtain ⟨w2, e2, h2, a2, b2⟩ := dirs_spec hX M1 h18 hd junk (P 1 0 le_rfl (by omega) (by omega)) h1 (by ring) (fun lev b q p hp h => by
      rcases h with h | ⟨rfl, rfl, rfl, rfl⟩
      · have := before_lt hn B0 hp h; omega
      · omega)
    (fun h => by rw [sub_zero]; exact b1 1 (by omega) (p0 (by omega)).2)
  rw [sub_zero] at a2 b2
  have c2 := b2 0 (by omega) a1
  obtain ⟨w3, e3, h3, a3, b3⟩ := dirs_spec hX M1 h18 hd junk (P 1 1 (by omega) le_rfl le_rfl) h2 (by ring) (fun lev b q p hp h => by
      rcases h with (h | ⟨rfl, rfl, rfl, rfl⟩) | ⟨rfl, rfl, rfl, rfl⟩
      · have := before_lt hn B0 hp h; omega
      · omega
      · omega)
    (fun h => by rw [sub_self]; exact c2)
  rw [sub_self] at a3 b3
  have c3 := b3 1 (by omega) a2
  rw [e1, Option.bind_some, e2, Option.bind_some, e3]
  refine ⟨w3, rfl, h3.mono (by ring) fun lev b q p hp h => ?_, a3, c3⟩
  obtain ⟨-, -, -, g1, g2, g3⟩ := hp
  rcases h with h | ⟨rfl, h⟩
  · exact Or.inl (Or.inl (Or.inl (Or.inl h)))
  · by_cases c : b < B
    · exact Or.inl (Or.inl (Or.inl (Or.inr ⟨rfl, c⟩)))
    · obtain rfl : b = B := by omega
      rcases (show (q = 0 ∧ p = 0) ∨ (q = 1 ∧ p = 0) ∨ (q = 1 ∧ p = 1) by omega) with ⟨rfl, rfl⟩ | ⟨rfl, rfl⟩ | ⟨rfl, rfl⟩
      · exact Or.inl (Or.inl (Or.inr ⟨rfl, rfl, rfl, rfl⟩))
      · exact Or.inl (Or.inr ⟨rfl, rfl, rfl, rfl⟩)
      · exact Or.inr ⟨rfl, rfl, rfl, rfl⟩

theorem submatrices_spec {X : Nodes K} {M s : Int} {L : ℕ} (hX : NodesOk X M) (M1 : 1 ≤ M) {lagrange fftw : Bool} (h18 : lagrange = false → fftw = false → M = 18) {d : Dir} (hd : Has d true → Dens X M s L) (junk : Int → K) :
    ∃ A, submatrices X junk lagrange fftw d M s L = some A ∧ ∀ c, Has d c → ∃ Ac, A c = some Ac ∧ (Ac.size : Int) = 3 * totalBlocks L * (M * M) ∧
      ∀ lev b q p, Place L lev b q p → Blk lagrange X M (hs s L lev) (cx s L lev (2 * b + p)) (cx s L lev (2 * b + 2 + q)) c Ac.val (3 * (totalBlocks lev + b) + (q + p)) := by
  have MM : 0 ≤ M * M := Int.mul_nonneg (by omega) (by omega)
  have tb := totalBlocks_nonneg L
  have tM : 0 ≤ 3 * totalBlocks L * (M * M) := Int.mul_nonneg (by omega) MM
  unfold submatrices
  obtain ⟨w, e, h⟩ := loop_spec (body := fun level => forUp 0 (blocks level) (oneBlock X junk lagrange fftw d M s L level)) (n := L)
    (s := (⟨0, ⟨(2 * (M * M)).toNat, junk⟩, ⟨(M * M).toNat, junk⟩, fun c2l => if (d = .both ∨ (d = .c2l ↔ c2l = true)) then some ⟨(3 * totalBlocks L * (M * M)).toNat, junk⟩ else none⟩ : Work K))
    (fun n w => SubInv lagrange X M s L d (Before n 0) (3 * totalBlocks n) w)
    ⟨rfl, by show (((2 * (M * M)).toNat : ℕ) : Int) = _; omega, by show (((M * M).toNat : ℕ) : Int) = _; omega, fun c hc => ⟨_, if_pos hc, by show (((3 * totalBlocks L * (M * M)).toNat : ℕ) : Int) = _; omega,
      fun lev b q p hp hD => by rcases hD with h | ⟨rfl, h⟩; · omega
                                · have := hp.2.1; omega⟩⟩
    (fun n hn w hw => by
      obtain ⟨w', e', h', -⟩ := forUp_spec (lo := 0) (hi := blocks n) (s := w) (body := oneBlock X junk lagrange fftw d M s L n)
        (fun B w => SubInv lagrange X M s L d (Before n B) (3 * (totalBlocks n + B)) w ∧ (0 < B → Slot X M (hs s L n) w.fx0 0 ∧ Slot X M (hs s L n) w.fx0 1))
        ⟨hw.mono (by ring) fun _ _ _ _ _ h => h, fun h => by omega⟩ (fun B B0 B1 w ⟨hw, ps⟩ => by
          obtain ⟨w', e', h', a, b⟩ := oneBlock_spec hX M1 h18 hd junk hn B0 B1 hw ps
          exact ⟨w', e', h', fun _ => ⟨a, b⟩⟩)
      have b1 := blocks_pos n
      rw [show max 0 (blocks n) = blocks n by omega] at h'
      refine ⟨w', e', h'.mono (by rw [totalBlocks_succ]) fun lev b q p hp h => ?_⟩
      rcases h with h | ⟨rfl, h⟩
      · rcases Nat.lt_or_ge lev n with c | c
        · exact Or.inl c
        · obtain rfl : lev = n := by omega
          exact Or.inr ⟨rfl, hp.2.2.1⟩
      · have := hp.2.1; omega)
  rw [e, Option.bind_some]
  refine ⟨w.A, rfl, fun c hc => ?_⟩
  obtain ⟨A, eA, zA, v⟩ := h.A c hc
  exact ⟨A, eA, zA, fun lev b q p hp => v lev b q p hp (Or.inl hp.1)⟩

end FT.Props.Lc
