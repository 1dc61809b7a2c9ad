import Verif.Lemmas.LegChebTree
import Verif.Lemmas.LegChebDirect

/-! # The far field -/

namespace FT.Props.Lc
open FT FT.Poly FT.Model.Lc
variable {K : Type*} [Field K] [CharZero K] [DecidableEq K]

/-- `X(matvectri)` or the products with the two matrices pass from the halves to the block. -/
def UpOk (P : Plan K) (R : Int → Int → Int → K) : Prop :=
  ∀ (junk : Int → K) (wl w1 : Buf K) (Nd o : Int), 0 ≤ Nd → Nd + 2 * P.M ≤ wl.size → 0 ≤ o → o + P.M ≤ w1.size → ∃ w', m2m P junk wl Nd w1 o = some w' ∧ w'.size = w1.size ∧
    (∀ k, 0 ≤ k → k < P.M → w'.val (o + k) = ∑ j ∈ Finset.Ico 0 P.M, R 0 k j * wl.val (Nd + j) + ∑ j ∈ Finset.Ico 0 P.M, R 1 k j * wl.val (Nd + P.M + j)) ∧
    ∀ q, ¬ (o ≤ q ∧ q < o + P.M) → w'.val q = w1.val q

/-- They pass from the block to the halves. -/
def DownOk (P : Plan K) (R : Int → Int → Int → K) : Prop :=
  ∀ (c0 c1 : Buf K) (o o1 : Int), 0 ≤ o → o + P.M ≤ c0.size → 0 ≤ o1 → o1 + 2 * P.M ≤ c1.size → ∃ c', l2l P c0 o c1 o1 = some c' ∧ c'.size = c1.size ∧
    (∀ k, 0 ≤ k → k < P.M → c'.val (o1 + k) = c1.val (o1 + k) + ∑ j ∈ Finset.Ico 0 P.M, R 0 j k * c0.val (o + j)) ∧
    (∀ k, 0 ≤ k → k < P.M → c'.val (o1 + P.M + k) = c1.val (o1 + P.M + k) + ∑ j ∈ Finset.Ico 0 P.M, R 1 j k * c0.val (o + j)) ∧
    ∀ q, ¬ (o1 ≤ q ∧ q < o1 + 2 * P.M) → c'.val q = c1.val q

structure TreeOk (P : Plan K) (φ : Int → K → K) (R : Int → Int → Int → K) : Prop where
  L1 : 1 ≤ P.L
  s1 : 1 ≤ P.s
  M1 : 1 ≤ P.M
  Nn : P.Nn = P.s * 2 ^ (P.L + 2)
  N0 : 0 ≤ P.N
  N1 : P.N ≤ P.Nn
  T_size : (P.T.size : Int) = 2 * P.s * P.M
  T : ∀ odd p m : Int, 0 ≤ odd → odd ≤ 1 → 0 ≤ p → p < P.s → 0 ≤ m → m < P.M → P.T.val (odd * P.s * P.M + p * P.M + m) = φ m (-1 + ((2 * p + odd : Int) : K) / (P.s : K))
  re : ReExp P.M φ R
  up : UpOk P R
  down : DownOk P R

/-! ## Arithmetic -/

theorem blocks_succ (lev : ℕ) : blocks (lev + 1) = 2 * blocks lev + 1 := by unfold blocks; rw [pow_succ (2 : Int) (lev + 1)]; ring
theorem blocks_pos (lev : ℕ) : 1 ≤ blocks lev := by
  induction lev with
  | zero => decide
  | succ n ih => rw [blocks_succ]; omega
theorem blocks_pow (lev : ℕ) : 2 * blocks lev + 2 = 2 ^ (lev + 2) := by unfold blocks; rw [pow_succ (2 : Int) (lev + 1)]; ring
theorem totalBlocks_succ (lev : ℕ) : totalBlocks (lev + 1) = totalBlocks lev + blocks lev := by unfold totalBlocks blocks; push_cast; rw [pow_succ (2 : Int) (lev + 1)]; ring
theorem totalBlocks_nonneg (lev : ℕ) : 0 ≤ totalBlocks lev := by
  induction lev with
  | zero => decide
  | succ n ih => rw [totalBlocks_succ]; have := blocks_pos n; omega
theorem totalBlocks_mono {a b : ℕ} (h : a ≤ b) : totalBlocks a ≤ totalBlocks b := by
  induction h with
  | refl => exact le_rfl
  | step _ ih => rw [totalBlocks_succ]; have := blocks_pos ‹ℕ›; omega

theorem row_bound {r k M n : Int} (r0 : 0 ≤ r) (r1 : r < n) (k0 : 0 ≤ k) (k1 : k < M) : 0 ≤ r * M ∧ r * M + k < n * M ∧ r * M + M ≤ n * M := by
  have a : 0 ≤ r * M := Int.mul_nonneg r0 (by omega)
  have b : (r + 1) * M ≤ n * M := Int.mul_le_mul_of_nonneg_right (by omega) (by omega)
  have c : (r + 1) * M = r * M + M := by ring
  omega

theorem row_out {r r' k M : Int} (h : r ≠ r') (k0 : 0 ≤ k) (k1 : k < M) : ¬ (r' * M ≤ r * M + k ∧ r * M + k < r' * M + M) := by
  rintro ⟨a, b⟩
  rcases lt_or_gt_of_ne h with h | h
  · have := Int.mul_le_mul_of_nonneg_right (show r + 1 ≤ r' by omega) (show 0 ≤ M by omega)
    have c : (r + 1) * M = r * M + M := by ring
    omega
  · have := Int.mul_le_mul_of_nonneg_right (show r' + 1 ≤ r by omega) (show 0 ≤ M by omega)
    have c : (r' + 1) * M = r' * M + M := by ring
    omega

/-! ## Gathering -/

/-- The entry `i` of the input, zero beyond its end. -/
def ext (u : Int → K) (N i : Int) : K := if i < N then u i else 0

theorem gather_spec {P : Plan K} (hN0 : 0 ≤ P.N) (hN1 : P.N ≤ P.Nn) {odd : Int} (o0 : 0 ≤ odd) (o1 : odd ≤ 1) (ev : P.Nn % 2 = 0) {src : Buf K} {b st : Int} (hsr : Room src b st P.N) {ia : Buf K} (si : (ia.size : Int) = P.Nn / 2) :
    ∃ ia', gather P odd src b st ia = some ia' ∧ ia'.size = ia.size ∧ ∀ p, 0 ≤ p → p < P.Nn / 2 → ia'.val p = ext (at' src b st) P.N (2 * p + odd) := by
  unfold gather
  obtain ⟨c, hc⟩ : ∃ c, c = P.N / 2 + P.N % 2 * (1 - odd) := ⟨_, rfl⟩
  have c1 : ∀ p, p < c ↔ 2 * p + odd < P.N := fun p => by
    rcases (show odd = 0 ∨ odd = 1 by omega) with h | h <;> subst h <;> rw [hc] <;> omega
  have c2 : c ≤ P.Nn / 2 := by
    by_contra h
    have := (c1 (P.Nn / 2)).1 (by omega)
    omega
  have c3 : 0 ≤ c := by
    by_contra h
    rcases (show odd = 0 ∨ odd = 1 by omega) with h' | h' <;> subst h' <;> omega
  simp only [← hc]
  obtain ⟨a, e1, s1, v1, k1⟩ := forUp_wr (lo := 0) (hi := c) (f := fun i => i) (v := fun i => at' src b st (2 * i + odd)) (b := ia)
    (body := fun i ia => (src.rd (b + odd * st + i * (2 * st))).bind (ia.wr i)) (fun i i0 i1 => ⟨i0, by omega⟩)
    (fun i Z i0 i1 _ => by
      have p := hsr.pos (i := 2 * i + odd) (by omega) ((c1 i).1 i1)
      rw [show b + odd * st + i * (2 * st) = b + (2 * i + odd) * st by ring, Buf.rd_of p.1 p.2, Option.bind_some]; rfl) fun i j h => h
  rw [e1, Option.bind_some]
  obtain ⟨a', e2, s2, v2, k2⟩ := forUp_wr (lo := c) (hi := P.Nn / 2) (f := fun i => i) (v := fun _ => 0) (b := a) (body := fun i ia => ia.wr i 0) (fun i i0 i1 => ⟨by omega, by omega⟩)
    (fun i Z i0 i1 _ => rfl) fun i j h => h
  refine ⟨a', e2, by rw [s2, s1], fun p p0 p1 => ?_⟩
  unfold ext
  by_cases h : p < c
  · rw [k2 p fun i i0 i1 => by omega, v1 p p0 h, if_pos ((c1 p).1 h)]
  · rw [v2 p (by omega) p1, if_neg fun e => h ((c1 p).2 e)]

/-! ## Upward -/

section
variable {P : Plan K} {φ : Int → K → K} {R : Int → Int → Int → K}

/-- The sizes of the arrays of the levels. -/
def Sizes (P : Plan K) (w : ℕ → Buf K) : Prop := ∀ lev, ((w lev).size : Int) = 2 * P.M * blocks lev

theorem upward_spec (h : TreeOk P φ R) (junk : Int → K) (odd : Int) (ia : Int → K) {wk : ℕ → Buf K} (hsz : Sizes P wk)
    (h0 : ∀ r k, 0 ≤ r → r < 2 * blocks (P.L - 1) → 0 ≤ k → k < P.M → (wk (P.L - 1)).val (r * P.M + k) = mom φ P.s P.L odd ia (P.L - 1) (r + 2) k) :
    ∃ wk', upward P junk wk = some wk' ∧ Sizes P wk' ∧
      ∀ lev r k, lev < P.L → 0 ≤ r → r < 2 * blocks lev → 0 ≤ k → k < P.M → (wk' lev).val (r * P.M + k) = mom φ P.s P.L odd ia lev (r + 2) k := by
  have M1 := h.M1
  unfold upward
  obtain ⟨w, e, sz, p⟩ := loop_spec (n := P.L - 1) (s := wk) (body := fun t wk =>
    (forUp 1 (blocks (P.L - 1 - t)) (fun block w1 => m2m P junk (wk (P.L - 1 - t)) (block * 2 * P.M) w1 (((block - 1) / 2 * 2 + (block - 1) % 2) * P.M)) (wk (P.L - 1 - t - 1))).bind fun w1 =>
      some (Function.update wk (P.L - 1 - t - 1) w1))
    (fun t w => Sizes P w ∧ ∀ lev r k, P.L - 1 - t ≤ lev → lev < P.L → 0 ≤ r → r < 2 * blocks lev → 0 ≤ k → k < P.M → (w lev).val (r * P.M + k) = mom φ P.s P.L odd ia lev (r + 2) k)
    ⟨hsz, fun lev r k l0 l1 => by obtain rfl : lev = P.L - 1 := by omega
                                  exact h0 r k⟩
    (fun t ht w ⟨sz, hw⟩ => by
      obtain ⟨m, hm⟩ : ∃ m, P.L - 1 - t = m + 1 := ⟨P.L - 1 - t - 1, by omega⟩
      rw [hm] at hw ⊢
      rw [Nat.add_sub_cancel]
      have bm := blocks_succ m
      have bp := blocks_pos m
      obtain ⟨w1, e, s1, v1⟩ := forUp_spec (lo := 1) (hi := blocks (m + 1)) (s := w m) (body := fun block w1 => m2m P junk (w (m + 1)) (block * 2 * P.M) w1 (((block - 1) / 2 * 2 + (block - 1) % 2) * P.M))
        (fun J Z => Z.size = (w m).size ∧ ∀ r k, 0 ≤ r → r < J - 1 → 0 ≤ k → k < P.M → Z.val (r * P.M + k) = mom φ P.s P.L odd ia m (r + 2) k)
        ⟨rfl, fun r k r0 r1 => by omega⟩
        (fun j j0 j1 Z ⟨sZ, hZ⟩ => by
          rw [show (j - 1) / 2 * 2 + (j - 1) % 2 = j - 1 by omega]
          have q1 := row_bound (r := 2 * j) (k := 0) (M := P.M) (n := 2 * blocks (m + 1)) (by omega) (by omega) le_rfl (by omega)
          have q1' := row_bound (r := 2 * j + 1) (k := 0) (M := P.M) (n := 2 * blocks (m + 1)) (by omega) (by omega) le_rfl (by omega)
          have q2 := row_bound (r := j - 1) (k := 0) (M := P.M) (n := 2 * blocks m) (by omega) (by omega) le_rfl (by omega)
          have sw := sz (m + 1)
          have sw' := sz m
          have f1 : (2 * j + 1) * P.M = 2 * j * P.M + P.M := by ring
          have f2 : j * 2 * P.M = 2 * j * P.M := by ring
          have f3 : 2 * P.M * blocks (m + 1) = 2 * blocks (m + 1) * P.M := by ring
          have f4 : 2 * P.M * blocks m = 2 * blocks m * P.M := by ring
          obtain ⟨Y, e, sY, v, kp⟩ := h.up junk (w (m + 1)) Z (j * 2 * P.M) ((j - 1) * P.M) (by omega) (by omega) (by omega) (by rw [sZ]; omega)
          refine ⟨Y, e, by rw [sY, sZ], fun r k r0 r1 k0 k1 => ?_⟩
          by_cases hr : r = j - 1
          · subst hr
            rw [v k k0 k1, mom_step h.re h.s1 (show m + 1 < P.L by omega) ia _ k0 k1]
            congr 1
            · refine sum_Ico_congr fun i i0 i1 => ?_
              rw [f2, hw (m + 1) (2 * j) i le_rfl (by omega) (by omega) (by omega) i0 i1, show 2 * j + 2 = 2 * (j - 1 + 2) by ring]
            · refine sum_Ico_congr fun i i0 i1 => ?_
              rw [f2, ← f1, hw (m + 1) (2 * j + 1) i le_rfl (by omega) (by omega) (by omega) i0 i1, show 2 * j + 1 + 2 = 2 * (j - 1 + 2) + 1 by ring]
          · rw [kp _ (row_out hr k0 k1), hZ r k r0 (by omega) k0 k1])
      rw [e, Option.bind_some]
      refine ⟨_, rfl, fun lev => ?_, fun lev r k l0 l1 r0 r1 k0 k1 => ?_⟩
      · by_cases hl : lev = m
        · subst hl; rw [Function.update_self, s1]; exact sz lev
        · rw [Function.update_of_ne hl]; exact sz lev
      · by_cases hl : lev = m
        · subst hl; rw [Function.update_self]; exact v1 r k r0 (by omega) k0 k1
        · rw [Function.update_of_ne hl]; exact hw lev r k (by omega) l1 r0 r1 k0 k1)
  exact ⟨w, e, sz, fun lev r k l1 => p lev r k (by omega) l1⟩

/-! ## Across -/

theorem gemv_eq {trans : Bool} {m n : Int} {A : Buf K} {oA lda : Int} {x : Buf K} {ox : Int} {beta : K} {y : Buf K} {oy : Int}
    (h : 0 ≤ oA ∧ oA + m * lda ≤ A.size ∧ n ≤ lda ∧ 0 ≤ ox ∧ ox + n ≤ x.size ∧ 0 ≤ oy ∧ oy + m ≤ y.size) :
    gemv trans m n A oA lda x ox beta y oy = some ⟨y.size, fun q => if oy ≤ q ∧ q < oy + m then
      (∑ j ∈ Finset.Ico 0 n, (if trans then A.val (oA + j * lda + (q - oy)) else A.val (oA + (q - oy) * lda + j)) * x.val (ox + j)) + beta * y.val q else y.val q⟩ := if_pos h

omit [CharZero K] [DecidableEq K] in
theorem sum_Ico_one' {lo hi : Int} {g : Int → K} (h : hi = lo + 1) : ∑ k ∈ Finset.Ico lo hi, g k = g lo := by
  subst h
  rw [show Finset.Ico lo (lo + 1) = {lo} by ext x; simp only [Finset.mem_Ico, Finset.mem_singleton]; omega, Finset.sum_singleton]

omit [CharZero K] [DecidableEq K] in
theorem far_even {b n : Int} (b0 : 0 ≤ b) (hb : 2 * b + 3 < n) (f : Int → K) : ∑ κ ∈ Finset.Ico 0 n, (if far (2 * b) κ then f κ else 0) = f (2 * b + 2) + f (2 * b + 3) := by
  rw [sum_Ico_shrink (lo' := 2 * b + 2) (hi' := 2 * b + 4) (fun k k0 k1 hk => if_neg (by unfold far; omega)) (by omega) (by omega), sum_split (mid := 2 * b + 3) (by omega) (by omega),
    sum_Ico_one' (lo := 2 * b + 2) (by omega), sum_Ico_one' (lo := 2 * b + 3) (by omega), if_pos (by unfold far; omega), if_pos (by unfold far; omega)]

omit [CharZero K] [DecidableEq K] in
theorem far_odd {b n : Int} (b0 : 0 ≤ b) (hb : 2 * b + 3 < n) (f : Int → K) : ∑ κ ∈ Finset.Ico 0 n, (if far (2 * b + 1) κ then f κ else 0) = f (2 * b + 3) := by
  rw [sum_Ico_shrink (lo' := 2 * b + 3) (hi' := 2 * b + 4) (fun k k0 k1 hk => if_neg (by unfold far; omega)) (by omega) (by omega),
    sum_Ico_one' (lo := 2 * b + 3) (by omega), if_pos (by unfold far; omega)]

theorem acr_zero {M s odd : Int} {L lev : ℕ} {A ia : Int → K} {ρ k : Int} (h : 2 * blocks lev ≤ ρ) : acr M A φ s L odd ia lev ρ k = 0 := by
  unfold acr
  refine Finset.sum_eq_zero fun κ hκ => if_neg ?_
  rw [Finset.mem_Ico, ← blocks_pow] at hκ
  unfold far; omega

theorem loc_zero {M s odd : Int} {L lev : ℕ} {A ia : Int → K} {ρ k : Int} (h : 2 * blocks lev ≤ ρ) : loc M A φ R s L odd ia lev ρ k = 0 := by
  induction lev generalizing ρ k with
  | zero => exact acr_zero h
  | succ lev ih =>
    have := blocks_succ lev
    show acr M A φ s L odd ia (lev + 1) ρ k + ∑ j ∈ Finset.Ico 0 M, R (ρ % 2) j k * loc M A φ R s L odd ia lev (ρ / 2) j = 0
    rw [acr_zero h, zero_add]
    exact Finset.sum_eq_zero fun j _ => by rw [ih (by omega), mul_zero]

theorem across_spec (h : TreeOk P φ R) (odd : Int) (ia : Int → K) {A : Buf K} (hA : 3 * totalBlocks P.L * (P.M * P.M) ≤ A.size) {wk ck : ℕ → Buf K} (hw : Sizes P wk) (hc : Sizes P ck)
    (hm : ∀ lev r k, lev < P.L → 0 ≤ r → r < 2 * blocks lev → 0 ≤ k → k < P.M → (wk lev).val (r * P.M + k) = mom φ P.s P.L odd ia lev (r + 2) k) :
    ∃ ck', across P A wk ck = some ck' ∧ Sizes P ck' ∧
      ∀ lev r k, lev < P.L → 0 ≤ r → r < 2 * blocks lev → 0 ≤ k → k < P.M → (ck' lev).val (r * P.M + k) = acr P.M A.val φ P.s P.L odd ia lev r k := by
  have M1 := h.M1
  unfold across
  obtain ⟨r, e, p1, sz, p2⟩ := loop_spec (n := P.L) (s := ((0 : Int), ck)) (body := fun level (r : Int × (Nat → Buf K)) =>
    (forUp 0 (blocks level) (fun block q => across1 P A (wk level) block q) (r.1, r.2 level)).bind fun q => some (q.1, Function.update r.2 level q.2))
    (fun t r => r.1 = 3 * totalBlocks t ∧ Sizes P r.2 ∧
      ∀ lev ρ k, lev < t → 0 ≤ ρ → ρ < 2 * blocks lev → 0 ≤ k → k < P.M → (r.2 lev).val (ρ * P.M + k) = acr P.M A.val φ P.s P.L odd ia lev ρ k)
    ⟨by show (0 : Int) = 3 * totalBlocks 0; decide, hc, fun lev ρ k hl => by omega⟩
    (fun t ht r ⟨r1, sz, hr⟩ => by
      have bp := blocks_pos t
      have tb := totalBlocks_succ t
      have tn := totalBlocks_nonneg t
      have tm := totalBlocks_mono (show t + 1 ≤ P.L by omega)
      obtain ⟨q, e, q1, sq, hq⟩ := forUp_spec (lo := 0) (hi := blocks t) (s := (r.1, r.2 t)) (body := fun block q => across1 P A (wk t) block q)
        (fun J q => q.1 = 3 * (totalBlocks t + J) ∧ (q.2.size : Int) = 2 * P.M * blocks t ∧
          ∀ ρ k, 0 ≤ ρ → ρ < 2 * J → 0 ≤ k → k < P.M → q.2.val (ρ * P.M + k) = acr P.M A.val φ P.s P.L odd ia t ρ k)
        ⟨by rw [add_zero]; exact r1, sz t, fun ρ k a b => by omega⟩
        (fun j j0 j1 q ⟨q1, sq, hq⟩ => by
          unfold across1
          have sw := hw t
          have b1 := row_bound (r := 2 * j) (k := 0) (M := P.M) (n := 2 * blocks t) (by omega) (by omega) le_rfl (by omega)
          have b2 := row_bound (r := 2 * j + 1) (k := 0) (M := P.M) (n := 2 * blocks t) (by omega) (by omega) le_rfl (by omega)
          have f1 : (2 * j + 1) * P.M = 2 * j * P.M + P.M := by ring
          have f2 : j * 2 * P.M = 2 * j * P.M := by ring
          have f3 : 2 * P.M * blocks t = 2 * blocks t * P.M := by ring
          have MM : 0 ≤ P.M * P.M := Int.mul_nonneg (by omega) (by omega)
          have am : ∀ i, 0 ≤ i → i ≤ 2 → 0 ≤ (q.1 + i) * (P.M * P.M) ∧ (q.1 + i) * (P.M * P.M) + P.M * P.M ≤ A.size := fun i i0 i1 => by
            refine ⟨Int.mul_nonneg (by omega) MM, ?_⟩
            have : (q.1 + i + 1) * (P.M * P.M) ≤ 3 * totalBlocks P.L * (P.M * P.M) := Int.mul_le_mul_of_nonneg_right (by omega) MM
            have g : (q.1 + i + 1) * (P.M * P.M) = (q.1 + i) * (P.M * P.M) + P.M * P.M := by ring
            omega
          have a0 := am 0 (by omega) (by omega)
          have a1 := am 1 (by omega) (by omega)
          have a2 := am 2 (by omega) (by omega)
          rw [add_zero] at a0
          simp only [f2]
          rw [gemv_eq (by omega), Option.bind_some, gemv_eq (by simp only; omega), Option.bind_some, gemv_eq (by simp only; omega), Option.bind_some]
          refine ⟨_, rfl, by simp only; omega, sq, fun ρ k ρ0 ρ1 k0 k1 => ?_⟩
          simp only [Bool.false_eq_true, if_false]
          have bl := blocks_pow t
          by_cases h1 : ρ = 2 * j + 1
          · subst h1
            rw [if_pos (by omega), zero_mul, add_zero]
            unfold acr
            rw [far_odd j0 (by omega)]
            refine sum_Ico_congr fun n n0 n1 => ?_
            rw [show (2 * j + 1) * P.M + k - (2 * j * P.M + P.M) = k by ring, ← f1, hm t (2 * j + 1) n ht (by omega) (by omega) n0 n1, q1,
              show subm t (2 * j + 1) (2 * j + 3) = 3 * (totalBlocks t + j) + 2 by unfold subm; omega, show 2 * j + 1 + 2 = 2 * j + 3 by ring]
          by_cases h2 : ρ = 2 * j
          · subst h2
            rw [if_neg (by omega), if_pos (by omega), if_pos (by omega), one_mul, zero_mul, add_zero]
            unfold acr
            rw [far_even j0 (by omega), add_comm]
            congr 1
            · refine sum_Ico_congr fun n n0 n1 => ?_
              rw [show 2 * j * P.M + k - 2 * j * P.M = k by ring, hm t (2 * j) n ht (by omega) (by omega) n0 n1, q1, show subm t (2 * j) (2 * j + 2) = 3 * (totalBlocks t + j) by unfold subm; omega]
            · refine sum_Ico_congr fun n n0 n1 => ?_
              rw [show 2 * j * P.M + k - 2 * j * P.M = k by ring, ← f1, hm t (2 * j + 1) n ht (by omega) (by omega) n0 n1, q1,
                show subm t (2 * j) (2 * j + 3) = 3 * (totalBlocks t + j) + 1 by unfold subm; omega, show 2 * j + 1 + 2 = 2 * j + 3 by ring]
          · have o1 := row_out (r := ρ) (r' := 2 * j + 1) (M := P.M) h1 k0 k1
            have o2 := row_out (r := ρ) (r' := 2 * j) (M := P.M) h2 k0 k1
            rw [f1] at o1
            rw [if_neg o1, if_neg o2, if_neg o2, hq ρ k ρ0 (by omega) k0 k1])
      rw [e, Option.bind_some]
      refine ⟨_, rfl, by show q.1 = _; rw [q1, tb, max_eq_right (by omega)], fun lev => ?_, fun lev ρ k l1 r0 ρ1 k0 k1 => ?_⟩
      · show ((Function.update r.2 t q.2 lev).size : Int) = _
        by_cases hl : lev = t
        · subst hl; rw [Function.update_self]; exact sq
        · rw [Function.update_of_ne hl]; exact sz lev
      · show (Function.update r.2 t q.2 lev).val _ = _
        by_cases hl : lev = t
        · subst hl; rw [Function.update_self]; exact hq ρ k r0 (by rw [max_eq_right (by omega)]; exact ρ1) k0 k1
        · rw [Function.update_of_ne hl]; exact hr lev ρ k (by omega) r0 ρ1 k0 k1)
  rw [e, Option.bind_some]
  exact ⟨_, rfl, sz, p2⟩

/-! ## Downward -/

theorem downward_spec (h : TreeOk P φ R) (odd : Int) (ia A : Int → K) {ck : ℕ → Buf K} (hc : Sizes P ck)
    (hm : ∀ lev r k, lev < P.L → 0 ≤ r → r < 2 * blocks lev → 0 ≤ k → k < P.M → (ck lev).val (r * P.M + k) = acr P.M A φ P.s P.L odd ia lev r k) :
    ∃ ck', downward P ck = some ck' ∧ Sizes P ck' ∧
      ∀ r k, 0 ≤ r → r < 2 * blocks (P.L - 1) → 0 ≤ k → k < P.M → (ck' (P.L - 1)).val (r * P.M + k) = loc P.M A φ R P.s P.L odd ia (P.L - 1) r k := by
  have M1 := h.M1
  have L1 := h.L1
  unfold downward
  obtain ⟨c, e, sz, p⟩ := loop_spec (n := P.L - 1) (s := ck) (body := fun level ck =>
    (forUp 0 (blocks (level + 1) - 1) (fun block c1 => l2l P (ck level) (block * P.M) c1 (block * 2 * P.M)) (ck (level + 1))).bind fun c1 => some (Function.update ck (level + 1) c1))
    (fun t c => Sizes P c ∧ ∀ lev r k, lev < P.L → 0 ≤ r → r < 2 * blocks lev → 0 ≤ k → k < P.M →
      (c lev).val (r * P.M + k) = if lev ≤ t then loc P.M A φ R P.s P.L odd ia lev r k else acr P.M A φ P.s P.L odd ia lev r k)
    ⟨hc, fun lev r k l1 r0 r1 k0 k1 => by
      rw [hm lev r k l1 r0 r1 k0 k1]
      by_cases hl : lev = 0
      · subst hl; rw [if_pos le_rfl]; rfl
      · rw [if_neg (by omega)]⟩
    (fun t ht c ⟨sz, hv⟩ => by
      have bm := blocks_succ t
      have bp := blocks_pos t
      obtain ⟨c1, e, s1, v1, v1'⟩ := forUp_spec (lo := 0) (hi := blocks (t + 1) - 1) (s := c (t + 1)) (body := fun block c1 => l2l P (c t) (block * P.M) c1 (block * 2 * P.M))
        (fun J Z => Z.size = (c (t + 1)).size ∧ (∀ r k, 0 ≤ r → r < 2 * J → 0 ≤ k → k < P.M → Z.val (r * P.M + k) = loc P.M A φ R P.s P.L odd ia (t + 1) r k) ∧
          ∀ r k, 2 * J ≤ r → r < 2 * blocks (t + 1) → 0 ≤ k → k < P.M → Z.val (r * P.M + k) = acr P.M A φ P.s P.L odd ia (t + 1) r k)
        ⟨rfl, fun r k r0 r1 => by omega, fun r k r0 r1 k0 k1 => by rw [hv (t + 1) r k (by omega) (by omega) r1 k0 k1, if_neg (by omega)]⟩
        (fun j j0 j1 Z ⟨sZ, hZ, hZ'⟩ => by
          have b0 := row_bound (r := j) (k := 0) (M := P.M) (n := 2 * blocks t) (by omega) (by omega) le_rfl (by omega)
          have b1 := row_bound (r := 2 * j) (k := 0) (M := P.M) (n := 2 * blocks (t + 1)) (by omega) (by omega) le_rfl (by omega)
          have b2 := row_bound (r := 2 * j + 1) (k := 0) (M := P.M) (n := 2 * blocks (t + 1)) (by omega) (by omega) le_rfl (by omega)
          have f1 : (2 * j + 1) * P.M = 2 * j * P.M + P.M := by ring
          have f2 : j * 2 * P.M = 2 * j * P.M := by ring
          have f3 : 2 * P.M * blocks t = 2 * blocks t * P.M := by ring
          have f4 : 2 * P.M * blocks (t + 1) = 2 * blocks (t + 1) * P.M := by ring
          have sw := sz t
          have sw' := sz (t + 1)
          obtain ⟨Y, e, sY, va, vb, kp⟩ := h.down (c t) Z (j * P.M) (2 * j * P.M) (by omega) (by omega) (by omega) (by rw [sZ]; omega)
          have par : ∀ i, 0 ≤ i → i < P.M → (c t).val (j * P.M + i) = loc P.M A φ R P.s P.L odd ia t j i := fun i i0 i1 => by rw [hv t j i (by omega) j0 (by omega) i0 i1, if_pos le_rfl]
          have other : ∀ r k, r ≠ 2 * j → r ≠ 2 * j + 1 → 0 ≤ k → k < P.M → Y.val (r * P.M + k) = Z.val (r * P.M + k) := fun r k h1 h2 k0 k1 => kp _ (by
            have o1 := row_out (r := r) (r' := 2 * j + 1) (M := P.M) h2 k0 k1
            have o2 := row_out (r := r) (r' := 2 * j) (M := P.M) h1 k0 k1
            omega)
          rw [f2]
          refine ⟨Y, e, by rw [sY, sZ], fun r k r0 r1 k0 k1 => ?_, fun r k r0 r1 k0 k1 => ?_⟩
          · show _ = acr P.M A φ P.s P.L odd ia (t + 1) r k + ∑ j ∈ Finset.Ico 0 P.M, R (r % 2) j k * loc P.M A φ R P.s P.L odd ia t (r / 2) j
            by_cases h1 : r = 2 * j
            · subst h1
              rw [va k k0 k1, hZ' (2 * j) k le_rfl (by omega) k0 k1, show 2 * j % 2 = 0 by omega, show 2 * j / 2 = j by omega]
              congr 1
              exact sum_Ico_congr fun i i0 i1 => by rw [par i i0 i1]
            by_cases h2 : r = 2 * j + 1
            · subst h2
              rw [f1, vb k k0 k1, ← f1, hZ' (2 * j + 1) k (by omega) (by omega) k0 k1, show (2 * j + 1) % 2 = 1 by omega, show (2 * j + 1) / 2 = j by omega]
              congr 1
              exact sum_Ico_congr fun i i0 i1 => by rw [par i i0 i1]
            · rw [other r k h1 h2 k0 k1, hZ r k r0 (by omega) k0 k1]; rfl
          · rw [other r k (by omega) (by omega) k0 k1, hZ' r k (by omega) r1 k0 k1])
      rw [max_eq_right (by omega)] at v1 v1'
      rw [e, Option.bind_some]
      refine ⟨_, rfl, fun lev => ?_, fun lev r k l1 r0 r1 k0 k1 => ?_⟩
      · by_cases hl : lev = t + 1
        · subst hl; rw [Function.update_self, s1]; exact sz (t + 1)
        · rw [Function.update_of_ne hl]; exact sz lev
      · by_cases hl : lev = t + 1
        · subst hl
          rw [Function.update_self, if_pos le_rfl]
          by_cases hr : r < 2 * (blocks (t + 1) - 1)
          · exact v1 r k r0 hr k0 k1
          · rw [v1' r k (by omega) r1 k0 k1]
            show _ = acr P.M A φ P.s P.L odd ia (t + 1) r k + ∑ j ∈ Finset.Ico 0 P.M, R (r % 2) j k * loc P.M A φ R P.s P.L odd ia t (r / 2) j
            rw [Finset.sum_eq_zero, add_zero]
            intro j _
            rw [loc_zero (by omega), mul_zero]
        · rw [Function.update_of_ne hl, hv lev r k l1 r0 r1 k0 k1]
          by_cases h' : lev ≤ t
          · rw [if_pos h', if_pos (by omega)]
          · rw [if_neg h', if_neg (by omega)])
  exact ⟨c, e, sz, fun r k r0 r1 k0 k1 => by rw [p (P.L - 1) r k (by omega) r0 r1 k0 k1, if_pos le_rfl]⟩

/-! ## The far field of one parity -/

theorem gemm_eq {trans : Bool} {m n p : Int} {A : Buf K} {oA lda : Int} {B : Buf K} {oB ldb : Int} {C : Buf K} {ldc : Int}
    (h : 0 ≤ oA ∧ oA + m * lda ≤ A.size ∧ p ≤ lda ∧ 0 ≤ oB ∧ oB + (if trans then n else p) * ldb ≤ B.size ∧ (if trans then p else n) ≤ ldb ∧ m * ldc ≤ C.size ∧ n ≤ ldc) :
    gemm trans m n p A oA lda B oB ldb C ldc = some ⟨C.size, fun q => if 0 ≤ q ∧ q < m * ldc ∧ q % ldc < n then
      ∑ k ∈ Finset.Ico 0 p, A.val (oA + q / ldc * lda + k) * (if trans then B.val (oB + q % ldc * ldb + k) else B.val (oB + k * ldb + q % ldc)) else C.val q⟩ := if_pos h

theorem row_div {r k M : Int} (k0 : 0 ≤ k) (k1 : k < M) : (r * M + k) / M = r ∧ (r * M + k) % M = k := by
  constructor
  · rw [add_comm, Int.add_mul_ediv_right _ _ (by omega), Int.ediv_eq_zero_of_lt k0 k1, zero_add]
  · rw [add_comm, Int.add_mul_emod_self_right, Int.emod_eq_of_lt k0 k1]

theorem farField_spec (h : TreeOk P φ R) (junk : Int → K) {odd : Int} (o0 : 0 ≤ odd) (o1 : odd ≤ 1) {A : Buf K} (hA : 3 * totalBlocks P.L * (P.M * P.M) ≤ A.size) {src : Buf K} {b st : Int}
    (hsr : Room src b st P.N) : ∃ oa, farField P junk A odd src b st = some oa ∧ (oa.size : Int) = P.Nn / 2 ∧
      ∀ p, 0 ≤ p → p < P.Nn / 2 → oa.val p = ∑ l ∈ Finset.range P.L, ∑ q ∈ Finset.Ico 0 (P.Nn / 2),
        if far (p / hs P.s P.L l) (q / hs P.s P.L l) then interp P.M A.val φ P.s P.L odd l p q * ext (at' src b st) P.N (2 * q + odd) else 0 := by
  have M1 := h.M1
  have L1 := h.L1
  have s1 := h.s1
  have Nn2 : P.Nn / 2 = P.s * 2 ^ (P.L + 1) := by rw [h.Nn, pow_succ (2 : Int) (P.L + 1), ← mul_assoc, Int.mul_ediv_cancel _ (by norm_num)]
  have NnE : P.Nn % 2 = 0 := by rw [h.Nn, pow_succ (2 : Int) (P.L + 1), ← mul_assoc, Int.mul_emod_left]
  have bl : (2 * blocks (P.L - 1) + 2) * P.s = P.Nn / 2 := by rw [blocks_pow, show P.L - 1 + 2 = P.L + 1 by omega, Nn2, mul_comm]
  have bp := blocks_pos (P.L - 1)
  have Npos : 0 ≤ P.Nn / 2 := by rw [← bl]; exact Int.mul_nonneg (by omega) (by omega)
  unfold farField
  obtain ⟨ia, e1, si, vi⟩ := gather_spec h.N0 h.N1 o0 o1 NnE hsr (ia := ⟨(P.Nn / 2).toNat, junk⟩) (by show (((P.Nn / 2).toNat : ℕ) : Int) = _; omega)
  have si' : (ia.size : Int) = P.Nn / 2 := by rw [si]; show (((P.Nn / 2).toNat : ℕ) : Int) = _; omega
  rw [e1, Option.bind_some]
  have zs : ∀ lev, (((2 * P.M * blocks lev).toNat : ℕ) : Int) = 2 * P.M * blocks lev := fun lev => Int.toNat_of_nonneg (Int.mul_nonneg (by omega) (by have := blocks_pos lev; omega))
  have tsz := h.T_size
  have sM : 1 ≤ P.s * P.M := by nlinarith
  have osM : 0 ≤ odd * P.s * P.M ∧ odd * P.s * P.M + P.s * P.M ≤ 2 * P.s * P.M := by
    rcases (show odd = 0 ∨ odd = 1 by omega) with h | h <;> subst h <;> constructor <;> nlinarith
  have f1 : (2 * blocks (P.L - 1) + 2) * P.s = blocks (P.L - 1) * 2 * P.s + 2 * P.s := by ring
  have f2 : blocks (P.L - 1) * 2 * P.M = 2 * P.M * blocks (P.L - 1) := by ring
  dsimp only
  rw [gemm_eq (by simp only [Bool.false_eq_true, if_false]; have := zs (P.L - 1); omega), Option.bind_some]
  obtain ⟨iav, hiav⟩ : ∃ v : Int → K, v = fun q => ext (at' src b st) P.N (2 * q + odd) := ⟨_, rfl⟩
  have tval : ∀ p k, 0 ≤ p → p < P.s → 0 ≤ k → k < P.M → ∀ r, P.T.val (odd * P.s * P.M + p * P.M + k) = φ k (xc P.s P.L odd (P.L - 1) (r * P.s + p)) := fun p k p0 p1 k0 k1 r => by
    rw [h.T odd p k o0 o1 p0 p1 k0 k1]
    unfold xc
    rw [hs_last, (row_div (r := r) p0 p1).1]
    congr 4
    ring
  obtain ⟨wk, e2, sw, vw⟩ := upward_spec h junk odd iav
    (wk := Function.update (fun level => (⟨(2 * P.M * blocks level).toNat, fun _ => 0⟩ : Buf K)) (P.L - 1)
      ⟨(2 * P.M * blocks (P.L - 1)).toNat, fun q => if 0 ≤ q ∧ q < blocks (P.L - 1) * 2 * P.M ∧ q % P.M < P.M then
        ∑ k ∈ Finset.Ico 0 P.s, ia.val (2 * P.s + q / P.M * P.s + k) * (if false = true then P.T.val (odd * P.s * P.M + q % P.M * P.M + k) else P.T.val (odd * P.s * P.M + k * P.M + q % P.M)) else 0⟩)
    (fun lev => by
      by_cases hl : lev = P.L - 1
      · subst hl; rw [Function.update_self]; exact zs _
      · rw [Function.update_of_ne hl]; exact zs _)
    (fun r k r0 r1 k0 k1 => by
      rw [Function.update_self]
      have rb := row_bound (M := P.M) r0 (show r < blocks (P.L - 1) * 2 by omega) k0 k1
      have rd := row_div (r := r) k0 k1
      show (if _ then _ else _) = _
      rw [if_pos ⟨by omega, by omega, by rw [rd.2]; exact k1⟩, rd.1, rd.2]
      unfold mom
      rw [hs_last, sum_shift (lo := 0) (hi := P.s) (d := (r + 2) * P.s)]
      rw [zero_add, show P.s + (r + 2) * P.s = (r + 2 + 1) * P.s by ring]
      refine sum_Ico_congr fun q q0 q1 => ?_
      have f : (r + 2 + 1) * P.s = (r + 2) * P.s + P.s := by ring
      rw [if_neg (by simp), tval (q - (r + 2) * P.s) k (by omega) (by omega) k0 k1 (r + 2), show (r + 2) * P.s + (q - (r + 2) * P.s) = q by ring,
        show 2 * P.s + r * P.s + (q - (r + 2) * P.s) = q by ring, hiav]
      have : (r + 2 + 1) * P.s ≤ (2 * blocks (P.L - 1) + 2) * P.s := Int.mul_le_mul_of_nonneg_right (by omega) (by omega)
      have : 0 ≤ (r + 2) * P.s := Int.mul_nonneg (by omega) (by omega)
      rw [vi q (by omega) (by omega)])
  rw [e2, Option.bind_some]
  obtain ⟨c1, e3, sc, vc⟩ := across_spec h odd iav hA (ck := fun level => ⟨(2 * P.M * blocks level).toNat, fun _ => 0⟩) sw (fun lev => zs lev) vw
  rw [e3, Option.bind_some]
  obtain ⟨c2, e4, sd, vd⟩ := downward_spec h odd iav A.val sc vc
  have sdl := sd (P.L - 1)
  rw [e4, Option.bind_some, gemm_eq (by
    simp only [if_true]
    have : (((P.Nn / 2).toNat : ℕ) : Int) = P.Nn / 2 := by omega
    omega)]
  refine ⟨_, rfl, by show (((P.Nn / 2).toNat : ℕ) : Int) = _; omega, fun p p0 p1 => ?_⟩
  have key : (∑ k ∈ Finset.Ico 0 P.M, loc P.M A.val φ R P.s P.L odd iav (P.L - 1) (p / P.s) k * φ k (xc P.s P.L odd (P.L - 1) p)) =
      ∑ l ∈ Finset.range P.L, ∑ q ∈ Finset.Ico 0 (P.Nn / 2), if far (p / hs P.s P.L l) (q / hs P.s P.L l) then interp P.M A.val φ P.s P.L odd l p q * ext (at' src b st) P.N (2 * q + odd) else 0 := by
    have := loc_val (M := P.M) (A := A.val) (ia := iav) (odd := odd) h.re s1 p (P.L - 1) (show P.L - 1 < P.L by omega)
    rw [hs_last] at this
    rw [this, show P.L - 1 + 1 = P.L by omega]
    refine Finset.sum_congr rfl fun l hl => ?_
    rw [lval_eq s1 (Finset.mem_range.1 hl), Nn2, hiav]
  rw [← key]
  have pd : p / P.s * P.s + p % P.s = p := by rw [mul_comm]; exact Int.mul_ediv_add_emod p P.s
  have pm0 := Int.emod_nonneg p (show P.s ≠ 0 by omega)
  have pm1 := Int.emod_lt_of_pos p (show 0 < P.s by omega)
  have pr0 : 0 ≤ p / P.s := Int.ediv_nonneg p0 (by omega)
  show (if 0 ≤ p ∧ p < blocks (P.L - 1) * 2 * P.s ∧ p % P.s < P.s then _ else (0 : K)) = _
  by_cases hp : p < blocks (P.L - 1) * 2 * P.s
  · rw [if_pos ⟨p0, hp, pm1⟩]
    have : p / P.s < 2 * blocks (P.L - 1) := Int.ediv_lt_of_lt_mul (by omega) (by rw [mul_comm 2]; exact hp)
    refine sum_Ico_congr fun k k0 k1 => ?_
    rw [zero_add, if_pos rfl, vd _ k pr0 this k0 k1, tval (p % P.s) k pm0 pm1 k0 k1 (p / P.s), pd]
  · rw [if_neg (by omega)]
    refine (Finset.sum_eq_zero fun k _ => ?_).symm
    rw [loc_zero, zero_mul]
    refine (Int.le_ediv_iff_mul_le (by omega)).2 ?_
    rw [mul_comm 2]; omega

end
end FT.Props.Lc
