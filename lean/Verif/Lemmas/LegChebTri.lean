import Verif.Lemmas.LegChebFar

/-! # The products with the triangular matrices, and those with the two matrices of the Lagrange basis -/

namespace FT.Props.Lc
open FT FT.Poly FT.Model.Lc
variable {K : Type*} [Field K] [CharZero K] [DecidableEq K]

/-! ## The Lagrange basis -/

omit [CharZero K] [DecidableEq K] in
theorem gemv_at {trans : Bool} {m n : Int} {A : Buf K} {oA lda : Int} {x : Buf K} {ox : Int} {beta : K} {y : Buf K} {oy : Int} (h1 : 0 ≤ oA) (h2 : oA + m * lda ≤ A.size) (h3 : n ≤ lda) (h4 : 0 ≤ ox)
    (h5 : ox + n ≤ x.size) (h6 : 0 ≤ oy) (h7 : oy + m ≤ y.size) : ∃ y', gemv trans m n A oA lda x ox beta y oy = some y' ∧ y'.size = y.size ∧
      (∀ k, 0 ≤ k → k < m → y'.val (oy + k) = ∑ j ∈ Finset.Ico 0 n, (if trans then A.val (oA + j * lda + k) else A.val (oA + k * lda + j)) * x.val (ox + j) + beta * y.val (oy + k)) ∧
      ∀ q, ¬ (oy ≤ q ∧ q < oy + m) → y'.val q = y.val q := by
  refine ⟨_, if_pos ⟨h1, h2, h3, h4, h5, h6, h7⟩, rfl, fun k k0 k1 => ?_, fun q hq => if_neg hq⟩
  dsimp only
  rw [if_pos (by omega), show oy + k - oy = k by ring]

/-- The matrices of the Lagrange basis. -/
def lagR (P : Plan K) (e k j : Int) : K := P.B.val (e * (P.M * P.M) + j * P.M + k)

omit [CharZero K] [DecidableEq K] in
theorem up_lagrange {P : Plan K} (hl : P.lagrange = true) (hM : 1 ≤ P.M) (hB : 2 * (P.M * P.M) ≤ P.B.size) : UpOk P (lagR P) := by
  intro junk wl w1 Nd o h0 h1 h2 h3
  have MM : 0 ≤ P.M * P.M := Int.mul_nonneg (by omega) (by omega)
  unfold m2m
  rw [if_pos hl]
  obtain ⟨Z, e, sZ, vZ, kZ⟩ := gemv_at (trans := true) (m := P.M) (n := P.M) (A := P.B) (oA := 0) (lda := P.M) (x := wl) (ox := Nd) (beta := 0) (y := w1) (oy := o) le_rfl (by omega) le_rfl h0 (by omega) h2 h3
  rw [e, Option.bind_some]
  obtain ⟨Y, e, sY, vY, kY⟩ := gemv_at (trans := true) (m := P.M) (n := P.M) (A := P.B) (oA := P.M * P.M) (lda := P.M) (x := wl) (ox := Nd + P.M) (beta := 1) (y := Z) (oy := o) MM (by omega) le_rfl (by omega) (by omega) h2 (by rw [sZ]; exact h3)
  refine ⟨Y, e, by rw [sY, sZ], fun k k0 k1 => ?_, fun q hq => by rw [kY q hq, kZ q hq]⟩
  rw [vY k k0 k1, vZ k k0 k1, zero_mul, add_zero, one_mul, add_comm]
  unfold lagR
  simp only [if_true, zero_mul, one_mul, zero_add]

omit [CharZero K] [DecidableEq K] in
theorem down_lagrange {P : Plan K} (hl : P.lagrange = true) (hM : 1 ≤ P.M) (hB : 2 * (P.M * P.M) ≤ P.B.size) : DownOk P (lagR P) := by
  intro c0 c1 o o1 h0 h1 h2 h3
  have MM : 0 ≤ P.M * P.M := Int.mul_nonneg (by omega) (by omega)
  unfold l2l
  rw [if_pos hl]
  obtain ⟨Z, e, sZ, vZ, kZ⟩ := gemv_at (trans := false) (m := P.M) (n := P.M) (A := P.B) (oA := 0) (lda := P.M) (x := c0) (ox := o) (beta := 1) (y := c1) (oy := o1) le_rfl (by omega) le_rfl h0 (by omega) h2 (by omega)
  rw [e, Option.bind_some]
  obtain ⟨Y, e, sY, vY, kY⟩ := gemv_at (trans := false) (m := P.M) (n := P.M) (A := P.B) (oA := P.M * P.M) (lda := P.M) (x := c0) (ox := o) (beta := 1) (y := Z) (oy := o1 + P.M) MM (by omega) le_rfl (by omega) (by omega) (by omega) (by rw [sZ]; omega)
  refine ⟨Y, e, by rw [sY, sZ], fun k k0 k1 => ?_, fun k k0 k1 => ?_, fun q hq => by rw [kY q (by omega), kZ q (by omega)]⟩
  · rw [kY _ (by omega), vZ k k0 k1, one_mul, add_comm]
    unfold lagR
    simp only [zero_mul, zero_add, if_neg Bool.false_ne_true]
  · rw [vY k k0 k1, kZ _ (by omega), one_mul, add_comm]
    unfold lagR
    simp only [one_mul, if_neg Bool.false_ne_true]

/-! ## The triangular matrices -/

/-- The sign of the parity. -/
def sg (i : Int) : K := if i % 2 = 0 then 1 else -1

omit [CharZero K] [DecidableEq K] in
theorem sg_even {i : Int} (h : i % 2 = 0) : sg (K := K) i = 1 := if_pos h
omit [CharZero K] [DecidableEq K] in
theorem sg_odd {i : Int} (h : i % 2 = 1) : sg (K := K) i = -1 := if_neg (by omega)
omit [CharZero K] [DecidableEq K] in
theorem sg_add (i j : Int) : sg (K := K) (i + j) = sg i * sg j := by
  unfold sg
  rcases Int.emod_two_eq_zero_or_one i with a | a <;> rcases Int.emod_two_eq_zero_or_one j with b | b <;> rw [a, b]
  · rw [if_pos (by omega)]; simp
  · rw [if_neg (by omega)]; simp
  · rw [if_neg (by omega)]; simp
  · rw [if_pos (by omega)]; simp

/-- The number of entries above the row `k` in compact storage. -/
def tri (k : Int) : Int := k * (k + 1) / 2

theorem tri_two (k : Int) : 2 * tri k = k * (k + 1) := by
  unfold tri
  have := Int.even_mul_succ_self k
  rw [mul_comm]; exact Int.ediv_mul_cancel this.two_dvd

theorem tri_succ (k : Int) : tri (k + 1) = tri k + (k + 1) := by
  have a := tri_two k
  have b := tri_two (k + 1)
  have : (k + 1) * (k + 1 + 1) = k * (k + 1) + 2 * (k + 1) := by ring
  omega

theorem tri_nonneg {k : Int} (h : 0 ≤ k) : 0 ≤ tri k := by
  have := tri_two k
  have : 0 ≤ k * (k + 1) := Int.mul_nonneg h (by omega)
  omega

theorem tri_mono {j k : Int} (h0 : 0 ≤ j) (h : j ≤ k) : tri j ≤ tri k := by
  have a := tri_two k
  have b := tri_two j
  have : j * (j + 1) ≤ k * (k + 1) := Int.mul_le_mul h (by omega) (by omega) (by omega)
  omega

/-- What the first loop of `X(matvectri)` leaves in the work array for the entries below `i`. -/
def Mixed (x w : Buf K) (ox m i : Int) : Prop :=
  ∀ j, 0 ≤ j → j < i → w.val j = x.val (ox + j) + sg j * x.val (ox + m + j) ∧ w.val (m + j) = x.val (ox + j) - sg j * x.val (ox + m + j)

omit [CharZero K] [DecidableEq K] in
theorem pairZ_spec {x w : Buf K} {ox m i : Int} (h0 : 0 ≤ ox) (h1 : ox + 2 * m ≤ x.size) (sw : (w.size : Int) = 2 * m) (i0 : 0 ≤ i) (i1 : i < m) (hw : Mixed x w ox m i) :
    (i % 2 = 0 → ∃ w', pairZ x ox m i w = some w' ∧ w'.size = w.size ∧ Mixed x w' ox m (i + 1)) ∧ (i % 2 = 1 → ∃ w', pairZ' x ox m i w = some w' ∧ w'.size = w.size ∧ Mixed x w' ox m (i + 1)) := by
  have key : ∀ a b : K, a = x.val (ox + i) + sg i * x.val (ox + m + i) → b = x.val (ox + i) - sg i * x.val (ox + m + i) →
      Mixed x (⟨w.size, Function.update (Function.update w.val i a) (m + i) b⟩ : Buf K) ox m (i + 1) := by
    intro a b ha hb j j0 j1
    dsimp only
    by_cases e : j = i
    · subst e
      rw [Function.update_of_ne (by omega), Function.update_self, Function.update_self]
      exact ⟨ha, hb⟩
    · rw [Function.update_of_ne (by omega), Function.update_of_ne (by omega), Function.update_of_ne (by omega), Function.update_of_ne (by omega)]
      exact hw j j0 (by omega)
  constructor <;> intro c
  · unfold pairZ
    rw [Buf.rd_of (by omega) (by omega), Option.bind_some, Buf.rd_of (by omega) (by omega), Option.bind_some, Buf.wr_of i0 (by omega), Option.bind_some, Buf.wr_of (by omega) (by show m + i < (w.size : Int); omega)]
    exact ⟨_, rfl, rfl, key _ _ (by rw [sg_even c, one_mul]) (by rw [sg_even c, one_mul])⟩
  · unfold pairZ'
    rw [Buf.rd_of (by omega) (by omega), Option.bind_some, Buf.rd_of (by omega) (by omega), Option.bind_some, Buf.wr_of i0 (by omega), Option.bind_some, Buf.wr_of (by omega) (by show m + i < (w.size : Int); omega)]
    exact ⟨_, rfl, rfl, key _ _ (by rw [sg_odd c]; ring) (by rw [sg_odd c]; ring)⟩

omit [CharZero K] [DecidableEq K] in
theorem pairs_spec {x w : Buf K} {ox m c : Int} (h0 : 0 ≤ ox) (h1 : ox + 2 * m ≤ x.size) (sw : (w.size : Int) = 2 * m) (c0 : 0 ≤ c) (c1 : 2 * c ≤ m) :
    ∃ w', forUp 0 c (fun k w => (fun i w => (pairZ x ox m i w).bind (pairZ' x ox m (i + 1))) (0 + 2 * k) w) w = some w' ∧ w'.size = w.size ∧ Mixed x w' ox m (2 * c) := by
  obtain ⟨w', e, s, p⟩ := forUp_spec (lo := 0) (hi := c) (s := w) (body := fun k w => (fun i w => (pairZ x ox m i w).bind (pairZ' x ox m (i + 1))) (0 + 2 * k) w)
    (fun J w' => w'.size = w.size ∧ Mixed x w' ox m (2 * J)) ⟨rfl, fun j a b => by omega⟩ (fun J J0 J1 Z ⟨sZ, mZ⟩ => by
      beta_reduce
      rw [zero_add]
      obtain ⟨Y, e, sY, mY⟩ := (pairZ_spec h0 h1 (by rw [sZ]; exact sw) (by omega) (by omega) mZ).1 (by omega)
      rw [e, Option.bind_some]
      obtain ⟨X, e, sX, mX⟩ := (pairZ_spec h0 h1 (by rw [sY, sZ]; exact sw) (by omega) (by omega) mY).2 (by omega)
      exact ⟨X, e, by rw [sX, sY, sZ], by rw [show 2 * (J + 1) = 2 * J + 1 + 1 by ring]; exact mX⟩)
  rw [max_eq_right c0] at p
  exact ⟨w', e, s, p⟩

omit [CharZero K] [DecidableEq K] in
theorem rowZ_spec {A w : Buf K} {a z i : Int} (a0 : 0 ≤ a) (a1 : a + i < A.size) (z0 : 0 ≤ z) (z1 : z + i < w.size) (i0 : 0 ≤ i) :
    rowZ A w a z i = some (∑ j ∈ Finset.Ico 0 (i + 1), A.val (a + j) * w.val (z + j)) := by
  unfold rowZ
  rw [Buf.rd_of a0 (by omega), Option.bind_some, Buf.rd_of z0 (by omega), Option.bind_some, accUp_eq (g := fun j => A.val (a + j) * w.val (z + j)) fun j j0 j1 => by
    rw [Buf.rd_of (by omega) (by omega), Option.bind_some, Buf.rd_of (by omega) (by omega), Option.bind_some]]
  rw [sum_Ico_pred (lo := 0) (by omega), zero_add, add_zero, add_zero]

/-- The entry of the product. -/
def lowRow (A x : Buf K) (ox m k : Int) : K := ∑ j ∈ Finset.Ico 0 (k + 1), A.val (tri k + j) * (x.val (ox + j) + sg (k + j) * x.val (ox + m + j))

omit [CharZero K] [DecidableEq K] in
theorem row_even {A x w : Buf K} {ox m k : Int} (hA : tri m ≤ A.size) (sw : (w.size : Int) = 2 * m) (hw : Mixed x w ox m m) (k0 : 0 ≤ k) (k1 : k < m) (c : k % 2 = 0) :
    rowZ A w (tri k) 0 k = some (lowRow A x ox m k) := by
  have t0 := tri_nonneg k0
  have t1 := tri_mono (j := k + 1) (k := m) (by omega) (by omega)
  rw [tri_succ] at t1
  rw [rowZ_spec t0 (by omega) le_rfl (by omega) k0]
  congr 1
  refine sum_Ico_congr fun j j0 j1 => ?_
  rw [zero_add, (hw j j0 (by omega)).1, sg_add, sg_even c, one_mul]

omit [CharZero K] [DecidableEq K] in
theorem row_odd {A x w : Buf K} {ox m k : Int} (hA : tri m ≤ A.size) (sw : (w.size : Int) = 2 * m) (hw : Mixed x w ox m m) (k0 : 0 ≤ k) (k1 : k < m) (c : k % 2 = 1) :
    rowZ A w (tri k) m k = some (lowRow A x ox m k) := by
  have t0 := tri_nonneg k0
  have t1 := tri_mono (j := k + 1) (k := m) (by omega) (by omega)
  rw [tri_succ] at t1
  rw [rowZ_spec t0 (by omega) (by omega) (by omega) k0]
  congr 1
  refine sum_Ico_congr fun j j0 j1 => ?_
  rw [(hw j j0 (by omega)).2, sg_add, sg_odd c]
  ring

/-- The result holds the entries of the product below `k`, and what it held elsewhere. -/
def Rows (A x b b' : Buf K) (ox m ob k : Int) : Prop :=
  b'.size = b.size ∧ (∀ j, 0 ≤ j → j < k → b'.val (ob + j) = lowRow A x ox m j) ∧ ∀ q, ¬ (ob ≤ q ∧ q < ob + k) → b'.val q = b.val q

omit [CharZero K] [DecidableEq K] in
theorem Rows.wr {A x b b' : Buf K} {ox m ob k : Int} (h : Rows A x b b' ox m ob k) (k0 : 0 ≤ k) (k1 : k < m) (o0 : 0 ≤ ob) (o1 : ob + m ≤ b.size) :
    ∃ b'', b'.wr (ob + k) (lowRow A x ox m k) = some b'' ∧ Rows A x b b'' ox m ob (k + 1) := by
  obtain ⟨s, v, r⟩ := h
  rw [Buf.wr_of (by omega) (by rw [s]; omega)]
  refine ⟨_, rfl, s, fun j j0 j1 => ?_, fun q hq => ?_⟩
  · dsimp only
    by_cases e : j = k
    · rw [e, Function.update_self]
    · rw [Function.update_of_ne (by omega)]; exact v j j0 (by omega)
  · dsimp only
    rw [Function.update_of_ne (by omega)]; exact r q (by omega)

omit [CharZero K] in
theorem twoRows_spec {A x w b : Buf K} {ox m ob c : Int} (hA : tri m ≤ A.size) (sw : (w.size : Int) = 2 * m) (hw : Mixed x w ox m m) (o0 : 0 ≤ ob) (o1 : ob + m ≤ b.size) (c0 : 0 ≤ c) (c1 : 2 * c ≤ m) :
    ∃ b', forUp 0 c (fun k r => twoRows A w m ob (0 + 2 * k) r) (0, b) = some (tri (2 * c), b') ∧ Rows A x b b' ox m ob (2 * c) := by
  obtain ⟨⟨p, b'⟩, e, s, r⟩ := forUp_spec (lo := 0) (hi := c) (s := ((0 : Int), b)) (body := fun k r => twoRows A w m ob (0 + 2 * k) r)
    (fun J r => r.1 = tri (2 * J) ∧ Rows A x b r.2 ox m ob (2 * J)) ⟨rfl, rfl, fun j a b => by omega, fun q _ => rfl⟩ (fun J J0 J1 ⟨p, Z⟩ ⟨hp, hZ⟩ => by
      dsimp only at hp hZ
      have t1 := tri_succ (2 * J)
      have t2 := tri_succ (2 * J + 1)
      unfold twoRows
      dsimp only
      rw [hp, zero_add, row_even hA sw hw (by omega) (by omega) (by omega), Option.bind_some, show tri (2 * J) + 2 * J + 1 = tri (2 * J + 1) by omega, row_odd hA sw hw (by omega) (by omega) (by omega), Option.bind_some]
      obtain ⟨Y, e, hY⟩ := hZ.wr (by omega) (by omega) o0 o1
      rw [e, Option.bind_some, show ob + 2 * J + 1 = ob + (2 * J + 1) by ring]
      obtain ⟨X, e, hX⟩ := hY.wr (by omega) (by omega) o0 o1
      rw [e, Option.bind_some]
      refine ⟨_, rfl, ?_, ?_⟩
      · dsimp only; rw [show 2 * (J + 1) = 2 * J + 1 + 1 by ring]; omega
      · dsimp only; rw [show 2 * (J + 1) = 2 * J + 1 + 1 by ring]; exact hX)
  rw [max_eq_right c0] at s r
  dsimp only at s r
  exact ⟨b', by rw [e, s], r⟩

omit [CharZero K] in
theorem triLower_spec {A x b w : Buf K} {ox ob m : Int} (hm : 2 ≤ m) (hm' : m < 2 ^ 31) (hA : tri m ≤ A.size) (h0 : 0 ≤ ox) (h1 : ox + 2 * m ≤ x.size) (sw : (w.size : Int) = 2 * m) (o0 : 0 ≤ ob) (o1 : ob + m ≤ b.size) :
    ∃ b', triLower A x ox b ob w m = some b' ∧ Rows A x b b' ox m ob m := by
  have p31 : (2 : Int) ^ 31 = 2147483648 := by norm_num
  have p64 : (2 : Int) ^ 64 = 18446744073709551616 := by norm_num
  unfold triLower
  split_ifs with c
  · obtain ⟨w', e, s, p⟩ := pairs_spec (c := m / 2) h0 h1 sw (by omega) (by omega)
    rw [forStep_forUp (by omega), show (m - 0 + 2 - 1) / 2 = m / 2 by omega, e, Option.bind_some]
    rw [show 2 * (m / 2) = m by omega] at p
    obtain ⟨b', e, r⟩ := twoRows_spec (c := m / 2) hA (by rw [s]; exact sw) p o0 o1 (by omega) (by omega)
    rw [forStep_forUp (by omega), show (m - 0 + 2 - 1) / 2 = m / 2 by omega, e, Option.bind_some]
    rw [show 2 * (m / 2) = m by omega] at r
    exact ⟨b', rfl, r⟩
  · have szm : sz (m - 2) = m - 2 := Int.emod_eq_of_lt (by omega) (by omega)
    obtain ⟨w', e, s, p⟩ := pairs_spec (c := (m - 1) / 2) h0 h1 sw (by omega) (by omega)
    rw [szm, forStep_forUp (by omega), show (m - 2 - 0 + 2 - 1) / 2 = (m - 1) / 2 by omega, e, Option.bind_some]
    rw [show 2 * ((m - 1) / 2) = m - 1 by omega] at p
    obtain ⟨w'', e, s', p'⟩ := (pairZ_spec h0 h1 (by rw [s]; exact sw) (by omega) (by omega) p).1 (by omega)
    rw [e, Option.bind_some]
    rw [show m - 1 + 1 = m by ring] at p'
    have sw'' : (w''.size : Int) = 2 * m := by rw [s', s]; exact sw
    obtain ⟨b', e, r⟩ := twoRows_spec (c := (m - 1) / 2) hA sw'' p' o0 o1 (by omega) (by omega)
    rw [forStep_forUp (by omega), show (m - 2 - 0 + 2 - 1) / 2 = (m - 1) / 2 by omega, e, Option.bind_some]
    rw [show 2 * ((m - 1) / 2) = m - 1 by omega] at r ⊢
    dsimp only
    rw [row_even hA sw'' p' (by omega) (by omega) (by omega), Option.bind_some]
    obtain ⟨b'', e, r'⟩ := r.wr (by omega) (by omega) o0 o1
    rw [show m - 1 + 1 = m by ring] at r'
    exact ⟨b'', e, r'⟩

/-- The matrices of the Chebyshev basis. -/
def chR (P : Plan K) (e k j : Int) : K := if j ≤ k then (if e = 0 then 1 else sg (k + j)) * P.B.val (tri k + j) else 0

omit [CharZero K] in
theorem up_cheb {P : Plan K} (hl : P.lagrange = false) (hM : 2 ≤ P.M) (hM' : P.M < 2 ^ 31) (hB : tri P.M ≤ P.B.size) : UpOk P (chR P) := by
  intro junk wl w1 Nd o h0 h1 h2 h3
  unfold m2m
  rw [if_neg (by rw [hl]; simp)]
  obtain ⟨b', e, s, v, r⟩ := triLower_spec (w := ⟨(2 * P.M).toNat, junk⟩) hM hM' hB h0 h1 (by show (((2 * P.M).toNat : ℕ) : Int) = _; omega) h2 h3
  refine ⟨b', e, s, fun k k0 k1 => ?_, r⟩
  rw [v k k0 k1, ← Finset.sum_add_distrib]
  unfold lowRow
  rw [sum_Ico_shrink (lo := 0) (hi := P.M) (lo' := 0) (hi' := k + 1) (f := fun j => chR P 0 k j * wl.val (Nd + j) + chR P 1 k j * wl.val (Nd + P.M + j)) (fun j j0 j1 hj => ?_) le_rfl (by omega)]
  · refine sum_Ico_congr fun j j0 j1 => ?_
    unfold chR
    rw [if_pos (show j ≤ k by omega), if_pos (show j ≤ k by omega), if_pos rfl, if_neg (by norm_num)]
    ring
  · unfold chR
    rw [if_neg (by omega), if_neg (by omega)]; ring

/-- The number of entries above the row `i` of an upper triangular matrix in compact storage. -/
def trU (m i : Int) : Int := i * m - tri (i - 1)

theorem trU_succ (m i : Int) : trU m (i + 1) = trU m i + (m - i) := by
  unfold trU
  have := tri_succ (i - 1)
  rw [show i - 1 + 1 = i by ring] at this
  have f : (i + 1) * m = i * m + m := by ring
  rw [show i + 1 - 1 = i by ring]
  omega

theorem trU_zero (m : Int) : trU m 0 = 0 := by unfold trU tri; norm_num

theorem trU_last (m : Int) : trU m m = tri m := by
  unfold trU
  have a := tri_two m
  have b := tri_two (m - 1)
  have : (m - 1) * (m - 1 + 1) = m * m - m := by ring
  have : m * (m + 1) = m * m + m := by ring
  omega

theorem trU_bounds {m i : Int} (i0 : 0 ≤ i) (i1 : i ≤ m) : 0 ≤ trU m i ∧ trU m i + tri (m - i) = tri m := by
  have a := tri_two m
  have b := tri_two (i - 1)
  have c := tri_two (m - i)
  have d := tri_nonneg (k := m - i) (by omega)
  unfold trU
  have : (i - 1) * (i - 1 + 1) = i * i - i := by ring
  have : m * (m + 1) = m * m + m := by ring
  have : (m - i) * (m - i + 1) = m * m - 2 * (i * m) + i * i + m - i := by ring
  have : 0 ≤ i * (m - i) := Int.mul_nonneg i0 (by omega)
  have : i * (m - i) = i * m - i * i := by ring
  have : 0 ≤ i * i := Int.mul_nonneg i0 i0
  omega

/-- The entry of the product with the transpose; `e = 1` with alternating signs. -/
def upRow (A x : Buf K) (ox m : Int) (e : Bool) (i : Int) : K := ∑ d ∈ Finset.Ico 0 (m - i), (if e then sg d else 1) * (A.val (trU m i + d) * x.val (ox + i + d))

omit [CharZero K] in
theorem triUpper_spec {A x b : Buf K} {ox ob m : Int} (hm : 1 ≤ m) (hA : tri m ≤ A.size) (h0 : 0 ≤ ox) (h1 : ox + m ≤ x.size) (o0 : 0 ≤ ob) (o1 : ob + 2 * m ≤ b.size) :
    ∃ b', triUpper A x ox b ob m = some b' ∧ b'.size = b.size ∧ (∀ k, 0 ≤ k → k < m → b'.val (ob + k) = b.val (ob + k) + upRow A x ox m false k) ∧
      (∀ k, 0 ≤ k → k < m → b'.val (ob + m + k) = b.val (ob + m + k) + upRow A x ox m true k) ∧ ∀ q, ¬ (ob ≤ q ∧ q < ob + 2 * m) → b'.val q = b.val q := by
  unfold triUpper
  obtain ⟨⟨p, b'⟩, e, s, hp, v0, v1, r⟩ := forUp_spec (lo := 0) (hi := m) (s := ((0 : Int), b))
    (body := fun i (r : Int × Buf K) =>
      (forStep i (m - 1) 2 (fun j (t : Int × K × K) => (A.rd t.1).bind fun p => (x.rd (ox + j)).bind fun q => (A.rd (t.1 + 1)).bind fun p' => (x.rd (ox + j + 1)).bind fun q' =>
        some (t.1 + 2, t.2.1 + p * q, t.2.2 + p' * q')) (r.1, 0, 0)).bind fun t =>
      (if (i + m) % 2 = 1 then (A.rd t.1).bind fun p => (x.rd (ox + (m - 1))).bind fun q => some (t.1 + 1, t.2.1 + p * q, t.2.2) else some t).bind fun t =>
      (addAt r.2 (ob + i) (t.2.1 + t.2.2)).bind fun b => (addAt b (ob + m + i) (t.2.1 - t.2.2)).bind fun b => some (t.1, b))
    (fun J r => r.2.size = b.size ∧ r.1 = trU m J ∧ (∀ k, 0 ≤ k → k < m → r.2.val (ob + k) = b.val (ob + k) + if k < J then upRow A x ox m false k else 0) ∧
      (∀ k, 0 ≤ k → k < m → r.2.val (ob + m + k) = b.val (ob + m + k) + if k < J then upRow A x ox m true k else 0) ∧ ∀ q, ¬ (ob ≤ q ∧ q < ob + 2 * m) → r.2.val q = b.val q)
    ⟨rfl, (trU_zero m).symm, fun k k0 _ => by rw [if_neg (by omega), add_zero], fun k k0 _ => by rw [if_neg (by omega), add_zero], fun q _ => rfl⟩
    (fun J J0 J1 ⟨p, Z⟩ ⟨sZ, hp, v0, v1, r⟩ => by
      dsimp only at sZ hp v0 v1 r
      subst hp
      obtain ⟨u0, u1⟩ := trU_bounds (m := m) J0 (by omega)
      have u2 := tri_succ (m - J - 1)
      have u3 := tri_nonneg (k := m - J - 1) (by omega)
      rw [show m - J - 1 + 1 = m - J by ring] at u2
      dsimp only
      rw [forStep_forUp (by omega), show (m - 1 - J + 2 - 1) / 2 = (m - J) / 2 by omega]
      obtain ⟨⟨p, z0, z1⟩, e, hp, ha, hs⟩ := forUp_spec (lo := 0) (hi := (m - J) / 2) (s := ((trU m J, 0, 0) : Int × K × K))
        (body := fun k (t : Int × K × K) => (fun j (t : Int × K × K) => (A.rd t.1).bind fun p => (x.rd (ox + j)).bind fun q => (A.rd (t.1 + 1)).bind fun p' => (x.rd (ox + j + 1)).bind fun q' =>
          some (t.1 + 2, t.2.1 + p * q, t.2.2 + p' * q')) (J + 2 * k) t)
        (fun I t => t.1 = trU m J + 2 * I ∧ t.2.1 + t.2.2 = ∑ d ∈ Finset.Ico 0 (2 * I), 1 * (A.val (trU m J + d) * x.val (ox + J + d)) ∧
          t.2.1 - t.2.2 = ∑ d ∈ Finset.Ico 0 (2 * I), sg d * (A.val (trU m J + d) * x.val (ox + J + d)))
        ⟨by simp, by simp, by simp⟩ (fun I I0 I1 ⟨p, z0, z1⟩ ⟨hp, ha, hs⟩ => by
          dsimp only at hp ha hs ⊢
          subst hp
          rw [Buf.rd_of (by omega) (by omega), Option.bind_some, Buf.rd_of (by omega) (by omega), Option.bind_some, Buf.rd_of (by omega) (by omega), Option.bind_some, Buf.rd_of (by omega) (by omega), Option.bind_some]
          have g1 : trU m J + 2 * I + 1 = trU m J + (2 * I + 1) := by ring
          have g2 : ox + (J + 2 * I) = ox + J + 2 * I := by ring
          have g3 : ox + J + 2 * I + 1 = ox + J + (2 * I + 1) := by ring
          refine ⟨_, rfl, by ring, ?_, ?_⟩
          · dsimp only
            rw [show 2 * (I + 1) = 2 * I + 1 + 1 by ring, sum_Ico_succ (by omega), sum_Ico_succ (by omega), ← ha, g1, g2, g3]; ring
          · dsimp only
            rw [show 2 * (I + 1) = 2 * I + 1 + 1 by ring, sum_Ico_succ (by omega), sum_Ico_succ (by omega), ← hs, sg_even (i := 2 * I) (by omega), sg_odd (i := 2 * I + 1) (by omega), g1, g2, g3]; ring)
      rw [e, Option.bind_some]
      rw [max_eq_right (by omega)] at hp ha hs
      dsimp only at hp ha hs
      obtain ⟨y0, y1, e2, a2, s2⟩ : ∃ y0 y1 : K, (if (J + m) % 2 = 1 then (A.rd p).bind fun p' => (x.rd (ox + (m - 1))).bind fun q => some (p + 1, z0 + p' * q, z1) else some (p, z0, z1)) = some (trU m (J + 1), y0, y1) ∧
          y0 + y1 = upRow A x ox m false J ∧ y0 - y1 = upRow A x ox m true J := by
        unfold upRow
        rw [trU_succ]
        simp only [if_true, if_neg Bool.false_ne_true]
        split_ifs with c
        · subst hp
          rw [Buf.rd_of (by omega) (by omega), Option.bind_some, Buf.rd_of (by omega) (by omega), Option.bind_some]
          have g2 : ox + (m - 1) = ox + J + 2 * ((m - J) / 2) := by omega
          generalize hc : (m - J) / 2 = cc at *
          have mj : m - J = 2 * cc + 1 := by omega
          refine ⟨_, _, by rw [show trU m J + 2 * cc + 1 = trU m J + (m - J) by omega], ?_, ?_⟩
          · rw [mj, sum_Ico_succ (by omega), ← ha, g2]; ring
          · rw [mj, sum_Ico_succ (by omega), ← hs, sg_even (i := 2 * cc) (by omega), g2]; ring
        · exact ⟨z0, z1, by rw [hp, show 2 * ((m - J) / 2) = m - J by omega], by rw [ha, show 2 * ((m - J) / 2) = m - J by omega], by rw [hs, show 2 * ((m - J) / 2) = m - J by omega]⟩
      rw [e2, Option.bind_some]
      dsimp only
      rw [addAt_eq (by omega) (by rw [sZ]; omega), Option.bind_some, addAt_eq (by omega) (by show ob + m + J < (Z.size : Int); rw [sZ]; omega), Option.bind_some, bump_bump, a2, s2]
      refine ⟨_, rfl, sZ, rfl, fun k k0 k1 => ?_, fun k k0 k1 => ?_, fun q hq => ?_⟩
      · show Z.val (ob + k) + _ = _
        beta_reduce
        rw [v0 k k0 k1, if_neg (show ¬ ob + k = ob + m + J by omega), add_zero]
        by_cases c : k = J
        · subst c; rw [if_neg (by omega), if_pos rfl, if_pos (by omega), add_zero]
        · rw [if_neg (show ¬ ob + k = ob + J by omega), add_zero]
          congr 1
          by_cases c' : k < J
          · rw [if_pos c', if_pos (by omega)]
          · rw [if_neg c', if_neg (by omega)]
      · show Z.val (ob + m + k) + _ = _
        beta_reduce
        rw [v1 k k0 k1, if_neg (show ¬ ob + m + k = ob + J by omega), zero_add]
        by_cases c : k = J
        · subst c; rw [if_neg (by omega), if_pos rfl, if_pos (by omega), add_zero]
        · rw [if_neg (show ¬ ob + m + k = ob + m + J by omega), add_zero]
          congr 1
          by_cases c' : k < J
          · rw [if_pos c', if_pos (by omega)]
          · rw [if_neg c', if_neg (by omega)]
      · show Z.val q + _ = _
        beta_reduce
        rw [r q hq, if_neg (by omega), if_neg (by omega), add_zero, add_zero])
  rw [max_eq_right (by omega)] at hp v0 v1
  rw [e, Option.bind_some]
  dsimp only at s hp v0 v1 r
  exact ⟨b', rfl, s, fun k k0 k1 => by rw [v0 k k0 k1, if_pos k1], fun k k0 k1 => by rw [v1 k k0 k1, if_pos k1], r⟩

/-- `BT` is the transpose of `B`. -/
def IsTrans (P : Plan K) : Prop := ∀ i d, 0 ≤ i → 0 ≤ d → i + d < P.M → P.BT.val (trU P.M i + d) = P.B.val (tri (i + d) + i)

omit [CharZero K] in
theorem down_cheb {P : Plan K} (hl : P.lagrange = false) (hM : 2 ≤ P.M) (hB : tri P.M ≤ P.BT.size) (ht : IsTrans P) : DownOk P (chR P) := by
  intro c0 c1 o o1 h0 h1 h2 h3
  unfold l2l
  rw [if_neg (by rw [hl]; simp)]
  obtain ⟨b', e, s, v0, v1, r⟩ := triUpper_spec (A := P.BT) (x := c0) (b := c1) (by omega) hB h0 h1 h2 h3
  have key : ∀ ε k, (ε = 0 ∨ ε = 1) → 0 ≤ k → k < P.M → upRow P.BT c0 o P.M (decide (ε = 1)) k = ∑ j ∈ Finset.Ico 0 P.M, chR P ε j k * c0.val (o + j) := by
    intro ε k hε k0 k1
    unfold upRow
    rw [sum_Ico_shrink (lo := 0) (hi := P.M) (lo' := k) (hi' := P.M) (fun j j0 j1 hj => by unfold chR; rw [if_neg (by omega), zero_mul]) k0 le_rfl, sum_shift k P.M (-k), show k + -k = 0 by ring, ← sub_eq_add_neg]
    refine sum_Ico_congr fun d d0 d1 => ?_
    unfold chR
    rw [show d - -k = k + d by ring, if_pos (show k ≤ k + d by omega), ht k d k0 d0 (by omega), ← add_assoc]
    rcases hε with rfl | rfl
    · simp
    · rw [show k + d + k = 2 * k + d by ring, sg_add, sg_even (i := 2 * k) (by omega), one_mul]
      simp [mul_assoc]
  refine ⟨b', e, s, fun k k0 k1 => ?_, fun k k0 k1 => ?_, r⟩
  · rw [v0 k k0 k1, ← key 0 k (Or.inl rfl) k0 k1]; rfl
  · rw [v1 k k0 k1, ← key 1 k (Or.inr rfl) k0 k1]; rfl

end FT.Props.Lc
