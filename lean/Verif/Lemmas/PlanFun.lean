import Verif.Props.Functions
import Verif.Props.TransformSem
import Verif.Props.PlansScale
import Verif.Model.HarmonicPlans
import Mathlib.RingTheory.Polynomial.Chebyshev

/-!
# From rotations and connection matrices to functions
-/

namespace FT.Props.Fun
open FT FT.Poly FT.Model FT.Fmm FT.Props.Hier FT.Props.Plan Polynomial
variable {K : Type*} [Field K] [LinearOrder K] [IsStrictOrderedRing K] {F : Libm K}

/-! ## Chebyshev polynomials -/

theorem jacB_che {n : Int} (hn : 2 ≤ n) : jacB (-1 / 2 : K) (-1 / 2) n = 1 / 4 := by
  have h : (2 : K) ≤ n := by exact_mod_cast hn
  unfold jacB
  rw [if_neg (by omega)]
  have h1 : (2 * (n : K) - 1) ≠ 0 := by linarith
  have h2 : ((n : K) - 1) ≠ 0 := by linarith
  have h3 : (n : K) ≠ 0 := by linarith
  rw [show 2 * (n : K) + -1 / 2 + -1 / 2 = 2 * n - 1 by ring, show 2 * (n : K) - 1 - 1 = 2 * (n - 1) by ring, show 2 * (n : K) - 1 + 1 = 2 * n by ring,
    show 4 * (n : K) * (n + -1 / 2) * (n + -1 / 2) * (n + -1 / 2 + -1 / 2) = n * (2 * n - 1) * (2 * n - 1) * (n - 1) by ring]
  generalize 2 * (n : K) - 1 = a at *
  generalize (n : K) - 1 = b at *
  field_simp
  norm_num

theorem jacB_sec {n : Int} (hn : 1 ≤ n) : jacB (1 / 2 : K) (1 / 2) n = 1 / 4 := by
  have h : (1 : K) ≤ n := by exact_mod_cast hn
  unfold jacB
  split_ifs
  · norm_num
  have h1 : (2 * (n : K) + 1) ≠ 0 := by linarith
  have h2 : ((n : K) + 1) ≠ 0 := by linarith
  have h3 : (n : K) ≠ 0 := by linarith
  rw [show 2 * (n : K) + 1 / 2 + 1 / 2 = 2 * n + 1 by ring, show 2 * (n : K) + 1 - 1 = 2 * n by ring, show 2 * (n : K) + 1 + 1 = 2 * (n + 1) by ring,
    show 4 * (n : K) * (n + 1 / 2) * (n + 1 / 2) * (n + 1 / 2 + 1 / 2) = n * (2 * n + 1) * (2 * n + 1) * (n + 1) by ring]
  generalize 2 * (n : K) + 1 = a at *
  generalize (n : K) + 1 = b at *
  field_simp
  norm_num

theorem jacA_self (a : K) (n : Int) : jacA a a n = 0 := by unfold jacA; simp

/-- The standard Chebyshev polynomials of the specification are those of Mathlib. -/
theorem che_T (F : Libm K) {n : Int} (hn : 0 ≤ n) : Che F false n = Chebyshev.T K n := by
  show C (lead chebR n) * jacobi (-1 / 2) (-1 / 2) n = _
  unfold jacobi
  refine two_step (P := fun n => C (lead chebR n) * monic (jacA (-1 / 2 : K) (-1 / 2)) (jacB (-1 / 2) (-1 / 2)) n = Chebyshev.T K n) ?_ (fun n n0 ih ih' => ?_) hn
  · rw [lead_zero, monic_zero]; simp
  · rw [monic_succ n0, jacA_self, lead_succ _ n0]
    rcases Int.lt_or_eq_of_le n0 with h | rfl
    · obtain ⟨m, rfl⟩ : ∃ m, n = m + 1 := ⟨n - 1, by omega⟩
      have i1 := ih' (by omega)
      rw [show m + 1 - 1 = m by ring] at i1 ⊢
      rw [show m + 1 + 1 = m + 2 by ring, Chebyshev.T_add_two, ← ih, ← i1]
      have e1 : chebR (K := K) (m + 1) = 2 := if_neg (by omega)
      have e2 : lead chebR (m + 1) * 2 * jacB (-1 / 2) (-1 / 2) (m + 1) = lead chebR (K := K) m := by
        rw [lead_succ _ (by omega)]
        rcases eq_or_ne m 0 with rfl | hm
        · rw [lead_zero, show chebR (K := K) 0 = 1 from if_pos rfl, show jacB (-1 / 2 : K) (-1 / 2) (0 + 1) = 1 / 2 by unfold jacB; norm_num]; norm_num
        · rw [show chebR (K := K) m = 2 from if_neg hm, jacB_che (by omega)]; ring
      rw [e1]
      have e3 := congrArg (C (R := K)) e2
      rw [C_mul, C_mul] at e3
      rw [C_mul, C_0, show (C (2 : K)) = 2 from rfl] at *
      linear_combination -monic (jacA (-1 / 2 : K) (-1 / 2)) (jacB (-1 / 2) (-1 / 2)) m * e3
    · rw [monic_neg (n := 0 - 1) (by norm_num), lead_zero, monic_zero, show chebR (K := K) 0 = 1 from if_pos rfl]; simp

/-- The standard ultraspherical polynomials with parameter 1 are the Chebyshev polynomials of the second kind. -/
theorem ult_U (F : Libm K) {n : Int} (hn : 0 ≤ n) : Ult F false 1 n = Chebyshev.U K n := by
  show C (lead (ultR 1) n) * jacobi (1 - 1 / 2) (1 - 1 / 2) n = _
  unfold jacobi
  rw [show (1 : K) - 1 / 2 = 1 / 2 by norm_num]
  have hr : ∀ m : Int, 0 ≤ m → ultR (1 : K) m = 2 := fun m hm => by
    have : (0 : K) ≤ m := by exact_mod_cast hm
    unfold ultR
    rw [mul_div_assoc, div_self (by linarith), mul_one]
  refine two_step (P := fun n => C (lead (ultR 1) n) * monic (jacA (1 / 2 : K) (1 / 2)) (jacB (1 / 2) (1 / 2)) n = Chebyshev.U K n) ?_ (fun n n0 ih ih' => ?_) hn
  · rw [lead_zero, monic_zero]; simp
  · rw [monic_succ n0, jacA_self, lead_succ _ n0, hr n n0]
    rcases Int.lt_or_eq_of_le n0 with h | rfl
    · obtain ⟨m, rfl⟩ : ∃ m, n = m + 1 := ⟨n - 1, by omega⟩
      have i1 := ih' (by omega)
      rw [show m + 1 - 1 = m by ring] at i1 ⊢
      rw [show m + 1 + 1 = m + 2 by ring, Chebyshev.U_add_two, ← ih, ← i1, lead_succ _ (by omega : 0 ≤ m), hr m (by omega), jacB_sec (by omega)]
      simp only [C_mul, C_0, show (C (2 : K)) = 2 from rfl]
      have e3 : (2 : K[X]) * 2 * C (1 / 4 : K) = 1 := by
        rw [show (2 : K[X]) = C 2 from rfl, ← C_mul, ← C_mul]; norm_num
      linear_combination -C (lead (ultR 1) m) * monic (jacA (1 / 2 : K) (1 / 2)) (jacB (1 / 2) (1 / 2)) m * e3
    · rw [monic_neg (n := 0 - 1) (by norm_num), lead_zero, monic_zero]; simp [show (C (2 : K)) = 2 from rfl]

/-! ## Columns -/

variable {N M : Int}

omit [LinearOrder K] [IsStrictOrderedRing K] in
theorem sum_range_int {n : Int} (f : Int → K) : ∑ l ∈ Finset.range n.toNat, f l = ∑ l ∈ Finset.Ico 0 n, f l :=
  Finset.sum_bij' (fun l _ => (l : Int)) (fun l _ => l.toNat) (fun l h => by simp at h ⊢; omega) (fun l h => by simp at h ⊢; omega) (fun l _ => by simp) (fun l h => by simp at h ⊢; omega)
    fun _ _ => rfl

/-- The leading block of a connection matrix, or the identity if it is not needed, keeps the value of the expansion. -/
theorem conv_eval {V : Buf K} {p q : Int → K[X]} {c : Prop} (h : Dense N V p q) (hc : ¬c → p = q) (hM : M ≤ N) (r : Int → K) (x : K) :
    ∑ i ∈ Finset.Ico 0 M, (∑ l ∈ Finset.range M.toNat, convMat c N V i l * r l) * (q i).eval x = ∑ l ∈ Finset.Ico 0 M, r l * (p l).eval x := by
  have e : ∀ i, ∑ l ∈ Finset.range M.toNat, convMat c N V i l * r l = ∑ l ∈ Finset.Ico 0 M, convMat c N V i l * r l := fun i => sum_range_int fun l => convMat c N V i l * r l
  simp only [e, Finset.sum_mul]
  rw [Finset.sum_comm]
  refine sum_Ico_congr fun l l0 l1 => ?_
  have key : ∑ i ∈ Finset.Ico 0 M, convMat c N V i l * (q i).eval x = (p l).eval x := by
    by_cases h' : c
    · rw [h.conn l l0 (by omega), eval_finsetSum]
      simp only [eval_mul, eval_C]
      rw [sum_Ico_shrink (f := fun i => V.val (i + l * N) * (q i).eval x) (lo := 0) (hi := N) (lo' := 0) (hi' := M) (fun k k0 k1 hk => by rw [h.upper k l l0 (by omega) k1, zero_mul]) le_rfl hM]
      refine sum_Ico_congr fun i i0 i1 => ?_
      unfold convMat mat
      rw [if_pos h']
      split_ifs with h2
      · rfl
      · rw [h.upper i l l0 (by omega) (by omega)]
    · rw [hc h']
      unfold convMat
      simp only [h', if_false, ite_mul, one_mul, zero_mul, Finset.sum_ite_eq', Finset.mem_Ico]
      rw [if_pos ⟨l0, l1⟩]
  rw [← key, Finset.mul_sum]
  exact sum_Ico_congr fun i _ _ => by ring

/-- A connection matrix keeps the value of the expansion. -/
theorem dense_eval {V : Buf K} {p q : Int → K[X]} (h : Dense N V p q) (r : Int → K) (x : K) :
    ∑ i ∈ Finset.Ico 0 N, (∑ l ∈ Finset.range N.toNat, mat N V i l * r l) * (q i).eval x = ∑ l ∈ Finset.Ico 0 N, r l * (p l).eval x := by
  have e := congrArg (Polynomial.eval x) (C61_dense_apply h r)
  unfold combination at e
  rw [eval_finsetSum, eval_finsetSum] at e
  simp only [eval_mul, eval_C] at e
  rw [e]
  refine sum_Ico_congr fun i i0 i1 => ?_
  congr 1
  rw [sum_range_int (n := N) fun l => mat N V i l * r l, sum_Ico_shrink (f := fun l => mat N V i l * r l) (lo := 0) (hi := N) (lo' := i) (hi' := N)
    (fun k k0 k1 hk => by unfold mat; rw [if_neg (by omega), zero_mul]) i0 le_rfl]
  exact sum_Ico_congr fun l l0 l1 => by unfold mat; rw [if_pos l0]

variable {X : Type*} {G : Geom} {RP : RotPlan K} {rows : Int → Int} {okx : X → Prop} {φ : X → Int → Int → K} {base ord : Int → Int}

omit [LinearOrder K] [IsStrictOrderedRing K] in
/-- Rotating the columns keeps the function in every column. -/
theorem columnwise_sum (hg : IsGeom G) (hT : TablesOK G RP) (hn : 0 ≤ RP.n) (hC : Converts G RP rows okx φ) (hb : ∀ m, 0 ≤ base m) {A R : Buf K} (hA : RP.n * M ≤ A.size)
    (e : columnwise true G RP base ord 0 M A = some R) {c : Int} (c0 : 0 ≤ c) (c1 : c < M) (hm : base (ord c) ≤ ord c) (hd : G.jst ∣ ord c - base (ord c))
    (hz : Short RP.n (c * RP.n) 1 (rows (ord c)) A) {x : X} (hx : okx x) :
    ∑ i ∈ Finset.Ico 0 RP.n, R.val (i + c * RP.n) * φ x (base (ord c)) i = ∑ i ∈ Finset.Ico 0 RP.n, A.val (i + c * RP.n) * φ x (ord c) i := by
  have a := columnwise_acts hg hT hb ⟨hn, le_rfl, by omega⟩ e
  obtain ⟨B, eB, -, hs⟩ := (hC (base (ord c)) (ord c) 0 1 (hb _) hm hd one_pos le_rfl ⟨RP.n.toNat, fun k => A.val (k + c * RP.n)⟩ (by simp only; omega)).1
    (fun i i0 i1 i2 => by have := hz i i0 i1 i2; simp only [zero_add, mul_one] at this ⊢; rw [add_comm i]; exact this)
  have hs := hs x hx
  simp only [zero_add, mul_one] at hs
  rw [← hs]
  refine sum_Ico_congr fun i i0 i1 => ?_
  rw [a.val i c i0 i1 c0 c1]
  unfold rotOp colOp ordF colF kern
  rw [if_pos rfl, eB]
  rfl

omit [LinearOrder K] [IsStrictOrderedRing K] in
/-- Columns that have the order of the target already are left as they are. -/
theorem columnwise_same (hg : IsGeom G) (hT : TablesOK G RP) (hn : 0 ≤ RP.n) (hb : ∀ m, 0 ≤ base m) {A R : Buf K} (hA : RP.n * M ≤ A.size)
    (e : columnwise true G RP base ord 0 M A = some R) {c : Int} (c0 : 0 ≤ c) (c1 : c < M) (hm : base (ord c) = ord c) {i : Int} (i0 : 0 ≤ i) (i1 : i < RP.n) :
    R.val (i + c * RP.n) = A.val (i + c * RP.n) := by
  have a := columnwise_acts hg hT hb ⟨hn, le_rfl, by omega⟩ e
  have hj : 0 < G.jst := by rcases hg with rfl | rfl | rfl | rfl <;> norm_num [geomSph, geomTri, geomDisk, geomRect]
  rw [a.val i c i0 i1 c0 c1]
  unfold rotOp colOp ordF colF kern
  rw [if_pos rfl]
  dsimp only
  rw [hm]
  unfold kernelHi2lo
  have : forStepDown (ord c - G.jst) (ord c) G.jst (fun j => forDown (G.top RP.n j) 0 (fun k => rotAt G RP 0 1 k j)) (⟨RP.n.toNat, fun k => A.val (k + c * RP.n)⟩ : Buf K) = some ⟨RP.n.toNat, fun k => A.val (k + c * RP.n)⟩ := by
    unfold forStepDown
    rw [show stepCount (ord c) (ord c - G.jst + 1) G.jst = 0 by unfold stepCount; rw [show ord c - G.jst + 1 - ord c + G.jst - 1 = 0 by ring]; simp]
    rfl
  rw [this]
  rfl

/-- Columns that are rotated to order 0 or 1 and then converted. -/
theorem parity_col (hg : IsGeom G) (hj : G.jst = 2) (hT : TablesOK G RP) (hn : RP.n = N) (hN : 0 ≤ N) (hC : Converts G RP rows okx φ) {P0 P1 : Buf K} {p0 q0 p1 q1 : Int → K[X]}
    (D0 : Dense N P0 p0 q0) (D1 : Dense N P1 p1 q1) {w0 w1 arg : X → K} (h0 : ∀ x i, 0 ≤ i → φ x 0 i = w0 x * (p0 i).eval (arg x)) (h1 : ∀ x i, 0 ≤ i → φ x 1 i = w1 x * (p1 i).eval (arg x))
    {A R : Buf K} (hA : N * M ≤ A.size) (e : columnwise true G RP parity ord 0 M A = some R) {c : Int} (c0 : 0 ≤ c) (c1 : c < M) (hm : 0 ≤ ord c) (hz : Short N (c * N) 1 (rows (ord c)) A)
    {x : X} (hx : okx x) :
    ∑ i ∈ Finset.Ico 0 N, byParity ord N P0 P1 (fun i c => R.val (i + c * N)) i c * (if ord c % 2 = 0 then w0 x * (q0 i).eval (arg x) else w1 x * (q1 i).eval (arg x)) =
      ∑ i ∈ Finset.Ico 0 N, A.val (i + c * N) * φ x (ord c) i := by
  subst hn
  have s := columnwise_sum hg hT hN hC (fun m => by unfold parity; omega) hA e c0 c1 (by unfold parity; omega) (by rw [hj]; unfold parity; omega) hz hx
  rw [← s]
  have key : ∀ (V : Buf K) (p q : Int → K[X]) (w : K), Dense RP.n V p q → (∀ i, 0 ≤ i → φ x (parity (ord c)) i = w * (p i).eval (arg x)) →
      ∑ i ∈ Finset.Ico 0 RP.n, (∑ l ∈ Finset.range RP.n.toNat, mat RP.n V i l * R.val (l + c * RP.n)) * (w * (q i).eval (arg x)) =
        ∑ i ∈ Finset.Ico 0 RP.n, R.val (i + c * RP.n) * φ x (parity (ord c)) i := by
    intro V p q w D hp
    have d := congrArg (w * ·) (dense_eval D (fun l => R.val (l + c * RP.n)) (arg x))
    simp only [Finset.mul_sum] at d
    refine Eq.trans (sum_Ico_congr fun i i0 i1 => ?_) (d.trans (sum_Ico_congr fun i i0 i1 => ?_))
    · ring
    · rw [hp i i0]; ring
  unfold byParity
  by_cases h : ord c % 2 = 0
  · simp only [h, if_true]
    exact key P0 p0 q0 (w0 x) D0 fun i i0 => by unfold parity; rw [h]; exact h0 x i i0
  · have h' : ord c % 2 = 1 := by omega
    simp only [h, if_false]
    exact key P1 p1 q1 (w1 x) D1 fun i i0 => by unfold parity; rw [h']; exact h1 x i i0

/-- Transforms that rotate to order 0 or 1 and then convert. -/
theorem parity_sum {Y : Type*} {ok : Y → Prop} {P : HPlan K} {Fwd : Y → Buf K → Buf K → Prop} (hR : RotatesThen ok N M G P.RP parity ord Fwd (byParity ord N P.P0 P.P1))
    (hg : IsGeom G) (hj : G.jst = 2) (hT : TablesOK G P.RP) (hn : P.RP.n = N) (hN : 0 ≤ N) (hC : Converts G P.RP rows okx φ) {p0 q0 p1 q1 : Int → K[X]} (D0 : Dense N P.P0 p0 q0) (D1 : Dense N P.P1 p1 q1)
    {w0 w1 arg : X → K} (h0 : ∀ x i, 0 ≤ i → φ x 0 i = w0 x * (p0 i).eval (arg x)) (h1 : ∀ x i, 0 ≤ i → φ x 1 i = w1 x * (p1 i).eval (arg x)) {y : Y} (hy : ok y) {A A' : Buf K} (hA : N * M ≤ A.size)
    (e : Fwd y A A') {c : Int} (c0 : 0 ≤ c) (c1 : c < M) (hm : 0 ≤ ord c) (hz : Short N (c * N) 1 (rows (ord c)) A) {x : X} (hx : okx x) :
    ∑ i ∈ Finset.Ico 0 N, A'.val (i + c * N) * (if ord c % 2 = 0 then w0 x * (q0 i).eval (arg x) else w1 x * (q1 i).eval (arg x)) =
      ∑ i ∈ Finset.Ico 0 N, A.val (i + c * N) * φ x (ord c) i := by
  obtain ⟨R, eR, v⟩ := (hR y hy A hA).2 A' e
  rw [← parity_col hg hj hT hn hN hC D0 D1 h0 h1 hA eR c0 c1 hm hz hx]
  exact sum_Ico_congr fun i i0 i1 => by rw [v i c i0 i1 c0 c1]

/-! ## Tables and matrices of the plans -/

theorem tri_unit {RP : RotPlan K} {n : Int} (hn : 0 ≤ n) (hN : RP.n = n) (hG : tableSize G n = n * (n + 1) / 2)
    (hv : ∀ l m, 0 ≤ m → m < n → 0 ≤ l → l < n - m → ∃ s c, RP.s.rd (sIdx n l m) = some s ∧ RP.c.rd (sIdx n l m) = some c ∧ s * s + c * c = 1)
    (hs : (RP.s.size : Int) = n * (n + 1) / 2) (hc : (RP.c.size : Int) = n * (n + 1) / 2) : TablesOK G RP ∧ UnitTables G RP := by
  subst hN
  refine ⟨⟨by rw [hG, hs], by rw [hG, hc]⟩, fun i i0 i1 => ?_⟩
  obtain ⟨l, m, a, b, c, d, rfl⟩ := (C07_triangular_index_bijective RP.n hn).2.2 i i0 (by rw [← hG]; exact i1)
  obtain ⟨s, c', es, ec, u⟩ := hv l m a b c d
  rw [(Buf.rd_eq_some_iff.1 es).2, (Buf.rd_eq_some_iff.1 ec).2]
  exact u

theorem disk_unit {RP : RotPlan K} {n : Int} (hn : 1 ≤ n) (hN : RP.n = n)
    (hv : ∀ l m, 0 ≤ m → m < 2 * n - 1 → 0 ≤ l → l < n - (m + 1) / 2 → ∃ s c, RP.s.rd (sdIdx n l m) = some s ∧ RP.c.rd (sdIdx n l m) = some c ∧ s * s + c * c = 1)
    (hs : (RP.s.size : Int) = n * n) (hc : (RP.c.size : Int) = n * n) : TablesOK geomDisk RP ∧ UnitTables geomDisk RP := by
  have hG : tableSize geomDisk RP.n = RP.n * RP.n := by unfold tableSize geomDisk; simp
  subst hN
  refine ⟨⟨by rw [hG, hs], by rw [hG, hc]⟩, fun i i0 i1 => ?_⟩
  obtain ⟨l, m, a, b, c, d, rfl⟩ := (C07_disk_index_bijective RP.n hn).2.2 i i0 (by rw [← hG]; exact i1)
  obtain ⟨s, c', es, ec, u⟩ := hv l m a b c d
  rw [(Buf.rd_eq_some_iff.1 es).2, (Buf.rd_eq_some_iff.1 ec).2]
  exact u

theorem inversePair_of {V W : Buf K} {p q : Int → K[X]} {s : Int → K} (hN : 0 ≤ N) (hq : Graded q s) (h1 : Dense N V p q) (h2 : Dense N W q p) : InversePair N V W := by
  have hNN : 0 ≤ N * N := mul_nonneg hN hN
  refine ⟨by rw [h1.size]; omega, by rw [h2.size]; omega, fun i j i0 i1 j0 j1 => ?_⟩
  rw [sum_range_int fun k => (if i ≤ k then V.val (i + k * N) else 0) * (if k ≤ j then W.val (k + j * N) else 0), ← connects_inverse hq h2.conn h1.conn i0 i1 j0 j1]
  refine sum_Ico_congr fun k k0 k1 => ?_
  congr 1
  · split_ifs with h
    · rfl
    · rw [h1.upper i k k0 (by omega) i1]
  · split_ifs with h
    · rfl
    · rw [h2.upper k j j0 (by omega) k1]

theorem leg_jac (hF : IsLibm F) : Jac F true 0 0 = Leg F true := by
  have g : jacG F 0 0 = 2 := by
    unfold jacG
    rw [show (0 : K) + 0 + 1 = 0 + 1 by ring, hF.pow2_succ, hF.pow2_zero, show (0 : K) + 1 = 1 by ring, hF.gamma_one, show (0 : K) + 0 + 2 = 1 + 1 by ring, hF.gamma_succ 1 one_pos, hF.gamma_one]
    norm_num
  funext i
  unfold Jac Leg scaled
  congr 2
  unfold jacS legS
  rw [g, scale_posS hF.sqrt two_pos (fun _ h => jacB_pos (by norm_num) (by norm_num) h) (Finset.prod_pos fun k hk => jacR_pos (by norm_num) (by norm_num) (Finset.mem_Ico.1 hk).1),
    scale_posS hF.sqrt two_pos (fun _ h => jacB_pos (by norm_num) (by norm_num) h) (Finset.prod_pos fun k hk => by
      have : (0 : K) ≤ k := by exact_mod_cast (Finset.mem_Ico.1 hk).1
      unfold legR; positivity)]

theorem ult_jac_three (hF : IsLibm F) : Jac F true 1 1 = Ult F true (3 / 2) := by
  have h2 : F.gamma 2 = 1 := by rw [show (2 : K) = 1 + 1 by norm_num, hF.gamma_succ 1 one_pos, hF.gamma_one, one_mul]
  have h3 : F.gamma 3 = 2 := by rw [show (3 : K) = 2 + 1 by norm_num, hF.gamma_succ 2 two_pos, h2, mul_one]
  have h4 : F.gamma 4 = 6 := by rw [show (4 : K) = 3 + 1 by norm_num, hF.gamma_succ 3 three_pos, h3]; norm_num
  have hg := hF.gamma_pos (1 / 2) (by norm_num)
  have p3 : F.pow2 3 = 8 := by
    rw [show (3 : K) = 0 + 1 + 1 + 1 by norm_num, hF.pow2_succ, hF.pow2_succ, hF.pow2_succ, hF.pow2_zero]; norm_num
  have g : jacG F 1 1 = 4 / 3 := by
    unfold jacG
    rw [show (1 : K) + 1 + 1 = 3 by norm_num, show (1 : K) + 1 + 2 = 4 by norm_num, show (1 : K) + 1 = 2 by norm_num, p3, h2, h4]
    norm_num
  have g' : ultG F (3 / 2) = 4 / 3 := by
    unfold ultG
    rw [show (3 / 2 : K) + 1 / 2 = 2 by norm_num, h2, show (3 / 2 : K) + 1 = 3 / 2 + 1 by norm_num, hF.gamma_succ (3 / 2) (by norm_num), show (3 / 2 : K) = 1 / 2 + 1 by norm_num, hF.gamma_succ (1 / 2) (by norm_num)]
    field_simp
    norm_num
  funext i
  unfold Jac Ult scaled
  rw [show (3 / 2 : K) - 1 / 2 = 1 by norm_num]
  congr 2
  unfold jacS ultS
  rw [g, g', show (3 / 2 : K) - 1 / 2 = 1 by norm_num,
    scale_posS hF.sqrt (by norm_num) (fun _ h => jacB_pos (by norm_num) (by norm_num) h) (Finset.prod_pos fun k hk => jacR_pos (by norm_num) (by norm_num) (Finset.mem_Ico.1 hk).1),
    scale_posS hF.sqrt (by norm_num) (fun _ h => jacB_pos (by norm_num) (by norm_num) h) (Finset.prod_pos fun k hk => by
      have : (0 : K) ≤ k := by exact_mod_cast (Finset.mem_Ico.1 hk).1
      unfold ultR; positivity)]

/-! ## The disk -/

theorem jacB_half {n : Int} (hn : 1 ≤ n) : jacB (-1 / 2 : K) (1 / 2) n = 1 / 4 := by
  have h : (1 : K) ≤ n := by exact_mod_cast hn
  unfold jacB
  split_ifs
  · norm_num
  have h1 : (2 * (n : K) - 1) ≠ 0 := by linarith
  have h2 : (2 * (n : K) + 1) ≠ 0 := by linarith
  have h3 : (n : K) ≠ 0 := by linarith
  rw [show 2 * (n : K) + -1 / 2 + 1 / 2 = 2 * n by ring, show (n : K) + -1 / 2 + 1 / 2 = n by ring, show (n : K) + -1 / 2 = (2 * n - 1) / 2 by ring, show (n : K) + 1 / 2 = (2 * n + 1) / 2 by ring]
  generalize 2 * (n : K) - 1 = a at *
  generalize 2 * (n : K) + 1 = b at *
  field_simp
  ring

/-- The polynomials of the odd orders. -/
theorem jac_half (hF : IsLibm F) {i : Int} (hi : 0 ≤ i) (r : K) : F.gamma (1 / 2) * (r * (Jac F true (-1 / 2) (1 / 2) i).eval (2 * r ^ 2 - 1)) = (Chebyshev.T K (2 * i + 1)).eval r := by
  have ha : (-1 : K) < -1 / 2 := by norm_num
  have hb : (-1 : K) < 1 / 2 := by norm_num
  have hg := hF.gamma_pos (1 / 2) (by norm_num)
  have g : jacG F (-1 / 2) (1 / 2) = F.gamma (1 / 2) * F.gamma (1 / 2) := by
    unfold jacG
    rw [show (-1 / 2 : K) + 1 / 2 + 1 = 0 + 1 by norm_num, hF.pow2_succ, hF.pow2_zero, show (-1 / 2 : K) + 1 = 1 / 2 by norm_num, hF.gamma_succ (1 / 2) (by norm_num), show (-1 / 2 : K) + 1 / 2 + 2 = 1 + 1 by norm_num,
      hF.gamma_succ 1 one_pos, hF.gamma_one]
    ring
  have s0 : jacS F true (-1 / 2) (1 / 2) 0 = 1 / F.gamma (1 / 2) := by
    unfold jacS
    rw [scale_zero, g, if_pos rfl, sqrt_sq hF.sqrt hg.le]
  have ss : ∀ n : Int, 0 ≤ n → jacS F true (-1 / 2) (1 / 2) (n + 1) = jacS F true (-1 / 2) (1 / 2) n * 2 := fun n hn => by
    rw [jacS_succ hF ha hb hn]
    unfold jacStep
    rw [if_pos rfl, jacB_half (by omega), show (1 / 4 : K) = 1 / 2 * (1 / 2) by norm_num, sqrt_sq hF.sqrt (by norm_num)]
    norm_num
  unfold Jac scaled jacobi
  refine two_step (P := fun n => F.gamma (1 / 2) * (r * (C (jacS F true (-1 / 2) (1 / 2) n) * monic (jacA (-1 / 2 : K) (1 / 2)) (jacB (-1 / 2) (1 / 2)) n).eval (2 * r ^ 2 - 1)) =
    (Chebyshev.T K (2 * n + 1)).eval r) ?_ (fun n n0 ih ih' => ?_) hi
  · rw [s0, monic_zero]
    simp
    field_simp
  · have h2 : (Chebyshev.T K 2).eval r = 2 * r ^ 2 - 1 := by rw [Chebyshev.T_two]; simp
    rcases Int.lt_or_eq_of_le n0 with h | rfl
    · obtain ⟨m, rfl⟩ : ∃ m, n = m + 1 := ⟨n - 1, by omega⟩
      have i1 := ih' (by omega)
      rw [show m + 1 - 1 = m by ring] at i1
      have e := congrArg (eval r) (Chebyshev.T_mul_T (R := K) (2 * (m + 1) + 1) 2)
      rw [show 2 * (m + 1) + 1 + 2 = 2 * (m + 1 + 1) + 1 by ring, show 2 * (m + 1) + 1 - 2 = 2 * m + 1 by ring] at e
      simp only [eval_mul, eval_add, h2, eval_ofNat] at e
      rw [← ih, ← i1] at e
      rw [monic_succ n0, show m + 1 - 1 = m by ring, jacB_half (by omega), show jacA (-1 / 2 : K) (1 / 2) (m + 1) = 0 by unfold jacA; rw [if_neg (by omega)]; norm_num, ss _ n0]
      rw [ss m (by omega)] at e ⊢
      simp only [eval_mul, eval_sub, eval_C, eval_X] at e ⊢
      linear_combination e
    · rw [monic_succ le_rfl, monic_neg (n := 0 - 1) (by norm_num), monic_zero, ss 0 le_rfl, s0, show jacA (-1 / 2 : K) (1 / 2) 0 = 1 / 2 by unfold jacA; norm_num]
      have e := congrArg (eval r) (Chebyshev.T_mul_T (R := K) 1 2)
      simp only [eval_mul, eval_add, h2, eval_ofNat] at e
      simp at e ⊢
      norm_num at e ⊢
      field_simp
      linear_combination e

/-- The polynomials of the even orders. -/
theorem che_double {i : Int} (r : K) : (Chebyshev.T K i).eval (2 * r ^ 2 - 1) = (Chebyshev.T K (2 * i)).eval r := by
  rw [show 2 * i = i * 2 by ring, Chebyshev.T_mul, eval_comp, Chebyshev.T_two]
  simp

omit [IsStrictOrderedRing K] in
theorem scaleUpper_run {n : Int} {c : K} {V : Buf K} (hV : V.size = (n * n).toNat) : ∃ V', scaleUpper n c V = some V' ∧ V'.size = V.size ∧
    ∀ i j, 0 ≤ i → i < n → 0 ≤ j → j < n → V'.val (i + j * n) = if i ≤ j then c * V.val (i + j * n) else V.val (i + j * n) := by
  obtain ⟨V', e, s, v⟩ := TbEig.grid_run (m := n) (n := n) (w := fun j => j + 1) (A := V) (step := fun i j V => (V.rd (i + j * n)).bind fun v => V.wr (i + j * n) (v * c))
    (g := fun _ _ a => c * a) (fun j _ _ => by omega) (by
      intro i j i0 i1 j0 j1 B hB
      obtain ⟨b0, b1⟩ := ij_lt2 i0 (show i < n by omega) j0 j1
      rw [Buf.rd_of (b := B) b0 (by rw [hB, hV]; omega), Option.bind_some, mul_comm c]
      exact Buf.wr_of (b := B) b0 (by rw [hB, hV]; omega))
  refine ⟨V', e, s, fun i j i0 i1 j0 j1 => ?_⟩
  rw [v i j i0 i1 j0 j1]
  exact if_congr (by omega) rfl rfl

/-- A scaled conversion matrix converts between scaled families. -/
theorem dense_scale {n : Int} {V : Buf K} {p q : Int → K[X]} (d : Dense n V p q) {c a b : K} (h : a = c * b) :
    ∃ V', scaleUpper n c V = some V' ∧ Dense n V' (fun i => C a * p i) fun i => C b * q i := by
  obtain ⟨V', e, s, v⟩ := scaleUpper_run (c := c) d.size
  refine ⟨V', e, s.trans d.size, fun i j j0 ij i1 => ?_, fun j j0 j1 => ?_⟩
  · rw [v i j (by omega) i1 j0 (by omega), if_neg (by omega), d.upper i j j0 ij i1]
  · dsimp only
    rw [d.conn j j0 j1, Finset.mul_sum]
    refine sum_Ico_congr fun i i0 i1 => ?_
    show C a * (C (V.val (i + j * n)) * q i) = C (V'.val (i + j * n)) * (C b * q i)
    rw [v i j i0 i1 j0 j1]
    split_ifs with hij
    · rw [h, C_mul, C_mul]; ring
    · rw [d.upper i j j0 (by omega) i1, C_0]; ring

theorem graded_scale {q : Int → K[X]} {s : Int → K} (h : Graded q s) {b : K} (hb : b ≠ 0) : Graded (fun i => C b * q i) fun i => b * s i := fun i i0 => by
  obtain ⟨h1, h2, h3⟩ := h i i0
  exact ⟨mul_ne_zero hb h1, by rw [coeff_C_mul, h2], fun k hk => by rw [coeff_C_mul, h3 k hk, mul_zero]⟩

omit [LinearOrder K] [IsStrictOrderedRing K] in
/-- Conversions, at some of the points and scaled. -/
theorem Converts.map {X Y : Type*} {G : Geom} {RP : RotPlan K} {rows : Int → Int} {ok : X → Prop} {φ : X → Int → Int → K} (h : Converts G RP rows ok φ) (f : Y → X) {ok' : Y → Prop} (hf : ∀ y, ok' y → ok (f y)) (c : K) :
    Converts G RP rows ok' fun y m i => c * φ (f y) m i := by
  intro m1 m2 o S h0 h1 hd hS ho A hA
  have key : ∀ (a : Int → K) (g : Int → K), ∑ i ∈ Finset.Ico 0 RP.n, a i * (c * g i) = c * ∑ i ∈ Finset.Ico 0 RP.n, a i * g i := fun a g => by
    rw [Finset.mul_sum]; exact Finset.sum_congr rfl fun i _ => by ring
  obtain ⟨u, A', e, v⟩ := h m1 m2 o S h0 h1 hd hS ho A hA
  refine ⟨fun hz => ?_, A', e, fun hz y hy => ?_⟩
  · obtain ⟨B, e, z, w⟩ := u hz
    exact ⟨B, e, z, fun y hy => by rw [key _ fun i => φ (f y) m1 i, key _ fun i => φ (f y) m2 i, w (f y) (hf y hy)]⟩
  · rw [key _ fun i => φ (f y) m1 i, key _ fun i => φ (f y) m2 i, v hz (f y) (hf y hy)]

end FT.Props.Fun
