import Verif.Lemmas.LegChebNodes

/-! # The interpolation matrices of a plan of the fast multipole transforms -/

namespace FT.Props.Lc
open Polynomial FT FT.Poly FT.Model.Lc
variable {K : Type*} [Field K] [CharZero K] [DecidableEq K]

theorem cell_eq {r m i j N : Int} (m0 : 0 ≤ m) (m1 : m < N) (j0 : 0 ≤ j) (j1 : j < N) (e : r * N + m = i * N + j) : r = i ∧ m = j := by
  have hr : r = i := by
    by_contra c
    exact row_out c m0 m1 ⟨by omega, by omega⟩
  subst hr
  exact ⟨rfl, by omega⟩

/-! ## The matrix of the Chebyshev polynomials -/

omit [DecidableEq K] [CharZero K] in
theorem cheb_zero (x : K) : cheb 0 x = 1 := by unfold cheb; simp
omit [DecidableEq K] [CharZero K] in
theorem cheb_one (x : K) : cheb 1 x = x := by unfold cheb; simp
omit [DecidableEq K] [CharZero K] in
theorem cheb_rec (j : Int) (x : K) : cheb j x = cheb (j - 1) x * (2 * x) - cheb (j - 2) x := by
  unfold cheb
  have := congrArg (Polynomial.eval x) (Chebyshev.T_add_two K (j - 2))
  rw [show j - 2 + 2 = j by ring, show j - 2 + 1 = j - 1 by ring] at this
  rw [this]; simp; ring

omit [DecidableEq K] [CharZero K] in
theorem vandermonde_spec {junk : Int → K} {h N : Int} (h1 : 1 ≤ h) (N2 : 2 ≤ N) {T : Buf K} (sT : (T.size : Int) = 2 * h * N) :
    ∃ T', vandermonde junk h N T = some T' ∧ T'.size = T.size ∧
      ∀ odd p m : Int, 0 ≤ odd → odd ≤ 1 → 0 ≤ p → p < h → 0 ≤ m → m < N → T'.val ((odd * h + p) * N + m) = cheb m (-1 + ((2 * p + odd : Int) : K) / (h : K)) := by
  unfold vandermonde
  have hN : 0 ≤ 2 * h * N := Int.mul_nonneg (by omega) (by omega)
  obtain ⟨Z1, e1, s1, v1⟩ := forUp_spec (lo := 0) (hi := 2 * h) (s := (⟨(2 * h * N).toNat, junk⟩ : Buf K))
    (body := fun i (Tm : Buf K) => (Tm.wr (i * N) 1).bind fun Tm => Tm.wr (i * N + 1) (-1 + (i : K) / h))
    (fun i Z => (Z.size : Int) = 2 * h * N ∧ ∀ r m, 0 ≤ r → r < i → 0 ≤ m → m < 2 → Z.val (r * N + m) = cheb m (-1 + (r : K) / h))
    ⟨by show (((2 * h * N).toNat : ℕ) : Int) = _; omega, fun r m a b => by omega⟩ (fun i i0 i1 Z ⟨sZ, vZ⟩ => by
      obtain ⟨b0, b1, b2⟩ := row_bound (M := N) (k := 1) i0 i1 (by omega) (by omega)
      rw [Buf.wr_of (by omega) (by omega), Option.bind_some, Buf.wr_of (by omega) (by show (_ : Int) < Z.size; omega)]
      refine ⟨_, rfl, sZ, fun r m r0 r1 m0 m1 => ?_⟩
      show Function.update (Function.update _ _ _) _ _ _ = _
      by_cases c : r = i
      · subst c
        rcases (show m = 0 ∨ m = 1 by omega) with rfl | rfl
        · rw [Function.update_of_ne (by omega), cheb_zero, add_zero, Function.update_self]
        · rw [Function.update_self, cheb_one]
      · rw [Function.update_of_ne fun e => c (cell_eq (N := N) (by omega) (by omega) (by omega) (by omega) e).1,
          Function.update_of_ne fun e => c (cell_eq (N := N) (j := 0) (by omega) (by omega) (by omega) (by omega) (by omega)).1]
        exact vZ r m r0 (by omega) m0 m1)
  rw [e1, Option.bind_some]
  rw [show max 0 (2 * h) = 2 * h by omega] at v1
  obtain ⟨Z2, e2, s2, v2⟩ := forUp_spec (lo := 0) (hi := 2 * h) (s := Z1)
    (body := fun i Tm => forUp 2 N (fun j Tm => (Tm.rd (i * N + j - 1)).bind fun x => (Tm.rd (i * N + j - 2)).bind fun y => Tm.wr (i * N + j) (x * (2 * (-1 + (i : K) / h)) - y)) Tm)
    (fun i Z => (Z.size : Int) = 2 * h * N ∧ ∀ r m, 0 ≤ r → r < 2 * h → 0 ≤ m → m < N → (m < 2 ∨ r < i) → Z.val (r * N + m) = cheb m (-1 + (r : K) / h))
    ⟨s1, fun r m r0 r1 m0 m1 c => v1 r m r0 r1 m0 (by omega)⟩ (fun i i0 i1 Z ⟨sZ, vZ⟩ => by
      obtain ⟨Z', e', s', v'⟩ := forUp_spec (lo := 2) (hi := N) (s := Z) (body := fun j Tm => (Tm.rd (i * N + j - 1)).bind fun x => (Tm.rd (i * N + j - 2)).bind fun y =>
          Tm.wr (i * N + j) (x * (2 * (-1 + (i : K) / h)) - y))
        (fun j Z => (Z.size : Int) = 2 * h * N ∧ ∀ r m, 0 ≤ r → r < 2 * h → 0 ≤ m → m < N → (m < 2 ∨ r < i ∨ (r = i ∧ m < j)) → Z.val (r * N + m) = cheb m (-1 + (r : K) / h))
        ⟨sZ, fun r m r0 r1 m0 m1 c => vZ r m r0 r1 m0 m1 (by omega)⟩ (fun j j0 j1 Z ⟨sZ, vZ⟩ => by
          obtain ⟨b0, b1, b2⟩ := row_bound (M := N) (k := j) i0 i1 (by omega) (by omega)
          rw [Buf.rd_of (by omega) (by omega), Option.bind_some, Buf.rd_of (by omega) (by omega), Option.bind_some, Buf.wr_of (by omega) (by omega)]
          refine ⟨_, rfl, sZ, fun r m r0 r1 m0 m1 c => ?_⟩
          show Function.update _ _ _ _ = _
          by_cases d : r * N + m = i * N + j
          · obtain ⟨rfl, rfl⟩ := cell_eq m0 m1 (by omega) j1 d
            rw [Function.update_self, show r * N + m - 1 = r * N + (m - 1) by ring, show r * N + m - 2 = r * N + (m - 2) by ring, vZ r (m - 1) r0 r1 (by omega) (by omega) (by omega),
              vZ r (m - 2) r0 r1 (by omega) (by omega) (by omega), ← cheb_rec]
          · rw [Function.update_of_ne d]
            refine vZ r m r0 r1 m0 m1 ?_
            by_cases e : r = i ∧ m = j
            · exact absurd (by rw [e.1, e.2]) d
            · omega)
      refine ⟨Z', e', s', fun r m r0 r1 m0 m1 c => v' r m r0 r1 m0 m1 ?_⟩
      rw [show max 2 N = N by omega]; omega)
  rw [e2, Option.bind_some]
  rw [show max 0 (2 * h) = 2 * h by omega] at v2
  have hb : ∀ i j : Int, 0 ≤ i → i < h → 0 ≤ j → j < N → 0 ≤ i * N + j ∧ i * N + j < 2 * h * N ∧ 0 ≤ (h + i) * N + j ∧ (h + i) * N + j < 2 * h * N ∧ 0 ≤ 2 * i * N + j ∧ 2 * i * N + j < 2 * h * N ∧
      0 ≤ (2 * i + 1) * N + j ∧ (2 * i + 1) * N + j < 2 * h * N := fun i j i0 i1 j0 j1 => by
    have a := row_bound (M := N) (k := j) (r := i) (n := 2 * h) i0 (by omega) j0 j1
    have b := row_bound (M := N) (k := j) (r := h + i) (n := 2 * h) (by omega) (by omega) j0 j1
    have c := row_bound (M := N) (k := j) (r := 2 * i) (n := 2 * h) (by omega) (by omega) j0 j1
    have d := row_bound (M := N) (k := j) (r := 2 * i + 1) (n := 2 * h) (by omega) (by omega) j0 j1
    omega
  obtain ⟨Z3, e3, s3, v3⟩ := forUp_spec (lo := 0) (hi := h) (s := T) (body := fun i T => forUp 0 N (fun j T => (Z2.rd (2 * i * N + j)).bind fun x => (T.wr (i * N + j) x).bind fun T =>
      (Z2.rd ((2 * i + 1) * N + j)).bind fun y => T.wr ((h + i) * N + j) y) T)
    (fun i Z => Z.size = T.size ∧ ∀ odd p m : Int, 0 ≤ odd → odd ≤ 1 → 0 ≤ p → p < h → 0 ≤ m → m < N → p < i → Z.val ((odd * h + p) * N + m) = cheb m (-1 + ((2 * p + odd : Int) : K) / (h : K)))
    ⟨rfl, fun odd p m _ _ _ _ _ _ _ => by omega⟩ (fun i i0 i1 Z ⟨sZ, vZ⟩ => by
      obtain ⟨Z', e', s', v'⟩ := forUp_spec (lo := 0) (hi := N) (s := Z) (body := fun j T => (Z2.rd (2 * i * N + j)).bind fun x => (T.wr (i * N + j) x).bind fun T =>
          (Z2.rd ((2 * i + 1) * N + j)).bind fun y => T.wr ((h + i) * N + j) y)
        (fun j Z => Z.size = T.size ∧ ∀ odd p m : Int, 0 ≤ odd → odd ≤ 1 → 0 ≤ p → p < h → 0 ≤ m → m < N → (p < i ∨ (p = i ∧ m < j)) → Z.val ((odd * h + p) * N + m) = cheb m (-1 + ((2 * p + odd : Int) : K) / (h : K)))
        ⟨sZ, fun odd p m a b c d e f g => vZ odd p m a b c d e f (by omega)⟩ (fun j j0 j1 Z ⟨sZ, vZ⟩ => by
          obtain ⟨b1, b2, b3, b4, b5, b6, b7, b8⟩ := hb i j i0 i1 j0 j1
          rw [Buf.rd_of b5 (by omega), Option.bind_some, Buf.wr_of b1 (by omega), Option.bind_some, Buf.rd_of b7 (by omega), Option.bind_some, Buf.wr_of b3 (by show (_ : Int) < Z.size; omega)]
          refine ⟨_, rfl, sZ, fun odd p m o0 o1 p0 p1 m0 m1 c => ?_⟩
          show Function.update (Function.update _ _ _) _ _ _ = _
          have w0 := v2 (2 * i) j (by omega) (by omega) j0 j1 (by omega)
          have w1 := v2 (2 * i + 1) j (by omega) (by omega) j0 j1 (by omega)
          by_cases d : p = i ∧ m = j
          · obtain ⟨rfl, rfl⟩ := d
            rcases (show odd = 0 ∨ odd = 1 by omega) with rfl | rfl
            · rw [zero_mul, zero_add, Function.update_of_ne, Function.update_self, w0, add_zero]
              intro e
              have := (cell_eq m0 m1 j0 j1 e).1
              omega
            · rw [one_mul, Function.update_self, w1]
          · have n1 : (odd * h + p) * N + m ≠ (h + i) * N + j := fun e => by
              obtain ⟨a, b⟩ := cell_eq m0 m1 j0 j1 e
              rcases (show odd = 0 ∨ odd = 1 by omega) with rfl | rfl <;> omega
            have n2 : (odd * h + p) * N + m ≠ i * N + j := fun e => by
              obtain ⟨a, b⟩ := cell_eq m0 m1 j0 j1 e
              rcases (show odd = 0 ∨ odd = 1 by omega) with rfl | rfl <;> omega
            rw [Function.update_of_ne n1, Function.update_of_ne n2]
            exact vZ odd p m o0 o1 p0 p1 m0 m1 (by omega))
      refine ⟨Z', e', s', fun odd p m o0 o1 p0 p1 m0 m1 c => v' odd p m o0 o1 p0 p1 m0 m1 ?_⟩
      rw [show max 0 N = N by omega]; omega)
  refine ⟨Z3, e3, s3, fun odd p m o0 o1 p0 p1 m0 m1 => v3 odd p m o0 o1 p0 p1 m0 m1 ?_⟩
  omega

/-! ## The matrices of the Lagrange basis -/

theorem baryRow_spec {X : Nodes K} {M : Int} (hX : NodesOk X M) (M1 : 1 ≤ M) {t : K} (ht : ∀ j, 0 ≤ j → j < M → t - X.xj M j ≠ 0) {off : Int} (o0 : 0 ≤ off) {T : Buf K} (sT : off + M ≤ T.size) :
    ∃ T', baryRow X M t off T = some T' ∧ T'.size = T.size ∧ (∀ j, 0 ≤ j → j < M → T'.val (off + j) = lagr M (X.xj M) j t) ∧ ∀ q, ¬ (off ≤ q ∧ q < off + M) → T'.val q = T.val q := by
  obtain ⟨w, hw⟩ : ∃ w : Int → K, w = fun j => (if j % 2 = 0 then 1 else -1) * X.wj M j / (t - X.xj M j) := ⟨_, rfl⟩
  unfold baryRow baryFill
  obtain ⟨⟨S, Z1⟩, e1, s1, hS, v1, r1⟩ := forUp_spec (lo := 0) (hi := M) (s := ((0 : K), T))
    (body := fun j (r : K × Buf K) => (divC ((if j % 2 = 0 then 1 else -1) * X.wj M j) (t - X.xj M j)).bind fun v => (r.2.wr (off + j) v).bind fun T => some (r.1 + v, T))
    (fun i r => r.2.size = T.size ∧ r.1 = ∑ j ∈ Finset.Ico 0 i, w j ∧ (∀ j, 0 ≤ j → j < i → r.2.val (off + j) = w j) ∧ ∀ q, ¬ (off ≤ q ∧ q < off + M) → r.2.val q = T.val q)
    ⟨rfl, by simp, fun j a b => by omega, fun q _ => rfl⟩ (fun i i0 i1 ⟨S, Z⟩ ⟨sZ, hS, vZ, rZ⟩ => by
      dsimp only at sZ hS vZ rZ ⊢
      unfold divC
      rw [if_neg (ht i i0 i1), Option.bind_some, Buf.wr_of (by omega) (by omega), Option.bind_some]
      refine ⟨_, rfl, sZ, ?_, fun j j0 j1 => ?_, fun q hq => ?_⟩
      · rw [sum_Ico_succ i0, hS, hw]
      · show Function.update _ _ _ _ = _
        by_cases c : j = i
        · subst c; rw [Function.update_self, hw]
        · rw [Function.update_of_ne (by omega), vZ j j0 (by omega)]
      · show Function.update _ _ _ _ = _
        rw [Function.update_of_ne (by omega), rZ q hq])
  rw [show max 0 M = M by omega] at hS v1
  dsimp only at s1 hS v1 r1
  rw [e1, Option.bind_some]
  unfold baryScale
  dsimp only
  have sn : S ≠ 0 := by rw [hS, hw]; exact (hX.bary ht le_rfl (by omega)).1
  obtain ⟨Z2, e2, s2, v2, r2⟩ := forUp_spec (lo := 0) (hi := M) (s := Z1) (body := fun j T => (T.rd (off + j)).bind fun v => (divC v S).bind (T.wr (off + j)))
    (fun i Z => Z.size = T.size ∧ (∀ j, 0 ≤ j → j < M → Z.val (off + j) = if j < i then w j / S else w j) ∧ ∀ q, ¬ (off ≤ q ∧ q < off + M) → Z.val q = T.val q)
    ⟨s1, fun j j0 j1 => by rw [if_neg (by omega), v1 j j0 j1], r1⟩ (fun i i0 i1 Z ⟨sZ, vZ, rZ⟩ => by
      unfold divC
      rw [Buf.rd_of (by omega) (by omega), Option.bind_some, if_neg sn, Option.bind_some, Buf.wr_of (by omega) (by omega)]
      refine ⟨_, rfl, sZ, fun j j0 j1 => ?_, fun q hq => ?_⟩
      · show Function.update _ _ _ _ = _
        by_cases c : j = i
        · subst c; rw [Function.update_self, vZ j j0 j1, if_neg (by omega), if_pos (by omega)]
        · rw [Function.update_of_ne (by omega), vZ j j0 j1]
          by_cases d : j < i
          · rw [if_pos d, if_pos (by omega)]
          · rw [if_neg d, if_neg (by omega)]
      · show Function.update _ _ _ _ = _
        rw [Function.update_of_ne (by omega), rZ q hq])
  refine ⟨Z2, e2, s2, fun j j0 j1 => ?_, r2⟩
  rw [v2 j j0 j1, if_pos (by omega), hS, hw]
  exact (hX.bary ht j0 j1).2

/-- Two rows at a time. -/
theorem baryRows_spec {X : Nodes K} {M : Int} (hX : NodesOk X M) (M1 : 1 ≤ M) {n : Int} (n0 : 0 ≤ n) {t : Int → Int → K} (ht : ∀ e i j, (e = 0 ∨ e = 1) → 0 ≤ i → i < n → 0 ≤ j → j < M → t e i - X.xj M j ≠ 0)
    {T : Buf K} (sT : (T.size : Int) = 2 * n * M) {body : Int → Buf K → Option (Buf K)}
    (hb : ∀ i T, body i T = (baryRow X M (t 0 i) (i * M) T).bind (baryRow X M (t 1 i) ((n + i) * M))) :
    ∃ T', forUp 0 n body T = some T' ∧ T'.size = T.size ∧ ∀ e i j, (e = 0 ∨ e = 1) → 0 ≤ i → i < n → 0 ≤ j → j < M → T'.val ((e * n + i) * M + j) = lagr M (X.xj M) j (t e i) := by
  obtain ⟨Z, e, s, v⟩ := forUp_spec (lo := 0) (hi := n) (s := T) (body := body)
    (fun i Z => Z.size = T.size ∧ ∀ e r j, (e = 0 ∨ e = 1) → 0 ≤ r → r < i → 0 ≤ j → j < M → Z.val ((e * n + r) * M + j) = lagr M (X.xj M) j (t e r))
    ⟨rfl, fun e r j _ a b => by omega⟩ (fun i i0 i1 Z ⟨sZ, vZ⟩ => by
      have b0 := row_bound (M := M) (k := 0) (r := i) (n := 2 * n) i0 (by omega) le_rfl (by omega)
      have b1 := row_bound (M := M) (k := 0) (r := n + i) (n := 2 * n) (by omega) (by omega) le_rfl (by omega)
      obtain ⟨Z1, e1, s1, v1, r1⟩ := baryRow_spec (T := Z) (off := i * M) hX M1 (ht 0 i · (Or.inl rfl) i0 i1) (by omega) (by omega)
      obtain ⟨Z2, e2, s2, v2, r2⟩ := baryRow_spec (T := Z1) (off := (n + i) * M) hX M1 (ht 1 i · (Or.inr rfl) i0 i1) (by omega) (by omega)
      rw [hb, e1, Option.bind_some, e2]
      refine ⟨_, rfl, by omega, fun e r j he r0 r1' j0 j1 => ?_⟩
      by_cases c : r = i
      · subst c
        rcases he with rfl | rfl
        · rw [r2 _ (row_out (by omega) j0 j1), zero_mul, zero_add, v1 j j0 j1]
        · rw [one_mul, v2 j j0 j1]
      · rw [r2 _ (row_out (by rcases he with rfl | rfl <;> omega) j0 j1), r1 _ (row_out (by rcases he with rfl | rfl <;> omega) j0 j1)]
        exact vZ e r j he r0 (by omega) j0 j1)
  rw [show max 0 n = n by omega] at v
  exact ⟨Z, e, s, v⟩

theorem createT_spec {X : Nodes K} {M s : Int} (hX : NodesOk X M) (M2 : 2 ≤ M) (s1 : 1 ≤ s) {lagrange : Bool} (hg : lagrange = true → Generic X M s) (junk : Int → K) :
    ∃ T, createT X junk lagrange M s = some T ∧ (T.size : Int) = 2 * s * M ∧
      ∀ odd p m : Int, 0 ≤ odd → odd ≤ 1 → 0 ≤ p → p < s → 0 ≤ m → m < M → T.val (odd * s * M + p * M + m) = (if lagrange then lagr M (X.xj M) else cheb) m (-1 + ((2 * p + odd : Int) : K) / (s : K)) := by
  have hN : 0 ≤ 2 * s * M := Int.mul_nonneg (by omega) (by omega)
  have hs : (((⟨(2 * s * M).toNat, junk⟩ : Buf K).size : ℕ) : Int) = 2 * s * M := by show (((2 * s * M).toNat : ℕ) : Int) = _; omega
  have ix : ∀ odd p m : Int, odd * s * M + p * M + m = (odd * s + p) * M + m := fun odd p m => by ring
  unfold createT
  cases lagrange with
  | true =>
    obtain ⟨T, e, sT, v⟩ := baryRows_spec hX (by omega) (n := s) (by omega) (t := fun e i => -1 + ((2 * i + e : Int) : K) / (s : K))
      (fun e i j he i0 i1 j0 j1 => (hg rfl).grid (2 * i + e) j (by omega) (by omega) j0 j1) hs (body := fun i T => (baryRow X M (-1 + ((2 * i : Int) : K) / s) (i * M) T).bind (baryRow X M (-1 + ((2 * i + 1 : Int) : K) / s) ((s + i) * M)))
      (fun i T => by rw [add_zero])
    refine ⟨T, e, by rw [sT]; exact hs, fun odd p m o0 o1 p0 p1 m0 m1 => ?_⟩
    rw [ix, v odd p m (by omega) p0 p1 m0 m1]; rfl
  | false =>
    obtain ⟨T, e, sT, v⟩ := vandermonde_spec (junk := junk) s1 M2 hs
    refine ⟨T, e, by rw [sT]; exact hs, fun odd p m o0 o1 p0 p1 m0 m1 => ?_⟩
    rw [ix, v odd p m o0 o1 p0 p1 m0 m1]; rfl

theorem createBL_spec {X : Nodes K} {M s : Int} (hX : NodesOk X M) (M1 : 1 ≤ M) (hg : Generic X M s) (junk : Int → K) :
    ∃ B, createBL X junk M = some B ∧ (B.size : Int) = 2 * (M * M) ∧
      ∀ e i j, (e = 0 ∨ e = 1) → 0 ≤ i → i < M → 0 ≤ j → j < M → B.val (e * (M * M) + i * M + j) = lagr M (X.xj M) j ((X.xj M i - 1 + 2 * (e : K)) / 2) := by
  have hN : 0 ≤ 2 * (M * M) := Int.mul_nonneg (by omega) (Int.mul_nonneg (by omega) (by omega))
  have hs : (((⟨(2 * (M * M)).toNat, junk⟩ : Buf K).size : ℕ) : Int) = 2 * M * M := by
    show (((2 * (M * M)).toNat : ℕ) : Int) = _
    rw [mul_assoc]; omega
  unfold createBL
  obtain ⟨T, e, sT, v⟩ := baryRows_spec hX M1 (n := M) (by omega) (t := fun e i => (X.xj M i - 1 + 2 * (e : K)) / 2)
    (fun e i j he i0 i1 j0 j1 => by
      rcases he with rfl | rfl
      · have := hg.lo i j i0 i1 j0 j1
        simpa using this
      · have := hg.hi i j i0 i1 j0 j1
        rw [show X.xj M i - 1 + 2 * ((1 : Int) : K) = X.xj M i + 1 by push_cast; ring]; exact this) hs
    (body := fun i B => (baryRow X M ((X.xj M i - 1) / 2) (i * M) B).bind (baryRow X M ((X.xj M i + 1) / 2) (M * M + i * M)))
    (fun i T => by
      rw [show X.xj M i - 1 + 2 * ((1 : Int) : K) = X.xj M i + 1 by push_cast; ring, show X.xj M i - 1 + 2 * ((0 : Int) : K) = X.xj M i - 1 by push_cast; ring, add_mul])
  refine ⟨T, e, by rw [sT, hs]; ring, fun e i j he i0 i1 j0 j1 => ?_⟩
  rw [← v e i j he i0 i1 j0 j1]
  congr 1; ring

/-- The Lagrange polynomials of a block on its halves. -/
theorem re_lagrange {X : Nodes K} {M : Int} (hX : NodesOk X M) {R : Int → Int → Int → K} (hR : ∀ e k j, (e = 0 ∨ e = 1) → 0 ≤ k → k < M → 0 ≤ j → j < M → R e k j = lagr M (X.xj M) k ((X.xj M j - 1 + 2 * (e : K)) / 2)) :
    ReExp M (lagr M (X.xj M)) R := by
  intro e k x he k0 k1
  obtain ⟨p, hp⟩ : ∃ p : K[X], p = (Lagrange.basis (Finset.Ico 0 M) (X.xj M) k).comp (C (1 / 2) * Polynomial.X + C ((-1 + 2 * (e : K)) / 2)) := ⟨_, rfl⟩
  have ev : ∀ y, p.eval y = lagr M (X.xj M) k ((y - 1 + 2 * (e : K)) / 2) := fun y => by
    rw [hp, eval_comp]
    unfold lagr
    congr 1
    simp only [eval_add, eval_mul, eval_C, eval_X]
    ring
  have dg : p.degree < M.toNat := by
    refine poly_lt (k := M - 1) (by omega) (by omega) ?_
    rw [hp]
    refine natDegree_comp_le.trans ?_
    have a : (Lagrange.basis (Finset.Ico 0 M) (X.xj M) k).natDegree = (M - 1).toNat := by
      have := Lagrange.degree_basis hX.inj (Finset.mem_Ico.2 ⟨k0, k1⟩)
      rw [card_Ico] at this
      rw [natDegree_eq_of_degree_eq_some this]; omega
    have b : (C (1 / 2 : K) * Polynomial.X + C ((-1 + 2 * (e : K)) / 2)).natDegree ≤ 1 := natDegree_linear_le
    rw [a]
    exact (Nat.mul_le_mul_left _ b).trans (by omega)
  rw [← ev, hX.lagr_poly p dg x]
  exact sum_Ico_congr fun j j0 j1 => by rw [hR e k j he k0 k1 j0 j1, ev]

/-! ## The matrices of the Chebyshev basis -/

omit [DecidableEq K] [CharZero K] in
theorem cheb_neg (k : ℕ) (x : K) : cheb k (-x) = sg k * cheb k x := by
  have main : ∀ k : ℕ, cheb k (-x) = sg k * cheb k x ∧ cheb (k + 1 : ℕ) (-x) = sg (k + 1 : ℕ) * cheb (k + 1 : ℕ) x := by
    intro k
    induction k with
    | zero => exact ⟨by simp [cheb_zero, sg], by simp [cheb_one, sg]⟩
    | succ k ih =>
      refine ⟨ih.2, ?_⟩
      have s2 : sg (K := K) ((k + 1 + 1 : ℕ) : Int) = sg (k : Int) := by rw [show ((k + 1 + 1 : ℕ) : Int) = k + 2 by push_cast; ring, sg_add, sg_even (i := 2) rfl, mul_one]
      have s1 : sg (K := K) ((k + 1 : ℕ) : Int) = -sg (k : Int) := by rw [show ((k + 1 : ℕ) : Int) = k + 1 by push_cast; ring, sg_add, sg_odd (i := 1) rfl]; ring
      rw [cheb_rec, cheb_rec ((k + 1 + 1 : ℕ) : Int) x, show (((k + 1 + 1 : ℕ) : Int) - 1) = ((k + 1 : ℕ) : Int) by push_cast; ring, show (((k + 1 + 1 : ℕ) : Int) - 2) = (k : Int) by push_cast; ring, ih.1, ih.2, s2, s1]
      ring
  exact (main k).1

omit [DecidableEq K] in
/-- The Chebyshev polynomials of a block on its halves. -/
theorem re_cheb {P : Plan K} (hB : ∀ k j, 0 ≤ j → j ≤ k → k < P.M → P.B.val (tri k + j) = cH k.toNat j) : ReExp P.M cheb (chR P) := by
  intro e k x he k0 k1
  obtain ⟨k, rfl⟩ := Int.eq_ofNat_of_zero_le k0
  have cut : ∀ f : Int → K, ∑ j ∈ Finset.Ico 0 P.M, (if j ≤ (k : Int) then f j else 0) = ∑ j ∈ Finset.Ico 0 ((k : Int) + 1), f j := fun f => by
    rw [sum_Ico_shrink (lo' := 0) (hi' := (k : Int) + 1) (fun j j0 j1 hj => if_neg (by omega)) le_rfl (by omega)]
    exact sum_Ico_congr fun j j0 j1 => if_pos (by omega)
  rcases he with rfl | rfl
  · rw [show (x - 1 + 2 * ((0 : Int) : K)) / 2 = (x - 1) / 2 by push_cast; ring, cH_eq, ← cut]
    refine sum_Ico_congr fun j j0 j1 => ?_
    unfold chR
    by_cases c : j ≤ (k : Int)
    · rw [if_pos c, if_pos c, if_pos rfl, hB _ _ j0 c k1, one_mul]; rfl
    · rw [if_neg c, if_neg c, zero_mul]
  · rw [show (x - 1 + 2 * ((1 : Int) : K)) / 2 = -((-x - 1) / 2) by push_cast; ring, cheb_neg, cH_eq, ← cut, Finset.mul_sum]
    refine sum_Ico_congr fun j j0 j1 => ?_
    unfold chR
    by_cases c : j ≤ (k : Int)
    · obtain ⟨j, rfl⟩ := Int.eq_ofNat_of_zero_le j0
      rw [if_pos c, if_pos c, if_neg (by norm_num), hB _ _ j0 c k1, cheb_neg, sg_add]
      show _ = sg (k : Int) * sg (j : Int) * cH k j * _
      ring
    · rw [if_neg c, if_neg c, zero_mul, mul_zero]

omit [DecidableEq K] in
/-- The coefficients as the code computes them. -/
theorem NodesOk.expand {X : Nodes K} {M : Int} (h : NodesOk X M) {k j : Int} (k0 : 0 ≤ k) (k1 : k < M) (j0 : 0 ≤ j) (j1 : j < M) :
    X.redft1 M (fun i => X.cosAcos k ((X.xj M i - 1) / 2)) j / M * hf j = cH k.toNat j := by
  have hM : (M : K) ≠ 0 := by exact_mod_cast (show M ≠ 0 by omega)
  obtain ⟨k, rfl⟩ := Int.eq_ofNat_of_zero_le k0
  rw [h.redft1 _ _ j0 j1, sum_Ico_congr (g := fun i => ∑ l ∈ Finset.Ico 0 ((k : Int) + 1), cH k l * (cheb l (X.xj M i) * cheb j (X.xj M i))) fun i i0 i1 => by
    rw [h.acos k i k0 k1 i0 i1, cH_eq, Finset.sum_mul]
    exact sum_Ico_congr fun l _ _ => by ring, Finset.sum_comm]
  rw [sum_Ico_congr (g := fun l => if l = j then cH k j * ((M : K) / (2 * hf j)) else 0) fun l l0 l1 => by
    rw [← Finset.mul_sum, h.orth l j l0 (by omega) j0 j1]
    by_cases c : l = j
    · subst c; rw [if_pos rfl, if_pos rfl]
    · rw [if_neg c, if_neg c, mul_zero]]
  have hh := hf_ne (K := K) j
  show _ = cH k j
  by_cases c : j < (k : Int) + 1
  · rw [Finset.sum_ite_eq' , if_pos (Finset.mem_Ico.2 ⟨j0, c⟩)]
    field_simp
  · rw [Finset.sum_ite_eq', if_neg (fun h => c (Finset.mem_Ico.1 h).2), cH_out (by omega)]
    simp

theorem createB_spec {X : Nodes K} {M : Int} (hX : NodesOk X M) (M1 : 1 ≤ M) (junk : Int → K) :
    ∃ B BT, createB X junk M = some (B, BT) ∧ (B.size : Int) = tri M ∧ (BT.size : Int) = tri M ∧ (∀ k j, 0 ≤ j → j ≤ k → k < M → B.val (tri k + j) = cH k.toNat j) ∧
      ∀ i d, 0 ≤ i → 0 ≤ d → i + d < M → BT.val (trU M i + d) = cH (i + d).toNat i := by
  have MM : 0 ≤ M * M := Int.mul_nonneg (by omega) (by omega)
  have tM : (M * M + M) / 2 = tri M := by unfold tri; rw [mul_add, mul_one]
  have t0 := tri_nonneg (k := M) (by omega)
  unfold createB
  rw [tM]
  obtain ⟨Ba, e1, s1, v1⟩ := forUp_spec (lo := 0) (hi := M) (s := (⟨(M * M).toNat, junk⟩ : Buf K)) (body := expandRow X M)
    (fun i Z => (Z.size : Int) = M * M ∧ ∀ k j, 0 ≤ k → k < i → 0 ≤ j → j < M → Z.val (k * M + j) = cH k.toNat j)
    ⟨by show (((M * M).toNat : ℕ) : Int) = _; omega, fun k j a b => by omega⟩ (fun i i0 i1 Z ⟨sZ, vZ⟩ => by
      have b0 := row_bound (M := M) (k := 0) i0 i1 le_rfl (by omega)
      unfold expandRow
      dsimp only
      rw [Buf.wr_of (by omega) (by omega), Option.bind_some]
      obtain ⟨Z', e', s', v'⟩ := forUp_spec (lo := 1) (hi := M) (s := (⟨Z.size, Function.update Z.val (i * M) (X.redft1 M (fun j => X.cosAcos i ((X.xj M j - 1) / 2)) 0 / M / 2)⟩ : Buf K))
        (body := fun j Ba => Ba.wr (i * M + j) (X.redft1 M (fun j => X.cosAcos i ((X.xj M j - 1) / 2)) j / M))
        (fun c Z => (Z.size : Int) = M * M ∧ ∀ k j, 0 ≤ k → 0 ≤ j → j < M → (k < i ∨ (k = i ∧ j < c)) → Z.val (k * M + j) = cH k.toNat j)
        ⟨sZ, fun k j k0 j0 j1 c => by
          show Function.update _ _ _ _ = _
          by_cases d : k = i
          · subst d
            obtain rfl : j = 0 := by omega
            rw [add_zero, Function.update_self, ← hX.expand k0 i1 le_rfl (by omega)]
            unfold hf
            rw [if_pos rfl]; ring
          · rw [Function.update_of_ne fun e => d (cell_eq (N := M) (j := 0) j0 j1 le_rfl (by omega) (by omega)).1]
            exact vZ k j k0 (by omega) j0 j1⟩ (fun c c0 c1 Z ⟨sZ, vZ⟩ => by
          have b1 := row_bound (M := M) (k := c) i0 i1 (by omega) c1
          rw [Buf.wr_of (by omega) (by omega)]
          refine ⟨_, rfl, sZ, fun k j k0 j0 j1 d => ?_⟩
          show Function.update _ _ _ _ = _
          by_cases f : k = i ∧ j = c
          · obtain ⟨rfl, rfl⟩ := f
            rw [Function.update_self, ← hX.expand k0 i1 j0 j1]
            unfold hf
            rw [if_neg (by omega), mul_one]
          · rw [Function.update_of_ne fun e => f (cell_eq (N := M) j0 j1 (by omega) c1 e)]
            exact vZ k j k0 j0 j1 (by omega))
      refine ⟨Z', e', s', fun k j k0 k1 j0 j1 => v' k j k0 j0 j1 ?_⟩
      omega)
  rw [show max 0 M = M by omega] at v1
  rw [e1, Option.bind_some]
  have rdB : ∀ k j, 0 ≤ k → k < M → 0 ≤ j → j < M → Ba.rd (k * M + j) = some (cH k.toNat j) := fun k j k0 k1 j0 j1 => by
    have := row_bound (M := M) (k := j) k0 k1 j0 j1
    rw [Buf.rd_of (by omega) (by omega), v1 k j k0 k1 j0 j1]
  unfold compactL
  obtain ⟨⟨p2, B⟩, e2, s2, hp2, v2⟩ := forUp_spec (lo := 0) (hi := M) (s := ((0 : Int), (⟨(tri M).toNat, junk⟩ : Buf K)))
    (body := fun k => forUp 0 (k + 1) (fun j (r : Int × Buf K) => (Ba.rd (k * M + j)).bind fun v => (r.2.wr r.1 v).bind fun B => some (r.1 + 1, B)))
    (fun i r => (r.2.size : Int) = tri M ∧ r.1 = tri i ∧ ∀ k j, 0 ≤ j → j ≤ k → k < i → r.2.val (tri k + j) = cH k.toNat j)
    ⟨by show (((tri M).toNat : ℕ) : Int) = _; omega, rfl, fun k j a b => by omega⟩ (fun i i0 i1 ⟨p, Z⟩ ⟨sZ, hp, vZ⟩ => by
      dsimp only at sZ hp vZ ⊢
      obtain ⟨⟨p', Z'⟩, e', s', hp', v'⟩ := forUp_spec (lo := 0) (hi := i + 1) (s := (p, Z)) (body := fun j (r : Int × Buf K) => (Ba.rd (i * M + j)).bind fun v => (r.2.wr r.1 v).bind fun B => some (r.1 + 1, B))
        (fun c r => (r.2.size : Int) = tri M ∧ r.1 = tri i + c ∧ ∀ k j, 0 ≤ j → j ≤ k → (k < i ∨ (k = i ∧ j < c)) → r.2.val (tri k + j) = cH k.toNat j)
        ⟨sZ, by dsimp only; omega, fun k j j0 j1 c => vZ k j j0 j1 (by omega)⟩ (fun c c0 c1 ⟨p, Z⟩ ⟨sZ, hp, vZ⟩ => by
          dsimp only at sZ hp vZ ⊢
          have t1 := tri_nonneg i0
          have t2 := tri_mono (j := i + 1) (k := M) (by omega) (by omega)
          rw [tri_succ] at t2
          rw [rdB i c i0 i1 c0 (by omega), Option.bind_some, Buf.wr_of (by omega) (by omega), Option.bind_some]
          refine ⟨_, rfl, sZ, by dsimp only; omega, fun k j j0 j1 d => ?_⟩
          show Function.update _ _ _ _ = _
          by_cases f : k = i ∧ j = c
          · obtain ⟨rfl, rfl⟩ := f
            rw [hp, Function.update_self]
          · rw [Function.update_of_ne, vZ k j j0 j1 (by omega)]
            rw [hp]
            by_cases g : k = i
            · subst g; omega
            · have := tri_mono (j := k + 1) (k := i) (by omega) (by omega)
              rw [tri_succ] at this
              omega)
      refine ⟨(p', Z'), e', s', ?_, fun k j j0 j1 k1 => v' k j j0 j1 ?_⟩
      · rw [hp', tri_succ]; omega
      · omega)
  rw [show max 0 M = M by omega] at v2
  dsimp only at s2 hp2 v2
  rw [e2, Option.bind_some]
  unfold compactU
  obtain ⟨⟨p3, BT⟩, e3, s3, hp3, v3⟩ := forUp_spec (lo := 0) (hi := M) (s := ((0 : Int), (⟨(tri M).toNat, junk⟩ : Buf K)))
    (body := fun k => forUp k M (fun j (r : Int × Buf K) => (Ba.rd (j * M + k)).bind fun v => (r.2.wr r.1 v).bind fun B => some (r.1 + 1, B)))
    (fun i r => (r.2.size : Int) = tri M ∧ r.1 = trU M i ∧ ∀ k d, 0 ≤ k → 0 ≤ d → k + d < M → k < i → r.2.val (trU M k + d) = cH (k + d).toNat k)
    ⟨by show (((tri M).toNat : ℕ) : Int) = _; omega, (trU_zero M).symm, fun k j a b => by omega⟩ (fun i i0 i1 ⟨p, Z⟩ ⟨sZ, hp, vZ⟩ => by
      dsimp only at sZ hp vZ ⊢
      obtain ⟨⟨p', Z'⟩, e', s', hp', v'⟩ := forUp_spec (lo := i) (hi := M) (s := (p, Z)) (body := fun j (r : Int × Buf K) => (Ba.rd (j * M + i)).bind fun v => (r.2.wr r.1 v).bind fun B => some (r.1 + 1, B))
        (fun c r => (r.2.size : Int) = tri M ∧ r.1 = trU M i + (c - i) ∧ ∀ k d, 0 ≤ k → 0 ≤ d → k + d < M → (k < i ∨ (k = i ∧ k + d < c)) → r.2.val (trU M k + d) = cH (k + d).toNat k)
        ⟨sZ, by dsimp only; omega, fun k j j0 j1 j2 c => vZ k j j0 j1 j2 (by omega)⟩ (fun c c0 c1 ⟨p, Z⟩ ⟨sZ, hp, vZ⟩ => by
          dsimp only at sZ hp vZ ⊢
          obtain ⟨t1, t2⟩ := trU_bounds i0 (le_of_lt i1)
          have t3 := tri_mono (j := 1) (k := M - i) (by omega) (by omega)
          have t4 := tri_succ (M - i - 1)
          have t5 := tri_nonneg (k := M - i - 1) (by omega)
          rw [show M - i - 1 + 1 = M - i by ring] at t4
          rw [rdB c i (by omega) c1 i0 i1, Option.bind_some, Buf.wr_of (by omega) (by omega), Option.bind_some]
          refine ⟨_, rfl, sZ, by dsimp only; omega, fun k d j0 j1 j2 f => ?_⟩
          show Function.update _ _ _ _ = _
          by_cases g : k = i ∧ k + d = c
          · obtain ⟨rfl, g⟩ := g
            rw [hp, show trU M k + (c - k) = trU M k + d by omega, Function.update_self, g]
          · rw [Function.update_of_ne, vZ k d j0 j1 j2 (by omega)]
            rw [hp]
            by_cases g' : k = i
            · subst g'; omega
            · have a := trU_bounds (m := M) (i := k + 1) (by omega) (by omega)
              have a' := trU_bounds (m := M) (i := i) (by omega) (by omega)
              have b := trU_succ M k
              have := tri_mono (j := M - i) (k := M - (k + 1)) (by omega) (by omega)
              omega)
      refine ⟨(p', Z'), e', s', ?_, fun k j j0 j1 k1 k2 => v' k j j0 j1 k1 ?_⟩
      · rw [hp', trU_succ]; omega
      · omega)
  rw [show max 0 M = M by omega] at v3
  dsimp only at s3 hp3 v3
  rw [e3, Option.bind_some]
  exact ⟨B, BT, rfl, s2, s3, v2, fun i d i0 d0 h => v3 i d i0 d0 h (by omega)⟩

end FT.Props.Lc
