import Verif.Lemmas.LegChebTabs

/-! # The interpolation coefficients of a plan of the fast multipole transforms -/

namespace FT.Props.Lc
open FT FT.Poly FT.Model.Lc
variable {K : Type*} [Field K] [CharZero K] [DecidableEq K]

/-! ## The values at the points -/

/-- The pairs of indices before `(i, j)`. -/
def Seen (i j r m : Int) : Prop := r < i ∨ (r = i ∧ m < j)

/-- The values of the two arrays. -/
def val0 (X : Nodes K) (M h d r m : Int) : K := X.lam ((2 * (2 + (d : K)) * h + h * (X.xj M m - X.xj M r)) / 2)
def val1 (X : Nodes K) (M h x0 y0 r m : Int) : K := X.lam (((x0 + X.xj M r * h) + (y0 + X.xj M m * h)) / 2)

/-- The values of the kernel at the points of two blocks. -/
def grid (X : Nodes K) (M h x0 y0 : Int) (c2l : Bool) (r m : Int) : K := kern X.lam c2l (x0 + X.xj M r * h) (y0 + X.xj M m * h)

/-- The quotient of the other direction is one by a number other than zero. -/
def Den (X : Nodes K) (M h x0 y0 r m : Int) : Prop :=
  X.lam (((x0 + X.xj M r * h) + (y0 + X.xj M m * h)) / 2) * ((x0 + X.xj M r * h) + (y0 + X.xj M m * h)) * ((x0 + X.xj M r * h) + (y0 + X.xj M m * h) + 1) *
    ((x0 + X.xj M r * h) - (y0 + X.xj M m * h) + 1) ≠ 0

/-- What holds between two cells. -/
structure CellInv (X : Nodes K) (M h x0 y0 q p off : Int) (c2l di0 corner : Bool) (t0 : Tabs K) (i j : Int) (t : Tabs K) : Prop where
  s0 : t.fx0.size = t0.fx0.size
  s1 : t.fx1.size = t0.fx1.size
  sf : t.ff.size = t0.ff.size
  v0 : ∀ r m, 0 ≤ r → r < M → 0 ≤ m → m < M → (corner = false ∨ Seen i j r m ∨ (M - 1 ≤ r + m ∧ Seen i j (M - 1 - m) (M - 1 - r))) → t.fx0.val ((q - p) * (M * M) + (r * M + m)) = val0 X M h (q - p) r m
  f0 : ∀ u, (corner = false ∨ ¬ (q * (M * M) ≤ u ∧ u < (q + 1) * (M * M))) → t.fx0.val u = t0.fx0.val u
  v1 : ∀ r m, 0 ≤ r → r < M → 0 ≤ m → m < M → (di0 = false ∨ Seen i j r m ∨ (m ≤ r ∧ Seen i j m r)) → t.fx1.val (r * M + m) = val1 X M h x0 y0 r m
  vf : ∀ r m, 0 ≤ r → r < M → 0 ≤ m → m < M → Seen i j r m → t.ff.val (off + (r * M + m)) = grid X M h x0 y0 c2l r m
  ff : ∀ u, ¬ (off ≤ u ∧ u < off + M * M) → t.ff.val u = t0.ff.val u

omit [CharZero K] in
theorem cell_spec {X : Nodes K} {M h x0 y0 q p off : Int} {c2l di0 corner : Bool} {t0 : Tabs K} (anti : ∀ i, 0 ≤ i → i < M → X.xj M (M - 1 - i) = -X.xj M i)
    (hq : 0 ≤ p ∧ p ≤ q ∧ q ≤ 1) (hc : corner = true → p = 0) (hy : y0 - x0 = 2 * (2 + (q - p)) * h) (hd : c2l = true → ∀ r m, 0 ≤ r → r < M → 0 ≤ m → m < M → Den X M h x0 y0 r m)
    (z0 : (t0.fx0.size : Int) = 2 * (M * M)) (z1 : (t0.fx1.size : Int) = M * M) (o0 : 0 ≤ off) (zf : off + M * M ≤ t0.ff.size) {i j : Int} (i0 : 0 ≤ i) (i1 : i < M) (j0 : 0 ≤ j) (j1 : j < M)
    {t : Tabs K} (ht : CellInv X M h x0 y0 q p off c2l di0 corner t0 i j t) :
    ∃ t', cell X c2l di0 corner M h x0 y0 q p off i j t = some t' ∧ CellInv X M h x0 y0 q p off c2l di0 corner t0 i (j + 1) t' := by
  have hyK : (y0 : K) - x0 = 2 * (2 + ((q - p : Int) : K)) * h := by rw [← Int.cast_sub, hy]; push_cast; ring
  have MM : 0 ≤ M * M := Int.mul_nonneg (by omega) (by omega)
  have bq : 0 ≤ q * (M * M) ∧ (q + 1) * (M * M) ≤ 2 * (M * M) ∧ (q + 1) * (M * M) = q * (M * M) + M * M :=
    ⟨Int.mul_nonneg (by omega) MM, Int.mul_le_mul_of_nonneg_right (by omega) MM, by ring⟩
  have bqp : 0 ≤ (q - p) * (M * M) ∧ (q - p + 1) * (M * M) ≤ 2 * (M * M) ∧ (q - p + 1) * (M * M) = (q - p) * (M * M) + M * M :=
    ⟨Int.mul_nonneg (by omega) MM, Int.mul_le_mul_of_nonneg_right (by omega) MM, by ring⟩
  have bc : ∀ r m, 0 ≤ r → r < M → 0 ≤ m → m < M → 0 ≤ r * M + m ∧ r * M + m < M * M := fun r m r0 r1 m0 m1 => by
    have := row_bound (M := M) (k := m) r0 r1 m0 m1; omega
  have bij := bc i j i0 i1 j0 j1
  have bji := bc j i j0 j1 i0 i1
  have bp := bc (M - 1 - j) (M - 1 - i) (by omega) (by omega) (by omega) (by omega)
  have ep : M * M - (j * M + i) - 1 = (M - 1 - j) * M + (M - 1 - i) := by ring
  have hx : ∀ r m, ((y0 + X.xj M m * h) - (x0 + X.xj M r * h)) / 2 = (2 * (2 + ((q - p : Int) : K)) * h + h * (X.xj M m - X.xj M r)) / 2 := fun r m => by rw [← hyK]; ring
  -- the persymmetric part
  obtain ⟨fx0, e0, z0', v0, f0⟩ : ∃ fx0, cellP X M q i j corner (x0 + X.xj M i * h) (y0 + X.xj M j * h) t.fx0 = some fx0 ∧ fx0.size = t0.fx0.size ∧
      (∀ r m, 0 ≤ r → r < M → 0 ≤ m → m < M → (corner = false ∨ Seen i (j + 1) r m ∨ (M - 1 ≤ r + m ∧ Seen i (j + 1) (M - 1 - m) (M - 1 - r))) → fx0.val ((q - p) * (M * M) + (r * M + m)) = val0 X M h (q - p) r m) ∧
      ∀ u, (corner = false ∨ ¬ (q * (M * M) ≤ u ∧ u < (q + 1) * (M * M))) → fx0.val u = t0.fx0.val u := by
    have st := ht.s0
    unfold cellP
    by_cases c : corner = true ∧ j < M - i
    · obtain rfl := hc c.1
      rw [if_pos c, Buf.wr_of (by omega) (by omega), Option.bind_some, Buf.wr_of (by omega) (by show (_ : Int) < t.fx0.size; omega), ep]
      refine ⟨_, rfl, ht.s0, fun r m r0 r1 m0 m1 d => ?_, fun u d => ?_⟩
      · show Function.update (Function.update _ _ _) _ _ _ = _
        rw [sub_zero]
        by_cases a : r = M - 1 - j ∧ m = M - 1 - i
        · obtain ⟨rfl, rfl⟩ := a
          rw [Function.update_self, hx, sub_zero]
          unfold val0
          rw [anti i i0 i1, anti j j0 j1]
          congr 2; ring
        · rw [Function.update_of_ne fun e => a (cell_eq (N := M) (by omega) (by omega) (by omega) (by omega) (by omega))]
          by_cases b : r = i ∧ m = j
          · obtain ⟨rfl, rfl⟩ := b
            rw [Function.update_self, hx, sub_zero]; rfl
          · rw [Function.update_of_ne fun e => b (cell_eq (N := M) (by omega) (by omega) (by omega) (by omega) (by omega))]
            have d' := d.resolve_left (by rw [c.1]; simp)
            have := ht.v0 r m r0 r1 m0 m1 (Or.inr (by unfold Seen at d' ⊢; omega))
            rwa [sub_zero] at this
      · show Function.update (Function.update _ _ _) _ _ _ = _
        have : ¬ (q * (M * M) ≤ u ∧ u < (q + 1) * (M * M)) := d.resolve_left (by rw [c.1]; simp)
        rw [Function.update_of_ne (by omega), Function.update_of_ne (by omega), ht.f0 u d]
    · rw [if_neg c]
      refine ⟨_, rfl, ht.s0, fun r m r0 r1 m0 m1 d => ht.v0 r m r0 r1 m0 m1 ?_, ht.f0⟩
      by_cases a : corner = false
      · exact Or.inl a
      · have a' : corner = true := by simpa using a
        have : ¬ (j < M - i) := fun b => c ⟨a', b⟩
        refine Or.inr ?_
        have d' := d.resolve_left a
        unfold Seen at d' ⊢; omega
  -- the symmetric part
  obtain ⟨fx1, e1, z1', v1⟩ : ∃ fx1, cellS X M i j di0 (x0 + X.xj M i * h) (y0 + X.xj M j * h) t.fx1 = some fx1 ∧ fx1.size = t0.fx1.size ∧
      ∀ r m, 0 ≤ r → r < M → 0 ≤ m → m < M → (di0 = false ∨ Seen i (j + 1) r m ∨ (m ≤ r ∧ Seen i (j + 1) m r)) → fx1.val (r * M + m) = val1 X M h x0 y0 r m := by
    have st := ht.s1
    unfold cellS
    by_cases c : di0 = true ∧ i ≤ j
    · rw [if_pos c, Buf.wr_of (by omega) (by omega), Option.bind_some, Buf.wr_of (by omega) (by show (_ : Int) < t.fx1.size; omega)]
      refine ⟨_, rfl, ht.s1, fun r m r0 r1 m0 m1 d => ?_⟩
      show Function.update (Function.update _ _ _) _ _ _ = _
      by_cases a : r = j ∧ m = i
      · obtain ⟨rfl, rfl⟩ := a
        rw [Function.update_self]
        unfold val1
        congr 2; ring
      · rw [Function.update_of_ne fun e => a (cell_eq (N := M) m0 m1 i0 i1 e)]
        by_cases b : r = i ∧ m = j
        · obtain ⟨rfl, rfl⟩ := b
          rw [Function.update_self]; rfl
        · rw [Function.update_of_ne fun e => b (cell_eq (N := M) m0 m1 j0 j1 e)]
          have d' := d.resolve_left (by rw [c.1]; simp)
          exact ht.v1 r m r0 r1 m0 m1 (Or.inr (by unfold Seen at d' ⊢; omega))
    · rw [if_neg c]
      refine ⟨_, rfl, ht.s1, fun r m r0 r1 m0 m1 d => ht.v1 r m r0 r1 m0 m1 ?_⟩
      by_cases a : di0 = false
      · exact Or.inl a
      · have a' : di0 = true := by simpa using a
        have : ¬ (i ≤ j) := fun b => c ⟨a', b⟩
        refine Or.inr ?_
        have d' := d.resolve_left a
        unfold Seen at d' ⊢; omega
  unfold cell
  dsimp only
  have w0 := v0 i j i0 i1 j0 j1 (by unfold Seen; omega)
  have w1 := v1 i j i0 i1 j0 j1 (by unfold Seen; omega)
  have hk : kernC c2l (val0 X M h (q - p) i j) (val1 X M h x0 y0 i j) (x0 + X.xj M i * h) (y0 + X.xj M j * h) = some (grid X M h x0 y0 c2l i j) := by
    unfold kernC grid kern
    cases c2l with
    | false =>
      rw [if_neg (by simp), if_neg (by simp), hx]; rfl
    | true =>
      rw [if_pos rfl, if_pos rfl, hx]
      unfold divC
      rw [if_neg]
      · rfl
      · exact hd rfl i j i0 i1 j0 j1
  have sf := ht.sf
  rw [e0, Option.bind_some, e1, Option.bind_some, Buf.rd_of (by omega) (by omega), Option.bind_some, Buf.rd_of (by omega) (by omega), Option.bind_some, w0, w1, hk, Option.bind_some,
    Buf.wr_of (by omega) (by omega), Option.bind_some]
  refine ⟨_, rfl, z0', z1', ht.sf, v0, f0, v1, fun r m r0 r1 m0 m1 d => ?_, fun u d => ?_⟩
  · show Function.update _ _ _ _ = _
    by_cases b : r = i ∧ m = j
    · obtain ⟨rfl, rfl⟩ := b
      rw [Function.update_self]
    · rw [Function.update_of_ne fun e => b (cell_eq (N := M) m0 m1 j0 j1 (by omega))]
      exact ht.vf r m r0 r1 m0 m1 (by unfold Seen at d ⊢; omega)
  · show Function.update _ _ _ _ = _
    rw [Function.update_of_ne (by omega), ht.ff u d]

omit [CharZero K] in
theorem cells_spec {X : Nodes K} {M h x0 y0 q p off : Int} {c2l di0 corner : Bool} {t0 : Tabs K} (anti : ∀ i, 0 ≤ i → i < M → X.xj M (M - 1 - i) = -X.xj M i) (M1 : 1 ≤ M)
    (hq : 0 ≤ p ∧ p ≤ q ∧ q ≤ 1) (hc : corner = true → p = 0) (hy : y0 - x0 = 2 * (2 + (q - p)) * h) (hd : c2l = true → ∀ r m, 0 ≤ r → r < M → 0 ≤ m → m < M → Den X M h x0 y0 r m)
    (z0 : (t0.fx0.size : Int) = 2 * (M * M)) (z1 : (t0.fx1.size : Int) = M * M) (o0 : 0 ≤ off) (zf : off + M * M ≤ t0.ff.size)
    (p0 : corner = false → ∀ r m, 0 ≤ r → r < M → 0 ≤ m → m < M → t0.fx0.val ((q - p) * (M * M) + (r * M + m)) = val0 X M h (q - p) r m)
    (p1 : di0 = false → ∀ r m, 0 ≤ r → r < M → 0 ≤ m → m < M → t0.fx1.val (r * M + m) = val1 X M h x0 y0 r m) :
    ∃ t', cells X c2l di0 corner M h x0 y0 q p off t0 = some t' ∧ CellInv X M h x0 y0 q p off c2l di0 corner t0 M 0 t' := by
  unfold cells
  obtain ⟨t', e, ht⟩ := forUp_spec (lo := 0) (hi := M) (s := t0) (body := fun i => forUp 0 M (fun j => cell X c2l di0 corner M h x0 y0 q p off i j))
    (fun i t => CellInv X M h x0 y0 q p off c2l di0 corner t0 i 0 t)
    ⟨rfl, rfl, rfl, fun r m r0 r1 m0 m1 d => p0 (by unfold Seen at d; rcases d with d | d; · exact d
                                                    · omega) r m r0 r1 m0 m1, fun _ _ => rfl,
      fun r m r0 r1 m0 m1 d => p1 (by unfold Seen at d; rcases d with d | d; · exact d
                                      · omega) r m r0 r1 m0 m1, fun r m r0 r1 m0 m1 d => by unfold Seen at d; omega, fun _ _ => rfl⟩
    (fun i i0 i1 t ht => by
      obtain ⟨t', e, ht'⟩ := forUp_spec (lo := 0) (hi := M) (s := t) (body := fun j => cell X c2l di0 corner M h x0 y0 q p off i j)
        (fun j t => CellInv X M h x0 y0 q p off c2l di0 corner t0 i j t) ht (fun j j0 j1 t ht => cell_spec anti hq hc hy hd z0 z1 o0 zf i0 i1 j0 j1 ht)
      rw [show max 0 M = M by omega] at ht'
      refine ⟨t', e, ht'.s0, ht'.s1, ht'.sf, fun r m r0 r1 m0 m1 d => ht'.v0 r m r0 r1 m0 m1 ?_, ht'.f0, fun r m r0 r1 m0 m1 d => ht'.v1 r m r0 r1 m0 m1 ?_,
        fun r m r0 r1 m0 m1 d => ht'.vf r m r0 r1 m0 m1 ?_, ht'.ff⟩
      · rcases d with d | d
        · exact Or.inl d
        · refine Or.inr ?_; unfold Seen at d ⊢; omega
      · rcases d with d | d
        · exact Or.inl d
        · refine Or.inr ?_; unfold Seen at d ⊢; omega
      · unfold Seen at d ⊢; omega)
  rw [show max 0 M = M by omega] at ht
  exact ⟨t', e, ht⟩

/-! ## The coefficients -/

/-- The coefficients of the interpolant of the values `f`. -/
noncomputable def coef (lagrange : Bool) (X : Nodes K) (M : Int) (f : Int → Int → K) (k l : Int) : K :=
  if lagrange then f k l else hf k * hf l * (4 / ((M : K) * M)) * ∑ i ∈ Finset.Ico 0 M, ∑ j ∈ Finset.Ico 0 M, f i j * (cheb k (X.xj M i) * cheb l (X.xj M j))

/-- The basis. -/
noncomputable def bas (lagrange : Bool) (X : Nodes K) (M : Int) : Int → K → K := if lagrange then lagr M (X.xj M) else cheb

omit [DecidableEq K] in
theorem coef_sum {X : Nodes K} {M : Int} (hX : NodesOk X M) (lagrange : Bool) (f : Int → Int → K) (x y : K) :
    ∑ k ∈ Finset.Ico 0 M, ∑ l ∈ Finset.Ico 0 M, coef lagrange X M f k l * bas lagrange X M k x * bas lagrange X M l y =
      ∑ i ∈ Finset.Ico 0 M, ∑ j ∈ Finset.Ico 0 M, f i j * lagr M (X.xj M) i x * lagr M (X.xj M) j y := by
  cases lagrange with
  | true => rfl
  | false =>
    show ∑ k ∈ Finset.Ico 0 M, ∑ l ∈ Finset.Ico 0 M, (hf k * hf l * (4 / ((M : K) * M)) * ∑ i ∈ Finset.Ico 0 M, ∑ j ∈ Finset.Ico 0 M, f i j * (cheb k (X.xj M i) * cheb l (X.xj M j))) * cheb k x * cheb l y = _
    rw [show (∑ i ∈ Finset.Ico 0 M, ∑ j ∈ Finset.Ico 0 M, f i j * lagr M (X.xj M) i x * lagr M (X.xj M) j y) = ∑ i ∈ Finset.Ico 0 M, ∑ j ∈ Finset.Ico 0 M, ∑ k ∈ Finset.Ico 0 M, ∑ l ∈ Finset.Ico 0 M,
        (hf k * hf l * (4 / ((M : K) * M)) * (f i j * (cheb k (X.xj M i) * cheb l (X.xj M j)))) * cheb k x * cheb l y from ?_]
    · simp only [Finset.mul_sum, Finset.sum_mul]
      calc _ = ∑ k ∈ Finset.Ico 0 M, ∑ i ∈ Finset.Ico 0 M, ∑ l ∈ Finset.Ico 0 M, ∑ j ∈ Finset.Ico 0 M, (hf k * hf l * (4 / ((M : K) * M)) * (f i j * (cheb k (X.xj M i) * cheb l (X.xj M j)))) * cheb k x * cheb l y :=
            Finset.sum_congr rfl fun k _ => Finset.sum_comm
        _ = ∑ i ∈ Finset.Ico 0 M, ∑ k ∈ Finset.Ico 0 M, ∑ l ∈ Finset.Ico 0 M, ∑ j ∈ Finset.Ico 0 M, (hf k * hf l * (4 / ((M : K) * M)) * (f i j * (cheb k (X.xj M i) * cheb l (X.xj M j)))) * cheb k x * cheb l y := Finset.sum_comm
        _ = ∑ i ∈ Finset.Ico 0 M, ∑ k ∈ Finset.Ico 0 M, ∑ j ∈ Finset.Ico 0 M, ∑ l ∈ Finset.Ico 0 M, (hf k * hf l * (4 / ((M : K) * M)) * (f i j * (cheb k (X.xj M i) * cheb l (X.xj M j)))) * cheb k x * cheb l y :=
            Finset.sum_congr rfl fun i _ => Finset.sum_congr rfl fun k _ => Finset.sum_comm
        _ = _ := Finset.sum_congr rfl fun i _ => Finset.sum_comm
    · refine sum_Ico_congr fun i i0 i1 => sum_Ico_congr fun j j0 j1 => ?_
      rw [← hX.lagr_eq i0 i1 x, ← hX.lagr_eq j0 j1 y, Finset.mul_sum (a := f i j), Finset.sum_mul]
      refine Finset.sum_congr rfl fun k _ => ?_
      rw [Finset.mul_sum]
      refine Finset.sum_congr rfl fun l _ => ?_
      ring

theorem coeffs_spec {X : Nodes K} {M : Int} (hX : NodesOk X M) (M1 : 1 ≤ M) {fftw : Bool} (h18 : fftw = false → M = 18) {f : Buf K} (sf : (f.size : Int) = M * M) :
    ∃ g, coeffs X fftw M f = some g ∧ (g.size : Int) = M * M ∧ ∀ k l, 0 ≤ k → k < M → 0 ≤ l → l < M → g.val (k * M + l) = coef false X M (fun i j => f.val (i * M + j)) k l := by
  have MM : 0 ≤ M * M := Int.mul_nonneg (by omega) (by omega)
  unfold coeffs
  cases fftw with
  | false =>
    obtain rfl := h18 rfl
    have : f.size = 324 := by omega
    rw [if_neg (by simp), if_pos this]
    refine ⟨_, rfl, rfl, fun k l k0 k1 l0 l1 => ?_⟩
    show X.dct18 f.val (k * 18 + l) = hf k * hf l * _ * _
    rw [hX.dct18 rfl _ k l k0 k1 l0 l1]
    congr 2
    push_cast; norm_num
  | true =>
    rw [if_pos rfl]
    obtain ⟨G, hG⟩ : ∃ G : Int → Int → K, G = fun k l => X.redft2 M f.val (k * M + l) * (1 / ((M : K) * M)) := ⟨_, rfl⟩
    have bc : ∀ r m, 0 ≤ r → r < M → 0 ≤ m → m < M → 0 ≤ r * M + m ∧ r * M + m < M * M := fun r m r0 r1 m0 m1 => by
      have := row_bound (M := M) (k := m) r0 r1 m0 m1; omega
    obtain ⟨g1, e1, s1, v1⟩ := forUp_spec (lo := 0) (hi := M) (s := (⟨(M * M).toNat, X.redft2 M f.val⟩ : Buf K)) (body := fun i => forUp 0 M (fun j g => mulAt g (i * M + j) (1 / ((M : K) * M))))
      (fun i g => (g.size : Int) = M * M ∧ ∀ k l, 0 ≤ k → k < M → 0 ≤ l → l < M → (k < i → g.val (k * M + l) = G k l) ∧ (i ≤ k → g.val (k * M + l) = X.redft2 M f.val (k * M + l)))
      ⟨by show (((M * M).toNat : ℕ) : Int) = _; omega, fun k l k0 k1 l0 l1 => ⟨fun a => by omega, fun _ => rfl⟩⟩ (fun i i0 i1 g ⟨sg, vg⟩ => by
        obtain ⟨g', e', s', v'⟩ := forUp_spec (lo := 0) (hi := M) (s := g) (body := fun j g => mulAt g (i * M + j) (1 / ((M : K) * M)))
          (fun j g => (g.size : Int) = M * M ∧ ∀ k l, 0 ≤ k → k < M → 0 ≤ l → l < M → (Seen i j k l → g.val (k * M + l) = G k l) ∧ (¬ Seen i j k l → g.val (k * M + l) = X.redft2 M f.val (k * M + l)))
          ⟨sg, fun k l k0 k1 l0 l1 => ⟨fun a => (vg k l k0 k1 l0 l1).1 (by unfold Seen at a; omega), fun a => (vg k l k0 k1 l0 l1).2 (by unfold Seen at a; omega)⟩⟩ (fun j j0 j1 g ⟨sg, vg⟩ => by
            have b := bc i j i0 i1 j0 j1
            unfold mulAt
            rw [Buf.rd_of (by omega) (by omega), Option.bind_some, Buf.wr_of (by omega) (by omega)]
            refine ⟨_, rfl, sg, fun k l k0 k1 l0 l1 => ⟨fun a => ?_, fun a => ?_⟩⟩
            · show Function.update _ _ _ _ = _
              by_cases d : k = i ∧ l = j
              · obtain ⟨rfl, rfl⟩ := d
                rw [Function.update_self, (vg k l k0 k1 l0 l1).2 (by unfold Seen; omega), hG]
              · rw [Function.update_of_ne fun e => d (cell_eq (N := M) l0 l1 j0 j1 e), (vg k l k0 k1 l0 l1).1 (by unfold Seen at a ⊢; omega)]
            · show Function.update _ _ _ _ = _
              rw [Function.update_of_ne fun e => by
                have := cell_eq (N := M) l0 l1 j0 j1 e
                unfold Seen at a; omega, (vg k l k0 k1 l0 l1).2 (by unfold Seen at a ⊢; omega)])
        rw [show max 0 M = M by omega] at v'
        exact ⟨g', e', s', fun k l k0 k1 l0 l1 => ⟨fun a => (v' k l k0 k1 l0 l1).1 (by unfold Seen; omega), fun a => (v' k l k0 k1 l0 l1).2 (by unfold Seen; omega)⟩⟩)
    rw [show max 0 M = M by omega] at v1
    rw [e1, Option.bind_some]
    obtain ⟨g2, e2, s2, v2⟩ := forUp_spec (lo := 0) (hi := M) (s := g1) (body := fun i (g : Buf K) => (mulAt g i (1 / 2)).bind fun g => mulAt g (i * M) (1 / 2))
      (fun i g => (g.size : Int) = M * M ∧ ∀ k l, 0 ≤ k → k < M → 0 ≤ l → l < M → g.val (k * M + l) = G k l * (if k = 0 ∧ l < i then 1 / 2 else 1) * (if l = 0 ∧ k < i then 1 / 2 else 1))
      ⟨s1, fun k l k0 k1 l0 l1 => by rw [if_neg (by omega), if_neg (by omega), mul_one, mul_one, (v1 k l k0 k1 l0 l1).1 k1]⟩ (fun i i0 i1 g ⟨sg, vg⟩ => by
        have b := bc 0 i le_rfl (by omega) i0 i1
        have b' := bc i 0 i0 i1 le_rfl (by omega)
        rw [zero_mul, zero_add] at b
        rw [add_zero] at b'
        unfold mulAt
        rw [Buf.rd_of (by omega) (by omega), Option.bind_some, Buf.wr_of (by omega) (by omega), Option.bind_some, Buf.rd_of (by omega) (by show (_ : Int) < g.size; omega), Option.bind_some,
          Buf.wr_of (by omega) (by show (_ : Int) < g.size; omega)]
        refine ⟨_, rfl, sg, fun k l k0 k1 l0 l1 => ?_⟩
        show Function.update (Function.update g.val i (g.val i * (1 / 2))) (i * M) (Function.update g.val i (g.val i * (1 / 2)) (i * M) * (1 / 2)) (k * M + l) = _
        have n1 : k * M + l = i * M ↔ k = i ∧ l = 0 := ⟨fun e => cell_eq (N := M) l0 l1 le_rfl (by omega) (by omega), fun e => by rw [e.1, e.2, add_zero]⟩
        have n2 : k * M + l = i ↔ k = 0 ∧ l = i := ⟨fun e => cell_eq (N := M) l0 l1 i0 i1 (by omega), fun e => by rw [e.1, e.2]; ring⟩
        have gv := vg k l k0 k1 l0 l1
        by_cases c1 : k * M + l = i * M
        · obtain ⟨rfl, rfl⟩ := n1.1 c1
          rw [add_zero] at gv ⊢
          rw [Function.update_self]
          by_cases c2 : k = 0
          · subst c2
            rw [zero_mul] at gv ⊢
            rw [Function.update_self, gv]
            norm_num
          · rw [Function.update_of_ne (by
              intro e
              have := n2.1 (by rw [add_zero]; exact e)
              omega), gv, if_neg (by omega), if_neg (by omega), if_neg (by omega), if_pos (by omega)]
            ring
        · rw [Function.update_of_ne c1]
          have c1' : ¬ (k = i ∧ l = 0) := fun h => c1 (n1.2 h)
          by_cases c2 : k * M + l = i
          · obtain ⟨rfl, rfl⟩ := n2.1 c2
            rw [c2, Function.update_self, ← c2, gv, if_neg (by omega), if_neg (by omega), if_pos (by omega), if_neg (by omega)]
            ring
          · rw [Function.update_of_ne c2, gv]
            have c2' : ¬ (k = 0 ∧ l = i) := fun h => c2 (n2.2 h)
            congr 1
            · congr 1
              by_cases d : k = 0 ∧ l < i
              · rw [if_pos d, if_pos (by omega)]
              · rw [if_neg d, if_neg (by omega)]
            · by_cases d : l = 0 ∧ k < i
              · rw [if_pos d, if_pos (by omega)]
              · rw [if_neg d, if_neg (by omega)])
    rw [show max 0 M = M by omega] at v2
    refine ⟨g2, e2, s2, fun k l k0 k1 l0 l1 => ?_⟩
    show _ = hf k * hf l * _ * _
    rw [v2 k l k0 k1 l0 l1, hG]
    dsimp only
    rw [hX.redft2 _ k l k0 k1 l0 l1]
    unfold hf
    have a1 : (if k = 0 ∧ l < M then (1 / 2 : K) else 1) = if k = 0 then 1 / 2 else 1 := by simp only [l1, and_true]
    have a2 : (if l = 0 ∧ k < M then (1 / 2 : K) else 1) = if l = 0 then 1 / 2 else 1 := by simp only [k1, and_true]
    rw [a1, a2]
    ring

omit [Field K] [CharZero K] [DecidableEq K] in
theorem place_spec {g A : Buf K} {n off : Int} (n0 : 0 ≤ n) (sg : n ≤ g.size) (o0 : 0 ≤ off) (sA : off + n ≤ A.size) :
    ∃ A', place g n off A = some A' ∧ A'.size = A.size ∧ (∀ t, 0 ≤ t → t < n → A'.val (off + t) = g.val t) ∧ ∀ u, ¬ (off ≤ u ∧ u < off + n) → A'.val u = A.val u := by
  unfold place
  obtain ⟨A', e, s, v, f⟩ := forUp_spec (lo := 0) (hi := n) (s := A) (body := fun t A => (g.rd t).bind (A.wr (off + t)))
    (fun i Z => Z.size = A.size ∧ (∀ t, 0 ≤ t → t < i → Z.val (off + t) = g.val t) ∧ ∀ u, ¬ (off ≤ u ∧ u < off + n) → Z.val u = A.val u)
    ⟨rfl, fun t a b => by omega, fun _ _ => rfl⟩ (fun i i0 i1 Z ⟨sZ, vZ, fZ⟩ => by
      rw [Buf.rd_of i0 (by omega), Option.bind_some, Buf.wr_of (by omega) (by omega)]
      refine ⟨_, rfl, sZ, fun t t0 t1 => ?_, fun u hu => ?_⟩
      · show Function.update _ _ _ _ = _
        by_cases c : t = i
        · subst c; rw [Function.update_self]
        · rw [Function.update_of_ne (by omega), vZ t t0 (by omega)]
      · show Function.update _ _ _ _ = _
        rw [Function.update_of_ne (by omega), fZ u hu])
  rw [show max 0 n = n by omega] at v
  exact ⟨A', e, s, v, f⟩

end FT.Props.Lc
