import Verif.Lemmas.Tet

/-!
# Properties C13, C39 and the dense part of C11, C12 for the tetrahedron
-/

namespace FT.Props
open FT
variable {K : Type*} [CommRing K]

/-! ## C39: Chebyshev normalisation -/

/-- `√½` per zero index in two dimensions. -/
def edge2 (h : K) (i j : Int) : K := if i = 0 ∧ j = 0 then h * h else if i = 0 ∨ j = 0 then h else 1

/-- C39, 2D: entry `(i, j)` is multiplied by `w` and once by `h` for every index that is zero, everything else is untouched; every access is in
bounds. -/
theorem C39_normalization_2d (h w : K) (N M : Int) (hN : 1 ≤ N) (hM : 1 ≤ M) (A : Buf K) (hA : N * M ≤ A.size) :
    ∃ A', chebNorm2 h w N M A = some A' ∧ A'.size = A.size ∧
      (∀ i j, 0 ≤ i → i < N → 0 ≤ j → j < M → A'.val (i + j * N) = A.val (i + j * N) * (edge2 h i j * w)) ∧
      ∀ p, N * M ≤ p → A'.val p = A.val p := by
  obtain ⟨A', e, a⟩ := chebNorm2_acts (h := h) (w := w) hN hM hA
  refine ⟨A', e, a.size, fun i j i0 i1 j0 j1 => ?_, fun p hp => a.frame p fun k c k0 k1 c0 c1 he => ?_⟩
  · rw [a.val i j i0 i1 j0 j1]
    unfold wt2 edge2
    congr 1
    by_cases hi : i = 0 <;> by_cases hj : j = 0 <;> simp [hi, hj]
  · have : N * (c + 1) ≤ N * M := Int.mul_le_mul_of_nonneg_left (by omega) (by omega)
    have e1 : N * (c + 1) = c * N + N := by ring
    omega

/-- C39, 2D: the normalisation (`√½`, `2/π`) and its inverse (`√2`, `π/2`) undo each other, in both orders. -/
theorem C39_normalization_2d_inverse (h w h' w' : K) (hh : h * h' = 1) (hw : w * w' = 1) (N M : Int) (hN : 1 ≤ N) (hM : 1 ≤ M) (A : Buf K)
    (hA : N * M ≤ A.size) :
    (chebNorm2 h w N M A).bind (chebNorm2 h' w' N M) = some A := by
  obtain ⟨B, e, a⟩ := (norm_ok (h := h) (w := w) hN hM).2 A hA
  obtain ⟨C, e', a'⟩ := (norm_ok (h := h') (w := w') hN hM).2 B (by rw [a.size]; exact hA)
  rw [e, Option.bind_some, e', (a.comp (diagOp_congr _) a').eq_of_id (diagOp_id (wt2_inv hh hw))]

/-- C39, 3D: entry `(i, j, k)` is multiplied by `w` and once by `h` for every index that is zero. -/
theorem C39_normalization_3d (h w : K) (N L M : Int) (hN : 1 ≤ N) (hL : 1 ≤ L) (hM : 1 ≤ M) (A : Buf K) (hA : N * (L * M) ≤ A.size) :
    ∃ A', chebNorm3 h w N L M A = some A' ∧ A'.size = A.size ∧
      (∀ i j k, 0 ≤ i → i < N → 0 ≤ j → j < L → 0 ≤ k → k < M →
        A'.val (i + N * (j + L * k)) = A.val (i + N * (j + L * k)) * ((if i = 0 then h else 1) * (if j = 0 then h else 1) * (if k = 0 then h else 1) * w)) ∧
      ∀ p, N * (L * M) ≤ p → A'.val p = A.val p := by
  obtain ⟨A', e, a⟩ := chebNorm3_acts (h := h) (w := w) hN hL hM hA
  refine ⟨A', e, a.size, fun i j k i0 i1 j0 j1 k0 k1 => ?_, fun p hp => a.frame p fun k c k0 k1 c0 c1 he => ?_⟩
  · have d := divmod_slab (c := 0) (show 0 < L by omega) j0 j1 k
    have b : j + L * k < L * M := by
      have : L * (k + 1) ≤ L * M := Int.mul_le_mul_of_nonneg_left (by omega) (by omega)
      have e1 : L * (k + 1) = L * k + L := by ring
      omega
    have := a.val i (j + L * k) i0 i1 (by positivity) b
    rw [mul_comm N, this]
    unfold diagOp wt3
    rw [d.1, d.2]
    ring
  · have : N * (c + 1) ≤ N * (L * M) := Int.mul_le_mul_of_nonneg_left (by omega) (by omega)
    have e1 : N * (c + 1) = c * N + N := by ring
    omega

theorem norm3_ok {N L M : Int} {h w : K} (hN : 1 ≤ N) (hL : 1 ≤ L) (hM : 1 ≤ M) : DenseOK N (L * M) (chebNorm3 h w N L M) (diagOp (wt3 h w L)) :=
  ⟨diagOp_congr _, fun _ hA => chebNorm3_acts hN hL hM hA⟩

/-- C39, 3D: the normalisation and its inverse undo each other. -/
theorem C39_normalization_3d_inverse (h w h' w' : K) (hh : h * h' = 1) (hw : w * w' = 1) (N L M : Int) (hN : 1 ≤ N) (hL : 1 ≤ L) (hM : 1 ≤ M) (A : Buf K)
    (hA : N * (L * M) ≤ A.size) : (chebNorm3 h w N L M A).bind (chebNorm3 h' w' N L M) = some A := by
  obtain ⟨B, e, a⟩ := (norm3_ok (h := h) (w := w) hN hL hM).2 A hA
  obtain ⟨C, e', a'⟩ := (norm3_ok (h := h') (w := w') hN hL hM).2 B (by rw [a.size]; exact hA)
  rw [e, Option.bind_some, e', (a.comp (diagOp_congr _) a').eq_of_id (diagOp_id (wt3_inv hh hw L))]

example : (chebNorm2 2 3 2 2 (Buf.ofList [1, 1, 1, 1, 9])).map Buf.toList = some [(12 : ℤ), 6, 6, 3, 9] := by decide
example : ((-1 : ℤ) * -1 = 1) ∧ (1 : ℤ) ≤ 2 := by decide
/-- The normalisation reads past the end when there are no rows but columns. -/
example : chebNorm2 (1 : ℤ) 1 0 1 (Buf.ofList []) = none := by decide

/-! ## C13: the axes of the tetrahedral transform -/

/-- Entry `(i, j, k)`. -/
def ent (N L : Int) (A : Buf K) (i j k : Int) : K := A.val (i + N * (j + L * k))
/-- The upper triangular matrix stored in `P`. -/
def mat (N : Int) (P : Buf K) (i j : Int) : K := if i ≤ j then P.val (i + j * N) else 0

/-- What C13 asks of the three conversions on an `N × N × N` array: `P0`, `P1`, `P2` applied along the three axes. -/
def ConvertsAxes (N : Int) (P0 P1 P2 : Buf K) (A A' : Buf K) : Prop :=
  ∀ i j k, 0 ≤ i → i < N → 0 ≤ j → j < N → 0 ≤ k → k < N →
    ent N N A' i j k = ∑ c ∈ Finset.range N.toNat, mat N P2 k c * ∑ b ∈ Finset.range N.toNat, mat N P1 j b * ∑ a ∈ Finset.range N.toNat, mat N P0 i a * ent N N A a b c

/-- C13 (partial: the third axis is converted by the transpose of `P2`).  The three loops of `ft_execute_tet2cheb`, `TRANS == 'N'`, convert the
first axis by `P0`, the second by `P1` and the third by the *transpose* of `P2`; every access is in bounds when `L ≤ N` and `M = N`. -/
theorem C13_axes_partial (N L : Int) (hN : 1 ≤ N) (hL0 : 0 ≤ L) (hL : L ≤ N) (P0 P1 P2 : Buf K) (h0 : N * N ≤ P0.size) (h1 : N * N ≤ P1.size)
    (h2 : N * N ≤ P2.size) (A : Buf K) (hA : N * (L * N) ≤ A.size) :
    ∃ A', ((tetLeft false P0 N L N A).bind fun A => (tetRight true P1 N L N A).bind (tetThird true P2 N L)) = some A' ∧
      ∀ i j k, 0 ≤ i → i < N → 0 ≤ j → j < L → 0 ≤ k → k < N →
        ent N L A' i j k = ∑ c ∈ Finset.range N.toNat, mat N P2 c k * ∑ b ∈ Finset.range L.toNat, mat N P1 j b * ∑ a ∈ Finset.range N.toNat, mat N P0 i a * ent N L A a b c := by
  obtain ⟨A1, e1, a1⟩ := tetLeft_acts (M := N) (t := false) (by omega) hL0 h0 hA
  obtain ⟨A2, e2, a2⟩ := tetRight_acts (M := N) (A := A1) (t := true) (by omega) hL hL0 h1 (by rw [a1.size]; exact hA)
  obtain ⟨A3, e3, a3⟩ := tetThird_acts (A := A2) (t := true) (by omega) hL0 h2 (by rw [a2.size, a1.size]; exact hA)
  refine ⟨A3, by simp only [e1, e2, e3, Option.bind_some], fun i j k i0 i1 j0 j1 k0 k1 => ?_⟩
  have hL1 : 0 < L := by omega
  have d := divmod_slab (c := 0) hL1 j0 j1
  have bd : ∀ j k, 0 ≤ j → j < L → 0 ≤ k → k < N → 0 ≤ j + L * k ∧ j + L * k < L * N := by
    intro j k j0 j1 k0 k1
    have : L * (k + 1) ≤ L * N := Int.mul_le_mul_of_nonneg_left (by omega) (by omega)
    have e1 : L * (k + 1) = L * k + L := by ring
    have : 0 ≤ L * k := by positivity
    omega
  unfold ent
  rw [mul_comm N, a3.val i (j + L * k) i0 i1 (bd j k j0 j1 k0 k1).1 (bd j k j0 j1 k0 k1).2]
  unfold thirdOp
  rw [(d k).1, (d k).2]
  show sumTo N _ = sumTo N (fun c => mat N P2 c k * sumTo L (fun b => mat N P1 j b * sumTo N (fun a => mat N P0 i a * A.val (a + N * (b + L * c)))))
  refine sumTo_congr fun c c0 c1 => ?_
  congr 1
  show A2.val (i + (j + L * c) * N) = _
  rw [a2.val i (j + L * c) i0 i1 (bd j c j0 j1 c0 c1).1 (bd j c j0 j1 c0 c1).2]
  unfold slabRight
  rw [(d c).1, (d c).2]
  refine sumTo_congr fun b b0 b1 => ?_
  rw [mul_comm (mat N P1 j b)]
  congr 1
  show A1.val (i + (b + L * c) * N) = _
  rw [a1.val i (b + L * c) i0 i1 (bd b c b0 b1 c0 c1).1 (bd b c b0 b1 c0 c1).2]
  unfold colOp matF
  refine sumTo_congr fun a _ _ => ?_
  rw [mul_comm N]
  rfl

/-- Conversion matrices for `N = 2`: identity, identity, and `[[1, 1], [0, 1]]`. -/
def one2 : Buf ℤ := Buf.ofList [1, 0, 0, 1]
def shear2 : Buf ℤ := Buf.ofList [1, 0, 1, 1]

/-- C13 fails as stated: with `P2 = [[1, 1], [0, 1]]` the code does not apply `P2` along the third axis. -/
theorem C13_third_axis_transposed :
    ∃ (A A' : Buf ℤ), (2 * (2 * 2) : Int) ≤ A.size ∧
      ((tetLeft false one2 2 2 2 A).bind fun A => (tetRight true one2 2 2 2 A).bind (tetThird true shear2 2 2)) = some A' ∧
      ¬ ConvertsAxes 2 one2 one2 shear2 A A' := by
  obtain ⟨A', e, h⟩ := C13_axes_partial 2 2 (by decide) (by decide) (by decide) one2 one2 shear2 (by decide) (by decide) (by decide)
    (Buf.ofList [1, 0, 0, 0, 0, 0, 0, 0]) (by decide)
  refine ⟨_, A', by decide, e, fun hc => ?_⟩
  have h1 := h 0 0 1 (by decide) (by decide) (by decide) (by decide) (by decide) (by decide)
  have h2 := hc 0 0 1 (by decide) (by decide) (by decide) (by decide) (by decide) (by decide)
  rw [h1] at h2
  revert h2
  decide

/-- The third axis is converted with order `N`, whatever its length `M`: for `M < N` the array is overrun. -/
theorem C13_short_third_axis_out_of_bounds (t : Bool) (N L M : Int) (hN : 1 ≤ N) (hL : 1 ≤ L) (hM : M < N) (P2 : Buf K) (A : Buf K) (hA : (A.size : Int) = N * (L * M)) :
    tetThird t P2 N L A = none := by
  have hNL : 0 < N * L := by positivity
  have key : blasTrmv t P2 N N (0 + N * 0) (N * L) A = none := by
    unfold blasTrmv
    rw [if_neg (by omega), if_neg]
    rintro ⟨-, -, -, -, h⟩
    have : N * L * M ≤ N * L * (N - 1) := Int.mul_le_mul_of_nonneg_left (by omega) (by omega)
    have e1 : N * (L * M) = N * L * M := by ring
    have e2 : (N - 1) * (N * L) = N * L * (N - 1) := by ring
    omega
  have row : forUp 0 L (fun l => blasTrmv t P2 N N (0 + N * l) (N * L)) A = none := by
    rw [forUp_exec, rUp_cons (by omega), exec_cons, key]; rfl
  unfold tetThird
  rw [forUp_exec, rUp_cons (by omega), exec_cons, row]; rfl

/-! ## The dense part of C11, C12 -/

section
variable {N L : Int} {P : HPlan K}

/-- The plan of a tetrahedral transform, without the rotations. -/
structure TetDenseOK (N : Int) (P : HPlan K) : Prop where
  inv0 : InversePair N P.P0 P.Q0
  inv1 : InversePair N P.P1 P.Q1
  inv2 : InversePair N P.P2 P.Q2

theorem tl_ok {P : Buf K} {t : Bool} (hN : 1 ≤ N) (hL0 : 0 ≤ L) (h : N * N ≤ P.size) : DenseOK N (L * N) (tetLeft t P N L N) (colOp (matF (fun _ => opU t P N) N)) :=
  ⟨colOp_congr (matF_congr _), fun _ hA => tetLeft_acts (by omega) hL0 h hA⟩
theorem tr_ok {P : Buf K} {t : Bool} (hN : 1 ≤ N) (hL0 : 0 ≤ L) (hL : L ≤ N) (h : N * N ≤ P.size) : DenseOK N (L * N) (tetRight t P N L N) (slabRight (opU t P N) L) :=
  ⟨slabRight_congr _ hL0, fun _ hA => tetRight_acts (by omega) hL hL0 h hA⟩
theorem tt_ok {P : Buf K} {t : Bool} (hN : 1 ≤ N) (hL0 : 0 ≤ L) (h : N * N ≤ P.size) : DenseOK N (L * N) (tetThird t P N L) (thirdOp (opU t P N) L N) :=
  ⟨thirdOp_congr _ hL0, fun _ hA => tetThird_acts (by omega) hL0 h hA⟩

noncomputable def tetD (p : TetPar K) (P : HPlan K) (N L : Int) (t : Bool) : AOp K :=
  if t then fun x => maybeOp p.first (colOp (matF (fun _ => opU true P.P0 N) N)) (maybeOp p.second (slabRight (opU false P.P1 N) L)
    (maybeOp p.third (thirdOp (opU false P.P2 N) L N) (diagOp (wt3 p.s12 p.ip L) x)))
  else fun x => diagOp (wt3 p.s12 p.ip L) (maybeOp p.third (thirdOp (opU true P.P2 N) L N) (maybeOp p.second (slabRight (opU true P.P1 N) L)
    (maybeOp p.first (colOp (matF (fun _ => opU false P.P0 N) N)) x)))

noncomputable def tetE (p : TetPar K) (P : HPlan K) (N L : Int) (t : Bool) : AOp K :=
  if t then fun x => diagOp (wt3 p.s2 p.pi2 L) (maybeOp p.third (thirdOp (opU false P.Q2 N) L N) (maybeOp p.second (slabRight (opU false P.Q1 N) L)
    (maybeOp p.first (colOp (matF (fun _ => opU true P.Q0 N) N)) x)))
  else fun x => maybeOp p.first (colOp (matF (fun _ => opU false P.Q0 N) N)) (maybeOp p.second (slabRight (opU true P.Q1 N) L)
    (maybeOp p.third (thirdOp (opU true P.Q2 N) L N) (diagOp (wt3 p.s2 p.pi2 L) x)))

theorem tetD_ok (hP : TetDenseOK N P) (hN : 1 ≤ N) (hL1 : 1 ≤ L) (hL : L ≤ N) (p : TetPar K) (t : Bool) :
    DenseOK N (L * N) (tet2chebDense t p P N L N) (tetD p P N L t) := by
  cases t
  · exact (maybe_ok (tl_ok hN (by omega) hP.inv0.1)).bind ((maybe_ok (tr_ok hN (by omega) hL hP.inv1.1)).bind ((maybe_ok (tt_ok hN (by omega) hP.inv2.1)).bind (norm3_ok hN hL1 hN)))
  · exact (norm3_ok hN hL1 hN).bind ((maybe_ok (tt_ok hN (by omega) hP.inv2.1)).bind ((maybe_ok (tr_ok hN (by omega) hL hP.inv1.1)).bind (maybe_ok (tl_ok hN (by omega) hP.inv0.1))))

theorem tetE_ok (hP : TetDenseOK N P) (hN : 1 ≤ N) (hL1 : 1 ≤ L) (hL : L ≤ N) (p : TetPar K) (t : Bool) :
    DenseOK N (L * N) (cheb2tetDense t p P N L N) (tetE p P N L t) := by
  cases t
  · exact (norm3_ok hN hL1 hN).bind ((maybe_ok (tt_ok hN (by omega) hP.inv2.2.1)).bind ((maybe_ok (tr_ok hN (by omega) hL hP.inv1.2.1)).bind (maybe_ok (tl_ok hN (by omega) hP.inv0.2.1))))
  · exact (maybe_ok (tl_ok hN (by omega) hP.inv0.2.1)).bind ((maybe_ok (tr_ok hN (by omega) hL hP.inv1.2.1)).bind ((maybe_ok (tt_ok hN (by omega) hP.inv2.2.1)).bind (norm3_ok hN hL1 hN)))

theorem sandwich4 {N M : Int} {Φ1 Φ2 Φ3 Φ4 Ψ1 Ψ2 Ψ3 Ψ4 : AOp K} (c1 : OpCongr N M Ψ1) (c2 : OpCongr N M Ψ2) (c3 : OpCongr N M Ψ3) (h1 : OpId N M fun x => Ψ1 (Φ1 x))
    (h2 : OpId N M fun x => Ψ2 (Φ2 x)) (h3 : OpId N M fun x => Ψ3 (Φ3 x)) (h4 : OpId N M fun x => Ψ4 (Φ4 x)) :
    OpId N M fun x => Ψ1 (Ψ2 (Ψ3 (Ψ4 (Φ4 (Φ3 (Φ2 (Φ1 x))))))) :=
  OpId.sandwich (Φ := Φ1) (Ψ := Ψ1) c1 h1 (sandwich3 c2 c3 h2 h3 h4)

/-- C11, tetrahedron (partial: the dense conversions and normalisation only, without the rotations; `M = N`, `1 ≤ L ≤ N`): the dense parts of
`ft_execute_tet2cheb` and `ft_execute_cheb2tet` undo each other, for `'N'` and `'T'`. -/
theorem C11_tet_dense_partial (hP : TetDenseOK N P) (hN : 1 ≤ N) (hL1 : 1 ≤ L) (hL : L ≤ N) (p : TetPar K) (hs : p.s12 * p.s2 = 1) (hw : p.ip * p.pi2 = 1) (t : Bool)
    (A : Buf K) (hA : N * (L * N) ≤ A.size) :
    (tet2chebDense t p P N L N A).bind (cheb2tetDense t p P N L N) = some A ∧ (cheb2tetDense t p P N L N A).bind (tet2chebDense t p P N L N) = some A := by
  have w1 := wt3_inv hs hw L
  have w2 := wt3_inv ((mul_comm _ _).trans hs) ((mul_comm _ _).trans hw) L
  have l1 := fun t => maybe_id (c := p.first) (matOp_id (M := L * N) fun c _ _ => (hP.inv0.mulOne t).comm)
  have l2 := fun t => maybe_id (c := p.first) (matOp_id (M := L * N) fun c _ _ => (hP.inv0.mulOne t))
  have r1 := fun t => maybe_id (c := p.second) (slabRight_id (N := N) (M := N) (show 0 ≤ L by omega) (hP.inv1.mulOneM hL t))
  have r2 := fun t => maybe_id (c := p.second) (slabRight_id (N := N) (M := N) (show 0 ≤ L by omega) (hP.inv1.mulOneM hL t).comm)
  have t1 := fun t => maybe_id (c := p.third) (thirdOp_id (N := N) (show 0 ≤ L by omega) (hP.inv2.mulOne t).comm)
  have t2 := fun t => maybe_id (c := p.third) (thirdOp_id (N := N) (show 0 ≤ L by omega) (hP.inv2.mulOne t))
  have cl := fun (Q : Buf K) (h : N * N ≤ Q.size) t => (maybe_ok (c := p.first) (tl_ok (P := Q) (L := L) (t := t) hN (by omega) h)).1
  have cr := fun (Q : Buf K) (h : N * N ≤ Q.size) t => (maybe_ok (c := p.second) (tr_ok (P := Q) (t := t) hN (show 0 ≤ L by omega) hL h)).1
  have ct := fun (Q : Buf K) (h : N * N ≤ Q.size) t => (maybe_ok (c := p.third) (tt_ok (P := Q) (t := t) hN (show 0 ≤ L by omega) h)).1
  have ids : (OpId N (L * N) fun x => tetE p P N L t (tetD p P N L t x)) ∧ OpId N (L * N) fun x => tetD p P N L t (tetE p P N L t x) := by
    cases t
    · simp only [tetD, tetE, Bool.false_eq_true, if_false]
      exact ⟨sandwich4 (cl _ hP.inv0.2.1 false) (cr _ hP.inv1.2.1 true) (ct _ hP.inv2.2.1 true) (l1 false) (r1 true) (t1 true) (diagOp_id w1),
        sandwich4 (diagOp_congr _) (ct _ hP.inv2.1 true) (cr _ hP.inv1.1 true) (diagOp_id w2) (t2 true) (r2 true) (l2 false)⟩
    · simp only [tetD, tetE, if_true]
      exact ⟨sandwich4 (diagOp_congr _) (ct _ hP.inv2.2.1 false) (cr _ hP.inv1.2.1 false) (diagOp_id w1) (t1 false) (r1 false) (l1 true),
        sandwich4 (cl _ hP.inv0.1 true) (cr _ hP.inv1.1 false) (ct _ hP.inv2.1 false) (l2 true) (r2 false) (t2 false) (diagOp_id w2)⟩
  have D := tetD_ok hP hN hL1 hL p t
  have E := tetE_ok hP hN hL1 hL p t
  constructor
  · obtain ⟨B, e, a⟩ := (D.bind E).2 A hA
    rw [a.eq_of_id ids.1] at e; exact e
  · obtain ⟨B, e, a⟩ := (E.bind D).2 A hA
    rw [a.eq_of_id ids.2] at e; exact e

/-- C12, tetrahedron (partial: without the rotations): `'T'` computes the transpose of `'N'`. -/
theorem C12_tet_dense_partial (hP : TetDenseOK N P) (hN : 1 ≤ N) (hL1 : 1 ≤ L) (hL : L ≤ N) (p : TetPar K) :
    AdjointPair (fun _ : Unit => True) N (L * N) (fun _ A A' => tet2chebDense false p P N L N A = some A') (fun _ A A' => tet2chebDense true p P N L N A = some A') ∧
    AdjointPair (fun _ : Unit => True) N (L * N) (fun _ A A' => cheb2tetDense false p P N L N A = some A') (fun _ A A' => cheb2tetDense true p P N L N A = some A') := by
  have D := tetD_ok hP hN hL1 hL p
  have E := tetE_ok hP hN hL1 hL p
  have al := fun (Q : Buf K) => maybe_adj (c := p.first) (matOp_adj (N := N) (M := L * N) (W := fun _ => opU false Q N) (V := fun _ => opU true Q N) fun _ _ _ => rfl)
  have ar := fun (Q : Buf K) => maybe_adj (c := p.second) (slabRight_adj (N := N) (M := N) (show 0 ≤ L by omega) (by omega) (W := opU true Q N) (V := opU false Q N) fun _ _ => rfl)
  have at3 := fun (Q : Buf K) => maybe_adj (c := p.third) (thirdOp_adj (N := N) (M := N) (show 0 ≤ L by omega) (by omega) (W := opU true Q N) (V := opU false Q N) fun _ _ => rfl)
  constructor
  · refine adjoint_of_steps (fun _ _ => (D false).step) (fun _ _ => (D true).step) ?_
    simp only [tetD, Bool.false_eq_true, if_false, if_true]
    exact (((al _).comp (ar _)).comp (at3 _)).comp (diagOp_adj _)
  · refine adjoint_of_steps (fun _ _ => (E false).step) (fun _ _ => (E true).step) ?_
    simp only [tetE, Bool.false_eq_true, if_false, if_true]
    exact (((diagOp_adj _).comp (at3 _)).comp (ar _)).comp (al _)

end

example : TetDenseOK 2 planEx ∧ (1 : Int) ≤ 2 := ⟨⟨inversePair_two rfl rfl rfl rfl rfl, inversePair_two rfl rfl rfl rfl rfl, inversePair_two rfl rfl rfl rfl rfl⟩, by decide⟩
example : (-1 : ℤ) * -1 = 1 := rfl
example : ((Buf.ofList [1, 2, 3, 4] : Buf ℤ).size : Int) = 2 * (2 * 1) := by decide

end FT.Props
