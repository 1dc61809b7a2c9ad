import Verif.Lemmas.Tdc

/-! # C67: the divide-and-conquer eigendecomposition of a symmetric-definite tridiagonal pencil -/

namespace FT.Props
open FT

/-- **C67.** For every symmetric tridiagonal pencil `(T, S)` of any size that tears down to the block size (`Tears`): `sdtdc_eig` stays within its arrays and returns an object which, through
`tdmv` and any number of times, multiplies by a matrix `M` and by its transpose, with `T M = S M diag(λ)`, `Mᵀ S M = I` and `λ` ascending.  The solver used below the block size and the
root-finding iterations are assumed to do what they are for (`LeafOk`, `Finds`); any contents of fresh memory.  Missing: pencils with a positive entry at a split
(`C67_positive_entry_defect`), and rank-one problems that are not separated at the tolerances. -/
theorem C67_tdc_partial {bs : Int} (hbs : 2 ≤ bs) {leaf : SymTri ℝ → SymTri ℝ → Option (Buf ℝ × Buf ℝ)} (hl : LeafOk bs leaf) {sqrt : ℝ → ℝ} (hsq : IsSqrt sqrt) {eps fmin : ℝ} (he : 0 ≤ eps)
    (hf : 0 ≤ fmin) {R : RootFinder ℝ} (hR : Finds R) (jk : Nat → Nat → Int → ℝ) (ji : Nat → Int → Int) {T S : SymTri ℝ} (hn : S.n = T.n) (hTa : T.a.size = T.n) (hTb : T.b.size = T.n - 1)
    (hSa : S.a.size = T.n) (hSb : S.b.size = T.n - 1) (h : Tears bs sqrt eps fmin T.n T.a.val T.b.val S.a.val S.b.val) {fuel : Nat} (hfu : T.n ≤ fuel) :
    ∃ F M, sdtdcEig bs leaf sqrt eps fmin R jk ji fuel T S = some F ∧ F.n = T.n ∧ (F.lambda.size : Int) = T.n ∧ TActs T.n F M ∧
      Decomposes T.n (triMat T.a.val T.b.val) (triMat S.a.val S.b.val) M F.lambda.val := by
  obtain ⟨F, M, e, n, l, _, r⟩ :=
    tdc_core hbs hl hsq he hf hR (jk := jk) (ji := ji) h fuel T S hfu rfl hn hTa hTb hSa hSb (fun _ _ _ => rfl) (fun _ _ _ => rfl) (fun _ _ _ => rfl) fun _ _ _ => rfl
  exact ⟨F, M, e, n, l, r⟩

/-! ## The sign of the entry at the split -/

/-- `T` with the entry at the split replaced by `v`. -/
def setSplit (T : SymTri ℝ) (v : ℝ) : SymTri ℝ := ⟨T.n, T.a, ⟨T.b.size, Function.update T.b.val (T.n / 2 - 1) v⟩⟩

theorem rd_setSplit {T : SymTri ℝ} {v : ℝ} {i : Int} (h : i ≠ T.n / 2 - 1) : (setSplit T v).b.rd i = T.b.rd i := by
  unfold Buf.rd setSplit
  dsimp only
  rw [Function.update_of_ne h]

theorem tear_setSplit {T : SymTri ℝ} (hn : 2 ≤ T.n) (hb : T.b.size = T.n - 1) {v : ℝ} (hv : |v| = |T.b.val (T.n / 2 - 1)|) (j1 j2 j3 j4 : Int → ℝ) :
    tear (setSplit T v) j1 j2 j3 j4 = tear T j1 j2 j3 j4 := by
  unfold tear
  simp only
  have e1 : (setSplit T v).n = T.n := rfl
  have e2 : (setSplit T v).b.rd (T.n / 2 - 1) = some v := by
    rw [Buf.rd_of (by omega) (by show _ < (T.b.size : Int); omega)]
    show some (Function.update _ _ _ _) = _
    rw [Function.update_self]
  rw [e1, e2, Buf.rd_of (b := T.b) (by omega) (by omega), Option.bind_some, Option.bind_some, hv]
  have t1 : ∀ r, tearTop (setSplit T v) (T.n / 2) r j1 j2 = tearTop T (T.n / 2) r j1 j2 := fun r => by
    unfold tearTop
    congr 1
    exact forUp_congr fun i _ i1 st => by rw [rd_setSplit (by omega)]; rfl
  have t2 : ∀ r, tearBot (setSplit T v) (T.n / 2) r j3 j4 = tearBot T (T.n / 2) r j3 j4 := fun r => by
    unfold tearBot
    rw [e1]
    congr 1
    exact forUp_congr fun i i0 i1 st => by rw [rd_setSplit (by omega)]; rfl
  rw [t1, t2]

theorem sdtdcEig_setSplit {bs : Int} {leaf : SymTri ℝ → SymTri ℝ → Option (Buf ℝ × Buf ℝ)} {sqrt : ℝ → ℝ} {eps fmin : ℝ} {R : RootFinder ℝ} {jk : Nat → Nat → Int → ℝ} {ji : Nat → Int → Int}
    {T S : SymTri ℝ} (hn : 2 ≤ T.n) (hbs : bs ≤ T.n) (hb : T.b.size = T.n - 1) {v : ℝ} (hv : |v| = |T.b.val (T.n / 2 - 1)|) (fuel : Nat) :
    sdtdcEig bs leaf sqrt eps fmin R jk ji fuel (setSplit T v) S = sdtdcEig bs leaf sqrt eps fmin R jk ji fuel T S := by
  cases fuel with
  | zero => rfl
  | succ fuel =>
    unfold sdtdcEig
    simp only
    have e1 : (setSplit T v).n = T.n := rfl
    rw [e1, if_neg (by omega), if_neg (by omega), tear_setSplit hn hb hv]

/-- A matrix of eigenvectors and its eigenvalues belong to one matrix only. -/
theorem Decomposes.unique {n : Int} {P P' Q M : Int → Int → ℝ} {l : Int → ℝ} (h : Decomposes n P Q M l) (h' : Decomposes n P' Q M l) {i j : Int} (i0 : 0 ≤ i) (i1 : i < n) (j0 : 0 ≤ j) (j1 : j < n) :
    P i j = P' i j := by
  obtain ⟨a, b⟩ := h.sq
  obtain ⟨c, _⟩ := h'.sq
  have inv : sqm n M * ((sqm n M).transpose * sqm n Q) = 1 := mul_eq_one_comm.1 (by rw [Matrix.mul_assoc]; exact b)
  have e : sqm n P * (sqm n M * ((sqm n M).transpose * sqm n Q)) = sqm n P' * (sqm n M * ((sqm n M).transpose * sqm n Q)) := by
    rw [← Matrix.mul_assoc (sqm n P), ← Matrix.mul_assoc (sqm n P'), a, c]
  rw [inv, Matrix.mul_one, Matrix.mul_one] at e
  exact sqm_apply e i0 i1 j0 j1

/-- **C67.** If the entry of `T` at the first split is positive, and `T` with that entry negated tears, then what `sdtdc_eig` returns for `(T, S)` is an eigendecomposition of the other pencil and
not of `(T, S)`: the matrix `tdmv` multiplies by does not diagonalise `T`. -/
theorem C67_positive_entry_defect {bs : Int} (hbs : 2 ≤ bs) {leaf : SymTri ℝ → SymTri ℝ → Option (Buf ℝ × Buf ℝ)} (hl : LeafOk bs leaf) {sqrt : ℝ → ℝ} (hsq : IsSqrt sqrt) {eps fmin : ℝ}
    (he : 0 ≤ eps) (hf : 0 ≤ fmin) {R : RootFinder ℝ} (hR : Finds R) (jk : Nat → Nat → Int → ℝ) (ji : Nat → Int → Int) {T S : SymTri ℝ} (hn : S.n = T.n) (hTa : T.a.size = T.n)
    (hTb : T.b.size = T.n - 1) (hSa : S.a.size = T.n) (hSb : S.b.size = T.n - 1) (hbig : bs ≤ T.n) (hpos : 0 < T.b.val (T.n / 2 - 1))
    (h : Tears bs sqrt eps fmin T.n T.a.val (Function.update T.b.val (T.n / 2 - 1) (-T.b.val (T.n / 2 - 1))) S.a.val S.b.val) {fuel : Nat} (hfu : T.n ≤ fuel) :
    ∃ F M, sdtdcEig bs leaf sqrt eps fmin R jk ji fuel T S = some F ∧ TActs T.n F M ∧ ¬ Decomposes T.n (triMat T.a.val T.b.val) (triMat S.a.val S.b.val) M F.lambda.val := by
  obtain ⟨F, M, e, _, _, h4, h5⟩ := C67_tdc_partial hbs hl hsq he hf hR jk ji (T := setSplit T (-T.b.val (T.n / 2 - 1))) (S := S) hn hTa hTb hSa hSb h hfu
  rw [sdtdcEig_setSplit (by omega) hbig hTb (by rw [abs_neg])] at e
  refine ⟨F, M, e, h4, fun hd => ?_⟩
  have := hd.unique h5 (i := T.n / 2 - 1) (j := T.n / 2) (by omega) (by omega) (by omega) (by omega)
  rw [triMat_sup (by omega), triMat_sup (by omega)] at this
  have e2 : (setSplit T (-T.b.val (T.n / 2 - 1))).b.val (T.n / 2 - 1) = -T.b.val (T.n / 2 - 1) := Function.update_self _ _ _
  rw [e2] at this
  linarith

/-! ## Examples -/

/-- A solver for pencils of size one. -/
noncomputable def wLeaf (T S : SymTri ℝ) : Option (Buf ℝ × Buf ℝ) := some (⟨1, fun _ => 1 / Real.sqrt (S.a.val 0)⟩, ⟨1, fun _ => T.a.val 0 / S.a.val 0⟩)

theorem rowMul_one (P : Int → Int → ℝ) (x : Int → ℝ) (i : Int) : rowMul 1 P x i = P i 0 * x 0 := by
  unfold rowMul
  rw [show Finset.Ico (0 : Int) 1 = {0} from by decide, Finset.sum_singleton]

theorem posDef_one {Q : Int → Int → ℝ} : PosQuad 1 Q ↔ 0 < Q 0 0 := by
  constructor
  · intro h
    have := h (fun _ => 1) ⟨0, le_refl _, by decide, one_ne_zero⟩
    rw [show Finset.Ico (0 : Int) 1 = {0} from by decide, Finset.sum_singleton, rowMul_one] at this
    linarith
  · rintro h x ⟨i, i0, i1, hx⟩
    obtain rfl : i = 0 := by omega
    rw [show Finset.Ico (0 : Int) 1 = {0} from by decide, Finset.sum_singleton, rowMul_one]
    have : 0 < x 0 * x 0 := mul_self_pos.2 hx
    nlinarith

theorem wLeaf_ok : LeafOk 2 wLeaf := by
  intro T S h1 h2 _ _ _ _ _ hp
  have hn : T.n = 1 := by omega
  rw [hn] at hp ⊢
  rw [posDef_one, triMat_diag] at hp
  refine ⟨_, _, rfl, rfl, rfl, fun i j _ _ _ => by omega, fun j j0 j1 i i0 i1 => ?_, fun j k j0 j1 k0 k1 => ?_⟩
  · obtain rfl : i = 0 := by omega
    rw [rowMul_one, rowMul_one, triMat_diag, triMat_diag]
    show T.a.val 0 * (1 / Real.sqrt (S.a.val 0)) = T.a.val 0 / S.a.val 0 * (S.a.val 0 * (1 / Real.sqrt (S.a.val 0)))
    field_simp
  · obtain rfl : j = 0 := by omega
    obtain rfl : k = 0 := by omega
    rw [if_pos rfl, show Finset.Ico (0 : Int) 1 = {0} from by decide, Finset.sum_singleton, rowMul_one, triMat_diag]
    show 1 / Real.sqrt (S.a.val 0) * (S.a.val 0 * (1 / Real.sqrt (S.a.val 0))) = 1
    have h3 := Real.mul_self_sqrt (le_of_lt hp)
    have h4 := ne_of_gt (Real.sqrt_pos.2 hp)
    field_simp
    rw [sq]
    exact h3.symm

/-- The entries of the example: `T = [3 -1; -1 4]`, `S = [1 -1/2; -1/2 1]`. -/
noncomputable def wTa (i : Int) : ℝ := if i = 0 then 3 else 4
noncomputable def wSa (_ : Int) : ℝ := 1
noncomputable def wTb (_ : Int) : ℝ := -1
noncomputable def wSb (_ : Int) : ℝ := -1 / 2

theorem one_decomposes {P Q M : Int → Int → ℝ} {l : Int → ℝ} (h : Decomposes 1 P Q M l) : M 0 0 * (Q 0 0 * M 0 0) = 1 ∧ P 0 0 = l 0 * Q 0 0 := by
  have h1 := h.eig 0 (le_refl _) (by decide) 0 (le_refl _) (by decide)
  have h2 := h.orth 0 0 (le_refl _) (by decide) (le_refl _) (by decide)
  rw [if_pos rfl, show Finset.Ico (0 : Int) 1 = {0} from by decide, Finset.sum_singleton, rowMul_one] at h2
  rw [rowMul_one, rowMul_one] at h1
  have h3 : M 0 0 ≠ 0 := fun e => by rw [e] at h2; simp at h2
  exact ⟨h2, mul_right_cancel₀ h3 (by rw [h1]; ring)⟩

theorem wTears {tb : Int → ℝ} (hb : tb 0 = -1) : Tears 2 Real.sqrt (1 / 4) (1 / 4) 2 wTa tb wSa wSb := by
  refine .node 2 1 _ _ _ _ (le_refl _) (by decide) (by show tb 0 ≤ 0; rw [hb]; norm_num) (by show (-1 / 2 : ℝ) ≤ 0; norm_num) (.leaf _ _ _ _ _ (by decide) (by decide) ?_)
    (.leaf _ _ _ _ _ (by decide) (by decide) ?_) ?_
  · rw [posDef_one, triMat_diag]
    unfold topA wSa wSb
    rw [if_pos (by decide)]
    norm_num [abs_of_neg]
  · rw [show (2 : Int) - 1 = 1 by decide, posDef_one, triMat_diag]
    unfold botA wSa wSb
    rw [if_pos rfl]
    norm_num [abs_of_neg]
  intro M1 l1 M2 l2 D1 D2
  rw [show (2 : Int) - 1 = 1 by decide] at D2
  obtain ⟨m1, p1⟩ := one_decomposes D1
  obtain ⟨m2, p2⟩ := one_decomposes D2
  rw [triMat_diag] at m1 m2
  rw [triMat_diag, triMat_diag] at p1 p2
  have a1 : topA 1 wSa wSb 0 = 1 / 2 := by unfold topA wSa wSb; rw [if_pos (by decide)]; norm_num [abs_of_neg]
  have a2 : botA 1 wSa wSb 0 = 1 / 2 := by unfold botA wSa wSb; rw [if_pos rfl]; norm_num [abs_of_neg]
  have a3 : topA 1 wTa tb 0 = 2 := by unfold topA wTa; rw [if_pos (by decide), if_pos (by decide), show (1 : Int) - 1 = 0 by decide, hb]; norm_num
  have a4 : botA 1 wTa tb 0 = 3 := by unfold botA wTa; rw [if_pos rfl, if_neg (by decide), show (1 : Int) - 1 = 0 by decide, hb]; norm_num
  rw [a1] at m1
  rw [a2] at m2
  rw [a1, a3] at p1
  rw [a2, a4] at p2
  have g1 : |tb (1 - 1)| = 1 := by rw [show (1 : Int) - 1 = 0 by decide, hb]; norm_num
  have g2 : |wSb (1 - 1)| = 1 / 2 := by unfold wSb; norm_num [abs_of_neg]
  intro d z
  have z0 : z 0 * z 0 = 2 := by
    show glue 1 _ _ 0 * glue 1 _ _ 0 = 2
    unfold glue
    rw [if_pos (by decide)]
    show -M1 (1 - 1) 0 * -M1 (1 - 1) 0 = 2
    rw [show (1 : Int) - 1 = 0 by decide]
    linarith
  have z1 : z 1 * z 1 = 2 := by
    show glue 1 _ _ 1 * glue 1 _ _ 1 = 2
    unfold glue
    rw [if_neg (by decide)]
    show M2 0 (1 - 1) * M2 0 (1 - 1) = 2
    rw [show (1 : Int) - 1 = 0 by decide]
    linarith
  have d0 : d 0 = 4 := by
    show glue 1 _ _ 0 = 4
    unfold glue
    rw [if_pos (by decide)]; linarith
  have d1 : d 1 = 6 := by
    show glue 1 _ _ 1 = 6
    unfold glue
    rw [if_neg (by decide), show (1 : Int) - 1 = 0 by decide]; linarith
  have two : ∀ i : Int, 0 ≤ i → i < 2 → i = 0 ∨ i = 1 := fun i a b => by omega
  have ico : Finset.Ico (0 : Int) 2 = {0, 1} := by decide
  have zz : ∀ i, 0 ≤ i → i < 2 → z i * z i = 2 := fun i i0 i1 => by rcases two i i0 i1 with rfl | rfl <;> assumption
  rw [g1, g2]
  refine ⟨⟨fun i i0 i1 => Or.inr ?_, fun i j i0 i1 j0 j1 hij _ _ => ?_, fun _ i i0 i1 _ => ?_, fun t ht hp h => ?_⟩, fun h => absurd h (by show (-1 / 2 : ℝ) ≠ 0; norm_num)⟩
  · have h1 : Real.sqrt (1 + 1 / 2) ≤ 3 / 2 := by rw [Real.sqrt_le_left (by norm_num)]; norm_num
    have h2 : Real.sqrt (∑ i ∈ Finset.Ico 0 2, z i * z i) = 2 := by
      rw [ico, Finset.sum_pair (by decide), z0, z1, show (2 : ℝ) + 2 = 2 * 2 by norm_num, Real.sqrt_mul_self (by norm_num)]
    rw [h2]
    have h3 := zz i i0 i1
    have h4 : 1 < |z i| := by
      by_contra hc
      have := abs_mul_abs_self (z i)
      have := abs_nonneg (z i)
      nlinarith
    linarith
  · rcases two i i0 i1 with rfl | rfl <;> rcases two j j0 j1 with rfl | rfl
    · exact absurd rfl hij
    · rw [d0, d1]; norm_num
    · rw [d0, d1]; norm_num
    · exact absurd rfl hij
  · rcases two i i0 i1 with rfl | rfl
    · rw [d0]; norm_num
    · rw [d1]; norm_num
  · have nz : ∀ i, 0 ≤ i → i < 2 → z i ≠ 0 := fun i i0 i1 e => by have := zz i i0 i1; rw [e] at this; norm_num at this
    have u0 := ht 0 (by decide) (by decide) (nz 0 (by decide) (by decide))
    have u1 := ht 1 (by decide) (by decide) (nz 1 (by decide) (by decide))
    rw [d0] at u0
    rw [d1] at u1
    unfold secularGF at h
    rw [ico, Finset.sum_pair (by decide), z0, z1, d0, d1] at h
    have gen : ∀ a b c : ℝ, a ≠ 0 → b ≠ 0 → c ≠ 0 → a * b * c * (1 / a + (2 / b + 2 / c)) = b * c + 2 * a * c + 2 * a * b := fun a b c ha hb hc => by field_simp; ring
    have h5 := gen _ _ _ hp (sub_ne_zero.2 u0) (sub_ne_zero.2 u1)
    rw [h, mul_zero] at h5
    have h6 : (t - 4) * (t - 4) = 4 / 3 := by linarith
    have h7 : 1 < |t - 4| := by
      by_contra hc
      have := abs_mul_abs_self (t - 4)
      have := abs_nonneg (t - 4)
      nlinarith
    have h8 : |t - 4| < 5 / 4 := by
      by_contra hc
      have := abs_mul_abs_self (t - 4)
      nlinarith
    rw [abs_lt] at h8
    have hs : Real.sqrt (1 / 4) = 1 / 2 := by rw [show (1 : ℝ) / 4 = 1 / 2 * (1 / 2) by norm_num, Real.sqrt_mul_self (by norm_num)]
    rw [hs]
    refine ⟨fun i i0 i1 _ => ?_, fun _ => ?_⟩
    · rcases two i i0 i1 with rfl | rfl
      · rw [d0]; linarith
      · rw [d1, lt_abs]; right; linarith
    · rw [lt_abs]; left; norm_num; linarith

/-- The pencil of the example. -/
noncomputable def wT : SymTri ℝ := ⟨2, ⟨2, wTa⟩, ⟨1, wTb⟩⟩
noncomputable def wS : SymTri ℝ := ⟨2, ⟨2, wSa⟩, ⟨1, wSb⟩⟩

example : ∃ F M, sdtdcEig 2 wLeaf Real.sqrt (1 / 4) (1 / 4) wFinder (fun _ _ _ => 7) (fun _ _ => 9) 2 wT wS = some F ∧ F.n = 2 ∧ (F.lambda.size : Int) = 2 ∧ TActs 2 F M ∧
    Decomposes 2 (triMat wTa wTb) (triMat wSa wSb) M F.lambda.val :=
  C67_tdc_partial (le_refl _) wLeaf_ok wSqrt (by norm_num) (by norm_num) wFinder_finds _ _ (T := wT) (S := wS) rfl rfl rfl rfl rfl (wTears rfl) (fuel := 2) (le_refl (2 : Int))

/-- The same with `+1` off the diagonal of `T`. -/
noncomputable def wTp : SymTri ℝ := ⟨2, ⟨2, wTa⟩, ⟨1, fun _ => 1⟩⟩

example : ∃ F M, sdtdcEig 2 wLeaf Real.sqrt (1 / 4) (1 / 4) wFinder (fun _ _ _ => 7) (fun _ _ => 9) 2 wTp wS = some F ∧ TActs 2 F M ∧
    ¬ Decomposes 2 (triMat wTa fun _ => 1) (triMat wSa wSb) M F.lambda.val := by
  refine C67_positive_entry_defect (le_refl _) wLeaf_ok wSqrt (by norm_num) (by norm_num) wFinder_finds _ _ (T := wTp) (S := wS) rfl rfl rfl rfl rfl (le_refl (2 : Int))
    (by show (0 : ℝ) < 1; norm_num) (wTears ?_) (fuel := 2) (le_refl (2 : Int))
  exact Function.update_self _ _ _

end FT.Props
