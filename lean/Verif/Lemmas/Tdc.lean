import Verif.Lemmas.TdcMat
import Verif.Props.Dpr1Eig

/-! # Lemmas for C67: the recursion -/

namespace FT.Props
open FT

theorem triMat_congr {n : Int} {a b a' b' : Int → ℝ} (ha : ∀ i, 0 ≤ i → i < n → a i = a' i) (hb : ∀ i, 0 ≤ i → i < n - 1 → b i = b' i) {i j : Int} (i0 : 0 ≤ i) (i1 : i < n)
    (j0 : 0 ≤ j) (j1 : j < n) : triMat a b i j = triMat a' b' i j := by
  unfold triMat
  split
  · exact ha i i0 i1
  · split
    · exact hb i i0 (by omega)
    · split
      · exact hb j j0 (by omega)
      · rfl

theorem rowMul_congrM {n : Int} {P P' : Int → Int → ℝ} {i : Int} (h : ∀ j, 0 ≤ j → j < n → P i j = P' i j) (x : Int → ℝ) : rowMul n P x i = rowMul n P' x i :=
  Finset.sum_congr rfl fun j hj => by rw [Finset.mem_Ico] at hj; rw [h j hj.1 hj.2]

theorem Decomposes.congr {n : Int} {P Q P' Q' M : Int → Int → ℝ} {l : Int → ℝ} (h : Decomposes n P Q M l) (hP : ∀ i j, 0 ≤ i → i < n → 0 ≤ j → j < n → P i j = P' i j)
    (hQ : ∀ i j, 0 ≤ i → i < n → 0 ≤ j → j < n → Q i j = Q' i j) : Decomposes n P' Q' M l :=
  ⟨h.asc, fun j j0 j1 i i0 i1 => by
    rw [← rowMul_congrM (fun k => hP i k i0 i1), ← rowMul_congrM (fun k => hQ i k i0 i1)]
    exact h.eig j j0 j1 i i0 i1, fun j k j0 j1 k0 k1 => by
    rw [← h.orth j k j0 j1 k0 k1]
    exact Finset.sum_congr rfl fun r hr => by
      rw [Finset.mem_Ico] at hr
      rw [rowMul_congrM (fun k => hQ r k hr.1 hr.2)]⟩

theorem PosQuad.congr {n : Int} {Q Q' : Int → Int → ℝ} (h : PosQuad n Q) (hQ : ∀ i j, 0 ≤ i → i < n → 0 ≤ j → j < n → Q i j = Q' i j) : PosQuad n Q' := fun x hx => by
  refine lt_of_lt_of_eq (h x hx) (Finset.sum_congr rfl fun r hr => ?_)
  rw [Finset.mem_Ico] at hr
  rw [rowMul_congrM (fun k => hQ r k hr.1 hr.2)]

theorem secularGF_congr' {n : Int} {d z d' z' : Int → ℝ} (hd : ∀ i, 0 ≤ i → i < n → d i = d' i) (hz : ∀ i, 0 ≤ i → i < n → z i = z' i) (rho sigma t : ℝ) :
    secularGF n d z rho sigma t = secularGF n d' z' rho sigma t := by
  unfold secularGF
  congr 1
  exact Finset.sum_congr rfl fun i hi => by
    rw [Finset.mem_Ico] at hi
    rw [hd i hi.1 hi.2, hz i hi.1 hi.2]

theorem Separated.congr {n : Int} {d z d' z' : Int → ℝ} {rho sigma tol r : ℝ} (h : Separated n d z rho sigma tol r) (hd : ∀ i, 0 ≤ i → i < n → d' i = d i)
    (hz : ∀ i, 0 ≤ i → i < n → z' i = z i) : Separated n d' z' rho sigma tol r := by
  refine ⟨fun i i0 i1 => by rw [hz i i0 i1]; exact h.small i i0 i1, fun i j i0 i1 j0 j1 hij => ?_, fun hs i i0 i1 => ?_, fun t ht h1 h2 => ?_⟩
  · rw [hz i i0 i1, hz j j0 j1, hd i i0 i1, hd j j0 j1]
    exact h.dist i j i0 i1 j0 j1 hij
  · rw [hz i i0 i1, hd i i0 i1]
    exact h.tau hs i i0 i1
  · rw [secularGF_congr' hd hz] at h2
    obtain ⟨p, q⟩ := h.far t (fun i i0 i1 hi => by rw [← hd i i0 i1]; exact ht i i0 i1 (by rw [hz i i0 i1]; exact hi)) h1 h2
    exact ⟨fun i i0 i1 hi => by rw [hd i i0 i1]; exact p i i0 i1 (by rw [← hz i i0 i1]; exact hi), q⟩

/-- Tearing, over buffers that agree with `a`, `b`. -/
theorem tear_spec {T : SymTri ℝ} {a b : Int → ℝ} (hn : 2 ≤ T.n) (ha : T.a.size = T.n) (hb : T.b.size = T.n - 1) (va : ∀ i, 0 ≤ i → i < T.n → T.a.val i = a i)
    (vb : ∀ i, 0 ≤ i → i < T.n - 1 → T.b.val i = b i) (j1 j2 j3 j4 : Int → ℝ) :
    ∃ t, tear T j1 j2 j3 j4 = some t ∧ t.rho = |b (T.n / 2 - 1)| ∧ t.T1.n = T.n / 2 ∧ (t.T1.a.size : Int) = T.n / 2 ∧ (t.T1.b.size : Int) = T.n / 2 - 1 ∧
      t.T2.n = T.n - T.n / 2 ∧ (t.T2.a.size : Int) = T.n - T.n / 2 ∧ (t.T2.b.size : Int) = T.n - T.n / 2 - 1 ∧
      (∀ i, 0 ≤ i → i < T.n / 2 → t.T1.a.val i = topA (T.n / 2) a b i) ∧ (∀ i, 0 ≤ i → i < T.n / 2 - 1 → t.T1.b.val i = b i) ∧
      (∀ i, 0 ≤ i → i < T.n - T.n / 2 → t.T2.a.val i = botA (T.n / 2) a b i) ∧ ∀ i, 0 ≤ i → i < T.n - T.n / 2 - 1 → t.T2.b.val i = b (i + T.n / 2) := by
  unfold tear
  simp only
  generalize hsd : T.n / 2 = s at *
  have hs1 : 1 ≤ s := by omega
  have hs2 : s ≤ T.n - 1 := by omega
  rw [Buf.rd_of (by omega) (by omega), Option.bind_some]
  obtain ⟨T1, e1, n1, s1, s2, a1, b1⟩ := tearTop_eq hs1 hs2 ha hb |T.b.val (s - 1)| j1 j2
  obtain ⟨T2, e2, n2, s3, s4, a2, b2⟩ := tearBot_eq hs1 hs2 ha hb |T.b.val (s - 1)| j3 j4
  rw [e1, Option.bind_some, e2]
  have vs : T.b.val (s - 1) = b (s - 1) := vb _ (by omega) (by omega)
  rw [abs_abs, vs] at a1 a2
  refine ⟨_, rfl, by show |T.b.val (s - 1)| = _; rw [vs], n1, s1, s2, n2, s3, s4, fun i i0 i1 => ?_, fun i i0 i1 => ?_, fun i i0 i1 => ?_, fun i i0 i1 => ?_⟩
  · show T1.a.val i = _
    rw [a1 i i0 i1, va i i0 (by omega)]; rfl
  · show T1.b.val i = _
    rw [b1 i i0 i1, vb i i0 (by omega)]
  · show T2.a.val i = _
    rw [a2 i i0 i1, va _ (by omega) (by omega)]; rfl
  · show T2.b.val i = _
    rw [b2 i i0 i1, vb _ (by omega) (by omega)]

/-- Tearing splits the matrix into the halves and the correction, if the entry at the split is not positive. -/
theorem tear_mat {n s : Int} (h0 : 1 ≤ s) (h1 : s ≤ n - 1) {a b y : Int → ℝ} (hb : b (s - 1) ≤ 0) (hy : ∀ i, y i = if i = s then 1 else if i = s - 1 then -1 else 0) {i j : Int} (i0 : 0 ≤ i)
    (i1 : i < n) (j0 : 0 ≤ j) (j1 : j < n) :
    triMat a b i j = blockDiag s (triMat (topA s a b) b) (triMat (botA s a b) fun k => b (k + s)) i j + |b (s - 1)| * y i * y j := by
  rw [hy i, hy j]
  have hab : |b (s - 1)| = -b (s - 1) := abs_of_nonpos hb
  rw [hab]
  by_cases hi : i < s <;> by_cases hj : j < s
  · rw [show blockDiag s (triMat (topA s a b) b) (triMat (botA s a b) fun k => b (k + s)) i j = triMat (topA s a b) b i j by unfold blockDiag; rw [if_pos ⟨hi, hj⟩], if_neg (c := i = s) (by omega), if_neg (c := j = s) (by omega)]
    unfold triMat topA
    rw [hab]
    by_cases hij : i = j
    · subst hij
      simp only [if_true]
      by_cases hl : i = s - 1
      · rw [if_pos hl, if_pos hl]; ring
      · rw [if_neg hl, if_neg hl]; ring
    · rw [if_neg hij, if_neg hij]
      have : (if i = s - 1 then (-1 : ℝ) else 0) * (if j = s - 1 then -1 else 0) = 0 := by
        by_cases hl : i = s - 1
        · rw [if_neg (c := j = s - 1) (by omega), mul_zero]
        · rw [if_neg hl, zero_mul]
      rw [mul_assoc, this, mul_zero, add_zero]
  · rw [show blockDiag s (triMat (topA s a b) b) (triMat (botA s a b) fun k => b (k + s)) i j = 0 by unfold blockDiag; rw [if_neg (by omega), if_neg (by omega)], if_neg (c := i = s) (by omega)]
    unfold triMat
    rw [if_neg (c := i = j) (by omega)]
    by_cases hl : i = s - 1 ∧ j = s
    · rw [if_pos (by omega), if_pos hl.1, if_pos hl.2, hl.1]; ring
    · rw [if_neg (by omega), if_neg (by omega), zero_add, mul_assoc]
      by_cases hk : i = s - 1
      · rw [if_neg (c := j = s) (by omega), if_neg (c := j = s - 1) (by omega)]; ring
      · rw [if_neg hk]; ring
  · rw [show blockDiag s (triMat (topA s a b) b) (triMat (botA s a b) fun k => b (k + s)) i j = 0 by unfold blockDiag; rw [if_neg (by omega), if_neg (by omega)], if_neg (c := j = s) (by omega)]
    unfold triMat
    rw [if_neg (c := i = j) (by omega), if_neg (c := j = i + 1) (by omega)]
    by_cases hl : j = s - 1 ∧ i = s
    · rw [if_pos (by omega), if_pos hl.1, if_pos hl.2, hl.1]; ring
    · rw [if_neg (by omega), zero_add, mul_assoc]
      by_cases hk : j = s - 1
      · rw [if_neg (c := i = s) (by omega), if_neg (c := i = s - 1) (by omega)]; ring
      · rw [if_neg hk]; ring
  · rw [show blockDiag s (triMat (topA s a b) b) (triMat (botA s a b) fun k => b (k + s)) i j = triMat (botA s a b) (fun k => b (k + s)) (i - s) (j - s) by unfold blockDiag; rw [if_neg (by omega), if_pos (by omega)],
      if_neg (c := i = s - 1) (by omega), if_neg (c := j = s - 1) (by omega)]
    unfold triMat botA
    rw [hab]
    by_cases hij : i = j
    · subst hij
      simp only [if_true, sub_add_cancel]
      by_cases hl : i = s
      · rw [if_pos hl, if_pos (by omega)]; ring
      · rw [if_neg hl, if_neg (by omega)]; ring
    · rw [if_neg hij, if_neg (c := i - s = j - s) (by omega)]
      have : (if i = s then (1 : ℝ) else 0) * (if j = s then 1 else 0) = 0 := by
        by_cases hl : i = s
        · rw [if_neg (c := j = s) (by omega), mul_zero]
        · rw [if_neg hl, zero_mul]
      rw [mul_assoc, this, mul_zero, add_zero]
      by_cases h2 : j = i + 1
      · rw [if_pos h2, if_pos (c := j - s = i - s + 1) (by omega)]
        simp only [sub_add_cancel]
      · rw [if_neg h2, if_neg (c := j - s = i - s + 1) (by omega)]
        by_cases h3 : i = j + 1
        · rw [if_pos h3, if_pos (c := i - s = j - s + 1) (by omega)]
          simp only [sub_add_cancel]
        · rw [if_neg h3, if_neg (c := i - s = j - s + 1) (by omega)]

/-- `z = Bᵀ y`. -/
theorem glue_z {n s : Int} (h0 : 1 ≤ s) (h1 : s ≤ n - 1) {y : Int → ℝ} (M1 M2 : Int → Int → ℝ) (hy : ∀ i, y i = if i = s then 1 else if i = s - 1 then -1 else 0) (k : Int) :
    ∑ r ∈ Finset.Ico 0 n, blockDiag s M1 M2 r k * y r = glue s (fun k => -M1 (s - 1) k) (fun k => M2 0 k) k := by
  rw [blk_col (by omega) (by omega)]
  unfold glue
  split
  · rw [Finset.sum_eq_single_of_mem (s - 1) (by rw [Finset.mem_Ico]; omega) fun b hb hne => by
      rw [Finset.mem_Ico] at hb; rw [hy, if_neg (by omega), if_neg hne, mul_zero], hy, if_neg (by omega), if_pos rfl]
    ring
  · rw [Finset.sum_eq_single_of_mem 0 (by rw [Finset.mem_Ico]; omega) fun b hb hne => by
      rw [Finset.mem_Ico] at hb; rw [hy, if_neg (by omega), if_neg (by omega), mul_zero], hy, if_pos (by omega), mul_one]

theorem node_step {bs : Int} {sqrt : ℝ → ℝ} (hsq : IsSqrt sqrt) {eps fmin : ℝ} (he : 0 ≤ eps) (hf : 0 ≤ fmin) {R : RootFinder ℝ} (hR : Finds R) {j8 j9 : Int → ℝ} {ji : Int → Int} {n s : Int}
    {ta tb sa sb : Int → ℝ} (hs : s = n / 2) (s1 : 1 ≤ s) (s2 : s ≤ n - 1) (ht : tb (s - 1) ≤ 0) (hsn : sb (s - 1) ≤ 0) {rho sigma : ℝ} (tr : rho = |tb (s - 1)|) (ur : sigma = |sb (s - 1)|)
    {y : Buf ℝ} (y1 : (y.size : Int) = n) (y2 : ∀ i, y.val i = if i = s then 1 else if i = s - 1 then -1 else 0) {F1 F2 : Tdc ℝ} {M1 M2 : Int → Int → ℝ} (f3 : (F1.lambda.size : Int) = s)
    (f4 : TActs s F1 M1) (f5 : Decomposes s (triMat (topA s ta tb) tb) (triMat (topA s sa sb) sb) M1 F1.lambda.val) (g3 : (F2.lambda.size : Int) = n - s) (g4 : TActs (n - s) F2 M2)
    (g5 : Decomposes (n - s) (triMat (botA s ta tb) fun i => tb (i + s)) (triMat (botA s sa sb) fun i => sb (i + s)) M2 F2.lambda.val)
    (hb : bs ≤ n) (f6 : TFormed bs s F1) (g6 : TFormed bs (n - s) F2)
    (hsep : let d := glue s F1.lambda.val F2.lambda.val
      let z := glue s (fun k => -M1 (s - 1) k) (fun k => M2 0 k)
      Separated n d z |tb (s - 1)| |sb (s - 1)| (sqrt (|tb (s - 1)| + |sb (s - 1)|) * sqrt (∑ i ∈ Finset.Ico 0 n, z i * z i) * eps) (sqrt fmin) ∧
        (sb (s - 1) = 0 → tb (s - 1) ≠ 0 ∧ ∃ i, 0 ≤ i ∧ i < n ∧ z i ≠ 0)) :
    ∃ F M, ((tdmv 'T' 1 F1 y 0 ⟨n.toNat, fun _ => 0⟩).bind fun (F1, y, z) => (tdmv 'T' 1 F2 (y.view s) 0 (z.view s)).bind fun (F2, ys, zs) =>
      (sweepUp 0 s (fun i _ => F1.lambda.rd i) ⟨n.toNat, j8⟩).bind fun d => (sweepOff s 0 (n - s) (fun i _ => F2.lambda.rd i) d).bind fun d =>
      (definiteDpr1Eig sqrt eps fmin R j9 ji ⟨n, d, z.unview s zs, rho⟩ sigma).map fun F0 => Tdc.node n F0 F1 F2 (y.unview s ys)) = some F ∧ F.n = n ∧ (F.lambda.size : Int) = n ∧ TFormed bs n F ∧ TActs n F M ∧
      Decomposes n (triMat ta tb) (triMat sa sb) M F.lambda.val := by
  obtain ⟨G1, z1, e1, p1, p2, p3, p4⟩ := f4.T F1 (TSame.refl F1) 1 0 y ⟨n.toNat, fun _ => 0⟩ (by omega) (by show s ≤ ((n.toNat : Nat) : Int); omega)
  have z1s : (z1.size : Int) = n := by rw [p2]; show ((n.toNat : Nat) : Int) = n; omega
  obtain ⟨G2, z2, e2, q1, q2, q3, q4⟩ := g4.T F2 (TSame.refl F2) 1 0 (y.view s) (z1.view s) (view_size (by omega) (by omega)) (view_size (by omega) (by omega))
  have hz : ∀ k, 0 ≤ k → k < n → (z1.unview s z2).val k = glue s (fun k => -M1 (s - 1) k) (fun k => M2 0 k) k := fun k k0 kn => by
    rw [← glue_z s1 s2 M1 M2 y2, blk_col (by omega) (by omega)]
    show (if s ≤ k then z2.val (k - s) else z1.val k) = _
    split
    · rw [if_neg (by omega), q4 _ (by omega) (by omega), one_mul, zero_mul, add_zero]
      exact Finset.sum_congr rfl fun i _ => by
        show _ * y.val (i + s) = _
        rw [add_comm i s]
    · rw [if_pos (by omega), p4 _ (by omega) (by omega), one_mul, zero_mul, add_zero]
  obtain ⟨sep, nz⟩ := hsep
  have ed1 : sweepUp 0 s (fun i _ => G1.lambda.rd i) ⟨n.toNat, j8⟩ = some (mix ⟨n.toNat, j8⟩ 0 s F1.lambda.val) := by
    refine sweepUp_eq F1.lambda.val (le_refl _) (by show s ≤ ((n.toNat : Nat) : Int); omega) fun i i0 i1 => ?_
    rw [← p1.lambda]
    exact Buf.rd_of i0 (by omega)
  have ed2 : sweepOff s 0 (n - s) (fun i _ => G2.lambda.rd i) (mix ⟨n.toNat, j8⟩ 0 s F1.lambda.val) =
      some (mix (mix ⟨n.toNat, j8⟩ 0 s F1.lambda.val) (s + 0) (s + (n - s)) fun k => F2.lambda.val (k - s)) := by
    refine sweepOff_eq F2.lambda.val (by omega) (by show _ ≤ ((n.toNat : Nat) : Int); omega) fun i i0 i1 => ?_
    rw [← q1.lambda]
    exact Buf.rd_of i0 (by omega)
  generalize hdd : mix (mix ⟨n.toNat, j8⟩ 0 s F1.lambda.val) (s + 0) (s + (n - s)) (fun k => F2.lambda.val (k - s)) = d at ed2
  have hds : (d.size : Int) = n := by rw [← hdd]; show ((n.toNat : Nat) : Int) = n; omega
  have hd : ∀ k, 0 ≤ k → k < n → d.val k = glue s F1.lambda.val F2.lambda.val k := fun k k0 kn => by
    rw [← hdd]
    unfold glue
    split
    · rw [mix_val_out (by omega), mix_val_in k0 (by omega)]
    · rw [mix_val_in (by omega) (by omega)]
  obtain ⟨F0, W, e0, w1, w2, w5, w3, w4⟩ := definite_formed hsq he hf hR (jk := j9) (ji := ji) (A := ⟨n, d, z1.unview s z2, rho⟩) (sigma := sigma) (by rw [ur]; exact abs_nonneg _)
    (by show 0 ≤ n; omega) (by show n ≤ (d.size : Int); omega) (by show n ≤ (z1.size : Int); omega)
    (fun h => by
      rw [ur, abs_eq_zero] at h
      obtain ⟨h1, i, i0, i1, hi⟩ := nz h
      exact ⟨by show rho ≠ 0; rw [tr]; exact abs_ne_zero.2 h1, i, i0, i1, by show (z1.unview s z2).val i ≠ 0; rw [hz i i0 i1]; exact hi⟩)
    (by
      show Separated n d.val (z1.unview s z2).val rho sigma (sqrt (|rho| + |sigma|) * sqrt (∑ i ∈ Finset.Ico 0 n, (z1.unview s z2).val i * (z1.unview s z2).val i) * eps) (sqrt fmin)
      have hsum : ∑ i ∈ Finset.Ico 0 n, (z1.unview s z2).val i * (z1.unview s z2).val i =
          ∑ i ∈ Finset.Ico 0 n, glue s (fun k => -M1 (s - 1) k) (fun k => M2 0 k) i * glue s (fun k => -M1 (s - 1) k) (fun k => M2 0 k) i :=
        Finset.sum_congr rfl fun i hi => by
          rw [Finset.mem_Ico] at hi
          rw [hz i hi.1 hi.2]
      rw [hsum, tr, ur, abs_abs, abs_abs]
      refine Separated.congr ?_ hd hz
      exact sep)
  refine ⟨.node n F0 G1 G2 y, _, ?_, rfl, w2, .node n F0 G1 G2 y hb w5 w1 (hs ▸ f6.same p1) (hs ▸ g6.same q1) (by omega), tacts_node hs (by omega) w3 (f4.same p1) (g4.same q1) (by omega),
    node_decomposes (by omega) (by omega) f5 g5 (fun i j => tear_mat s1 s2 ht y2) (fun i j => tear_mat s1 s2 hsn y2) hd
      (fun k k0 k1 => (hz k k0 k1).trans (glue_z s1 s2 M1 M2 y2 k).symm) (by rw [← tr, ← ur]; exact w4)⟩
  rw [e1, Option.bind_some]
  simp only
  rw [e2, Option.bind_some]
  simp only
  rw [ed1, Option.bind_some, ed2, Option.bind_some, e0, Option.map_some, unview_view]

theorem tdc_core {bs : Int} (hbs : 2 ≤ bs) {leaf : SymTri ℝ → SymTri ℝ → Option (Buf ℝ × Buf ℝ)} (hl : LeafOk bs leaf) {sqrt : ℝ → ℝ} (hsq : IsSqrt sqrt) {eps fmin : ℝ} (he : 0 ≤ eps)
    (hf : 0 ≤ fmin) {R : RootFinder ℝ} (hR : Finds R) {jk : Nat → Nat → Int → ℝ} {ji : Nat → Int → Int} {n : Int} {ta tb sa sb : Int → ℝ} (h : Tears bs sqrt eps fmin n ta tb sa sb) :
    ∀ (fuel : Nat) (T S : SymTri ℝ), n ≤ fuel → T.n = n → S.n = n → (T.a.size : Int) = n → (T.b.size : Int) = n - 1 → (S.a.size : Int) = n → (S.b.size : Int) = n - 1 →
      (∀ i, 0 ≤ i → i < n → T.a.val i = ta i) → (∀ i, 0 ≤ i → i < n - 1 → T.b.val i = tb i) → (∀ i, 0 ≤ i → i < n → S.a.val i = sa i) → (∀ i, 0 ≤ i → i < n - 1 → S.b.val i = sb i) →
      ∃ F M, sdtdcEig bs leaf sqrt eps fmin R jk ji fuel T S = some F ∧ F.n = n ∧ (F.lambda.size : Int) = n ∧ TFormed bs n F ∧ TActs n F M ∧ Decomposes n (triMat ta tb) (triMat sa sb) M F.lambda.val := by
  induction h with
  | leaf n ta tb sa sb hn0 hn1 hpd =>
    intro fuel T S hfu Tn Sn Ta Tb Sa Sb ea eb ga gb
    subst Tn
    cases fuel with
    | zero => exfalso; omega
    | succ fuel =>
    obtain ⟨V, l, e, hV, hL, hD⟩ := hl T S hn0 hn1 Sn Ta Tb Sa Sb
      (hpd.congr fun i j i0 i1 j0 j1 => (triMat_congr ga gb i0 i1 j0 j1).symm)
    refine ⟨.leaf T.n V l, _, ?_, rfl, hL, .leaf _ V l (by omega) hn1 hV hL, tacts_leaf hV, hD.congr (fun i j => triMat_congr ea eb) (fun i j => triMat_congr ga gb)⟩
    unfold sdtdcEig
    simp only
    rw [if_pos hn1, e]
    rfl
  | node n s ta tb sa sb hn hs ht hsn _ _ hsep ih1 ih2 =>
    intro fuel T S hfu Tn Sn Ta Tb Sa Sb ea eb ga gb
    cases fuel with
    | zero => exfalso; omega
    | succ fuel =>
    have s1 : 1 ≤ s := by omega
    have s2 : s ≤ n - 1 := by omega
    have k3 : ¬ n < bs := by omega
    have k4 : 2 ≤ n := by omega
    have k1 : s ≤ (fuel : Int) := by omega
    have k2 : n - s ≤ (fuel : Int) := by omega
    obtain ⟨t, et, tr, t1, t2, t3, t4, t5, t6, t7, t8, t9, t10⟩ := tear_spec (T := T) (by omega) (by omega) (by omega) (by rw [Tn]; exact ea) (by rw [Tn]; exact eb) (jk fuel 0) (jk fuel 1) (jk fuel 2) (jk fuel 3)
    obtain ⟨u, eu, ur, u1, u2, u3, u4, u5, u6, u7, u8, u9, u10⟩ := tear_spec (T := S) (by omega) (by omega) (by omega) (by rw [Sn]; exact ga) (by rw [Sn]; exact gb) (jk fuel 4) (jk fuel 5) (jk fuel 6) (jk fuel 7)
    rw [Tn, ← hs] at tr t1 t2 t3 t4 t5 t6 t7 t8 t9 t10
    rw [Sn, ← hs] at ur u1 u2 u3 u4 u5 u6 u7 u8 u9 u10
    obtain ⟨y, ey, y1, y2⟩ := tearVec_eq (K := ℝ) (n := n) k4
    rw [← hs] at y2
    obtain ⟨F1, M1, f1, f2, f3, f6, f4, f5⟩ := ih1 fuel t.T1 u.T1 k1 t1 u1 t2 t3 u2 u3 t7 t8 u7 u8
    obtain ⟨F2, M2, g1, g2, g3, g6, g4, g5⟩ := ih2 fuel t.T2 u.T2 k2 t4 u4 t5 t6 u5 u6 t9 t10 u9 u10
    obtain ⟨F, M, ef, r⟩ := node_step hsq he hf hR (j8 := jk fuel 8) (j9 := jk fuel 9) (ji := ji fuel) hs s1 s2 ht hsn tr ur y1 y2 f3 f4 f5 g3 g4 g5 hn f6 g6 (hsep M1 F1.lambda.val M2 F2.lambda.val f5 g5)
    refine ⟨F, M, ?_, r⟩
    unfold sdtdcEig
    simp only
    rw [Tn, if_neg k3, ey, Option.bind_some, et, Option.bind_some, eu, Option.bind_some, f1, Option.bind_some, g1, Option.bind_some, ← hs]
    exact ef

end FT.Props
