import Verif.Lemmas.Dpr1Roots
import Verif.Lemmas.Tridiag

/-! # Lemmas on the assembly of the eigendecomposition of a rank-one update from its deflated problem -/

namespace FT
open FT.Props

section Size
variable {K : Type*}

theorem wr_size' {b b' : Buf K} {i : Int} {v : K} (h : b.wr i v = some b') : b'.size = b.size := by
  unfold Buf.wr at h
  split_ifs at h
  injection h with h
  rw [← h]

theorem sweepOff_size {o lo hi : Int} {f : Int → Buf K → Option K} {b b' : Buf K} (h : sweepOff o lo hi f b = some b') : b'.size = b.size := by
  refine forUp_inv (fun _ (s : Buf K) => s.size = b.size) rfl (fun i _ _ s t hs ht => ?_) h
  cases e : f i s with
  | none => rw [e] at ht; exact absurd ht (by simp)
  | some v => rw [e] at ht; exact (wr_size' ht).trans hs

variable [Field K] [LinearOrder K]

theorem eigScale_size {sqrt : K → K} {n j : Int} {s : K} {Q Q' : Buf K} (h : eigScale sqrt n j s Q = some Q') : Q'.size = Q.size := by
  unfold eigScale at h
  obtain ⟨_, _, h⟩ := Option.bind_eq_some_iff.1 h
  obtain ⟨_, _, h⟩ := Option.bind_eq_some_iff.1 h
  obtain ⟨_, _, h⟩ := Option.bind_eq_some_iff.1 h
  exact sweepOff_size h

theorem eigvecs_size {sqrt : K → K} {A : Dpr1 K} {lo hi : Buf K} {m : Int} {V : Buf K} (h : eigvecs sqrt A lo hi m = some V) : V.size = (A.n * m).toNat := by
  unfold eigvecs at h
  refine forUp_inv (fun _ (s : Buf K) => s.size = (A.n * m).toNat) rfl (fun i _ _ s t hs ht => ?_) h
  obtain ⟨_, h1, ht⟩ := Option.bind_eq_some_iff.1 ht
  obtain ⟨_, _, ht⟩ := Option.bind_eq_some_iff.1 ht
  exact (eigScale_size ht).trans ((sweepOff_size h1).trans hs)

theorem eigvecsDef_size {sqrt : K → K} {A : Dpr1 K} {sigma : K} {lo hi : Buf K} {m : Int} {V : Buf K} (h : eigvecsDef sqrt A sigma lo hi m = some V) : V.size = (A.n * m).toNat := by
  unfold eigvecsDef at h
  refine forUp_inv (fun _ (s : Buf K) => s.size = (A.n * m).toNat) rfl (fun i _ _ s t hs ht => ?_) h
  obtain ⟨_, h1, ht⟩ := Option.bind_eq_some_iff.1 ht
  obtain ⟨_, _, ht⟩ := Option.bind_eq_some_iff.1 ht
  obtain ⟨_, _, ht⟩ := Option.bind_eq_some_iff.1 ht
  exact (eigScale_size ht).trans ((sweepOff_size h1).trans hs)

end Size

/-! ## Transport by the permutations -/

section Transport
variable {K : Type*} [Field K] [LinearOrder K]

/-- The matrix in the caller's order. -/
noncomputable def permMat (n : Int) (p q : Buf Int) (hp : IsPerm n p) (W : Int → Int → K) (r j : Int) : K := W (hp.inv r) (q.val j)

omit [LinearOrder K] in
theorem rowMul_perm {n : Int} {p q : Buf Int} (hp : IsPerm n p) {P P' W : Int → Int → K} (hP : ∀ i k, 0 ≤ i → i < n → 0 ≤ k → k < n → P' i k = P (p.val i) (p.val k)) {j i : Int} (i0 : 0 ≤ i)
    (i1 : i < n) : rowMul n P (fun r => permMat n p q hp W r j) (p.val i) = rowMul n P' (fun r => W r (q.val j)) i := by
  unfold rowMul permMat
  rw [← hp.sum fun k => P (p.val i) k * W (hp.inv k) (q.val j)]
  exact sum_Ico_congr fun k k0 k1 => by rw [hp.inv_val k0 k1, hP i k i0 i1 k0 k1]

theorem decomposes_perm {n : Int} {p q : Buf Int} (hp : IsPerm n p) (hq : IsPerm n q) {P P' Q Q' W : Int → Int → K} {mu lambda : Int → K}
    (hP : ∀ i k, 0 ≤ i → i < n → 0 ≤ k → k < n → P' i k = P (p.val i) (p.val k)) (hQ : ∀ i k, 0 ≤ i → i < n → 0 ≤ k → k < n → Q' i k = Q (p.val i) (p.val k))
    (eig : ∀ k, 0 ≤ k → k < n → ∀ i, 0 ≤ i → i < n → rowMul n P' (fun r => W r k) i = mu k * rowMul n Q' (fun r => W r k) i)
    (orth : ∀ j k, 0 ≤ j → j < n → 0 ≤ k → k < n → ∑ r ∈ Finset.Ico 0 n, W r j * rowMul n Q' (fun r => W r k) r = if j = k then 1 else 0)
    (hl : ∀ j, 0 ≤ j → j < n → lambda j = mu (q.val j)) (asc : ∀ i j, 0 ≤ i → i < j → j < n → lambda i ≤ lambda j) : Decomposes n P Q (permMat n p q hp W) lambda where
  asc := asc
  eig j j0 j1 i i0 i1 := by
    obtain ⟨k0, k1, e⟩ := hp.inv_spec i0 i1
    rw [← e, rowMul_perm hp hP k0 k1, rowMul_perm hp hQ k0 k1, hl j j0 j1]
    exact eig _ (hq.lo j j0 j1) (hq.hi j j0 j1) _ k0 k1
  orth j k j0 j1 k0 k1 := by
    rw [← hp.sum fun r => permMat n p q hp W r j * rowMul n Q (fun r => permMat n p q hp W r k) r]
    rw [sum_Ico_congr (g := fun r => W r (q.val j) * rowMul n Q' (fun r => W r (q.val k)) r) fun r r0 r1 => by
      rw [rowMul_perm hp hQ r0 r1]; unfold permMat; rw [hp.inv_val r0 r1]]
    rw [orth _ _ (hq.lo j j0 j1) (hq.hi j j0 j1) (hq.lo k k0 k1) (hq.hi k k0 k1)]
    by_cases h : j = k
    · rw [if_pos h, if_pos (by rw [h])]
    · rw [if_neg h, if_neg fun e => h (hq.inj _ _ j0 j1 k0 k1 e)]

theorem actsAs_perm {F : Dpr1Eigen K} (h : F.Ok) : ActsAs F.n F (permMat F.n F.p F.q h.p F.W) where
  N alpha beta x y hx hy := by
    obtain ⟨y', e, s, out, v⟩ := dvmv_N h (alpha := alpha) (beta := beta) hx hy
    refine ⟨y', e, s, out, fun r r0 r1 => ?_⟩
    obtain ⟨k0, k1, ek⟩ := h.p.inv_spec r0 r1
    have := v _ k0 k1
    rw [ek] at this
    exact this
  T alpha beta x y hx hy := by
    obtain ⟨y', e, s, out, v⟩ := dvmv_T h (alpha := alpha) (beta := beta) hx hy
    refine ⟨y', e, s, out, fun j j0 j1 => ?_⟩
    rw [v j j0 j1]
    congr 2
    rw [← h.p.sum fun r => permMat F.n F.p F.q h.p F.W r j * x.val r]
    exact sum_Ico_congr fun k k0 k1 => by unfold permMat; rw [h.p.inv_val k0 k1]

theorem actsAs_perm' {F : Dpr1Eigen K} {n : Int} (h : F.Ok) (hn : F.n = n) (hp : IsPerm n F.p) : ActsAs n F (permMat n F.p F.q hp F.W) := by
  subst hn; exact actsAs_perm h

end Transport

/-! ## The deflated block -/

section Block
variable {K : Type*} [Field K] [LinearOrder K] {n iz : Int} {D Z : Int → K} {rho sigma : K} {W : Int → Int → K} {V : Int → Int → K} {mu : Int → K}

omit [LinearOrder K] in
theorem block_dot (i0 : 0 ≤ iz) (i1 : iz ≤ n) (hZ : ∀ i, 0 ≤ i → i < iz → Z i = 0) (x : Int → K) : dotN n Z x = dotN (n - iz) (fun i => Z (i + iz)) fun i => x (i + iz) := by
  unfold dotN
  rw [ico_split i0 i1, Finset.sum_eq_zero fun i hi => by rw [Finset.mem_Ico] at hi; rw [hZ i hi.1 hi.2, zero_mul], zero_add]
  have := ico_shift iz (n - iz) fun k => Z k * x k
  rw [show iz + (n - iz) = n by omega] at this
  rw [this]
  exact sum_Ico_congr fun k _ _ => by rw [add_comm iz k]

/-- The eigenproperties of the deflated block give those of the whole. -/
theorem block_spec (i0 : 0 ≤ iz) (i1 : iz ≤ n) (hZ : ∀ i, 0 ≤ i → i < iz → Z i = 0)
    (hW1 : ∀ i k, 0 ≤ i → i < iz → W i k = if k = i then 1 else 0) (hW2 : ∀ i k, iz ≤ i → 0 ≤ k → k < iz → W i k = 0) (hW3 : ∀ i k, iz ≤ i → iz ≤ k → W i k = V (i - iz) (k - iz))
    (hmu : ∀ k, 0 ≤ k → k < iz → mu k = D k)
    (eig : ∀ k, 0 ≤ k → k < n - iz → ∀ i, 0 ≤ i → i < n - iz → rowMul (n - iz) (dpr1M (fun i => D (i + iz)) rho fun i => Z (i + iz)) (fun r => V r k) i =
      mu (k + iz) * rowMul (n - iz) (idpr1M sigma fun i => Z (i + iz)) (fun r => V r k) i)
    (orth : ∀ j k, 0 ≤ j → j < n - iz → 0 ≤ k → k < n - iz → ∑ r ∈ Finset.Ico 0 (n - iz), V r j * rowMul (n - iz) (idpr1M sigma fun i => Z (i + iz)) (fun r => V r k) r = if j = k then 1 else 0) :
    (∀ k, 0 ≤ k → k < n → ∀ i, 0 ≤ i → i < n → rowMul n (dpr1M D rho Z) (fun r => W r k) i = mu k * rowMul n (idpr1M sigma Z) (fun r => W r k) i) ∧
    ∀ j k, 0 ≤ j → j < n → 0 ≤ k → k < n → ∑ r ∈ Finset.Ico 0 n, W r j * rowMul n (idpr1M sigma Z) (fun r => W r k) r = if j = k then 1 else 0 := by
  have d0 : ∀ k, 0 ≤ k → k < iz → dotN n Z (fun r => W r k) = 0 := fun k k0 k1 => by
    rw [block_dot i0 i1 hZ]
    exact Finset.sum_eq_zero fun i hi => by rw [Finset.mem_Ico] at hi; simp only; rw [hW2 _ _ (by omega) k0 k1, mul_zero]
  have d1 : ∀ k, iz ≤ k → dotN n Z (fun r => W r k) = dotN (n - iz) (fun i => Z (i + iz)) fun r => V r (k - iz) := fun k k0 => by
    rw [block_dot i0 i1 hZ]
    exact dotN_congr fun i a b => ⟨rfl, by rw [hW3 _ _ (by omega) k0, add_sub_cancel_right]⟩
  have col : ∀ k, 0 ≤ k → k < iz → ∀ r, 0 ≤ r → W r k = if k = r then 1 else 0 := fun k k0 k1 r r0 => by
    by_cases h : r < iz
    · exact hW1 r k r0 h
    · rw [hW2 r k (by omega) k0 k1, if_neg (by omega)]
  have top : ∀ k, iz ≤ k → ∀ r, 0 ≤ r → r < iz → W r k = 0 := fun k k0 r r0 r1 => by rw [hW1 r k r0 r1, if_neg (by omega)]
  refine ⟨fun k k0 k1 i a b => ?_, fun j k j0 j1 k0 k1 => ?_⟩
  · rw [rowMul_dpr1 a b, rowMul_idpr1 a b]
    by_cases h : k < iz
    · rw [d0 k k0 h, hmu k k0 h]
      simp only [zero_mul, add_zero, col k k0 h i a]
      split_ifs with e
      · rw [e]
      · rw [mul_zero, mul_zero]
    · by_cases h2 : i < iz
      · rw [hZ i a h2, top k (by omega) i a h2]; ring
      · have := eig (k - iz) (by omega) (by omega) (i - iz) (by omega) (by omega)
        rw [rowMul_dpr1 (by omega) (by omega), rowMul_idpr1 (by omega) (by omega)] at this
        simp only [Int.sub_add_cancel] at this
        rw [d1 k (by omega), hW3 i k (by omega) (by omega)]
        exact this
  · by_cases h : j < iz
    · rw [sum_Ico_congr (g := fun r => if r = j then rowMul n (idpr1M sigma Z) (fun r => W r k) j else 0) fun r r0 r1 => by
        rw [col j j0 h r r0]
        by_cases e : j = r
        · rw [if_pos e, if_pos e.symm, one_mul, e]
        · rw [if_neg e, if_neg (Ne.symm e), zero_mul]]
      rw [Finset.sum_ite_eq' , if_pos (Finset.mem_Ico.2 ⟨j0, j1⟩), rowMul_idpr1 j0 j1, hZ j j0 h, mul_zero, add_zero, hW1 j k j0 h]
      by_cases e : j = k
      · rw [if_pos e, if_pos e.symm]
      · rw [if_neg e, if_neg (Ne.symm e)]
    · rw [ico_split i0 i1, Finset.sum_eq_zero fun r hr => by rw [Finset.mem_Ico] at hr; rw [top j (by omega) r hr.1 hr.2, zero_mul], zero_add]
      have hsh := ico_shift iz (n - iz) fun r => W r j * rowMul n (idpr1M sigma Z) (fun r => W r k) r
      rw [show iz + (n - iz) = n by omega] at hsh
      rw [hsh]
      by_cases h2 : k < iz
      · rw [Finset.sum_eq_zero fun r hr => by
          rw [Finset.mem_Ico] at hr
          rw [rowMul_idpr1 (by omega) (by omega), d0 k k0 h2, hW2 _ k (by omega) k0 h2]; ring, if_neg (by omega)]
      · rw [sum_Ico_congr (g := fun r => V r (j - iz) * rowMul (n - iz) (idpr1M sigma fun i => Z (i + iz)) (fun r => V r (k - iz)) r) fun r r0 r1 => by
          rw [rowMul_idpr1 (by omega) (by omega), rowMul_idpr1 r0 r1, d1 k (by omega), hW3 _ _ (by omega) (by omega), hW3 _ _ (by omega) (by omega), add_sub_cancel_left, add_comm iz r]]
        rw [orth _ _ (by omega) (by omega) (by omega) (by omega)]
        by_cases e : j = k
        · rw [if_pos e, if_pos (by rw [e])]
        · rw [if_neg e, if_neg (by omega)]

end Block

/-! ## The eigenvectors of the deflated problem -/

/-- What is needed of the eigenvector routine. -/
def VecsOk (sigma : ℝ) (vecs : Dpr1 ℝ → Buf ℝ → Buf ℝ → Int → Option (Buf ℝ)) (A : Dpr1 ℝ) : Prop :=
  ∀ lo hi : Buf ℝ, A.n ≤ lo.size → A.n ≤ hi.size → (∀ j, 0 ≤ j → j < A.n → NoPole A.n A.d.val (hi.val j + lo.val j) ∧ A.rho - sigma * (hi.val j + lo.val j) ≠ 0 ∧
      secularGF A.n A.d.val A.z.val A.rho sigma (hi.val j + lo.val j) = 0) →
    (∀ j k, 0 ≤ j → j < A.n → 0 ≤ k → k < A.n → j ≠ k → hi.val j + lo.val j ≠ hi.val k + lo.val k) →
    ∃ V, vecs A lo hi A.n = some V ∧ A.n * A.n ≤ V.size ∧
      (∀ k, 0 ≤ k → k < A.n → ∀ i, 0 ≤ i → i < A.n → rowMul A.n (dpr1M A.d.val A.rho A.z.val) (fun r => V.val (r + k * A.n)) i =
        (hi.val k + lo.val k) * rowMul A.n (idpr1M sigma A.z.val) (fun r => V.val (r + k * A.n)) i) ∧
      ∀ j k, 0 ≤ j → j < A.n → 0 ≤ k → k < A.n →
        ∑ r ∈ Finset.Ico 0 A.n, V.val (r + j * A.n) * rowMul A.n (idpr1M sigma A.z.val) (fun r => V.val (r + k * A.n)) r = if j = k then 1 else 0

theorem vecsOk_def {sqrt : ℝ → ℝ} (hsq : IsSqrt sqrt) {sigma : ℝ} (hs : 0 ≤ sigma) {A : Dpr1 ℝ} (hn : 0 ≤ A.n) (hd : A.n ≤ A.d.size) (hz : A.n ≤ A.z.size)
    (hnz : ∀ i, 0 ≤ i → i < A.n → A.z.val i ≠ 0) : VecsOk sigma (fun A => eigvecsDef sqrt A sigma) A := by
  intro lo hi hl hh h hne
  rcases eq_or_lt_of_le hn with h0 | h0
  · refine ⟨⟨0, fun _ => 0⟩, ?_, ?_, fun k k0 k1 => by omega, fun j k j0 j1 => by omega⟩
    · show eigvecsDef sqrt A sigma lo hi A.n = _
      unfold eigvecsDef; rw [← h0]; rfl
    · rw [← h0]; simp
  · obtain ⟨V, e, h1, h2⟩ := C35_eigenvectors_definite hsq hn (le_refl _) hd hz hl hh (fun j a b => (h j a b).1) ⟨0, le_refl _, h0, hnz 0 (le_refl _) h0⟩
      (by have : 0 ≤ sigma * ∑ i ∈ Finset.Ico 0 A.n, A.z.val i * A.z.val i := mul_nonneg hs (Finset.sum_nonneg fun _ _ => mul_self_nonneg _)
          linarith) (fun j a b => (h j a b).2.1)
    refine ⟨V, e, ?_, fun k k0 k1 => (h1 k k0 k1).2.2 (h k k0 k1).2.2, fun j k j0 j1 k0 k1 => ?_⟩
    · rw [eigvecsDef_size e]; exact Int.self_le_toNat _
    · by_cases ejk : j = k
      · rw [if_pos ejk, ← ejk]; exact (h1 j j0 j1).1
      · rw [if_neg ejk]; exact h2 j k j0 j1 k0 k1 (hne j k j0 j1 k0 k1 ejk) (h j j0 j1).2.2 (h k k0 k1).2.2

theorem vecsOk_std {sqrt : ℝ → ℝ} (hsq : IsSqrt sqrt) {A : Dpr1 ℝ} (hn : 0 < A.n) (hd : A.n ≤ A.d.size) (hz : A.n ≤ A.z.size) (hr : A.rho ≠ 0)
    (hnz : ∀ i, 0 ≤ i → i < A.n → A.z.val i ≠ 0) : VecsOk 0 (eigvecs sqrt) A := by
  intro lo hi hl hh h hne
  have hroot : ∀ j, 0 ≤ j → j < A.n → secularF A.n A.d.val A.z.val A.rho (hi.val j + lo.val j) = 0 := fun j a b => by
    have := (h j a b).2.2
    rw [secularGF_zero] at this
    exact this
  have id0 : ∀ x : Int → ℝ, ∀ i, 0 ≤ i → i < A.n → rowMul A.n (idpr1M 0 A.z.val) x i = x i := fun x i a b => by rw [rowMul_idpr1 a b]; ring
  obtain ⟨V, e, h1, h2⟩ := C35_eigenvectors hsq (le_of_lt hn) (le_refl _) hd hz hl hh hr (fun j a b => (h j a b).1) ⟨0, le_refl _, hn, hnz 0 (le_refl _) hn⟩
  refine ⟨V, e, ?_, fun k k0 k1 i a b => ?_, fun j k j0 j1 k0 k1 => ?_⟩
  · rw [eigvecs_size e]; exact Int.self_le_toNat _
  · rw [id0 _ i a b]; exact (h1 k k0 k1).2.2 (hroot k k0 k1) i a b
  · rw [sum_Ico_congr (g := fun r => V.val (r + j * A.n) * V.val (r + k * A.n)) fun r a b => by rw [id0 _ r a b]]
    by_cases ejk : j = k
    · rw [if_pos ejk, ← ejk]; exact (h1 j j0 j1).1
    · rw [if_neg ejk]; exact h2 j k j0 j1 k0 k1 (hne j k j0 j1 k0 k1 ejk) (hroot j j0 j1) (hroot k k0 k1)

/-! ## Everything -/

theorem assemble {sqrt : ℝ → ℝ} {fmin eps w sigma : ℝ} (hf : 0 ≤ fmin) (hw : 0 ≤ w) {roots : Dpr1 ℝ → Buf ℝ → Buf ℝ → Option (Buf ℝ × Buf ℝ)} {vf : Dpr1 ℝ → Int → Option ℝ}
    {vecs : Dpr1 ℝ → Buf ℝ → Buf ℝ → Int → Option (Buf ℝ)} {off : Int → Int} (hoff : off 0 = 0) {jk : Int → ℝ} {ji : Int → Int} {A : Dpr1 ℝ} (hn : 0 ≤ A.n) (hd : A.n ≤ A.d.size)
    (hz : A.n ≤ A.z.size)
    (htol : 0 ≤ sqrt w * sqrt (∑ i ∈ Finset.Ico 0 A.n, A.z.val i * A.z.val i) * eps)
    (hsep : Separated A.n A.d.val A.z.val A.rho sigma (sqrt w * sqrt (∑ i ∈ Finset.Ico 0 A.n, A.z.val i * A.z.val i) * eps) (sqrt fmin))
    (hroots : ∀ (A' : Dpr1 ℝ) (L H : Buf ℝ), 0 ≤ A'.n → ((∃ i, 0 ≤ i ∧ i < A.n ∧ A.z.val i ≠ 0) → 0 < A'.n) → A'.rho = A.rho → A'.n ≤ A'.d.size → A'.n ≤ A'.z.size →
      (∀ i j, 0 ≤ i → i < j → j < A'.n → A'.d.val i < A'.d.val j) → (∀ i, 0 ≤ i → i < A'.n → A'.z.val i ≠ 0) → (sigma ≠ 0 → NoPole A'.n A'.d.val (A'.rho / sigma)) →
      (L.size : Int) = A'.n → (H.size : Int) = A'.n → ∃ lo hi, roots A' L H = some (lo, hi) ∧ IsRoots A' sigma lo hi)
    (hvecs : ∀ A' : Dpr1 ℝ, 0 ≤ A'.n → ((∃ i, 0 ≤ i ∧ i < A.n ∧ A.z.val i ≠ 0) → 0 < A'.n) → A'.rho = A.rho → A'.n ≤ A'.d.size → A'.n ≤ A'.z.size →
      (∀ i, 0 ≤ i → i < A'.n → A'.z.val i ≠ 0) → VecsOk sigma vecs A') :
    ∃ (F : Dpr1Eigen ℝ) (M : Int → Int → ℝ), ((eigStart sqrt eps w roots jk ji A).bind fun (A', p1, lo, hi) => eigFinish sqrt fmin vf vecs off jk ji A.n A' p1 lo hi) = some F ∧
      F.n = A.n ∧ (F.lambda.size : Int) = A.n ∧ F.Formed ∧ ActsAs A.n F M ∧ Decomposes A.n (dpr1M A.d.val A.rho A.z.val) (idpr1M sigma A.z.val) M F.lambda.val := by
  obtain ⟨A', π, iz, L, H, f, i0, i1, hA, hρ, hds, hzs, hdz, small, large, sorted, sL, sH, _, start⟩ := eigStart_spec (sqrt := sqrt) (eps := eps) hw (roots := roots) (jk := jk) (ji := ji) hn hd hz
  have mp : ∀ k, 0 ≤ k → k < A.n → 0 ≤ π k ∧ π k < A.n := fun k a b => by have := f.maps (k := k) a (by omega); omega
  have surj : ∀ i, 0 ≤ i → i < A.n → ∃ k, 0 ≤ k ∧ k < A.n ∧ π k = i := fun i a b => by
    by_cases h : 0 ≤ π.symm i ∧ π.symm i ≤ A.n - 1
    · exact ⟨π.symm i, h.1, by omega, π.apply_symm_apply i⟩
    · have := f _ h
      rw [π.apply_symm_apply] at this
      rw [← this] at h
      omega
  have hpm : IsPerm A.n (⟨A.n.toNat, π⟩ : Buf Int) := ⟨by show A.n ≤ ((A.n.toNat : Nat) : Int); omega, fun k a b => (mp k a b).1, fun k a b => (mp k a b).2,
    fun k l _ _ _ _ h => π.injective h⟩
  have zz : ∀ k, 0 ≤ k → k < iz → A.z.val (π k) = 0 := fun k a b => by
    obtain ⟨m0, m1⟩ := mp k a (by omega)
    exact (hsep.small _ m0 m1).resolve_right fun h => not_lt.2 (small k a b) h
  have zn : ∀ k, 0 ≤ k → k < A'.n → A'.z.val k ≠ 0 := fun k a b e => by
    rw [(hdz k a (by omega)).2] at e
    obtain ⟨m0, m1⟩ := mp (k + iz) (by omega) (by omega)
    have h := large (k + iz) (by omega) (by omega)
    rw [e, abs_zero] at h
    exact absurd htol (not_le.2 h)
  have zi : ∀ k, iz ≤ k → k < A.n → A.z.val (π k) ≠ 0 := fun k a b => by
    have := zn (k - iz) (by omega) (by omega)
    rwa [(hdz (k - iz) (by omega) (by omega)).2, Int.sub_add_cancel] at this
  have hpos : (∃ i, 0 ≤ i ∧ i < A.n ∧ A.z.val i ≠ 0) → 0 < A'.n := fun ⟨i, a, b, c⟩ => by
    by_contra h
    obtain ⟨k, k0, k1, e⟩ := surj i a b
    rw [← e] at c
    exact c (zz k k0 (by omega))
  have strict : ∀ i j, 0 ≤ i → i < j → j < A'.n → A'.d.val i < A'.d.val j := fun i j a b c => by
    refine lt_of_le_of_ne (sorted i j a b (by omega)) ?_
    rw [(hdz i a (by omega)).1, (hdz j (by omega) (by omega)).1]
    obtain ⟨m0, m1⟩ := mp (i + iz) (by omega) (by omega)
    obtain ⟨l0, l1⟩ := mp (j + iz) (by omega) (by omega)
    exact hsep.dist _ _ m0 m1 l0 l1 (fun e => by have := π.injective e; omega) (zi _ (by omega) (by omega)) (zi _ (by omega) (by omega))
  have hsec : ∀ t, secularGF A'.n A'.d.val A'.z.val A'.rho sigma t = secularGF A.n A.d.val A.z.val A.rho sigma t := fun t => by
    unfold secularGF
    rw [hρ]
    congr 1
    rw [← hpm.sum fun i => A.z.val i * A.z.val i / (A.d.val i - t), ico_split i0 i1, Finset.sum_eq_zero (s := Finset.Ico 0 iz) fun i hi => by
      rw [Finset.mem_Ico] at hi
      show A.z.val (π i) * A.z.val (π i) / _ = 0
      rw [zz i hi.1 hi.2, mul_zero, zero_div], zero_add]
    have := ico_shift iz (A.n - iz) fun i => A.z.val (π i) * A.z.val (π i) / (A.d.val (π i) - t)
    rw [show iz + (A.n - iz) = A.n by omega] at this
    show _ = ∑ i ∈ Finset.Ico iz A.n, A.z.val (π i) * A.z.val (π i) / (A.d.val (π i) - t)
    rw [this, hA]
    exact sum_Ico_congr fun k a b => by rw [(hdz k a b).1, (hdz k a b).2, add_comm iz k]
  obtain ⟨lo', hi', er, hroot⟩ := hroots A' L H (by omega) hpos hρ (by omega) (by omega) strict zn (fun hs k a b => by
    rw [(hdz k a (by omega)).1, hρ]
    obtain ⟨m0, m1⟩ := mp (k + iz) (by omega) (by omega)
    exact hsep.tau hs _ m0 m1 (zi _ (by omega) (by omega))) sL sH
  obtain ⟨p1, lo, hi, est, hp1, pv, sl, sh, top, bot⟩ := start lo' hi' er
  obtain ⟨π2, id, f2, j0, j1, small2, _, fin⟩ := eigFinish_spec (sqrt := sqrt) hf (vf := vf) (vecs := vecs) (off := off) (jk := jk) (ji := ji) (n := A.n) (A := A') (p1 := p1) (lo := lo) (hi := hi)
    (by omega) (by omega) (by omega) (by omega) sl sh hp1
  have hiz : A.n - A'.n = iz := by omega
  rw [hiz] at small2 fin
  have mp2 : ∀ k, 0 ≤ k → k < A'.n → 0 ≤ π2 k ∧ π2 k < A'.n := fun k a b => by have := f2.maps (k := k) a (by omega); omega
  have hid : id = 0 := by
    by_contra hne
    have hs := small2 0 (le_refl _) (by omega)
    obtain ⟨m0, m1⟩ := mp2 0 (le_refl _) (by omega)
    rw [(bot (π2 0) m0).1] at hs
    have np := hroot.np _ m0 m1
    obtain ⟨g1, g2⟩ := hsep.far (hi'.val (π2 0) + lo'.val (π2 0)) (fun i a b c e => by
      obtain ⟨k, k0, k1, ek⟩ := surj i a b
      have hk : iz ≤ k := by
        by_contra h
        rw [← ek] at c
        exact c (zz k k0 (by omega))
      refine np (k - iz) (by omega) (by omega) ?_
      rw [(hdz (k - iz) (by omega) (by omega)).1, Int.sub_add_cancel, ek, e]) (by rw [← hρ]; exact hroot.nt _ m0 m1) (by rw [← hsec]; exact hroot.root _ m0 m1)
    rcases hroot.near _ m0 m1 with ⟨i, a, b, e⟩ | ⟨hs0, e⟩
    · rw [(hdz i a (by omega)).1] at e
      obtain ⟨l0, l1⟩ := mp (i + iz) (by omega) (by omega)
      have := g1 _ l0 l1 (zi _ (by omega) (by omega))
      rw [← e, add_sub_cancel_left] at this
      exact absurd hs (not_le.2 this)
    · have := g2 hs0
      rw [← hρ, ← e, add_sub_cancel_left] at this
      exact absurd hs (not_le.2 this)
  subst hid
  -- the deflated problem in its final order
  have vlo : ∀ k, 0 ≤ k → ((ordB lo iz π2).view (iz + off 0)).val k = lo'.val (π2 k) := fun k a => by
    show (ordB lo iz π2).val (k + (iz + off 0)) = _
    rw [hoff, add_zero, ordB_ge (by omega), add_sub_cancel_right]
    by_cases h : k ≤ A'.n - 1
    · exact (bot _ (f2.maps a h).1).1
    · rw [f2 k (by omega)]; exact (bot _ a).1
  have vhi : ∀ k, 0 ≤ k → ((ordB hi iz π2).view (iz + off 0)).val k = hi'.val (π2 k) := fun k a => by
    show (ordB hi iz π2).val (k + (iz + off 0)) = _
    rw [hoff, add_zero, ordB_ge (by omega), add_sub_cancel_right]
    by_cases h : k ≤ A'.n - 1
    · exact (bot _ (f2.maps a h).1).2
    · rw [f2 k (by omega)]; exact (bot _ a).2
  have hpm2 : IsPerm A'.n (⟨A'.n.toNat, π2⟩ : Buf Int) := ⟨by show A'.n ≤ ((A'.n.toNat : Nat) : Int); omega, fun k a b => (mp2 k a b).1, fun k a b => (mp2 k a b).2,
    fun k l _ _ _ _ h => π2.injective h⟩
  have np2 : ∀ t, NoPole A'.n A'.d.val t → NoPole A'.n (A'.d.pm π2).val t := fun t h i a b => h _ (mp2 i a b).1 (mp2 i a b).2
  have sec2 : ∀ t, secularGF A'.n (A'.d.pm π2).val (A'.z.pm π2).val A'.rho sigma t = secularGF A'.n A'.d.val A'.z.val A'.rho sigma t := fun t => by
    unfold secularGF
    congr 1
    exact hpm2.sum fun i => A'.z.val i * A'.z.val i / (A'.d.val i - t)
  obtain ⟨V, ev, sV, eigV, orthV⟩ := hvecs ⟨A'.n, A'.d.pm π2, A'.z.pm π2, A'.rho⟩ (by show 0 ≤ A'.n; omega) hpos hρ (by show A'.n ≤ (A'.d.size : Int); omega) (by show A'.n ≤ (A'.z.size : Int); omega)
    (fun i a b => zn _ (mp2 i a b).1 (mp2 i a b).2) ((ordB lo iz π2).view (iz + off 0)) ((ordB hi iz π2).view (iz + off 0))
    (by show A'.n ≤ ((lo.size - (iz + off 0).toNat : Nat) : Int); rw [hoff]; omega) (by show A'.n ≤ ((hi.size - (iz + off 0).toNat : Nat) : Int); rw [hoff]; omega)
    (fun j a b => by
      obtain ⟨m0, m1⟩ := mp2 j a b
      rw [vlo j a, vhi j a]
      exact ⟨np2 _ (hroot.np _ m0 m1), hroot.nt _ m0 m1, (sec2 _).trans (hroot.root _ m0 m1)⟩)
    (fun j k a b c d e => by
      obtain ⟨m0, m1⟩ := mp2 j a b
      obtain ⟨l0, l1⟩ := mp2 k c d
      rw [vlo j a, vhi j a, vlo k c, vhi k c]
      rcases lt_or_gt_of_ne (fun h => e (π2.injective h) : π2 j ≠ π2 k) with h | h
      · exact ne_of_lt (hroot.lt _ _ m0 h l1)
      · exact ne_of_gt (hroot.lt _ _ l0 h m1))
  simp only at eigV orthV sV
  obtain ⟨F, eF, Fn, Fiz, Fid, FV, Fv, _, Fp, Fq, pv1, pv2, Fls, Flo, Fhi, Fl, Fasc⟩ := fin (fun _ => 0) V (fun i a b => by omega) (by rw [Int.sub_zero]; exact ev)
  have hOk : F.Ok := ⟨by omega, by omega, by omega, by rw [Fn]; exact Fp, by rw [Fn]; exact Fq, by omega, by
    rw [Fn, Fiz, Fid, FV, Int.sub_zero, show A.n - iz = A'.n by omega]; exact sV⟩
  have hD : ∀ i, 0 ≤ i → i < A'.n → A.d.val (F.p.val (i + iz)) = A'.d.val (π2 i) ∧ A.z.val (F.p.val (i + iz)) = A'.z.val (π2 i) := fun i a b => by
    obtain ⟨m0, m1⟩ := mp2 i a b
    rw [pv2 (i + iz) (by omega) (by omega), add_sub_cancel_right, pv _ (by omega) (by omega), (hdz _ m0 (by omega)).1, (hdz _ m0 (by omega)).2]
    exact ⟨rfl, rfl⟩
  have dotc : ∀ x : Int → ℝ, dotN A'.n (fun i => A.z.val (F.p.val (i + iz))) x = dotN A'.n (A'.z.pm π2).val x := fun x => dotN_congr fun i a b => ⟨(hD i a b).2, rfl⟩
  have rowA : ∀ (x : Int → ℝ) i, 0 ≤ i → i < A'.n → rowMul A'.n (dpr1M (fun i => A.d.val (F.p.val (i + iz))) A.rho fun i => A.z.val (F.p.val (i + iz))) x i =
      rowMul A'.n (dpr1M (A'.d.pm π2).val A'.rho (A'.z.pm π2).val) x i := fun x i a b => by
    rw [rowMul_dpr1 a b, rowMul_dpr1 a b, dotc, (hD i a b).1, (hD i a b).2, hρ]; rfl
  have rowB : ∀ (x : Int → ℝ) i, 0 ≤ i → i < A'.n → rowMul A'.n (idpr1M sigma fun i => A.z.val (F.p.val (i + iz))) x i = rowMul A'.n (idpr1M sigma (A'.z.pm π2).val) x i := fun x i a b => by
    rw [rowMul_idpr1 a b, rowMul_idpr1 a b, dotc, (hD i a b).2]; rfl
  obtain ⟨dec1, dec2⟩ := block_spec (n := A.n) (iz := iz) (D := fun i => A.d.val (F.p.val i)) (Z := fun i => A.z.val (F.p.val i)) (rho := A.rho) (sigma := sigma) (W := F.W)
    (V := fun i k => V.val (i + k * A'.n)) (mu := fun k => (ordB hi iz π2).val k + (ordB lo iz π2).val k) i0 i1 (fun i a b => by
      rw [pv1 i a b, pv i a (by omega)]; exact zz i a b)
    (fun i k a b => by unfold Dpr1Eigen.W; rw [Fiz, if_pos b]) (fun i k a b c => by unfold Dpr1Eigen.W; rw [Fiz, if_neg (by omega), if_pos c])
    (fun i k a b => by
      unfold Dpr1Eigen.W
      rw [Fiz, Fid, if_neg (by omega), if_neg (by omega), if_neg (by omega), FV, Fn, add_zero, show A.n - iz = A'.n by omega])
    (fun k a b => by
      rw [ordB_lt b, ordB_lt b, (top k a b).1, (top k a b).2, add_zero, pv1 k a b, pv k a (by omega)])
    (by
      rw [show A.n - iz = A'.n by omega]
      intro k k0 k1 i a b
      rw [rowA _ i a b, rowB _ i a b, eigV k k0 k1 i a b, vlo k k0, vhi k k0, ordB_ge (by omega), ordB_ge (by omega), add_sub_cancel_right, (bot _ (mp2 k k0 k1).1).1, (bot _ (mp2 k k0 k1).1).2])
    (by
      rw [show A.n - iz = A'.n by omega]
      intro j k j0 j1 k0 k1
      rw [← orthV j k j0 j1 k0 k1]
      exact sum_Ico_congr fun r a b => by rw [rowB _ r a b])
  refine ⟨F, permMat A.n F.p F.q Fp F.W, by rw [est, Option.bind_some]; exact eF, Fn, Fls, ⟨hOk, by omega, by omega, by omega⟩, actsAs_perm' hOk Fn Fp, ?_⟩
  refine decomposes_perm Fp Fq (fun i k a b c d => ?_) (fun i k a b c d => ?_) dec1 dec2 (fun j a b => Fl j a b) Fasc
  · unfold dpr1M
    by_cases h : i = k
    · rw [if_pos h, if_pos (by rw [h])]
    · rw [if_neg h, if_neg fun e => h (Fp.inj _ _ a b c d e)]
  · unfold idpr1M
    by_cases h : i = k
    · rw [if_pos h, if_pos (by rw [h])]
    · rw [if_neg h, if_neg fun e => h (Fp.inj _ _ a b c d e)]

end FT
