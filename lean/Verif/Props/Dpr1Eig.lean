import Verif.Lemmas.Dpr1Asm
import Mathlib.Analysis.SpecialFunctions.Pow.Real

/-! # Properties of the eigendecomposition of a diagonal matrix plus a rank-one update: C66 -/

namespace FT.Props
open FT

theorem tol_nonneg {sqrt : ℝ → ℝ} (hsq : IsSqrt sqrt) {w eps s : ℝ} (hw : 0 ≤ w) (hs : 0 ≤ s) (he : 0 ≤ eps) : 0 ≤ sqrt w * sqrt s * eps :=
  mul_nonneg (mul_nonneg (hsq w hw).1 (hsq s hs).1) he

theorem sumsq_nonneg {n : Int} {z : Int → ℝ} : 0 ≤ ∑ i ∈ Finset.Ico 0 n, z i * z i := Finset.sum_nonneg fun _ _ => mul_self_nonneg _

/-- **C66.** For every `d`, `z` and `ρ ≠ 0` separated at the tolerances of the code, with some `z_i ≠ 0`, `symmetric_dpr1_eig` returns ascending eigenvalues and an
object that `dvmv` applies as the orthogonal matrix of eigenvectors of `diag(d) + ρ z zᵀ`, in the caller's order of rows.  Missing: roots within `√floatmin` of a pole
(`C66_offset_defect`) and `z` entirely negligible (`C66_all_deflated_defect`); the iterations are assumed to converge (`Finds`). -/
theorem C66_standard_partial {sqrt : ℝ → ℝ} (hsq : IsSqrt sqrt) {eps fmin : ℝ} (he : 0 ≤ eps) (hf : 0 ≤ fmin) {R : RootFinder ℝ} (hR : Finds R) {jk : Int → ℝ} {ji : Int → Int} {A : Dpr1 ℝ}
    (hn : 0 ≤ A.n) (hd : A.n ≤ A.d.size) (hz : A.n ≤ A.z.size) (hr : A.rho ≠ 0) (hnz : ∃ i, 0 ≤ i ∧ i < A.n ∧ A.z.val i ≠ 0)
    (hsep : Separated A.n A.d.val A.z.val A.rho 0 (sqrt |A.rho| * sqrt (∑ i ∈ Finset.Ico 0 A.n, A.z.val i * A.z.val i) * eps) (sqrt fmin)) :
    ∃ (F : Dpr1Eigen ℝ) (M : Int → Int → ℝ), dpr1Eig sqrt eps fmin R jk ji A = some F ∧ F.n = A.n ∧ (F.lambda.size : Int) = A.n ∧ ActsAs A.n F M ∧
      Decomposes A.n (dpr1M A.d.val A.rho A.z.val) (idpr1M 0 A.z.val) M F.lambda.val := by
  obtain ⟨F, M, e, n, l, _, r⟩ := assemble (vf := fun _ _ => some 1) (off := fun _ => 0) hf (abs_nonneg _) rfl hn hd hz (tol_nonneg hsq (abs_nonneg _) sumsq_nonneg he) hsep
    (fun A' L H _ h1 h2 h3 h4 h5 h6 _ h7 h8 => eigvals_spec hR (h1 hnz) h5 h6 h3 h4 (by rw [h2]; exact hr) h7 h8)
    (fun A' _ h1 h2 h3 h4 h5 => vecsOk_std hsq (h1 hnz) h3 h4 (by rw [h2]; exact hr) h5)
  exact ⟨F, M, e, n, l, r⟩

theorem definite_formed {sqrt : ℝ → ℝ} (hsq : IsSqrt sqrt) {eps fmin : ℝ} (he : 0 ≤ eps) (hf : 0 ≤ fmin) {R : RootFinder ℝ} (hR : Finds R) {jk : Int → ℝ} {ji : Int → Int} {A : Dpr1 ℝ}
    {sigma : ℝ} (hs : 0 ≤ sigma) (hn : 0 ≤ A.n) (hd : A.n ≤ A.d.size) (hz : A.n ≤ A.z.size) (h0 : sigma = 0 → A.rho ≠ 0 ∧ ∃ i, 0 ≤ i ∧ i < A.n ∧ A.z.val i ≠ 0)
    (hsep : Separated A.n A.d.val A.z.val A.rho sigma (sqrt (|A.rho| + |sigma|) * sqrt (∑ i ∈ Finset.Ico 0 A.n, A.z.val i * A.z.val i) * eps) (sqrt fmin)) :
    ∃ (F : Dpr1Eigen ℝ) (M : Int → Int → ℝ), definiteDpr1Eig sqrt eps fmin R jk ji A sigma = some F ∧ F.n = A.n ∧ (F.lambda.size : Int) = A.n ∧ F.Formed ∧ ActsAs A.n F M ∧
      Decomposes A.n (dpr1M A.d.val A.rho A.z.val) (idpr1M sigma A.z.val) M F.lambda.val := by
  refine assemble hf (add_nonneg (abs_nonneg _) (abs_nonneg _)) rfl hn hd hz (tol_nonneg hsq (add_nonneg (abs_nonneg _) (abs_nonneg _)) sumsq_nonneg he) hsep
    (fun A' L H g0 h1 h2 h3 h4 h5 h6 g6 h7 h8 => ?_) (fun A' h1 _ _ h3 h4 h5 => vecsOk_def hsq hs h1 h3 h4 h5)
  rcases eq_or_lt_of_le hs with h | h
  · subst h
    obtain ⟨hr, hnz⟩ := h0 rfl
    obtain ⟨lo, hi, e, g⟩ := eigvals_spec hR (h1 hnz) h5 h6 h3 h4 (by rw [h2]; exact hr) h7 h8
    exact ⟨lo, hi, by unfold eigvalsDef; rw [if_pos rfl]; exact e, g⟩
  · exact eigvalsDef_spec hR g0 h h5 h6 h3 h4 (g6 (ne_of_gt h)) h7 h8

/-- **C66.** The same for the pencil `(diag(d) + ρ z zᵀ, I + σ z zᵀ)` with `σ ≥ 0`: `symmetric_definite_dpr1_eig` returns the ascending generalised eigenvalues and, through
`dvmv`, the matrix of eigenvectors, orthonormal for `I + σ z zᵀ`.  For `σ > 0` any `ρ` and `z`, also `z = 0`. -/
theorem C66_definite_partial {sqrt : ℝ → ℝ} (hsq : IsSqrt sqrt) {eps fmin : ℝ} (he : 0 ≤ eps) (hf : 0 ≤ fmin) {R : RootFinder ℝ} (hR : Finds R) {jk : Int → ℝ} {ji : Int → Int} {A : Dpr1 ℝ}
    {sigma : ℝ} (hs : 0 ≤ sigma) (hn : 0 ≤ A.n) (hd : A.n ≤ A.d.size) (hz : A.n ≤ A.z.size) (h0 : sigma = 0 → A.rho ≠ 0 ∧ ∃ i, 0 ≤ i ∧ i < A.n ∧ A.z.val i ≠ 0)
    (hsep : Separated A.n A.d.val A.z.val A.rho sigma (sqrt (|A.rho| + |sigma|) * sqrt (∑ i ∈ Finset.Ico 0 A.n, A.z.val i * A.z.val i) * eps) (sqrt fmin)) :
    ∃ (F : Dpr1Eigen ℝ) (M : Int → Int → ℝ), definiteDpr1Eig sqrt eps fmin R jk ji A sigma = some F ∧ F.n = A.n ∧ (F.lambda.size : Int) = A.n ∧ ActsAs A.n F M ∧
      Decomposes A.n (dpr1M A.d.val A.rho A.z.val) (idpr1M sigma A.z.val) M F.lambda.val := by
  obtain ⟨F, M, e, n, l, _, r⟩ := definite_formed hsq he hf hR (jk := jk) (ji := ji) hs hn hd hz h0 hsep
  exact ⟨F, M, e, n, l, r⟩

/-! ## Defects -/

/-- **C66.** When every `z_i` is negligible (for example `z = 0`) and `ρ ≠ 0`, nothing is left after the deflation and `symmetric_dpr1_eig` indexes the emptied arrays:
undefined behaviour, whatever the iterations do. -/
theorem C66_all_deflated_defect {sqrt : ℝ → ℝ} {eps fmin : ℝ} {R : RootFinder ℝ} {jk : Int → ℝ} {ji : Int → Int} {A : Dpr1 ℝ}
    (hn : 0 ≤ A.n) (hd : A.n ≤ A.d.size) (hz : A.n ≤ A.z.size) (hr : A.rho ≠ 0)
    (hsm : ∀ i, 0 ≤ i → i < A.n → |A.z.val i| ≤ sqrt |A.rho| * sqrt (∑ i ∈ Finset.Ico 0 A.n, A.z.val i * A.z.val i) * eps) : dpr1Eig sqrt eps fmin R jk ji A = none := by
  obtain ⟨A', π, iz, L, H, f, i0, i1, hA, hρ, hds, hzs, hdz, small, large, sorted, sL, sH, bad, _⟩ := eigStart_spec (sqrt := sqrt) (eps := eps) (abs_nonneg A.rho) (roots := eigvals R) (jk := jk) (ji := ji) hn hd hz
  have hiz : iz = A.n := by
    by_contra h
    obtain ⟨m0, m1⟩ := f.maps (k := iz) i0 (by omega)
    exact absurd (hsm _ m0 (by omega)) (not_le.2 (large iz (le_refl _) (by omega)))
  have h0 : A'.n = 0 := by omega
  unfold dpr1Eig
  rw [bad ?_]
  · rfl
  unfold eigvals
  rw [accUp_eq (g := fun i => A'.z.val i * A'.z.val i) (fun i i0 i1 => by omega), Option.bind_some, if_neg (by rw [hρ]; exact hr), h0]
  by_cases hp : A'.rho > 0
  · rw [if_pos hp, show forUp 0 (0 - 1) _ (L, H) = some (L, H) from rfl, Option.bind_some, Buf.rd_oob (by omega)]
    rfl
  · rw [if_neg hp]
    have : ∀ t h, putRoot (L, H) 0 (t, h) = none := fun t h => by
      unfold putRoot
      rw [Buf.wr_oob (by show ¬ (0 ≤ (0 : Int) ∧ 0 < (L.size : Int)); omega)]
      rfl
    cases A'.d.rd 0 with
    | none => rfl
    | some d0 =>
      rw [Option.bind_some]
      cases R.first A' _ d0 with
      | none => rfl
      | some t => rw [Option.bind_some, this]; rfl

/-- A rank-one update with eigenvalues `s` and `27 s`. -/
def wOff (s : ℝ) : Dpr1 ℝ := ⟨2, ⟨2, fun i => if i = 0 then 0 else 3 * s⟩, ⟨2, fun i => if i = 0 then 3 else 4⟩, s⟩

theorem perm2 {π : Equiv.Perm Int} (f : FixOut 0 (2 - 1) π) : (π 0 = 0 ∧ π 1 = 1) ∨ (π 0 = 1 ∧ π 1 = 0) := by
  have h0 := f.maps (k := 0) (by omega) (by omega)
  have h1 := f.maps (k := 1) (by omega) (by omega)
  have h2 : π 0 ≠ π 1 := fun e => by have := π.injective e; omega
  omega

/-- **C66.** A root at a distance of at most `√floatmin` from a pole and another farther away: `symmetric_dpr1_eig` computes the remaining eigenvectors from the wrong
eigenvalues.  For every `floatmin` the matrix `s (diag(0,3) + (3,4)(3,4)ᵀ)`, `s = √floatmin/2`, has the eigenvalues `s`, `27 s`, both returned; but the vector returned for `27 s` is an
eigenvector for `s`. -/
theorem C66_offset_defect {fmin eps : ℝ} (hf : 0 < fmin) (hf1 : fmin ≤ 1) (he : 0 ≤ eps) (he1 : eps ≤ 1 / 2) {R : RootFinder ℝ} (hR : Finds R) {jk : Int → ℝ} {ji : Int → Int} :
    ∃ (F : Dpr1Eigen ℝ) (M : Int → Int → ℝ), dpr1Eig Real.sqrt eps fmin R jk ji (wOff (Real.sqrt fmin / 2)) = some F ∧ ActsAs 2 F M ∧
      F.lambda.val 0 = Real.sqrt fmin / 2 ∧ F.lambda.val 1 = 27 * (Real.sqrt fmin / 2) ∧ (∑ r ∈ Finset.Ico 0 2, M r 1 * M r 1) = 1 ∧
      ∀ i, 0 ≤ i → i < 2 → rowMul 2 (dpr1M (wOff (Real.sqrt fmin / 2)).d.val (Real.sqrt fmin / 2) (wOff (Real.sqrt fmin / 2)).z.val) (fun r => M r 1) i = Real.sqrt fmin / 2 * M i 1 := by
  have hrf : Real.sqrt fmin = 2 * (Real.sqrt fmin / 2) := by ring
  have hrp : 0 < Real.sqrt fmin / 2 := by have := Real.sqrt_pos.2 hf; linarith
  have hr1 : Real.sqrt fmin / 2 ≤ 1 := by have := Real.sqrt_le_one.2 hf1; linarith
  generalize hs : Real.sqrt fmin / 2 = s at *
  have hz : ∀ i, 3 ≤ |(wOff s).z.val i| := fun i => by
    show 3 ≤ |if i = 0 then (3 : ℝ) else 4|
    split_ifs <;> norm_num
  have sum25 : (∑ i ∈ Finset.Ico 0 (wOff s).n, (wOff s).z.val i * (wOff s).z.val i) = 25 := by
    rw [show Finset.Ico 0 (wOff s).n = {0, 1} from by show Finset.Ico (0 : Int) 2 = {0, 1}; decide, Finset.sum_pair (by decide)]
    show (3 : ℝ) * 3 + 4 * 4 = 25
    norm_num
  obtain ⟨A', π, iz, L, H, f, i0, i1, hA, hρ, hds, hzs, hdz, small, large, sorted, sL, sH, _, start⟩ :=
    eigStart_spec (sqrt := Real.sqrt) (eps := eps) (abs_nonneg (wOff s).rho) (roots := eigvals R) (jk := jk) (ji := ji) (A := wOff s) (by show (0 : Int) ≤ 2; decide) (le_refl (2 : Int)) (le_refl (2 : Int))
  have hiz : iz = 0 := by
    by_contra h
    have h1 := small 0 (le_refl _) (by omega)
    rw [sum25, show (25 : ℝ) = 5 * 5 by norm_num, Real.sqrt_mul_self (by norm_num)] at h1
    have h2 := hz (π 0)
    have h3 : Real.sqrt |(wOff s).rho| ≤ 1 := Real.sqrt_le_one.2 (by show |s| ≤ 1; rw [abs_of_pos hrp]; exact hr1)
    have h4 := Real.sqrt_nonneg |(wOff s).rho|
    nlinarith
  subst hiz
  have hA2 : A'.n = 2 := hA
  have hπ : π 0 = 0 ∧ π 1 = 1 := by
    rcases perm2 f with h | h
    · exact h
    · have := sorted 0 1 (by omega) (by omega) (by show (1 : Int) < 2 - 0; omega)
      rw [(hdz 0 (by omega) (by show (0 : Int) < 2 - 0; omega)).1, (hdz 1 (by omega) (by show (1 : Int) < 2 - 0; omega)).1, add_zero, add_zero, h.1, h.2] at this
      have h3 : 3 * s ≤ 0 := this
      linarith
  have d0 : A'.d.val 0 = 0 := by rw [(hdz 0 (by omega) (by show (0 : Int) < 2 - 0; omega)).1, add_zero, hπ.1]; rfl
  have d1 : A'.d.val 1 = 3 * s := by rw [(hdz 1 (by omega) (by show (1 : Int) < 2 - 0; omega)).1, add_zero, hπ.2]; rfl
  have z0 : A'.z.val 0 = 3 := by rw [(hdz 0 (by omega) (by show (0 : Int) < 2 - 0; omega)).2, add_zero, hπ.1]; rfl
  have z1 : A'.z.val 1 = 4 := by rw [(hdz 1 (by omega) (by show (1 : Int) < 2 - 0; omega)).2, add_zero, hπ.2]; rfl
  have two : ∀ i : Int, 0 ≤ i → i < 2 → i = 0 ∨ i = 1 := fun i a b => by omega
  have hρ' : A'.rho = s := hρ
  have ico : Finset.Ico (0 : Int) 2 = {0, 1} := by decide
  obtain ⟨lo', hi', er, hroot⟩ := eigvals_spec (L := L) (H := H) hR (A := A') (by omega) (fun i j a b c => by
      rw [hA2] at c
      obtain rfl : i = 0 := by omega
      obtain rfl : j = 1 := by omega
      rw [d0, d1]; linarith) (fun i a b => by
      rw [hA2] at b
      rcases two i a b with rfl | rfl
      · rw [z0]; norm_num
      · rw [z1]; norm_num) (by rw [hds, hA2]; exact le_refl (2 : Int)) (by rw [hzs, hA2]; exact le_refl (2 : Int)) (by rw [hρ']; exact ne_of_gt hrp) sL sH
  have roots2 : ∀ t, NoPole A'.n A'.d.val t → secularGF A'.n A'.d.val A'.z.val A'.rho 0 t = 0 → t = s ∨ t = 27 * s := fun t np h => by
    have n0 := np 0 (by omega) (by omega)
    have n1 := np 1 (by omega) (by omega)
    rw [d0] at n0
    rw [d1] at n1
    rw [secularGF_zero, hA2, ico, Finset.sum_pair (by decide), d0, d1, z0, z1, hρ'] at h
    have n0' : (0 : ℝ) - t ≠ 0 := sub_ne_zero.2 n0
    have n1' : 3 * s - t ≠ 0 := sub_ne_zero.2 n1
    have hs0 := ne_of_gt hrp
    have h' : s * (0 - t) * (3 * s - t) * (1 / s + (3 * 3 / (0 - t) + 4 * 4 / (3 * s - t))) = (t - s) * (t - 27 * s) := by
      have gen : ∀ u v : ℝ, u ≠ 0 → v ≠ 0 → s * u * v * (1 / s + (3 * 3 / u + 4 * 4 / v)) = u * v + 9 * s * v + 16 * s * u := fun u v hu hv => by field_simp; ring
      rw [gen _ _ n0' n1']; ring
    rw [h, mul_zero] at h'
    replace h' := h'.symm
    rcases mul_eq_zero.1 h' with h | h
    · exact Or.inl (by linarith)
    · exact Or.inr (by linarith)
  have hlt := hroot.lt 0 1 (by omega) (by omega) (by omega)
  have t0 : hi'.val 0 + lo'.val 0 = s := by
    rcases roots2 _ (hroot.np 0 (by omega) (by omega)) (hroot.root 0 (by omega) (by omega)) with h | h
    · exact h
    · rcases roots2 _ (hroot.np 1 (by omega) (by omega)) (hroot.root 1 (by omega) (by omega)) with g | g <;> rw [h, g] at hlt <;> linarith
  have t1 : hi'.val 1 + lo'.val 1 = 27 * s := by
    rcases roots2 _ (hroot.np 1 (by omega) (by omega)) (hroot.root 1 (by omega) (by omega)) with h | h
    · rw [h, t0] at hlt; exact absurd hlt (lt_irrefl _)
    · exact h
  have pole : ∀ j, 0 ≤ j → j < A'.n → hi'.val j = 0 ∨ hi'.val j = 3 * s := fun j a b => by
    rcases hroot.near j a b with ⟨i, c, d, e⟩ | ⟨h, _⟩
    · rw [hA2] at d
      rcases two i c d with rfl | rfl
      · rw [d0] at e; exact Or.inl e
      · rw [d1] at e; exact Or.inr e
    · exact absurd rfl h
  have l0 : |lo'.val 0| ≤ 2 * s := by rw [abs_le]; rcases pole 0 (by omega) (by omega) with h | h <;> rw [h] at t0 <;> constructor <;> linarith
  have l1 : 2 * s < |lo'.val 1| := by rw [lt_abs]; left; rcases pole 1 (by omega) (by omega) with h | h <;> rw [h] at t1 <;> linarith
  obtain ⟨p1, lo, hi, est, hp1, pv, sl, sh, _, bot⟩ := start lo' hi' er
  obtain ⟨π2, id, f2, j0, j1, small2, large2, fin⟩ := eigFinish_spec (sqrt := Real.sqrt) (le_of_lt hf) (vf := fun _ _ => some 1) (vecs := eigvecs Real.sqrt) (off := fun _ => 0) (jk := jk) (ji := ji)
    (n := (wOff s).n) (A := A') (p1 := p1) (lo := lo) (hi := hi) (by omega) (by rw [hA2]; exact le_refl (2 : Int)) (by rw [hds, hA2]; exact le_refl (2 : Int)) (by rw [hzs, hA2]; exact le_refl (2 : Int)) sl sh hp1
  have n2 : (wOff s).n = 2 := rfl
  rw [hA2, n2, hrf] at small2 large2
  rw [hA2, n2] at fin
  simp only [sub_self, add_zero] at small2 large2 fin
  have blo : ∀ k, 0 ≤ k → lo.val k = lo'.val k := fun k a => by have := (bot k a).1; rwa [add_zero] at this
  have bhi : ∀ k, 0 ≤ k → hi.val k = hi'.val k := fun k a => by have := (bot k a).2; rwa [add_zero] at this
  rw [hA2] at f2 j1
  have hid : id = 1 ∧ π2 0 = 0 ∧ π2 1 = 1 := by
    have ne : ∀ k, 0 ≤ k → k < id → π2 k ≠ 1 := fun k a b e => by
      have := small2 k a b; rw [e, blo 1 (by omega)] at this; linarith
    have ne' : ∀ k, id ≤ k → k < 2 → π2 k ≠ 0 := fun k a b e => by
      have := large2 k a b; rw [e, blo 0 (by omega)] at this; linarith
    rcases perm2 f2 with h | h
    · refine ⟨?_, h⟩
      rcases (show id = 0 ∨ id = 1 ∨ id = 2 by omega) with e | e | e
      · exact absurd h.1 (ne' 0 (by omega) (by omega))
      · exact e
      · exact absurd h.2 (ne 1 (by omega) (by omega))
    · rcases (show id = 0 ∨ 0 < id by omega) with e | e
      · exact absurd h.2 (ne' 1 (by omega) (by omega))
      · exact absurd h.1 (ne 0 (by omega) (by omega))
  obtain ⟨rfl, q0, q1⟩ := hid
  have lval : ∀ (b b' : Buf ℝ), (∀ k, 0 ≤ k → b.val k = b'.val k) → ∀ k, 0 ≤ k → k < 2 → (ordB b 0 π2).val k = b'.val k := fun b b' h k a c => by
    rw [ordB_ge a, sub_zero, add_zero]
    rcases two k a c with rfl | rfl
    · rw [q0, h 0 (le_refl _)]
    · rw [q1, h 1 (by omega)]
  have vl0 : ∀ (b b' : Buf ℝ), (∀ k, 0 ≤ k → b.val k = b'.val k) → ((ordB b 0 π2).view 0).val 0 = b'.val 0 := fun b b' h => by
    show (ordB b 0 π2).val (0 + 0) = _
    exact lval b b' h 0 (le_refl _) (by omega)
  have sec2 : secularF 2 (A'.d.pm π2).val (A'.z.pm π2).val A'.rho s = 0 := by
    have := hroot.root 0 (by omega) (by omega)
    rw [t0, secularGF_zero, hA2] at this
    unfold secularF
    rw [← this, ico, Finset.sum_pair (by decide), Finset.sum_pair (by decide)]
    show _ + (A'.z.val (π2 0) * A'.z.val (π2 0) / (A'.d.val (π2 0) - s) + A'.z.val (π2 1) * A'.z.val (π2 1) / (A'.d.val (π2 1) - s)) = _
    rw [q0, q1]
  have e0 : ((ordB hi 0 π2).view 0).val 0 + ((ordB lo 0 π2).view 0).val 0 = s := by rw [vl0 hi hi' bhi, vl0 lo lo' blo, t0]
  obtain ⟨Q, eQ, hQ, _⟩ := C35_eigenvectors (sqrt := Real.sqrt) (fun x h => ⟨Real.sqrt_nonneg x, Real.mul_self_sqrt h⟩) (A := ⟨2, A'.d.pm π2, A'.z.pm π2, A'.rho⟩) (lo := (ordB lo 0 π2).view 0)
    (hi := (ordB hi 0 π2).view 0) (m := 1) (by show (0 : Int) ≤ 2; decide) (by show (1 : Int) ≤ 2; decide) (by show 2 ≤ (A'.d.size : Int); rw [hds]; exact le_refl (2 : Int))
    (by show 2 ≤ (A'.z.size : Int); rw [hzs]; exact le_refl (2 : Int)) (by show 1 ≤ ((lo.size - (0 : Int).toNat : Nat) : Int); rw [n2] at sl; omega)
    (by show 1 ≤ ((hi.size - (0 : Int).toNat : Nat) : Int); rw [n2] at sh; omega) (by show A'.rho ≠ 0; rw [hρ']; exact ne_of_gt hrp)
    (fun j a b i c d => by
      obtain rfl : j = 0 := by omega
      rw [e0]
      show A'.d.val (π2 i) ≠ s
      rcases two i c d with rfl | rfl
      · rw [q0, d0]; exact ne_of_lt hrp
      · rw [q1, d1]; intro h; linarith)
    ⟨0, le_refl _, by show (0 : Int) < 2; decide, by show A'.z.val (π2 0) ≠ 0; rw [q0, z0]; norm_num⟩
  obtain ⟨nrm, _, eig⟩ := hQ 0 (le_refl _) (by omega)
  rw [e0] at eig
  replace eig := eig sec2
  simp only [zero_mul, add_zero] at nrm eig
  obtain ⟨F, eF, Fn, Fiz, Fid, FV, Fv, _, Fp, Fq, _, pv2, Fls, _, _, Fl, Fasc⟩ := fin (fun _ => 1) Q (fun i a b => rfl) eQ
  have hOk : F.Ok := ⟨by omega, by omega, by omega, by rw [Fn]; exact Fp, by rw [Fn]; exact Fq, by omega, by
    rw [Fn, Fiz, Fid, FV, eigvecs_size eQ]; exact le_refl (2 : Int)⟩
  have hp : ∀ i, 0 ≤ i → i < 2 → F.p.val i = i := fun i a b => by
    rw [pv2 i a b, sub_zero]
    rcases two i a b with rfl | rfl
    · rw [q0, pv 0 (by omega) (by rw [n2]; omega), hπ.1]
    · rw [q1, pv 1 (by omega) (by rw [n2]; omega), hπ.2]
  have lam : ∀ j, 0 ≤ j → j < 2 → F.lambda.val j = if F.q.val j = 0 then s else 27 * s := fun j a b => by
    have r0 := Fq.lo j a b
    have r1 := Fq.hi j a b
    rw [Fl j a b, lval hi hi' bhi _ r0 r1, lval lo lo' blo _ r0 r1]
    rcases two _ r0 r1 with h | h <;> rw [h]
    · rw [if_pos rfl, t0]
    · rw [if_neg (by decide), t1]
  have hq : F.q.val 0 = 0 ∧ F.q.val 1 = 1 := by
    have := Fasc 0 1 (by omega) (by omega) (by omega)
    rw [lam 0 (by omega) (by omega), lam 1 (by omega) (by omega)] at this
    have a := two _ (Fq.lo 0 (by omega) (by omega)) (Fq.hi 0 (by omega) (by omega))
    have b := two _ (Fq.lo 1 (by omega) (by omega)) (Fq.hi 1 (by omega) (by omega))
    have c : F.q.val 0 ≠ F.q.val 1 := fun h => by have := Fq.inj _ _ (by omega) (by omega) (by omega) (by omega) h; omega
    rcases a with a | a
    · exact ⟨a, by omega⟩
    · rw [if_neg (by omega), if_pos (by omega)] at this
      linarith
  have hM : ∀ r, 0 ≤ r → r < 2 → permMat 2 F.p F.q Fp F.W r 1 = Q.val r := fun r a b => by
    have hi : Fp.inv r = r := by
      have := Fp.inv_val a b
      rwa [hp r a b] at this
    unfold permMat Dpr1Eigen.W
    rw [hi, hq.2, Fiz, Fid, if_neg (by omega), if_neg (by omega), if_neg (by omega), FV, Fn]
    simp
  have run : dpr1Eig Real.sqrt eps fmin R jk ji (wOff s) = some F := by
    unfold dpr1Eig
    rw [est, Option.bind_some]
    exact eF
  refine ⟨F, permMat 2 F.p F.q Fp F.W, run, actsAs_perm' hOk Fn Fp, by rw [lam 0 (by omega) (by omega), hq.1, if_pos rfl], by rw [lam 1 (by omega) (by omega), hq.2, if_neg (by decide)], ?_, ?_⟩
  · rw [← nrm]
    exact sum_Ico_congr fun r a b => by rw [hM r a b]
  · intro i a b
    rw [hM i a b, ← eig i a b]
    unfold rowMul
    refine sum_Ico_congr fun k c d => ?_
    show _ * permMat 2 F.p F.q Fp F.W k 1 = _ * Q.val k
    rw [hM k c d]
    congr 1
    have dd : ∀ i, 0 ≤ i → i < 2 → (wOff s).d.val i = A'.d.val (π2 i) ∧ (wOff s).z.val i = A'.z.val (π2 i) := fun i a b => by
      rcases two i a b with rfl | rfl
      · rw [q0, d0, z0]; exact ⟨rfl, rfl⟩
      · rw [q1, d1, z1]; exact ⟨rfl, rfl⟩
    show (if i = k then _ else _) + _ = (if i = k then A'.d.val (π2 i) else 0) + A'.rho * A'.z.val (π2 i) * A'.z.val (π2 k)
    rw [(dd i a b).1, (dd i a b).2, (dd k c d).2, hρ']

/-! ## The hypotheses are met -/

/-- The iterations replaced by a choice of the root. -/
noncomputable def wFinder : RootFinder ℝ where
  mid A sigma x0 x1 _ h := by
    classical
    exact if ex : ∃ t, x0 < t ∧ t < x1 ∧ secularGF A.n A.d.val A.z.val A.rho sigma t = 0 then some (ex.choose - h) else none
  last A _ h := by
    classical
    exact if ex : ∃ t, h < t ∧ secularGF A.n A.d.val A.z.val A.rho 0 t = 0 then some (ex.choose - h) else none
  first A _ h := by
    classical
    exact if ex : ∃ t, t < h ∧ secularGF A.n A.d.val A.z.val A.rho 0 t = 0 then some (ex.choose - h) else none

theorem wFinder_finds : Finds wFinder where
  mid A sigma x0 x1 s h ex := ⟨ex.choose - h, dif_pos ex, by rw [add_sub_cancel]; exact ex.choose_spec⟩
  last A s h ex := ⟨ex.choose - h, dif_pos ex, by rw [add_sub_cancel]; exact ex.choose_spec⟩
  first A s h ex := ⟨ex.choose - h, dif_pos ex, by rw [add_sub_cancel]; exact ex.choose_spec⟩

/-- `diag(3, 5, 0) + z zᵀ` with `z = (4, 0, 3)`: eigenvalues `1`, `5`, `27`. -/
def wDpr1 : Dpr1 ℝ := ⟨3, ⟨3, fun i => if i = 0 then 3 else if i = 1 then 5 else 0⟩, ⟨3, fun i => if i = 0 then 4 else if i = 1 then 0 else 3⟩, 1⟩

theorem wDpr1_sec {sigma t : ℝ} : secularGF 3 wDpr1.d.val wDpr1.z.val 1 sigma t = 1 / (1 - sigma * t) + (16 / (3 - t) + 9 / (0 - t)) := by
  unfold secularGF
  rw [show Finset.Ico (0 : Int) 3 = {0, 1, 2} by decide, Finset.sum_insert (by decide), Finset.sum_pair (by decide)]
  show _ + (4 * 4 / (3 - t) + ((0 : ℝ) * 0 / (5 - t) + 3 * 3 / (0 - t))) = _
  norm_num

theorem wDpr1_sep {sigma tol : ℝ} (hs : sigma = 0 ∨ sigma = 1) (ht : tol < 3) : Separated wDpr1.n wDpr1.d.val wDpr1.z.val wDpr1.rho sigma tol (Real.sqrt (1 / 10000)) := by
  have three : ∀ i : Int, 0 ≤ i → i < wDpr1.n → i = 0 ∨ i = 1 ∨ i = 2 := fun i a b => by have : i < 3 := b; omega
  have v0 : wDpr1.d.val 0 = 3 ∧ wDpr1.z.val 0 = 4 := ⟨rfl, rfl⟩
  have v1 : wDpr1.d.val 1 = 5 ∧ wDpr1.z.val 1 = 0 := ⟨rfl, rfl⟩
  have v2 : wDpr1.d.val 2 = 0 ∧ wDpr1.z.val 2 = 3 := ⟨rfl, rfl⟩
  have hr : wDpr1.rho = 1 := rfl
  refine ⟨fun i a b => ?_, fun i j a b c d e f g => ?_, fun h i a b c => ?_, fun t np hp h => ?_⟩
  · rcases three i a b with rfl | rfl | rfl
    · right; rw [v0.2, abs_of_pos (by norm_num)]; linarith
    · left; exact v1.2
    · right; rw [v2.2, abs_of_pos (by norm_num)]; exact ht
  · rcases three i a b with rfl | rfl | rfl <;> rcases three j c d with rfl | rfl | rfl <;> first | exact absurd rfl e | exact absurd v1.2 f | exact absurd v1.2 g | skip
    · rw [v0.1, v2.1]; norm_num
    · rw [v0.1, v2.1]; norm_num
  · rcases hs with rfl | rfl
    · exact absurd rfl h
    · rcases three i a b with rfl | rfl | rfl
      · rw [v0.1, hr]; norm_num
      · exact absurd v1.2 c
      · rw [v2.1, hr]; norm_num
  · have n0 : (3 : ℝ) - t ≠ 0 := sub_ne_zero.2 (by have := np 0 (by decide) (by decide) (by rw [v0.2]; norm_num); rwa [v0.1] at this)
    have n2 : (0 : ℝ) - t ≠ 0 := sub_ne_zero.2 (by have := np 2 (by decide) (by decide) (by rw [v2.2]; norm_num); rwa [v2.1] at this)
    have h' := wDpr1_sec (sigma := sigma) (t := t)
    rw [show secularGF 3 wDpr1.d.val wDpr1.z.val 1 sigma t = 0 from h] at h'
    rw [hr] at hp
    have gen : ∀ u v w : ℝ, u ≠ 0 → v ≠ 0 → w ≠ 0 → u * v * w * (1 / u + (16 / v + 9 / w)) = v * w + 16 * u * w + 9 * u * v := fun u v w hu hv hw => by field_simp; ring
    have poly := gen _ _ _ hp n0 n2
    rw [← h', mul_zero] at poly
    have r100 : Real.sqrt (1 / 10000) = 1 / 100 := by rw [show (1 / 10000 : ℝ) = 1 / 100 * (1 / 100) by norm_num]; exact Real.sqrt_mul_self (by norm_num)
    rw [r100]
    have key : ∀ c : ℝ, (c = 3 ∨ c = 0 ∨ (sigma = 1 ∧ c = 1)) → 1 / 100 < |t - c| := fun c hc => by
      by_contra hh
      rw [not_lt, abs_le] at hh
      obtain ⟨g1, g2⟩ := hh
      rcases hs with rfl | rfl <;> rcases hc with rfl | rfl | ⟨h1, rfl⟩
      · nlinarith
      · nlinarith
      · exact absurd h1 (by norm_num)
      · nlinarith
      · nlinarith
      · nlinarith
    refine ⟨fun i a b c => ?_, fun h => ?_⟩
    · rcases three i a b with rfl | rfl | rfl
      · rw [v0.1]; exact key 3 (Or.inl rfl)
      · exact absurd v1.2 c
      · rw [v2.1]; exact key 0 (Or.inr (Or.inl rfl))
    · rcases hs with rfl | rfl
      · exact absurd rfl h
      · rw [hr, div_one]; exact key 1 (Or.inr (Or.inr ⟨rfl, rfl⟩))

theorem wDpr1_norm : (∑ i ∈ Finset.Ico 0 wDpr1.n, wDpr1.z.val i * wDpr1.z.val i) = 25 := by
  show ∑ i ∈ Finset.Ico (0 : Int) 3, _ = _
  rw [show Finset.Ico (0 : Int) 3 = {0, 1, 2} by decide, Finset.sum_insert (by decide), Finset.sum_pair (by decide)]
  show (4 : ℝ) * 4 + (0 * 0 + 3 * 3) = 25
  norm_num

theorem wSqrt : IsSqrt Real.sqrt := fun x h => ⟨Real.sqrt_nonneg x, Real.mul_self_sqrt h⟩

theorem wTol {w : ℝ} (h : w ≤ 4) : Real.sqrt w * Real.sqrt 25 * (1 / 1000) < 3 := by
  have h1 : Real.sqrt w ≤ 2 := by rw [show (2 : ℝ) = Real.sqrt (2 * 2) by rw [Real.sqrt_mul_self (by norm_num)]]; exact Real.sqrt_le_sqrt (by linarith)
  have h2 : Real.sqrt 25 = 5 := by rw [show (25 : ℝ) = 5 * 5 by norm_num]; exact Real.sqrt_mul_self (by norm_num)
  rw [h2]; linarith

example : ∃ (F : Dpr1Eigen ℝ) (M : Int → Int → ℝ), dpr1Eig Real.sqrt (1 / 1000) (1 / 10000) wFinder (fun _ => 7) (fun _ => 7) wDpr1 = some F ∧ F.n = 3 ∧ (F.lambda.size : Int) = 3 ∧ ActsAs 3 F M ∧
    Decomposes 3 (dpr1M wDpr1.d.val 1 wDpr1.z.val) (idpr1M 0 wDpr1.z.val) M F.lambda.val :=
  C66_standard_partial wSqrt (by norm_num) (by norm_num) wFinder_finds (A := wDpr1) (by decide) (by decide) (by decide) (by show (1 : ℝ) ≠ 0; norm_num)
    ⟨0, by decide, by decide, by show (4 : ℝ) ≠ 0; norm_num⟩ (wDpr1_sep (Or.inl rfl) (by rw [wDpr1_norm]; exact wTol (by show |(1 : ℝ)| ≤ 4; norm_num)))

example : ∃ (F : Dpr1Eigen ℝ) (M : Int → Int → ℝ), definiteDpr1Eig Real.sqrt (1 / 1000) (1 / 10000) wFinder (fun _ => 7) (fun _ => 7) wDpr1 1 = some F ∧ F.n = 3 ∧ (F.lambda.size : Int) = 3 ∧
    ActsAs 3 F M ∧ Decomposes 3 (dpr1M wDpr1.d.val 1 wDpr1.z.val) (idpr1M 1 wDpr1.z.val) M F.lambda.val :=
  C66_definite_partial wSqrt (by norm_num) (by norm_num) wFinder_finds (A := wDpr1) (by norm_num) (by decide) (by decide) (by decide) (fun h => absurd h (by norm_num))
    (wDpr1_sep (Or.inr rfl) (by rw [wDpr1_norm]; exact wTol (by show |(1 : ℝ)| + |(1 : ℝ)| ≤ 4; norm_num)))

example : dpr1Eig Real.sqrt (1 / 1000) (1 / 10000) wFinder (fun _ => 7) (fun _ => 7) ⟨2, ⟨2, fun i => i⟩, ⟨2, fun _ => 0⟩, 1⟩ = none :=
  C66_all_deflated_defect (by decide) (by decide) (by decide) one_ne_zero (fun i _ _ => by simp)

example : ∃ (F : Dpr1Eigen ℝ) (M : Int → Int → ℝ), dpr1Eig Real.sqrt (1 / 1000) (1 / 10000) wFinder (fun _ => 7) (fun _ => 7) (wOff (Real.sqrt (1 / 10000) / 2)) = some F ∧ ActsAs 2 F M ∧
    F.lambda.val 0 = Real.sqrt (1 / 10000) / 2 ∧ F.lambda.val 1 = 27 * (Real.sqrt (1 / 10000) / 2) := by
  obtain ⟨F, M, h1, h2, h3, h4, _⟩ := C66_offset_defect (fmin := 1 / 10000) (eps := 1 / 1000) (by norm_num) (by norm_num) (by norm_num) (by norm_num) wFinder_finds (jk := fun _ => 7) (ji := fun _ => 7)
  exact ⟨F, M, h1, h2, h3, h4⟩

end FT.Props
