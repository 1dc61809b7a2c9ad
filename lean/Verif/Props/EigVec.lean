import Verif.Props.BlockTri
import Verif.Props.Scalar
import Verif.Lemmas.EigVecBlock
import Mathlib.Algebra.Order.BigOperators.Group.Finset

/-!
# C21: eigenvectors of triangular pencils

The pencils are given by their dense entries.  The eigenvector routines set an entry to zero when it, or the gap between two eigenvalues, is below a rounding threshold,
so the equation `A V = B V Λ` is stated with the residual that this leaves; with `eps = 0` it is exact.
-/

set_option linter.unusedSectionVars false

namespace FT.Props.Eig
open FT FT.Props
variable {K : Type*} [Field K] [LinearOrder K] [IsStrictOrderedRing K]

/-- The entry in row `i` and column `j` of a matrix stored by columns of length `n`. -/
def col (V : Buf K) (n i j : Int) : K := V.val (i + j * n)

/-- `V' ` differs from `V` only above the diagonal. -/
def OnlyAbove (n : Int) (V V' : Buf K) : Prop := V'.size = V.size ∧ ∀ q, (∀ i j, 0 ≤ i → i < j → j < n → q ≠ i + j * n) → V'.val q = V.val q

theorem OnlyAbove.keep {n : Int} {V V' : Buf K} (h : OnlyAbove n V V') {i j : Int} (hij : j ≤ i) (i0 : 0 ≤ i) (i1 : i < n) : col V' n i j = col V n i j :=
  h.2 _ fun i' j' a1 a2 a3 e => by obtain ⟨b1, b2⟩ := ij_inj i0 i1 a1 (by omega) e; omega

section linear
variable {A B : TB K} {n bA bB : Int} {a b : Int → Int → K}

/-- The entry `(i, j)` computed from those below it. -/
def elim (d t kd kt : K) (eps : K) : K := if |d| < 4 * kd * eps ∨ |t| < 4 * kt * eps then 0 else t / d

theorem pencilLam_of (hA : StoresT A n bA a) (hB : StoresT B n bB b) {j : Int} (h : b j j ≠ 0) : pencilLam A B j = some (a j j / b j j) := by
  unfold pencilLam
  rw [hA.get, Option.bind_some, hB.get, Option.bind_some, divC_of h]

theorem tbEigRow_of (hA : StoresT A n bA a) (hB : StoresT B n bB b) {eps lam : K} {i j : Int} (i0 : 0 ≤ i) (ij : i < j) (j1 : j < n) {W : Buf K} (hW : n * n ≤ W.size) (hd : lam * b i i - a i i ≠ 0) :
    tbEigRow eps A B lam i j W = some (elim (lam * b i i - a i i) (∑ k ∈ Finset.Ico (i + 1) n, (a i k - lam * b i k) * col W n k j) (|lam * b i i| + |a i i|)
      (∑ k ∈ Finset.Ico (i + 1) n, (|a i k| + |lam * b i k|) * |col W n k j|) eps) := by
  unfold tbEigRow
  obtain ⟨dA1, dA2⟩ := hA.dims
  obtain ⟨dB1, dB2⟩ := hB.dims
  rw [dA1, dA2, dB2, accPair_eq (g := fun k => (a i k - lam * b i k) * col W n k j) (h := fun k => (|a i k| + |lam * b i k|) * |col W n k j|) fun k k0 k1 => by
    obtain ⟨b1, b2⟩ := ij_lt (show 0 ≤ k by omega) (show k < n by omega) (show 0 ≤ j by omega) j1 hW
    rw [hA.get, Option.bind_some, hB.get, Option.bind_some, Buf.rd_of b1 b2]; rfl]
  rw [Option.bind_some, hB.get, Option.bind_some, hA.get, Option.bind_some]
  have hz : ∀ k, i + 1 ≤ k → k < n → ¬ (i + 1 ≤ k ∧ k < min (i + max bA bB + 1) n) → a i k = 0 ∧ b i k = 0 := fun k k0 k1 hk =>
    ⟨C14_zero_outside_tri hA (by unfold band; omega), C14_zero_outside_tri hB (by unfold band; omega)⟩
  dsimp only
  rw [← sum_Ico_shrink (hi := n) (fun k k0 k1 hk => by obtain ⟨h1, h2⟩ := hz k k0 k1 hk; rw [h1, h2]; simp) le_rfl (min_le_right _ _),
    ← sum_Ico_shrink (hi := n) (f := fun k => (|a i k| + |lam * b i k|) * |col W n k j|) (fun k k0 k1 hk => by obtain ⟨h1, h2⟩ := hz k k0 k1 hk; rw [h1, h2]; simp) le_rfl (min_le_right _ _)]
  unfold elim
  split_ifs
  · rfl
  · exact divC_of hd

/-- **C21** The eigenvalues: entry `j` of the result is the quotient of the diagonals, nothing else changes. -/
theorem C21_eigenvalues (hA : StoresT A n bA a) (hB : StoresT B n bB b) (hb : ∀ j, 0 ≤ j → j < n → b j j ≠ 0) {L : Buf K} (hL : n ≤ L.size) :
    ∃ L', tbEigenvalues A B L = some L' ∧ L'.size = L.size ∧ (∀ j, 0 ≤ j → j < n → L'.val j * b j j = a j j) ∧ ∀ q, ¬ (0 ≤ q ∧ q < n) → L'.val q = L.val q := by
  unfold tbEigenvalues
  rw [hA.dims.1]
  obtain ⟨s, e, p⟩ := forUp_spec (lo := 0) (hi := n) (s := L) (body := fun j L => (pencilLam A B j).bind fun l => L.wr j l) (fun J s => s = mix L 0 J fun j => a j j / b j j) (mix_empty L le_rfl _).symm
    (fun j j0 j1 s p => by subst p; rw [pencilLam_of hA hB (hb j j0 j1), Option.bind_some]; exact ⟨_, mix_wr_up (y := fun j => a j j / b j j) j0 (by omega) j0, rfl⟩)
  refine ⟨s, e, by rw [p]; rfl, fun j j0 j1 => ?_, fun q hq => ?_⟩
  · rw [p, mix_val_in j0 (by omega), div_mul_cancel₀ _ (hb j j0 j1)]
  · rw [p, mix_val_out (by omega)]

/-- The residual of the eigenvalue equation in row `i` and column `j`. -/
theorem tri_rows (haz : ∀ i k, k < i → a i k = 0) (hbz : ∀ i k, k < i → b i k = 0) {lam : K} {v : Int → K} {i : Int} (i0 : 0 ≤ i) (i1 : i < n) :
    ∑ k ∈ Finset.Ico 0 n, a i k * v k - lam * ∑ k ∈ Finset.Ico 0 n, b i k * v k = (a i i - lam * b i i) * v i + ∑ k ∈ Finset.Ico (i + 1) n, (a i k - lam * b i k) * v k := by
  rw [Finset.mul_sum, ← Finset.sum_sub_distrib, sum_Ico_shrink (lo' := i) (hi' := n) (fun k k0 k1 hk => by rw [haz i k (by omega), hbz i k (by omega)]; ring) i0 le_rfl, sum_Ico_pred i1,
    sum_Ico_congr (lo := i + 1) (g := fun k => (a i k - lam * b i k) * v k) fun k k0 k1 => by ring]
  ring

/-- **C21** `A V = B V Λ`: the back-substitution ends; it changes entries above the diagonal only; and in every row and column the eigenvalue equation with `λⱼ = aⱼⱼ / bⱼⱼ` holds exactly,
or the entry was set to zero and the residual is below `4 ε` times the sum of the magnitudes of its terms.  Hypotheses: `V` is zero below the diagonal; the eigenvalues are distinct, by
more than the threshold under which the routine treats them as equal. -/
theorem C21_eigenvectors (hA : StoresT A n bA a) (hB : StoresT B n bB b) (hb : ∀ j, 0 ≤ j → j < n → b j j ≠ 0) {eps : K} {V : Buf K} (hV : n * n ≤ V.size)
    (hlow : ∀ i j, 0 ≤ j → j < i → i < n → col V n i j = 0)
    (hdist : ∀ i j, 0 ≤ i → i < j → j < n → a j j / b j j * b i i ≠ a i i)
    (hsep : ∀ i j, 0 ≤ i → i < j → j < n → 4 * (|a j j / b j j * b i i| + |a i i|) * eps ≤ |a j j / b j j * b i i - a i i|) :
    ∃ V', tbEigenvectors eps A B V = some V' ∧ OnlyAbove n V V' ∧ ∀ i j, 0 ≤ i → i < n → 0 ≤ j → j < n →
      ∑ k ∈ Finset.Ico 0 n, a i k * col V' n k j - a j j / b j j * ∑ k ∈ Finset.Ico 0 n, b i k * col V' n k j = 0 ∨
      (i < j ∧ col V' n i j = 0 ∧ |∑ k ∈ Finset.Ico 0 n, a i k * col V' n k j - a j j / b j j * ∑ k ∈ Finset.Ico 0 n, b i k * col V' n k j| <
        4 * (∑ k ∈ Finset.Ico 0 n, (|a i k| + |a j j / b j j * b i k|) * |col V' n k j|) * eps) := by
  have haz : ∀ i k, k < i → a i k = 0 := fun i k h => C14_zero_outside_tri hA (by unfold band; omega)
  have hbz : ∀ i k, k < i → b i k = 0 := fun i k h => C14_zero_outside_tri hB (by unfold band; omega)
  unfold tbEigenvectors
  rw [hA.dims.1]
  obtain ⟨V', e, p1, p2, p3⟩ := backSub_spec (n := n) (lam := pencilLam A B) (row := tbEigRow eps A B) (l := fun j => a j j / b j j)
    (g := fun i j v => elim (a j j / b j j * b i i - a i i) (∑ k ∈ Finset.Ico (i + 1) n, (a i k - a j j / b j j * b i k) * v k) (|a j j / b j j * b i i| + |a i i|)
      (∑ k ∈ Finset.Ico (i + 1) n, (|a i k| + |a j j / b j j * b i k|) * |v k|) eps) hV
    (fun j j0 j1 => pencilLam_of hA hB (hb j j0 j1)) (fun i j W i0 ij j1 hW _ _ => tbEigRow_of hA hB i0 ij j1 (by omega) (sub_ne_zero.2 (hdist i j i0 ij j1)))
    (fun i j v w h => by
      rw [sum_Ico_congr (lo := i + 1) (f := fun k => (a i k - a j j / b j j * b i k) * v k) fun k k0 k1 => by rw [h k (by omega) k1],
        sum_Ico_congr (lo := i + 1) (f := fun k => (|a i k| + |a j j / b j j * b i k|) * |v k|) fun k k0 k1 => by rw [h k (by omega) k1]])
  refine ⟨V', e, ⟨p1, p2⟩, fun i j i0 i1 j0 j1 => ?_⟩
  have keep : ∀ i', j ≤ i' → i' < n → col V' n i' j = col V n i' j := fun i' h1 h2 => OnlyAbove.keep ⟨p1, p2⟩ h1 (by omega) h2
  have low : ∀ i', j < i' → i' < n → col V' n i' j = 0 := fun i' h1 h2 => by rw [keep i' (by omega) h2, hlow i' j j0 h1 h2]
  rw [tri_rows haz hbz i0 i1]
  rcases lt_trichotomy i j with h | h | h
  · have q := p3 i j i0 h j1
    change col V' n i j = elim _ _ _ _ _ at q
    unfold elim at q
    set t := ∑ k ∈ Finset.Ico (i + 1) n, (a i k - a j j / b j j * b i k) * col V' n k j with ht
    have ht' : t = ∑ k ∈ Finset.Ico (i + 1) n, (a i k - a j j / b j j * b i k) * V'.val (k + j * n) := rfl
    rw [← ht'] at q
    by_cases hc : |a j j / b j j * b i i - a i i| < 4 * (|a j j / b j j * b i i| + |a i i|) * eps ∨ |t| < 4 * (∑ k ∈ Finset.Ico (i + 1) n, (|a i k| + |a j j / b j j * b i k|) * |V'.val (k + j * n)|) * eps
    · rw [if_pos hc] at q
      refine .inr ⟨h, q, ?_⟩
      rcases hc with hc | hc
      · exact absurd hc (not_lt.2 (hsep i j i0 h j1))
      · rw [q, mul_zero, zero_add]
        have : ∑ k ∈ Finset.Ico 0 n, (|a i k| + |a j j / b j j * b i k|) * |col V' n k j| = ∑ k ∈ Finset.Ico (i + 1) n, (|a i k| + |a j j / b j j * b i k|) * |col V' n k j| :=
          sum_Ico_shrink (fun k k0 k1 hk => by
            by_cases hki : k = i
            · subst hki; rw [q]; simp
            · rw [haz i k (by omega), hbz i k (by omega)]; simp) (by omega) le_rfl
        rw [this]
        exact hc
    · rw [if_neg hc] at q
      left
      have hd : a j j / b j j * b i i - a i i ≠ 0 := sub_ne_zero.2 (hdist i j i0 h j1)
      have hq : (a j j / b j j * b i i - a i i) * col V' n i j = t := by rw [q, mul_comm, div_mul_cancel₀ _ hd]
      linear_combination -hq
  · subst h
    left
    rw [sum_Ico_congr (g := fun _ => (0 : K)) fun k k0 k1 => by rw [low k (by omega) k1, mul_zero], Finset.sum_const_zero, div_mul_cancel₀ _ (hb i i0 i1)]
    ring
  · left
    rw [sum_Ico_congr (g := fun _ => (0 : K)) fun k k0 k1 => by rw [low k (by omega) k1, mul_zero], Finset.sum_const_zero, low i h i1]
    ring

/-- **C21** Without a rounding threshold the equation is exact, for all pencils with distinct eigenvalues. -/
theorem C21_exact (hA : StoresT A n bA a) (hB : StoresT B n bB b) (hb : ∀ j, 0 ≤ j → j < n → b j j ≠ 0) {V : Buf K} (hV : n * n ≤ V.size)
    (hlow : ∀ i j, 0 ≤ j → j < i → i < n → col V n i j = 0) (hdist : ∀ i j, 0 ≤ i → i < j → j < n → a j j / b j j ≠ a i i / b i i) :
    ∃ V', tbEigenvectors 0 A B V = some V' ∧ OnlyAbove n V V' ∧ ∀ i j, 0 ≤ i → i < n → 0 ≤ j → j < n →
      ∑ k ∈ Finset.Ico 0 n, a i k * col V' n k j = a j j / b j j * ∑ k ∈ Finset.Ico 0 n, b i k * col V' n k j := by
  obtain ⟨V', e, h1, h2⟩ := C21_eigenvectors hA hB hb (eps := 0) hV hlow
    (fun i j i0 ij j1 h => hdist i j i0 ij j1 ((eq_div_iff (hb i i0 (by omega))).2 h)) (fun i j _ _ _ => by rw [mul_zero]; exact abs_nonneg _)
  refine ⟨V', e, h1, fun i j i0 i1 j0 j1 => ?_⟩
  rcases h2 i j i0 i1 j0 j1 with h | ⟨-, -, h⟩
  · exact sub_eq_zero.1 h
  · rw [mul_zero] at h; exact absurd h (not_lt.2 (abs_nonneg _))

end linear

section quadratic
variable {A B C : TB K} {n bA bB bC : Int} {a b c : Int → Int → K}

/-- The eigenvalue the quadratic routines use for column `j`. -/
def qlam (sqrt : K → K) (a b c : Int → Int → K) (j : Int) : K := (b j j + sqrt (b j j * b j j + 4 * a j j * c j j)) / (2 * c j j)

theorem quadLam_of {sqrt : K → K} (hA : StoresT A n bA a) (hB : StoresT B n bB b) (hC : StoresT C n bC c) {j : Int} (h : c j j ≠ 0) (hd : 0 ≤ b j j * b j j + 4 * a j j * c j j) :
    quadLam sqrt A B C j = some (qlam sqrt a b c j) := by
  unfold quadLam sqrtC
  rw [hA.get, Option.bind_some, hB.get, Option.bind_some, hC.get, Option.bind_some, if_neg (not_lt.2 hd), Option.bind_some, divC_of (mul_ne_zero two_ne_zero h)]
  rfl

theorem qlam_root {sqrt : K → K} (hs : IsSqrt sqrt) {j : Int} (h : c j j ≠ 0) (hd : 0 ≤ b j j * b j j + 4 * a j j * c j j) :
    a j j + qlam sqrt a b c j * b j j = qlam sqrt a b c j * qlam sqrt a b c j * c j j := by
  obtain ⟨-, h2⟩ := hs _ hd
  unfold qlam
  generalize sqrt (b j j * b j j + 4 * a j j * c j j) = r at h2
  field_simp
  linear_combination -h2

/-- **C21** The quadratic eigenvalues: each is a root of its diagonal quadratic `a + λ b = λ² c`. -/
theorem C21_quadratic_eigenvalues {sqrt : K → K} (hs : IsSqrt sqrt) (hA : StoresT A n bA a) (hB : StoresT B n bB b) (hC : StoresT C n bC c) (hc : ∀ j, 0 ≤ j → j < n → c j j ≠ 0)
    (hd : ∀ j, 0 ≤ j → j < n → 0 ≤ b j j * b j j + 4 * a j j * c j j) {L : Buf K} (hL : n ≤ L.size) :
    ∃ L', tbqEigenvalues sqrt A B C L = some L' ∧ L'.size = L.size ∧ (∀ j, 0 ≤ j → j < n → a j j + L'.val j * b j j = L'.val j * L'.val j * c j j) ∧
      ∀ q, ¬ (0 ≤ q ∧ q < n) → L'.val q = L.val q := by
  unfold tbqEigenvalues
  rw [hA.dims.1]
  obtain ⟨s, e, p⟩ := forUp_spec (lo := 0) (hi := n) (s := L) (body := fun j L => (quadLam sqrt A B C j).bind fun l => L.wr j l) (fun J s => s = mix L 0 J (qlam sqrt a b c)) (mix_empty L le_rfl _).symm
    (fun j j0 j1 s p => by subst p; rw [quadLam_of hA hB hC (hc j j0 j1) (hd j j0 j1), Option.bind_some]; exact ⟨_, mix_wr_up (y := qlam sqrt a b c) j0 (by omega) j0, rfl⟩)
  refine ⟨s, e, by rw [p]; rfl, fun j j0 j1 => ?_, fun q hq => ?_⟩
  · rw [p, mix_val_in j0 (by omega)]; exact qlam_root hs (hc j j0 j1) (hd j j0 j1)
  · rw [p, mix_val_out (by omega)]

/-- The entry `(i, j)` computed from those below it. -/
def elimQ (d t kd kt : K) (eps : K) : K := if |d| < 4 * kd * eps ∧ |t| < 4 * kt * eps then 0 else t / d

theorem tbqEigRow_of (hA : StoresT A n bA a) (hB : StoresT B n bB b) (hC : StoresT C n bC c) {eps lam : K} {i j : Int} (i0 : 0 ≤ i) (ij : i < j) (j1 : j < n) {W : Buf K} (hW : n * n ≤ W.size)
    (hd : lam * (lam * c i i - b i i) - a i i ≠ 0) :
    tbqEigRow eps A B C lam i j W = some (elimQ (lam * (lam * c i i - b i i) - a i i) (∑ k ∈ Finset.Ico (i + 1) n, (a i k + lam * (b i k - lam * c i k)) * col W n k j)
      (|lam * (|lam * c i i| + |b i i|)| + |a i i|) (∑ k ∈ Finset.Ico (i + 1) n, (|a i k| + |lam * (|b i k| + |lam * c i k|)|) * |col W n k j|) eps) := by
  unfold tbqEigRow
  obtain ⟨dA1, dA2⟩ := hA.dims
  obtain ⟨dB1, dB2⟩ := hB.dims
  obtain ⟨dC1, dC2⟩ := hC.dims
  rw [dA1, dA2, dB2, dC2, accPair_eq (g := fun k => (a i k + lam * (b i k - lam * c i k)) * col W n k j) (h := fun k => (|a i k| + |lam * (|b i k| + |lam * c i k|)|) * |col W n k j|) fun k k0 k1 => by
    obtain ⟨b1, b2⟩ := ij_lt (show 0 ≤ k by omega) (show k < n by omega) (show 0 ≤ j by omega) j1 hW
    rw [hA.get, Option.bind_some, hB.get, Option.bind_some, hC.get, Option.bind_some, Buf.rd_of b1 b2]; rfl]
  rw [Option.bind_some, hC.get, Option.bind_some, hB.get, Option.bind_some, hA.get, Option.bind_some]
  have hz : ∀ k, i + 1 ≤ k → k < n → ¬ (i + 1 ≤ k ∧ k < min (i + max (max bA bB) bC + 1) n) → a i k = 0 ∧ b i k = 0 ∧ c i k = 0 := fun k k0 k1 hk =>
    ⟨C14_zero_outside_tri hA (by unfold band; omega), C14_zero_outside_tri hB (by unfold band; omega), C14_zero_outside_tri hC (by unfold band; omega)⟩
  dsimp only
  rw [← sum_Ico_shrink (hi := n) (fun k k0 k1 hk => by obtain ⟨h1, h2, h3⟩ := hz k k0 k1 hk; rw [h1, h2, h3]; simp) le_rfl (min_le_right _ _),
    ← sum_Ico_shrink (hi := n) (f := fun k => (|a i k| + |lam * (|b i k| + |lam * c i k|)|) * |col W n k j|) (fun k k0 k1 hk => by obtain ⟨h1, h2, h3⟩ := hz k k0 k1 hk; rw [h1, h2, h3]; simp) le_rfl (min_le_right _ _)]
  unfold elimQ
  split_ifs
  · rfl
  · exact divC_of hd

/-- **C21** `A V + B V Λ = C V Λ²`, in the same sense as `C21_eigenvectors`; here an entry is dropped only if the gap is below the threshold too, so the eigenvalues need only be distinct. -/
theorem C21_quadratic {sqrt : K → K} (hs : IsSqrt sqrt) (hA : StoresT A n bA a) (hB : StoresT B n bB b) (hC : StoresT C n bC c) (hc : ∀ j, 0 ≤ j → j < n → c j j ≠ 0)
    (hdisc : ∀ j, 0 ≤ j → j < n → 0 ≤ b j j * b j j + 4 * a j j * c j j) {eps : K} {V : Buf K} (hV : n * n ≤ V.size)
    (hlow : ∀ i j, 0 ≤ j → j < i → i < n → col V n i j = 0)
    (hdist : ∀ i j, 0 ≤ i → i < j → j < n → a i i + qlam sqrt a b c j * b i i ≠ qlam sqrt a b c j * qlam sqrt a b c j * c i i) :
    ∃ V', tbqEigenvectors sqrt eps A B C V = some V' ∧ OnlyAbove n V V' ∧ ∀ i j, 0 ≤ i → i < n → 0 ≤ j → j < n →
      ∑ k ∈ Finset.Ico 0 n, (a i k + qlam sqrt a b c j * b i k - qlam sqrt a b c j * qlam sqrt a b c j * c i k) * col V' n k j = 0 ∨
      (i < j ∧ col V' n i j = 0 ∧ |∑ k ∈ Finset.Ico 0 n, (a i k + qlam sqrt a b c j * b i k - qlam sqrt a b c j * qlam sqrt a b c j * c i k) * col V' n k j| <
        4 * (∑ k ∈ Finset.Ico 0 n, (|a i k| + |qlam sqrt a b c j * (|b i k| + |qlam sqrt a b c j * c i k|)|) * |col V' n k j|) * eps) := by
  have haz : ∀ i k, k < i → a i k = 0 := fun i k h => C14_zero_outside_tri hA (by unfold band; omega)
  have hbz : ∀ i k, k < i → b i k = 0 := fun i k h => C14_zero_outside_tri hB (by unfold band; omega)
  have hcz : ∀ i k, k < i → c i k = 0 := fun i k h => C14_zero_outside_tri hC (by unfold band; omega)
  have hd : ∀ i j, 0 ≤ i → i < j → j < n → qlam sqrt a b c j * (qlam sqrt a b c j * c i i - b i i) - a i i ≠ 0 := fun i j i0 ij j1 h => hdist i j i0 ij j1 (by linear_combination -h)
  unfold tbqEigenvectors
  rw [hA.dims.1]
  obtain ⟨V', e, p1, p2, p3⟩ := backSub_spec (n := n) (lam := quadLam sqrt A B C) (row := tbqEigRow eps A B C) (l := qlam sqrt a b c)
    (g := fun i j v => elimQ (qlam sqrt a b c j * (qlam sqrt a b c j * c i i - b i i) - a i i)
      (∑ k ∈ Finset.Ico (i + 1) n, (a i k + qlam sqrt a b c j * (b i k - qlam sqrt a b c j * c i k)) * v k)
      (|qlam sqrt a b c j * (|qlam sqrt a b c j * c i i| + |b i i|)| + |a i i|)
      (∑ k ∈ Finset.Ico (i + 1) n, (|a i k| + |qlam sqrt a b c j * (|b i k| + |qlam sqrt a b c j * c i k|)|) * |v k|) eps) hV
    (fun j j0 j1 => quadLam_of hA hB hC (hc j j0 j1) (hdisc j j0 j1)) (fun i j W i0 ij j1 hW _ _ => tbqEigRow_of hA hB hC i0 ij j1 (by omega) (hd i j i0 ij j1))
    (fun i j v w h => by
      rw [sum_Ico_congr (lo := i + 1) (f := fun k => (a i k + qlam sqrt a b c j * (b i k - qlam sqrt a b c j * c i k)) * v k) fun k k0 k1 => by rw [h k (by omega) k1],
        sum_Ico_congr (lo := i + 1) (f := fun k => (|a i k| + |qlam sqrt a b c j * (|b i k| + |qlam sqrt a b c j * c i k|)|) * |v k|) fun k k0 k1 => by rw [h k (by omega) k1]])
  refine ⟨V', e, ⟨p1, p2⟩, fun i j i0 i1 j0 j1 => ?_⟩
  have keep : ∀ i', j ≤ i' → i' < n → col V' n i' j = col V n i' j := fun i' h1 h2 => OnlyAbove.keep ⟨p1, p2⟩ h1 (by omega) h2
  have low : ∀ i', j < i' → i' < n → col V' n i' j = 0 := fun i' h1 h2 => by rw [keep i' (by omega) h2, hlow i' j j0 h1 h2]
  set l := qlam sqrt a b c j with hl
  have hrow : ∑ k ∈ Finset.Ico 0 n, (a i k + l * b i k - l * l * c i k) * col V' n k j =
      (a i i + l * b i i - l * l * c i i) * col V' n i j + ∑ k ∈ Finset.Ico (i + 1) n, (a i k + l * (b i k - l * c i k)) * col V' n k j := by
    rw [sum_Ico_shrink (lo' := i) (hi' := n) (fun k k0 k1 hk => by rw [haz i k (by omega), hbz i k (by omega), hcz i k (by omega)]; ring) i0 le_rfl, sum_Ico_pred i1]
    congr 1
    exact sum_Ico_congr fun k k0 k1 => by ring
  rw [hrow]
  rcases lt_trichotomy i j with h | h | h
  · have q := p3 i j i0 h j1
    change col V' n i j = elimQ _ _ _ _ _ at q
    unfold elimQ at q
    rw [← hl] at q
    set t := ∑ k ∈ Finset.Ico (i + 1) n, (a i k + l * (b i k - l * c i k)) * col V' n k j with ht
    have ht' : t = ∑ k ∈ Finset.Ico (i + 1) n, (a i k + l * (b i k - l * c i k)) * V'.val (k + j * n) := rfl
    rw [← ht'] at q
    split_ifs at q with hc'
    · refine .inr ⟨h, q, ?_⟩
      rw [q, mul_zero, zero_add]
      have : ∑ k ∈ Finset.Ico 0 n, (|a i k| + |l * (|b i k| + |l * c i k|)|) * |col V' n k j| = ∑ k ∈ Finset.Ico (i + 1) n, (|a i k| + |l * (|b i k| + |l * c i k|)|) * |col V' n k j| :=
        sum_Ico_shrink (fun k k0 k1 hk => by
          by_cases hki : k = i
          · subst hki; rw [q]; simp
          · rw [haz i k (by omega), hbz i k (by omega), hcz i k (by omega)]; simp) (by omega) le_rfl
      rw [this]
      exact hc'.2
    · left
      have hd' := hd i j i0 h j1
      rw [← hl] at hd'
      have hq : (l * (l * c i i - b i i) - a i i) * col V' n i j = t := by rw [q, mul_comm, div_mul_cancel₀ _ hd']
      linear_combination -hq
  · subst h
    left
    rw [sum_Ico_congr (g := fun _ => (0 : K)) fun k k0 k1 => by rw [low k (by omega) k1, mul_zero], Finset.sum_const_zero]
    have := qlam_root (a := a) (b := b) hs (hc i i0 i1) (hdisc i i0 i1)
    rw [← hl] at this
    linear_combination col V' n i i * this
  · left
    rw [sum_Ico_congr (g := fun _ => (0 : K)) fun k k0 k1 => by rw [low k (by omega) k1, mul_zero], Finset.sum_const_zero, low i h i1]
    ring

end quadratic

section block
variable {A B : BTB K} {n bA bB : Int} {a b : Int → Int → K}

/-- The determinant of the diagonal block `j` of `A - x B`. -/
def detAt (a b : Int → Int → K) (j : Int) (x : K) : K :=
  (a (2 * j) (2 * j) - x * b (2 * j) (2 * j)) * (a (2 * j + 1) (2 * j + 1) - x * b (2 * j + 1) (2 * j + 1)) -
    (a (2 * j) (2 * j + 1) - x * b (2 * j) (2 * j + 1)) * (a (2 * j + 1) (2 * j) - x * b (2 * j + 1) (2 * j))

/-- Minus the coefficient of `x` in `detAt`. -/
def midAt (a b : Int → Int → K) (j : Int) : K :=
  a (2 * j) (2 * j) * b (2 * j + 1) (2 * j + 1) + a (2 * j + 1) (2 * j + 1) * b (2 * j) (2 * j) - a (2 * j) (2 * j + 1) * b (2 * j + 1) (2 * j) - a (2 * j + 1) (2 * j) * b (2 * j) (2 * j + 1)

/-- The diagonal blocks of the pencil have real eigenvalues, of which zero is not a double one. -/
def RealBlocks (n : Int) (a b : Int → Int → K) : Prop :=
  ∀ j, 0 ≤ j → j < n → 0 ≤ midAt a b j * midAt a b j - 4 * (blkOf b j j).det * (blkOf a j j).det ∧ ¬ (midAt a b j = 0 ∧ (blkOf a j j).det = 0)

theorem genEig_of {sqrt : K → K} (hs : IsSqrt sqrt) (hb : InvertibleBlocks n b) (hr : RealBlocks n a b) {j : Int} (j0 : 0 ≤ j) (j1 : j < n) :
    ∃ x0 x1, genEig sqrt (blkOf a j j) (blkOf b j j) = some (x0, x1) ∧ x0 ≤ x1 ∧ ∀ x, detAt a b j x = (blkOf b j j).det * (x - x0) * (x - x1) := by
  obtain ⟨h1, h2⟩ := hr j j0 j1
  have hm : (blkOf a j j).b * (blkOf b j j).c + (blkOf a j j).c * (blkOf b j j).b - (blkOf a j j).a * (blkOf b j j).d - (blkOf a j j).d * (blkOf b j j).a = -midAt a b j := by
    unfold midAt blkOf; ring
  obtain ⟨x0, x1, e, hle, hf⟩ := C43_roots_partial hs (a := (blkOf b j j).det) (b := -midAt a b j) (c := (blkOf a j j).det) (hb j j0 j1) (by linarith) (by rintro ⟨h, h'⟩; exact h2 ⟨neg_eq_zero.1 h, h'⟩)
  refine ⟨x0, x1, ?_, hle, fun x => ?_⟩
  · unfold genEig
    rw [hm]
    change (match realQuadratic sqrt (blkOf b j j).det (-midAt a b j) (blkOf a j j).det with | .ok x0 x1 => some (x0, x1) | _ => none) = _
    rw [e]
  · rw [← hf x]; unfold detAt midAt M2.det blkOf; ring

/-- **C21** The eigenvalues of a pencil of 2 by 2 blocks: entries `2 j` and `2 j + 1` of the result are the two roots of the determinant of diagonal block `j`, the smaller first. -/
theorem C21_block_eigenvalues {sqrt : K → K} (hs : IsSqrt sqrt) (hA : StoresB A n bA a) (hB : StoresB B n bB b) (hb : InvertibleBlocks n b) (hr : RealBlocks n a b) {L : Buf K} (hL : 2 * n ≤ L.size) :
    ∃ L', btbEigenvalues sqrt A B L = some L' ∧ L'.size = L.size ∧ (∀ q, ¬ (0 ≤ q ∧ q < 2 * n) → L'.val q = L.val q) ∧
      ∀ j, 0 ≤ j → j < n → L'.val (2 * j) ≤ L'.val (2 * j + 1) ∧ ∀ x, detAt a b j x = (blkOf b j j).det * (x - L'.val (2 * j)) * (x - L'.val (2 * j + 1)) := by
  have h : ∀ j, ∃ x : K × K, 0 ≤ j → j < n → genEig sqrt (blkOf a j j) (blkOf b j j) = some x ∧ x.1 ≤ x.2 ∧ ∀ y, detAt a b j y = (blkOf b j j).det * (y - x.1) * (y - x.2) := fun j => by
    by_cases hj : 0 ≤ j ∧ j < n
    · obtain ⟨x0, x1, h⟩ := genEig_of hs hb hr hj.1 hj.2
      exact ⟨(x0, x1), fun _ _ => h⟩
    · exact ⟨(0, 0), fun h1 h2 => absurd ⟨h1, h2⟩ hj⟩
  choose x hx using h
  let y : Int → K := fun q => if q % 2 = 0 then (x (q / 2)).1 else (x (q / 2)).2
  have y0 : ∀ j, y (2 * j) = (x j).1 := fun j => by
    change (if _ then _ else _) = _
    rw [if_pos (by omega), show 2 * j / 2 = j by omega]
  have y1 : ∀ j, y (2 * j + 1) = (x j).2 := fun j => by
    change (if _ then _ else _) = _
    rw [if_neg (by omega), show (2 * j + 1) / 2 = j by omega]
  have e : btbEigenvalues sqrt A B L = some (mix L 0 (2 * n) y) := by
    unfold btbEigenvalues
    rw [hA.dims.1]
    exact pairUp_eq (f := fun j _ => blkLam sqrt A B j) y hL fun j j0 j1 => by
      unfold blkLam
      rw [hA.blk, Option.bind_some, hB.blk, Option.bind_some, (hx j j0 j1).1, y0, y1]
  refine ⟨_, e, rfl, fun q hq => mix_val_out (by omega), fun j j0 j1 => ?_⟩
  rw [mix_val_in (by omega) (by omega), mix_val_in (by omega) (by omega), y0, y1]
  exact (hx j j0 j1).2

/-- **C21** `A V = B V Λ` for pencils of 2 by 2 blocks, exactly, with the eigenvalues `Λ` that the eigenvalue routine returns.  `V` is zero below its diagonal blocks; the routine keeps its
even diagonal entries and changes nothing below the diagonal blocks.  Hypotheses on the spectrum: no eigenvalue of a diagonal block is one of an earlier block, and none makes the last entry of its own block vanish. -/
theorem C21_block {sqrt : K → K} (hs : IsSqrt sqrt) (hA : StoresB A n bA a) (hB : StoresB B n bB b) (hb : InvertibleBlocks n b) (hr : RealBlocks n a b) {L L' : Buf K} (hL : 2 * n ≤ L.size)
    (hl : btbEigenvalues sqrt A B L = some L') {V : Buf K} (hV : 2 * n * (2 * n) ≤ V.size) (hlow : ∀ I J, 0 ≤ J → J < 2 * n → J / 2 < I / 2 → I < 2 * n → col V (2 * n) I J = 0)
    (hd : ∀ i J, 0 ≤ i → i < J / 2 → J < 2 * n → detAt a b i (L'.val J) ≠ 0)
    (hne : ∀ J, 0 ≤ J → J < 2 * n → a (2 * (J / 2) + 1) (2 * (J / 2) + 1) - L'.val J * b (2 * (J / 2) + 1) (2 * (J / 2) + 1) ≠ 0) :
    ∃ V', btbEigenvectors sqrt A B V = some V' ∧ V'.size = V.size ∧
      (∀ J, 0 ≤ J → J < 2 * n → col V' (2 * n) (2 * (J / 2)) J = col V (2 * n) (2 * (J / 2)) J ∧ ∀ I, J / 2 < I / 2 → I < 2 * n → col V' (2 * n) I J = 0) ∧
      ∀ I J, 0 ≤ I → I < 2 * n → 0 ≤ J → J < 2 * n →
        ∑ k ∈ Finset.Ico 0 (2 * n), a I k * col V' (2 * n) k J = L'.val J * ∑ k ∈ Finset.Ico 0 (2 * n), b I k * col V' (2 * n) k J := by
  obtain ⟨L'', e, -, -, hL'⟩ := C21_block_eigenvalues hs hA hB hb hr hL
  rw [hl] at e
  cases e
  have hgen : ∀ j, 0 ≤ j → j < n → genEig sqrt (blkOf a j j) (blkOf b j j) = some (L'.val (2 * j), L'.val (2 * j + 1)) := fun j j0 j1 => by
    have key : ∃ s, btbEigenvalues sqrt A B L = some s ∧ ∀ i, 0 ≤ i → i < n → genEig sqrt (blkOf a i i) (blkOf b i i) = some (s.val (2 * i), s.val (2 * i + 1)) := by
      unfold btbEigenvalues
      rw [hA.dims.1]
      obtain ⟨s, e, -, p⟩ := forUp_spec (lo := 0) (hi := n) (s := L) (body := fun j L => (blkLam sqrt A B j).bind (wrPair L j))
        (fun m s => s.size = L.size ∧ ∀ i, 0 ≤ i → i < m → i < n → genEig sqrt (blkOf a i i) (blkOf b i i) = some (s.val (2 * i), s.val (2 * i + 1))) ⟨rfl, fun i h1 h2 => by omega⟩
        (fun i i0 i1 s p => by
          obtain ⟨x0, x1, h, -⟩ := genEig_of hs hb hr i0 i1
          refine ⟨⟨s.size, Function.update (Function.update s.val (2 * i) x0) (2 * i + 1) x1⟩, by
            unfold blkLam
            rw [hA.blk, Option.bind_some, hB.blk, Option.bind_some, h, Option.bind_some, wrPair_of i0 (by omega)], p.1, fun k k0 k1 k2 => ?_⟩
          dsimp only
          by_cases hk : k = i
          · subst hk
            rw [Function.update_self, Function.update_of_ne (by omega), Function.update_self, h]
          · rw [Function.update_of_ne (by omega), Function.update_of_ne (by omega), Function.update_of_ne (by omega), Function.update_of_ne (by omega)]
            exact p.2 k k0 (by omega) k2)
      exact ⟨s, e, fun i i0 i1 => p i i0 (by omega) i1⟩
    obtain ⟨s, e, p⟩ := key
    rw [hl] at e
    cases e
    exact p j j0 j1
  have hdetAt : ∀ i x, (blkOf (pencil a b x) i i).det = detAt a b i x := fun _ _ => rfl
  obtain ⟨V', eV, v1, v2, v3⟩ := btbEig_spec (lam := fun j => (L'.val (2 * j), L'.val (2 * j + 1))) hA.dims.1 (by rw [hA.dims.2, hB.dims.2]) hA.blk hB.blk
    (fun i k i0 i1 h1 h2 => ⟨hA.zero (by unfold band; omega), hB.zero (by unfold band; omega)⟩) hgen
    (fun j j0 j1 => by
      rw [hdetAt, hdetAt, (hL' j j0 j1).2, (hL' j j0 j1).2]; constructor <;> ring)
    (fun j j0 j1 => by
      have h0 := hne (2 * j) (by omega) (by omega)
      have h1 := hne (2 * j + 1) (by omega) (by omega)
      rw [show 2 * j / 2 = j by omega] at h0
      rw [show (2 * j + 1) / 2 = j by omega] at h1
      exact ⟨h0, h1⟩)
    (fun i j i0 ij j1 => ⟨by rw [hdetAt]; exact hd i (2 * j) i0 (by omega) (by omega), by rw [hdetAt]; exact hd i (2 * j + 1) i0 (by omega) (by omega)⟩) hV
    (fun r J J0 J1 h1 h2 => hlow r J J0 J1 (by omega) h2)
  refine ⟨V', eV, v1, fun J J0 J1 => ⟨?_, fun I h1 h2 => ?_⟩, fun I J I0 I1 J0 J1 => ?_⟩
  · exact v2 _ fun r J' a1 a2 a3 a4 a5 e => by obtain ⟨b1, b2⟩ := ij_inj (by omega) (by omega) a1 a2 e; omega
  · rw [← hlow I J J0 J1 h1 h2]
    exact v2 _ fun r J' a1 a2 a3 a4 a5 e => by obtain ⟨b1, b2⟩ := ij_inj (by omega) h2 a1 a2 e; omega
  · have low : ∀ r, J / 2 < r / 2 → r < 2 * n → V'.val (r + J * (2 * n)) = 0 := fun r h1 h2 => by
      rw [← hlow r J J0 J1 h1 h2]
      exact v2 _ fun r J' a1 a2 a3 a4 a5 e => by obtain ⟨b1, b2⟩ := ij_inj (by omega) h2 a1 a2 e; omega
    have hq : ∀ i, 0 ≤ i → i < n → Eqn n (2 * n) (pencil a b (L'.val J)) J i V' := fun i i0 i1 => by
      by_cases h : i ≤ J / 2
      · rcases Int.emod_two_eq_zero_or_one J with hJ | hJ
        · have := (v3 i (J / 2) i0 h (by omega)).1
          dsimp only at this
          rwa [show 2 * (J / 2) = J by omega] at this
        · have := (v3 i (J / 2) i0 h (by omega)).2
          dsimp only at this
          rwa [show 2 * (J / 2) + 1 = J by omega] at this
      · have : ∀ r, ∑ k ∈ Finset.Ico i n, trm (pencil a b (L'.val J)) (fun r => V'.val (r + J * (2 * n))) r k = 0 := fun r => by
          rw [sum_Ico_congr (g := fun _ => (0 : K)) fun k k0 k1 => by
            unfold trm
            dsimp only
            rw [low _ (by omega) (by omega), low _ (by omega) (by omega), mul_zero, mul_zero, add_zero], Finset.sum_const_zero]
        exact ⟨this _, this _⟩
    have hrow : ∑ k ∈ Finset.Ico 0 (2 * n), pencil a b (L'.val J) I k * col V' (2 * n) k J = 0 := by
      obtain ⟨f1, f2⟩ := hq (I / 2) (by omega) (by omega)
      obtain ⟨g1, g2⟩ := row_shrink (c := pencil a b (L'.val J)) (z := fun k => col V' (2 * n) k J) (n := n) (lo := I / 2) (hi := n) (i := I / 2) (by omega) le_rfl fun k k0 k1 hk => by
        obtain ⟨h1, h2, h3, h4⟩ := hA.zero (i := I / 2) (k := k) (by unfold band; omega)
        obtain ⟨h5, h6, h7, h8⟩ := hB.zero (i := I / 2) (k := k) (by unfold band; omega)
        unfold BZ pencil
        rw [h1, h2, h3, h4, h5, h6, h7, h8]; simp
      rcases Int.emod_two_eq_zero_or_one I with hI | hI
      · rw [show 2 * (I / 2) = I by omega] at f1 g1
        exact g1.trans f1
      · rw [show 2 * (I / 2) + 1 = I by omega] at f2 g2
        exact g2.trans f2
    rw [← sub_eq_zero, Finset.mul_sum, ← Finset.sum_sub_distrib, ← hrow]
    exact Finset.sum_congr rfl fun k _ => by unfold pencil; ring

end block

section cases

/-- Order 3; `A` has diagonal 1, 2, 6 and bandwidth 1, `B` has diagonal 1, 1, 2 and bandwidth 2. -/
def pA : TB ℚ := ⟨0, 3, 1, Buf.ofList [9, 1, 5, 2, -1, 6]⟩
def pB : TB ℚ := ⟨0, 3, 2, Buf.ofList [9, 9, 1, 9, 1, 1, 1, 0, 2]⟩

theorem pA_stores : StoresT pA 3 1 pA.ent := .mk' ⟨rfl, rfl⟩ (by unfold TB.WF; decide) fun _ _ => rfl
theorem pB_stores : StoresT pB 3 2 pB.ent := .mk' ⟨rfl, rfl⟩ (by unfold TB.WF; decide) fun _ _ => rfl

/-- A pencil meeting the hypotheses of `C21_eigenvectors` with a threshold that is not zero. -/
example := C21_eigenvectors pA_stores pB_stores (fun j j0 j1 => by rcases (by omega : j = 0 ∨ j = 1 ∨ j = 2) with rfl | rfl | rfl <;> decide +kernel) (eps := 1 / 100)
  (V := Buf.ofList [1, 0, 0, 0, 1, 0, 0, 0, 1]) (by decide)
  (fun i j h0 h1 h2 => by rcases (by omega : (i = 1 ∧ j = 0) ∨ (i = 2 ∧ j = 0) ∨ (i = 2 ∧ j = 1)) with ⟨rfl, rfl⟩ | ⟨rfl, rfl⟩ | ⟨rfl, rfl⟩ <;> decide +kernel)
  (fun i j h0 h1 h2 => by rcases (by omega : (j = 1 ∧ i = 0) ∨ (j = 2 ∧ i = 0) ∨ (j = 2 ∧ i = 1)) with ⟨rfl, rfl⟩ | ⟨rfl, rfl⟩ | ⟨rfl, rfl⟩ <;> decide +kernel)
  (fun i j h0 h1 h2 => by rcases (by omega : (j = 1 ∧ i = 0) ∨ (j = 2 ∧ i = 0) ∨ (j = 2 ∧ i = 1)) with ⟨rfl, rfl⟩ | ⟨rfl, rfl⟩ | ⟨rfl, rfl⟩ <;> decide +kernel)

/-- The same pencil with no threshold. -/
example := C21_exact pA_stores pB_stores (fun j j0 j1 => by rcases (by omega : j = 0 ∨ j = 1 ∨ j = 2) with rfl | rfl | rfl <;> decide +kernel)
  (V := Buf.ofList [1, 0, 0, 0, 1, 0, 0, 0, 1]) (by decide)
  (fun i j h0 h1 h2 => by rcases (by omega : (i = 1 ∧ j = 0) ∨ (i = 2 ∧ j = 0) ∨ (i = 2 ∧ j = 1)) with ⟨rfl, rfl⟩ | ⟨rfl, rfl⟩ | ⟨rfl, rfl⟩ <;> decide +kernel)
  (fun i j h0 h1 h2 => by rcases (by omega : (j = 1 ∧ i = 0) ∨ (j = 2 ∧ i = 0) ∨ (j = 2 ∧ i = 1)) with ⟨rfl, rfl⟩ | ⟨rfl, rfl⟩ | ⟨rfl, rfl⟩ <;> decide +kernel)

/-- Its eigenvectors. -/
example : (tbEigenvectors 0 pA pB (Buf.ofList [1, 0, 0, 0, 1, 0, 0, 0, 1])).map Buf.toList = some [1, 0, 0, 3, 1, 0, -5/2, -1, 1] := by decide +kernel

/-- A quadratic pencil over the reals meeting the hypotheses: the diagonals are `1 = λ²` and `4 = λ²`. -/
example : ∃ V', tbqEigenvectors Real.sqrt (1 / 1000) (⟨0, 2, 1, ⟨4, fun q => if q = 1 then 1 else if q = 3 then 4 else 3⟩⟩ : TB ℝ) ⟨0, 2, 0, ⟨2, fun _ => 0⟩⟩ ⟨0, 2, 0, ⟨2, fun _ => 1⟩⟩ ⟨4, fun q => if q = 0 ∨ q = 3 then 1 else 0⟩ = some V' := by
  obtain ⟨V', e, -⟩ := C21_quadratic (n := 2) real_isSqrt (A := (⟨0, 2, 1, ⟨4, fun q => if q = 1 then 1 else if q = 3 then 4 else 3⟩⟩ : TB ℝ)) (B := ⟨0, 2, 0, ⟨2, fun _ => 0⟩⟩) (C := ⟨0, 2, 0, ⟨2, fun _ => 1⟩⟩)
    (.mk' ⟨rfl, rfl⟩ (by unfold TB.WF; decide) fun _ _ => rfl) (.mk' ⟨rfl, rfl⟩ (by unfold TB.WF; decide) fun _ _ => rfl) (.mk' ⟨rfl, rfl⟩ (by unfold TB.WF; decide) fun _ _ => rfl)
    (fun j j0 j1 => by rcases (by omega : j = 0 ∨ j = 1) with rfl | rfl <;> norm_num [TB.ent, TB.InBand, TB.slot])
    (fun j j0 j1 => by rcases (by omega : j = 0 ∨ j = 1) with rfl | rfl <;> norm_num [TB.ent, TB.InBand, TB.slot]) (eps := 1 / 1000) (V := ⟨4, fun q => if q = 0 ∨ q = 3 then 1 else 0⟩) (by decide)
    (fun i j h0 h1 h2 => by
      obtain ⟨rfl, rfl⟩ : i = 1 ∧ j = 0 := by omega
      norm_num [col])
    (fun i j h0 h1 h2 => by
      obtain ⟨rfl, rfl⟩ : j = 1 ∧ i = 0 := by omega
      have h : Real.sqrt 16 = 4 := by rw [show (16 : ℝ) = 4 ^ 2 by norm_num]; exact Real.sqrt_sq (by norm_num)
      norm_num [qlam, TB.ent, TB.InBand, TB.slot, h])
  exact ⟨V', e⟩

/-- A pencil of two diagonal blocks `[0 1; 1 0]`, `[0 2; 2 0]` and the identity, meeting the hypotheses of `C21_block`: its eigenvalues are `-1, 1, -2, 2`. -/
def qA : BTB ℝ := ⟨2, 1, ⟨0, 2, 1, ⟨4, fun q => if q = 2 then 5 else 0⟩⟩, ⟨0, 2, 1, ⟨4, fun q => if q = 1 then 1 else if q = 3 then 2 else 0⟩⟩, ⟨0, 2, 1, ⟨4, fun q => if q = 1 then 1 else if q = 3 then 2 else 7⟩⟩, ⟨0, 2, 1, ⟨4, fun _ => 0⟩⟩⟩
def qB : BTB ℝ := ⟨2, 0, ⟨0, 2, 0, ⟨2, fun _ => 1⟩⟩, ⟨0, 2, 0, ⟨2, fun _ => 0⟩⟩, ⟨0, 2, 0, ⟨2, fun _ => 0⟩⟩, ⟨0, 2, 0, ⟨2, fun _ => 1⟩⟩⟩

theorem storesB_self {A : BTB ℝ} {n b : Int} (hd : A.n = n ∧ A.b = b) (h00 : StoresT A.d00 n b A.d00.ent) (h01 : StoresT A.d01 n b A.d01.ent) (h10 : StoresT A.d10 n b A.d10.ent) (h11 : StoresT A.d11 n b A.d11.ent) :
    StoresB A n b (interleave A.d00.ent A.d01.ent A.d10.ent A.d11.ent) := by
  refine ⟨hd, ?_, ?_, ?_, ?_⟩
  · have e : (fun i j => interleave A.d00.ent A.d01.ent A.d10.ent A.d11.ent (2 * i) (2 * j)) = A.d00.ent := by
      funext i j; unfold interleave; rw [if_pos (by omega), if_pos (by omega)]; congr 1 <;> omega
    rw [e]; exact h00
  · have e : (fun i j => interleave A.d00.ent A.d01.ent A.d10.ent A.d11.ent (2 * i) (2 * j + 1)) = A.d01.ent := by
      funext i j; unfold interleave; rw [if_pos (by omega), if_neg (by omega)]; congr 1 <;> omega
    rw [e]; exact h01
  · have e : (fun i j => interleave A.d00.ent A.d01.ent A.d10.ent A.d11.ent (2 * i + 1) (2 * j)) = A.d10.ent := by
      funext i j; unfold interleave; rw [if_neg (by omega), if_pos (by omega)]; congr 1 <;> omega
    rw [e]; exact h10
  · have e : (fun i j => interleave A.d00.ent A.d01.ent A.d10.ent A.d11.ent (2 * i + 1) (2 * j + 1)) = A.d11.ent := by
      funext i j; unfold interleave; rw [if_neg (by omega), if_neg (by omega)]; congr 1 <;> omega
    rw [e]; exact h11

example : ∃ V', btbEigenvectors Real.sqrt qA qB ⟨16, fun q => if q = 0 ∨ q = 4 ∨ q = 10 ∨ q = 14 then 1 else 0⟩ = some V' := by
  have sA := storesB_self (A := qA) (n := 2) (b := 1) ⟨rfl, rfl⟩ (.mk' ⟨rfl, rfl⟩ (by unfold TB.WF; decide) fun _ _ => rfl) (.mk' ⟨rfl, rfl⟩ (by unfold TB.WF; decide) fun _ _ => rfl)
    (.mk' ⟨rfl, rfl⟩ (by unfold TB.WF; decide) fun _ _ => rfl) (.mk' ⟨rfl, rfl⟩ (by unfold TB.WF; decide) fun _ _ => rfl)
  have sB := storesB_self (A := qB) (n := 2) (b := 0) ⟨rfl, rfl⟩ (.mk' ⟨rfl, rfl⟩ (by unfold TB.WF; decide) fun _ _ => rfl) (.mk' ⟨rfl, rfl⟩ (by unfold TB.WF; decide) fun _ _ => rfl)
    (.mk' ⟨rfl, rfl⟩ (by unfold TB.WF; decide) fun _ _ => rfl) (.mk' ⟨rfl, rfl⟩ (by unfold TB.WF; decide) fun _ _ => rfl)
  have hb : InvertibleBlocks 2 (interleave qB.d00.ent qB.d01.ent qB.d10.ent qB.d11.ent) := fun i i0 i1 => by
    rcases (by omega : i = 0 ∨ i = 1) with rfl | rfl <;> norm_num [interleave, qB, TB.ent, TB.InBand, TB.slot]
  have hr : RealBlocks 2 (interleave qA.d00.ent qA.d01.ent qA.d10.ent qA.d11.ent) (interleave qB.d00.ent qB.d01.ent qB.d10.ent qB.d11.ent) := fun i i0 i1 => by
    rcases (by omega : i = 0 ∨ i = 1) with rfl | rfl <;> norm_num [midAt, M2.det, blkOf, interleave, qA, qB, TB.ent, TB.InBand, TB.slot]
  obtain ⟨L', hl, -, -, h⟩ := C21_block_eigenvalues real_isSqrt sA sB hb hr (L := ⟨4, fun _ => 0⟩) (by decide)
  have d0 : ∀ x, detAt (interleave qA.d00.ent qA.d01.ent qA.d10.ent qA.d11.ent) (interleave qB.d00.ent qB.d01.ent qB.d10.ent qB.d11.ent) 0 x = x * x - 1 := fun x => by
    norm_num [detAt, interleave, qA, qB, TB.ent, TB.InBand, TB.slot]
  have d1 : ∀ x, detAt (interleave qA.d00.ent qA.d01.ent qA.d10.ent qA.d11.ent) (interleave qB.d00.ent qB.d01.ent qB.d10.ent qB.d11.ent) 1 x = x * x - 4 := fun x => by
    norm_num [detAt, interleave, qA, qB, TB.ent, TB.InBand, TB.slot]
  have l0 : L'.val 0 * L'.val 0 = 1 := by have := (h 0 (by omega) (by omega)).2 (L'.val 0); rw [d0] at this; norm_num at this; linarith
  have l1 : L'.val 1 * L'.val 1 = 1 := by have := (h 0 (by omega) (by omega)).2 (L'.val 1); rw [d0] at this; norm_num at this; linarith
  have l2 : L'.val 2 * L'.val 2 = 4 := by have := (h 1 (by omega) (by omega)).2 (L'.val 2); rw [d1] at this; norm_num at this; linarith
  have l3 : L'.val 3 * L'.val 3 = 4 := by have := (h 1 (by omega) (by omega)).2 (L'.val 3); rw [d1] at this; norm_num at this; linarith
  obtain ⟨V', e, -⟩ := C21_block real_isSqrt sA sB hb hr (L := ⟨4, fun _ => 0⟩) (by decide) hl (V := ⟨16, fun q => if q = 0 ∨ q = 4 ∨ q = 10 ∨ q = 14 then 1 else 0⟩) (by decide)
    (fun I J h0 h1 h2 h3 => by
      rcases (by omega : (I = 2 ∨ I = 3) ∧ (J = 0 ∨ J = 1)) with ⟨rfl | rfl, rfl | rfl⟩ <;> norm_num [col])
    (fun i J i0 i1 i2 => by
      obtain rfl : i = 0 := by omega
      rw [d0]
      rcases (by omega : J = 2 ∨ J = 3) with rfl | rfl
      · rw [l2]; norm_num
      · rw [l3]; norm_num)
    (fun J J0 J1 hJ => by
      have z : ∀ x : ℝ, x = 0 → x * x ≠ 1 ∧ x * x ≠ 4 := fun x hx => by subst hx; norm_num
      rcases (by omega : J = 0 ∨ J = 1 ∨ J = 2 ∨ J = 3) with rfl | rfl | rfl | rfl <;> norm_num [interleave, qA, qB, TB.ent, TB.InBand, TB.slot] at hJ
      · exact (z _ hJ).1 l0
      · exact (z _ hJ).1 l1
      · exact (z _ hJ).2 l2
      · exact (z _ hJ).2 l3)
  exact ⟨V', e⟩

end cases

end FT.Props.Eig
