import Verif.Model.Utilities
import Verif.Lemmas.Accum
import Verif.Lemmas.Banded

/-!
# Properties of the helpers that create coefficient arrays: C53

The positions used by the transforms: the coefficient of degree index `i` in column `j` of an `N × M` array is at `i + N*j`, and with indices
`(i, j, k)` of an `N × L × M` array at `i + N*(j + L*k)`.
-/

namespace FT.Props
open FT
variable {K : Type*} [Zero K]

/-! ## Two-index arrays -/

theorem fill2 {n m N : Int} {w : Int → Int} {v : Int → Int → K} (hN : N ≤ n) (hn : 0 ≤ n) (hm : 0 ≤ m) (hw : ∀ i, 0 ≤ i → i < N → w i ≤ m) :
    ∃ A, forUp 0 N (fun i A => forUp 0 (w i) (fun j A => A.wr (i + n * j) (v i j)) A) (callocZ (n * m)) = some A ∧ A.size = (n * m).toNat ∧
      ∀ a b, 0 ≤ a → a < n → 0 ≤ b → b < m → A.val (a + n * b) = if a < N ∧ b < w a then v a b else 0 := by
  have hnm : 0 ≤ n * m := Int.mul_nonneg hn hm
  obtain ⟨A, e, h1, h2⟩ := forUp_spec (lo := 0) (hi := N) (body := fun i A => forUp 0 (w i) (fun j A => A.wr (i + n * j) (v i j)) A) (s := callocZ (n * m))
    (fun i A => A.size = (n * m).toNat ∧ ∀ a b, 0 ≤ a → a < n → 0 ≤ b → b < m → A.val (a + n * b) = if a < i ∧ b < w a then v a b else 0)
    ⟨rfl, fun a b a0 _ _ _ => by rw [if_neg (by omega)]; rfl⟩
    (fun i i0 i1 A hA => by
      obtain ⟨A', e', hs, hv⟩ := forUp_spec (lo := 0) (hi := w i) (body := fun j A => A.wr (i + n * j) (v i j)) (s := A)
        (fun j A => A.size = (n * m).toNat ∧ ∀ a b, 0 ≤ a → a < n → 0 ≤ b → b < m → A.val (a + n * b) = if (a < i ∧ b < w a) ∨ (a = i ∧ b < j) then v a b else 0)
        ⟨hA.1, fun a b a0 a1 b0 b1 => by rw [hA.2 a b a0 a1 b0 b1]; exact if_congr (by omega) rfl rfl⟩
        (fun j j0 j1 A hA => by
          have hjm : j < m := lt_of_lt_of_le j1 (hw i i0 i1)
          have hb : n * j + n ≤ n * m := by
            have := Int.mul_le_mul_of_nonneg_left (show j + 1 ≤ m by omega) hn
            rw [Int.mul_add, Int.mul_one] at this; exact this
          have hj0 : 0 ≤ n * j := Int.mul_nonneg hn j0
          refine ⟨_, Buf.wr_of (by omega) (by rw [hA.1]; omega), hA.1, fun a b a0 a1 b0 b1 => ?_⟩
          show Function.update A.val (i + n * j) (v i j) (a + n * b) = _
          rw [Function.update_apply]
          by_cases hab : a = i ∧ b = j
          · rw [if_pos (by rw [hab.1, hab.2]), if_pos (by omega), hab.1, hab.2]
          · rw [if_neg, hA.2 a b a0 a1 b0 b1]
            · exact if_congr (by omega) rfl rfl
            · intro he
              rw [Int.mul_comm n b, Int.mul_comm n j] at he
              exact hab (slot_inj a0 a1 i0 (by omega) he))
      refine ⟨A', e', hs, fun a b a0 a1 b0 b1 => ?_⟩
      rw [hv a b a0 a1 b0 b1]
      have : ∀ a, a = i → w a = w i := fun a h => by rw [h]
      by_cases ha : a = i
      · rw [ha]; exact if_congr (by omega) rfl rfl
      · exact if_congr (by omega) rfl rfl)
  refine ⟨A, e, h1, fun a b a0 a1 b0 b1 => ?_⟩
  rw [h2 a b a0 a1 b0 b1]
  exact if_congr (by omega) rfl rfl

/-- **C53 (sphere).** For `M = 2N-1` the helper stores exactly the coefficients of the spherical harmonics of degree below `N`: the entry in row `i` of
column `j` has order `(j+1)/2` and degree `i + (j+1)/2`. -/
theorem C53_sph {n : Int} (hn : 1 ≤ n) (v : Int → Int → K) : ∃ A, sphFill n (2 * n - 1) v = some A ∧ A.size = (n * (2 * n - 1)).toNat ∧
    ∀ i j, 0 ≤ i → i < n → 0 ≤ j → j < 2 * n - 1 → A.val (i + n * j) = if i + (j + 1) / 2 < n then v i j else 0 := by
  obtain ⟨A, e, h1, h2⟩ := fill2 (n := n) (m := 2 * n - 1) (N := n) (w := fun i => 2 * n - 1 - 2 * i) (v := v) (le_refl _) (by omega) (by omega)
    (fun i _ _ => by omega)
  exact ⟨A, e, h1, fun i j i0 i1 j0 j1 => by rw [h2 i j i0 i1 j0 j1]; exact if_congr (by omega) rfl rfl⟩

/-- **C53 (triangle).** For `M = N` exactly the total degrees below `N`. -/
theorem C53_tri {n : Int} (hn : 1 ≤ n) (v : Int → Int → K) : ∃ A, triFill n n v = some A ∧ A.size = (n * n).toNat ∧
    ∀ i j, 0 ≤ i → i < n → 0 ≤ j → j < n → A.val (i + n * j) = if i + j < n then v i j else 0 := by
  obtain ⟨A, e, h1, h2⟩ := fill2 (n := n) (m := n) (N := n) (w := fun i => n - 1 * i) (v := v) (le_refl _) (by omega) (by omega)
    (fun i _ _ => by omega)
  exact ⟨A, e, h1, fun i j i0 i1 j0 j1 => by rw [h2 i j i0 i1 j0 j1]; exact if_congr (by omega) rfl rfl⟩

/-- **C53 (rectangularised disk).** For `M = N` exactly the total degrees below `N`. -/
theorem C53_rectdisk {n : Int} (hn : 1 ≤ n) (v : Int → Int → K) : ∃ A, rectdiskFill n n v = some A ∧ A.size = (n * n).toNat ∧
    ∀ i j, 0 ≤ i → i < n → 0 ≤ j → j < n → A.val (i + n * j) = if i + j < n then v i j else 0 := C53_tri hn v

/-- **C53 (disk).** For `M = 4N-3` exactly the Zernike polynomials of degree `2i + (j+1)/2` at most `2N-2`. -/
theorem C53_disk {n : Int} (hn : 1 ≤ n) (v : Int → Int → K) : ∃ A, diskFill n (4 * n - 3) v = some A ∧ A.size = (n * (4 * n - 3)).toNat ∧
    ∀ i j, 0 ≤ i → i < n → 0 ≤ j → j < 4 * n - 3 → A.val (i + n * j) = if 2 * i + (j + 1) / 2 ≤ 2 * n - 2 then v i j else 0 := by
  obtain ⟨A, e, h1, h2⟩ := fill2 (n := n) (m := 4 * n - 3) (N := n) (w := fun i => 4 * n - 3 - 4 * i) (v := v) (le_refl _) (by omega) (by omega)
    (fun i _ _ => by omega)
  exact ⟨A, e, h1, fun i j i0 i1 j0 j1 => by rw [h2 i j i0 i1 j0 j1]; exact if_congr (by omega) rfl rfl⟩

/-- **C53 (spin-weighted sphere).** For `M = 2N-1` and spin `|s| < N` exactly the degrees `i + max((j+1)/2, |s|)` below `N`. -/
theorem C53_spinsph {n s : Int} (hs : |s| < n) (v : Int → Int → K) : ∃ A, spinsphFill n (2 * n - 1) s v = some A ∧ A.size = (n * (2 * n - 1)).toNat ∧
    ∀ i j, 0 ≤ i → i < n → 0 ≤ j → j < 2 * n - 1 → A.val (i + n * j) = if i + max ((j + 1) / 2) |s| < n then v i j else 0 := by
  have h0 := abs_nonneg s
  obtain ⟨A, e, h1, h2⟩ := fill2 (n := n) (m := 2 * n - 1) (N := n - |s|) (w := fun i => 2 * n - 1 - 2 * i) (v := v) (by omega) (by omega) (by omega)
    (fun i _ _ => by omega)
  exact ⟨A, e, h1, fun i j i0 i1 j0 j1 => by rw [h2 i j i0 i1 j0 j1]; exact if_congr (by omega) rfl rfl⟩

/-! ## Tetrahedral arrays -/

/-- The position of `(i, j, k)` used by `tetFill` is inside the allocation. -/
theorem tet_bound {n l m i j k : Int} (i0 : 0 ≤ i) (j0 : 0 ≤ j) (k0 : 0 ≤ k) (hk : k < m) (hj : j < l - k) (hi : i < n - j - k) :
    0 ≤ i + l * (j + n * k) ∧ i + l * (j + n * k) < n * l * m := by
  have hl : 0 < l := by omega
  have hn : 0 < n := by omega
  constructor
  · have := Int.mul_nonneg hn.le k0
    have := Int.mul_nonneg hl.le (show 0 ≤ j + n * k by omega)
    omega
  · have h1 : i + l * j < n * l := by
      rcases le_or_gt l n with h | h
      · have h2 : l * j ≤ l * (l - 1) := Int.mul_le_mul_of_nonneg_left (by omega) hl.le
        have h3 : l * j - j ≤ (l - 1) * n := by
          have : (l - 1) * j ≤ (l - 1) * n := Int.mul_le_mul_of_nonneg_left (by omega) (by omega)
          linarith [Int.sub_mul l 1 j]
        linarith [Int.sub_mul l 1 n, Int.mul_comm l n]
      · have h3 : (l - 1) * j ≤ (l - 1) * (n - 1) := Int.mul_le_mul_of_nonneg_left (by omega) (by omega)
        nlinarith
    have h4 : n * l * (k + 1) ≤ n * l * m := Int.mul_le_mul_of_nonneg_left (by omega) (Int.mul_nonneg hn.le hl.le)
    nlinarith

/-- **C53.** The tetrahedral helper never leaves its allocation, for any `N × L × M`. -/
theorem C53_tet_in_bounds {n l m : Int} (v : Int → Int → Int → K) : ∃ A, tetFill n l m v = some A ∧ A.size = (n * l * m).toNat := by
  obtain ⟨A, e, h⟩ := forUp_spec (lo := 0) (hi := m)
    (body := fun k A => forUp 0 (l - k) (fun j (A : Buf K) => forUp 0 (n - j - k) (fun i (A : Buf K) => A.wr (i + l * (j + n * k)) (v i j k)) A) A) (s := callocZ (n * l * m))
    (fun _ (A : Buf K) => A.size = (n * l * m).toNat) rfl (fun k k0 k1 A hA => forUp_spec (lo := 0) (hi := l - k)
      (body := fun j (A : Buf K) => forUp 0 (n - j - k) (fun i (A : Buf K) => A.wr (i + l * (j + n * k)) (v i j k)) A) (fun _ (A : Buf K) => A.size = (n * l * m).toNat) hA
      (fun j j0 j1 A hA => forUp_spec (lo := 0) (hi := n - j - k) (body := fun i (A : Buf K) => A.wr (i + l * (j + n * k)) (v i j k)) (fun _ (A : Buf K) => A.size = (n * l * m).toNat) hA
        (fun i i0 i1 A hA => by
          have hb := tet_bound i0 j0 k0 k1 j1 i1
          exact ⟨_, Buf.wr_of hb.1 (by rw [hA]; omega), hA⟩)))
  exact ⟨A, e, h⟩

/-- **C53 (partial: `N = L` is required).** For `N × N × M` the helper stores exactly the coefficients of total degree below `N` at the positions the
transforms use.  Missing for the full claim: shapes with `N ≠ L`, for which it is false (`C53_tet_defect`). -/
theorem C53_tet_partial {n m : Int} (hn : 0 ≤ n) (hm : 0 ≤ m) (v : Int → Int → Int → K) : ∃ A, tetFill n n m v = some A ∧ A.size = (n * n * m).toNat ∧
    ∀ i j k, 0 ≤ i → i < n → 0 ≤ j → j < n → 0 ≤ k → k < m → A.val (i + n * (j + n * k)) = if i + j + k < n then v i j k else 0 := by
  obtain ⟨A, e, h1, h2⟩ := forUp_spec (lo := 0) (hi := m)
    (body := fun k A => forUp 0 (n - k) (fun j A => forUp 0 (n - j - k) (fun i A => A.wr (i + n * (j + n * k)) (v i j k)) A) A) (s := callocZ (n * n * m))
    (fun k A => A.size = (n * n * m).toNat ∧ ∀ a b c, 0 ≤ a → a < n → 0 ≤ b → b < n → 0 ≤ c → c < m → A.val (a + n * (b + n * c)) = if c < k ∧ a + b + c < n then v a b c else 0)
    ⟨rfl, fun a b c _ _ _ _ c0 _ => by rw [if_neg (by omega)]; rfl⟩
    (fun k k0 k1 A hA => by
      obtain ⟨A', e', hs, hv⟩ := forUp_spec (lo := 0) (hi := n - k) (body := fun j A => forUp 0 (n - j - k) (fun i A => A.wr (i + n * (j + n * k)) (v i j k)) A) (s := A)
        (fun j A => A.size = (n * n * m).toNat ∧ ∀ a b c, 0 ≤ a → a < n → 0 ≤ b → b < n → 0 ≤ c → c < m →
          A.val (a + n * (b + n * c)) = if (c < k ∧ a + b + c < n) ∨ (c = k ∧ b < j ∧ a + b + c < n) then v a b c else 0)
        ⟨hA.1, fun a b c a0 a1 b0 b1 c0 c1 => by rw [hA.2 a b c a0 a1 b0 b1 c0 c1]; exact if_congr (by omega) rfl rfl⟩
        (fun j j0 j1 A hA => by
          obtain ⟨A', e', hs, hv⟩ := forUp_spec (lo := 0) (hi := n - j - k) (body := fun i A => A.wr (i + n * (j + n * k)) (v i j k)) (s := A)
            (fun i A => A.size = (n * n * m).toNat ∧ ∀ a b c, 0 ≤ a → a < n → 0 ≤ b → b < n → 0 ≤ c → c < m →
              A.val (a + n * (b + n * c)) = if (c < k ∧ a + b + c < n) ∨ (c = k ∧ b < j ∧ a + b + c < n) ∨ (c = k ∧ b = j ∧ a < i) then v a b c else 0)
            ⟨hA.1, fun a b c a0 a1 b0 b1 c0 c1 => by rw [hA.2 a b c a0 a1 b0 b1 c0 c1]; exact if_congr (by omega) rfl rfl⟩
            (fun i i0 i1 A hA => by
              have hb := tet_bound (l := n) i0 j0 k0 k1 j1 i1
              refine ⟨_, Buf.wr_of hb.1 (by rw [hA.1]; omega), hA.1, fun a b c a0 a1 b0 b1 c0 c1 => ?_⟩
              show Function.update A.val (i + n * (j + n * k)) (v i j k) (a + n * (b + n * c)) = _
              rw [Function.update_apply]
              by_cases hab : a = i ∧ b = j ∧ c = k
              · obtain ⟨ra, rb, rc⟩ := hab
                rw [if_pos (by rw [ra, rb, rc]), if_pos (by omega), ra, rb, rc]
              · rw [if_neg, hA.2 a b c a0 a1 b0 b1 c0 c1]
                · exact if_congr (by omega) rfl rfl
                · intro he
                  rw [Int.mul_comm n (b + n * c), Int.mul_comm n (j + n * k)] at he
                  obtain ⟨ra, he⟩ := slot_inj a0 a1 i0 (by omega) he
                  rw [Int.mul_comm n c, Int.mul_comm n k] at he
                  obtain ⟨rb, rc⟩ := slot_inj b0 b1 j0 (by omega) he
                  exact hab ⟨ra, rb, rc⟩)
          refine ⟨A', e', hs, fun a b c a0 a1 b0 b1 c0 c1 => ?_⟩
          rw [hv a b c a0 a1 b0 b1 c0 c1]
          exact if_congr (by omega) rfl rfl)
      refine ⟨A', e', hs, fun a b c a0 a1 b0 b1 c0 c1 => ?_⟩
      rw [hv a b c a0 a1 b0 b1 c0 c1]
      exact if_congr (by omega) rfl rfl)
  refine ⟨A, e, h1, fun a b c a0 a1 b0 b1 c0 c1 => ?_⟩
  rw [h2 a b c a0 a1 b0 b1 c0 c1]
  exact if_congr (by omega) rfl rfl

/-- **C53, refuted for `N ≠ L`:** with `N = 3`, `L = 2`, `M = 1` the coefficient `(1, 1, 0)` (total degree 2 < 3) is not stored where the transforms look
for it: they read 0. -/
theorem C53_tet_defect : ∃ A : Buf Int, tetFill 3 2 1 (fun _ _ _ => 1) = some A ∧ A.val (1 + 3 * (1 + 2 * 0)) = 0 ∧ (1 : Int) + 1 + 0 < 3 ∧ (1 : Int) < 2 := by
  refine ⟨_, rfl, ?_, by decide, by decide⟩
  decide

example : ∃ A : Buf Int, sphFill 3 5 (fun i j => 10 * i + j + 1) = some A ∧ A.toList = [1, 11, 21, 2, 12, 0, 3, 13, 0, 4, 0, 0, 5, 0, 0] := ⟨_, rfl, by decide⟩
example : ∃ A : Buf Int, spinsphFill 3 5 1 (fun _ _ => 1) = some A ∧ A.toList = [1, 1, 0, 1, 1, 0, 1, 1, 0, 1, 0, 0, 1, 0, 0] := ⟨_, rfl, by decide⟩

end FT.Props
