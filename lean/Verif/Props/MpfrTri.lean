import Verif.Lemmas.MpfrTri
import Verif.Props.Modified

/-!
# C73: triangular products and solves with several columns

The specification is the dense matrix.  A family of `N` vectors is given by the addresses `ad j i` of their entries, so that arrays and arrays of pointers are treated alike.
-/

set_option linter.unusedSectionVars false

namespace FT.Props.Cols
open FT FT.Prog FT.Model FT.Props FT.Props.TbEig
variable {K : Type*}

/-- Entry `i` of column `j` of an array `B` of columns `LDB` apart. -/
def arrAd (B : Ptr) (LDB j i : Int) : Int := B.base + B.off + (j * LDB + i)

/-- Each of the `N` vectors at `ad` was multiplied by the matrix `a` and nothing else changed. -/
def Multiplied [CommRing K] (ad : Int → Int → Int) (n N : Int) (a : Int → Int → K) (M M' : Buf K) : Prop :=
  M'.size = M.size ∧ (∀ j i, 0 ≤ j → j < N → 0 ≤ i → i < n → M'.val (ad j i) = ∑ k ∈ Finset.Ico 0 n, a i k * M.val (ad j k)) ∧
    ∀ p, (∀ j i, 0 ≤ j → j < N → 0 ≤ i → i < n → p ≠ ad j i) → M'.val p = M.val p

/-- Each of the `N` vectors at `ad` was replaced by the solution of the system with matrix `a` and nothing else changed. -/
def Solved [CommRing K] (ad : Int → Int → Int) (n N : Int) (a : Int → Int → K) (M M' : Buf K) : Prop :=
  M'.size = M.size ∧ (∀ j i, 0 ≤ j → j < N → 0 ≤ i → i < n → ∑ k ∈ Finset.Ico 0 n, a i k * M'.val (ad j k) = M.val (ad j i)) ∧
    ∀ p, (∀ j i, 0 ≤ j → j < N → 0 ≤ i → i < n → p ≠ ad j i) → M'.val p = M.val p

/-- The entries have different addresses. -/
def Apart (ad : Int → Int → Int) (n N : Int) : Prop :=
  ∀ j i j' i', 0 ≤ j → j < N → 0 ≤ i → i < n → 0 ≤ j' → j' < N → 0 ≤ i' → i' < n → ad j i = ad j' i' → j = j' ∧ i = i'

/-- The vector at `ad`. -/
def vecA [Zero K] (M : Buf K) (ad : Int → Int) (n : Int) : Buf K := ⟨n.toNat, fun i => if 0 ≤ i ∧ i < n then M.val (ad i) else 0⟩

/-- `f` was applied to each of the vectors and nothing else changed. -/
def By [Zero K] (f : Buf K → Option (Buf K)) (ad : Int → Int → Int) (n N : Int) (M M' : Buf K) : Prop :=
  M'.size = M.size ∧ (∀ j, 0 ≤ j → j < N → f (vecA M (ad j) n) = some (vecA M' (ad j) n)) ∧
    ∀ p, (∀ j i, 0 ≤ j → j < N → 0 ≤ i → i < n → p ≠ ad j i) → M'.val p = M.val p

section
variable [CommRing K] {ad : Int → Int → Int} {n N : Int}

theorem cols_par {f : Buf K → Option (Buf K)} {body : Int → Prog K Unit} (n0 : 0 ≤ n) (hf : Runs f n) {M : Buf K} (hap : Apart ad n N)
    (hsim : ∀ j, 0 ≤ j → j < N → SimA (ad j) n M.size (body j) f)
    (hacc : ∀ j, 0 ≤ j → j < N → ∀ R : Int → Prop, (∀ i, 0 ≤ i → i < n → R (ad j i)) → (body j).Acc R R)
    {T : Nat} {owner : Int → Nat} (hown : ∀ j, 0 ≤ j → j < N → owner j < T) :
    ParPost T (forThread 0 N owner body) M (By f ad n N M) := by
  have hn : ((n.toNat : Nat) : Int) = n := by omega
  have one : ∀ j, ∃ M', 0 ≤ j → j < N → (body j).run M = some ((), M') ∧ f (vecA M (ad j) n) = some (vecA M' (ad j) n) := by
    intro j
    by_cases hj : 0 ≤ j ∧ j < N
    · obtain ⟨y, e, sz, o⟩ := hf (vecA M (ad j) n) (by unfold vecA; dsimp only; omega)
      obtain ⟨M', e', s', v', o'⟩ := hsim j hj.1 hj.2 M (vecA M (ad j) n) y rfl ⟨hn, fun i i0 i1 => if_pos ⟨i0, i1⟩⟩ e
      refine ⟨M', fun _ _ => ⟨e', ?_⟩⟩
      rw [e]
      congr 1
      refine Buf.ext' sz fun i => ?_
      by_cases hi : 0 ≤ i ∧ i < n
      · rw [v'.2 i hi.1 hi.2]; exact (if_pos hi).symm
      · rw [o i hi]; unfold vecA; dsimp only; rw [if_neg hi, if_neg hi]
    · exact ⟨M, fun a b => absurd ⟨a, b⟩ hj⟩
  choose F hF using one
  refine for_share (R := fun j a => ∃ i, 0 ≤ i ∧ i < n ∧ a = ad j i) (W := fun j a => ∃ i, 0 ≤ i ∧ i < n ∧ a = ad j i) hown (fun _ _ h => h) ?_
    (fun j j0 j1 => hacc j j0 j1 _ fun i i0 i1 => ⟨i, i0, i1, rfl⟩) (F := F) (fun j j0 j1 => (hF j j0 j1).1) ?_
  · rintro j j' j0 j1 k0 k1 a hne ⟨i, i0, i1, rfl⟩ ⟨i', l0, l1, e⟩
    exact hne (hap j i j' i' j0 j1 i0 i1 k0 k1 l0 l1 e).1
  · intro B hs hB ho
    refine ⟨hs, fun j j0 j1 => ?_, fun p hp => ho p ?_⟩
    · rw [(hF j j0 j1).2]
      congr 1
      refine Buf.ext' rfl fun i => ?_
      unfold vecA; dsimp only
      by_cases hi : 0 ≤ i ∧ i < n
      · rw [if_pos hi, if_pos hi, hB j j0 j1 _ ⟨i, hi.1, hi.2, rfl⟩]
      · rw [if_neg hi, if_neg hi]
    · rintro j j0 j1 ⟨i, i0, i1, e⟩
      exact hp j i j0 j1 i0 i1 e

theorem By.multiplied {f : Buf K → Option (Buf K)} {a : Int → Int → K} (hf : Multiplies f n a) {M M' : Buf K} (h : By f ad n N M M') : Multiplied ad n N a M M' := by
  refine ⟨h.1, fun j i j0 j1 i0 i1 => ?_, h.2.2⟩
  obtain ⟨y, e, -, v, -⟩ := hf (vecA M (ad j) n) (by unfold vecA; dsimp only; omega)
  rw [h.2.1 j j0 j1] at e; cases e
  have := v i i0 i1
  unfold vecA at this
  dsimp only at this
  rw [if_pos ⟨i0, i1⟩] at this
  rw [this]
  exact sum_Ico_congr fun k k0 k1 => by rw [if_pos ⟨k0, k1⟩]

theorem By.solved {f : Buf K → Option (Buf K)} {a : Int → Int → K} (hf : SolvesSystem f n a) {M M' : Buf K} (h : By f ad n N M M') : Solved ad n N a M M' := by
  refine ⟨h.1, fun j i j0 j1 i0 i1 => ?_, h.2.2⟩
  obtain ⟨y, e, -, v, -⟩ := hf (vecA M (ad j) n) (by unfold vecA; dsimp only; omega)
  rw [h.2.1 j j0 j1] at e; cases e
  have := v i i0 i1
  unfold vecA at this
  dsimp only at this
  rw [if_pos ⟨i0, i1⟩] at this
  rw [← this]
  exact sum_Ico_congr fun k k0 k1 => by rw [if_pos ⟨k0, k1⟩]

theorem By.back {f g : Buf K → Option (Buf K)} (hu : Undo f g n) (n0 : 0 ≤ n) {M M' M'' : Buf K} (h : By f ad n N M M') (h' : By g ad n N M' M'') : M'' = M := by
  refine Buf.ext' (h'.1.trans h.1) fun p => ?_
  by_cases hp : ∀ j i, 0 ≤ j → j < N → 0 ≤ i → i < n → p ≠ ad j i
  · rw [h'.2.2 p hp, h.2.2 p hp]
  · push Not at hp
    obtain ⟨j, i, j0, j1, i0, i1, rfl⟩ := hp
    obtain ⟨y, e1, e2⟩ := (hu (vecA M (ad j) n) (by unfold vecA; dsimp only; omega)).1
    rw [h.2.1 j j0 j1] at e1
    cases e1
    rw [h'.2.1 j j0 j1] at e2
    have := congrArg (fun b : Buf K => b.val i) (Option.some.inj e2)
    simpa [vecA, i0, i1] using this

theorem arr_apart {B : Ptr} {LDB : Int} (hL : n ≤ LDB) : Apart (arrAd B LDB) n N := by
  intro j i j' i' j0 j1 i0 i1 k0 k1 l0 l1 e
  unfold arrAd at e
  have hj : j = j' := by
    rcases lt_trichotomy j j' with h | h | h
    · have : (j + 1) * LDB ≤ j' * LDB := mul_le_mul_of_nonneg_right (by omega) (by omega)
      rw [add_mul] at this; omega
    · exact h
    · have : (j' + 1) * LDB ≤ j * LDB := mul_le_mul_of_nonneg_right (by omega) (by omega)
      rw [add_mul] at this; omega
  subst hj
  exact ⟨rfl, by omega⟩

theorem arr_ad (B : Ptr) (LDB j : Int) : (B.add (j * LDB)).at = arrAd B LDB j := by
  funext i; unfold arrAd Ptr.at Ptr.add; dsimp only; omega

theorem arr_ok {B : Ptr} {LDB : Int} (hL : n ≤ LDB) {s : Nat} (hB : B.Ok (N * LDB) s) {j : Int} (j0 : 0 ≤ j) (j1 : j < N) (n0 : 0 ≤ n) : (B.add (j * LDB)).Ok n s := by
  have h1 : (j + 1) * LDB ≤ N * LDB := mul_le_mul_of_nonneg_right (by omega) (by omega)
  have h2 : 0 ≤ j * LDB := mul_nonneg j0 (by omega)
  rw [add_mul] at h1
  unfold Ptr.Ok Ptr.add at *
  dsimp only
  omega

/-- `B` holds at least `N` columns of `n` pointers, `LDB` apart, to numbers in a memory of `s` positions. -/
structure PtrsOk (B : Buf Ptr) (n LDB N : Int) (s : Nat) : Prop where
  ld : n ≤ LDB
  size : N * LDB ≤ B.size
  ok : ∀ j i, 0 ≤ j → j < N → 0 ≤ i → i < n → (B.val (j * LDB + i)).Ok 1 s
  apart : Apart (fun j i => ptrAt B (j * LDB + i)) n N

theorem PtrsOk.acs {B : Buf Ptr} {LDB : Int} {s : Nat} (h : PtrsOk B n LDB N s) (n0 : 0 ≤ n) {j : Int} (j0 : 0 ≤ j) (j1 : j < N) :
    Acs (K := K) (fun i => ptrAt B (j * LDB + i)) n s (ptrGet B (j * LDB)) (ptrPut B (j * LDB)) := by
  have hl := h.ld
  have h1 : (j + 1) * LDB ≤ N * LDB := mul_le_mul_of_nonneg_right (by omega) (by omega)
  have h2 : 0 ≤ j * LDB := mul_nonneg j0 (by omega)
  rw [add_mul] at h1
  have := h.size
  exact acs_ptr h2 (by omega) (fun i i0 i1 => h.ok j i j0 j1 i0 i1) fun i k i0 i1 k0 k1 e => (h.apart j i j k j0 j1 i0 i1 j0 j1 k0 k1 e).2

end

section
variable [Field K] [DecidableEq K] {A : Buf K} {n LDA : Int} {tr : Char} {N LDB : Int} {T : Nat} {owner owner' : Int → Nat}

/-- The matrix, `TRANS` included: the strictly lower triangle of `A` does not matter. -/
abbrev mat (tr : Char) (A : Buf K) (LDA : Int) : Int → Int → K := opEnt tr (upperPart fun i j => A.val (i + j * LDA))

section arrays
variable {B : Ptr} {M : Buf K}

theorem arr_by (n0 : 0 ≤ n) (hL : n ≤ LDA) (hA : n * LDA ≤ A.size) (ht : tr = 'N' ∨ tr = 'T') (hLB : n ≤ LDB) (hB : B.Ok (N * LDB) M.size) (hown : ∀ j, 0 ≤ j → j < N → owner j < T) :
    ParPost T (mpfrTrmm tr n A LDA B LDB N owner) M (By (trmv tr n A LDA) (arrAd B LDB) n N M) ∧ ParPost T (trmmP tr n A LDA B LDB N owner) M (By (trmv tr n A LDA) (arrAd B LDB) n N M) := by
  refine ⟨cols_par n0 (C18_trmv hL hA ht).runs (arr_apart hLB) (fun j j0 j1 => ?_) (fun j j0 j1 R hR => ?_) hown,
    cols_par n0 (C18_trmv hL hA ht).runs (arr_apart hLB) (fun j j0 j1 => ?_) (fun j j0 j1 R hR => ?_) hown⟩
  · rw [← arr_ad]; exact mTrmv_sim (acs_arr (arr_ok hLB hB j0 j1 n0)) tr
  · rw [← arr_ad] at hR; exact mTrmv_acc (acs_arr (arr_ok hLB hB j0 j1 n0)) hR
  · rw [← arr_ad]
    intro M0 V V' hs hv e
    obtain ⟨M', e', s', v', o'⟩ := trmvP_sim tr M0 V V' (by rw [hs]; exact arr_ok hLB hB j0 j1 n0) hv e
    exact ⟨M', e', s', v', fun a ha => o' a fun h => by obtain ⟨i, i0, i1, e⟩ := Ptr.in_iff.1 h; exact ha i i0 i1 e⟩
  · rw [← arr_ad] at hR; exact trmvP_acc hR hR

theorem arr_by_solve (n0 : 0 ≤ n) (hL : n ≤ LDA) (hA : n * LDA ≤ A.size) (hd : ∀ i, 0 ≤ i → i < n → A.val (i + i * LDA) ≠ 0) (ht : tr = 'N' ∨ tr = 'T') (hLB : n ≤ LDB) (hB : B.Ok (N * LDB) M.size)
    (hown : ∀ j, 0 ≤ j → j < N → owner j < T) :
    ParPost T (mpfrTrsm tr n A LDA B LDB N owner) M (By (trsv tr n A LDA) (arrAd B LDB) n N M) ∧ ParPost T (trsmP tr n A LDA B LDB N owner) M (By (trsv tr n A LDA) (arrAd B LDB) n N M) := by
  refine ⟨cols_par n0 (C18_trsv hL hA hd ht).1.runs (arr_apart hLB) (fun j j0 j1 => ?_) (fun j j0 j1 R hR => ?_) hown,
    cols_par n0 (C18_trsv hL hA hd ht).1.runs (arr_apart hLB) (fun j j0 j1 => ?_) (fun j j0 j1 R hR => ?_) hown⟩
  · rw [← arr_ad]; exact mTrsv_sim (acs_arr (arr_ok hLB hB j0 j1 n0)) tr
  · rw [← arr_ad] at hR; exact mTrsv_acc (acs_arr (arr_ok hLB hB j0 j1 n0)) hR
  · rw [← arr_ad]
    intro M0 V V' hs hv e
    obtain ⟨M', e', s', v', o'⟩ := trsvP_sim tr M0 V V' (by rw [hs]; exact arr_ok hLB hB j0 j1 n0) hv e
    exact ⟨M', e', s', v', fun a ha => o' a fun h => by obtain ⟨i, i0, i1, e⟩ := Ptr.in_iff.1 h; exact ha i i0 i1 e⟩
  · rw [← arr_ad] at hR; exact trsvP_acc hR hR

/-- **C73** Products with several columns, in multiple and in working precision: on every schedule, whatever the distribution of the columns to threads, every column is multiplied by the upper triangle of
`A` or its transpose, and nothing but the columns changes. -/
theorem C73_trmm (n0 : 0 ≤ n) (hL : n ≤ LDA) (hA : n * LDA ≤ A.size) (ht : tr = 'N' ∨ tr = 'T') (hLB : n ≤ LDB) (hB : B.Ok (N * LDB) M.size) (hown : ∀ j, 0 ≤ j → j < N → owner j < T) :
    ParPost T (mpfrTrmm tr n A LDA B LDB N owner) M (Multiplied (arrAd B LDB) n N (mat tr A LDA) M) ∧ ParPost T (trmmP tr n A LDA B LDB N owner) M (Multiplied (arrAd B LDB) n N (mat tr A LDA) M) :=
  ⟨(arr_by n0 hL hA ht hLB hB hown).1.mono fun _ h => h.multiplied (C18_trmv hL hA ht), (arr_by n0 hL hA ht hLB hB hown).2.mono fun _ h => h.multiplied (C18_trmv hL hA ht)⟩

/-- **C73** Solves with several columns. -/
theorem C73_trsm (n0 : 0 ≤ n) (hL : n ≤ LDA) (hA : n * LDA ≤ A.size) (hd : ∀ i, 0 ≤ i → i < n → A.val (i + i * LDA) ≠ 0) (ht : tr = 'N' ∨ tr = 'T') (hLB : n ≤ LDB) (hB : B.Ok (N * LDB) M.size)
    (hown : ∀ j, 0 ≤ j → j < N → owner j < T) :
    ParPost T (mpfrTrsm tr n A LDA B LDB N owner) M (Solved (arrAd B LDB) n N (mat tr A LDA) M) ∧ ParPost T (trsmP tr n A LDA B LDB N owner) M (Solved (arrAd B LDB) n N (mat tr A LDA) M) :=
  ⟨(arr_by_solve n0 hL hA hd ht hLB hB hown).1.mono fun _ h => h.solved (C18_trsv hL hA hd ht).1, (arr_by_solve n0 hL hA hd ht hLB hB hown).2.mono fun _ h => h.solved (C18_trsv hL hA hd ht).1⟩

/-- **C73** A product followed by a solve restores the memory, and so does a solve followed by a product, for all schedules of both loops. -/
theorem C73_round_trip (n0 : 0 ≤ n) (hL : n ≤ LDA) (hA : n * LDA ≤ A.size) (hd : ∀ i, 0 ≤ i → i < n → A.val (i + i * LDA) ≠ 0) (ht : tr = 'N' ∨ tr = 'T') (hLB : n ≤ LDB) (hB : B.Ok (N * LDB) M.size)
    (hown : ∀ j, 0 ≤ j → j < N → owner j < T) (hown' : ∀ j, 0 ≤ j → j < N → owner' j < T) :
    Regions T [mpfrTrmm tr n A LDA B LDB N owner, mpfrTrsm tr n A LDA B LDB N owner'] M (fun M' => M' = M) ∧
    Regions T [mpfrTrsm tr n A LDA B LDB N owner, mpfrTrmm tr n A LDA B LDB N owner'] M (fun M' => M' = M) ∧
    Regions T [trmmP tr n A LDA B LDB N owner, trsmP tr n A LDA B LDB N owner'] M (fun M' => M' = M) ∧
    Regions T [trsmP tr n A LDA B LDB N owner, trmmP tr n A LDA B LDB N owner'] M (fun M' => M' = M) := by
  have hu := (C18_trsv hL hA hd ht).2
  refine ⟨(arr_by n0 hL hA ht hLB hB hown).1.mono fun M' h => ?_, (arr_by_solve n0 hL hA hd ht hLB hB hown).1.mono fun M' h => ?_,
    (arr_by n0 hL hA ht hLB hB hown).2.mono fun M' h => ?_, (arr_by_solve n0 hL hA hd ht hLB hB hown).2.mono fun M' h => ?_⟩
  · exact (arr_by_solve n0 hL hA hd ht hLB (M := M') (by rw [h.1]; exact hB) hown').1.mono fun M'' h' => h.back hu n0 h'
  · exact (arr_by n0 hL hA ht hLB (M := M') (by rw [h.1]; exact hB) hown').1.mono fun M'' h' => h.back hu.symm n0 h'
  · exact (arr_by_solve n0 hL hA hd ht hLB (M := M') (by rw [h.1]; exact hB) hown').2.mono fun M'' h' => h.back hu n0 h'
  · exact (arr_by n0 hL hA ht hLB (M := M') (by rw [h.1]; exact hB) hown').2.mono fun M'' h' => h.back hu.symm n0 h'

end arrays

section pointers
variable {B : Buf Ptr} {M : Buf K}

theorem ptr_by (n0 : 0 ≤ n) (hL : n ≤ LDA) (hA : n * LDA ≤ A.size) (ht : tr = 'N' ∨ tr = 'T') (hB : PtrsOk B n LDB N M.size) (hown : ∀ j, 0 ≤ j → j < N → owner j < T) :
    ParPost T (mpfrTrmmPtr tr n A LDA B LDB N owner) M (By (trmv tr n A LDA) (fun j i => ptrAt B (j * LDB + i)) n N M) :=
  cols_par n0 (C18_trmv hL hA ht).runs hB.apart (fun _ j0 j1 => mTrmv_sim (hB.acs n0 j0 j1) tr) (fun _ j0 j1 _ hR => mTrmv_acc (hB.acs n0 j0 j1) hR) hown

theorem ptr_by_solve (n0 : 0 ≤ n) (hL : n ≤ LDA) (hA : n * LDA ≤ A.size) (hd : ∀ i, 0 ≤ i → i < n → A.val (i + i * LDA) ≠ 0) (ht : tr = 'N' ∨ tr = 'T') (hB : PtrsOk B n LDB N M.size)
    (hown : ∀ j, 0 ≤ j → j < N → owner j < T) :
    ParPost T (mpfrTrsmPtr tr n A LDA B LDB N owner) M (By (trsv tr n A LDA) (fun j i => ptrAt B (j * LDB + i)) n N M) :=
  cols_par n0 (C18_trsv hL hA hd ht).1.runs hB.apart (fun _ j0 j1 => mTrsv_sim (hB.acs n0 j0 j1) tr) (fun _ j0 j1 _ hR => mTrsv_acc (hB.acs n0 j0 j1) hR) hown

/-- **C73** Products, solves and round trips on columns of pointers: the numbers pointed to are transformed, wherever they lie, provided no two pointers are equal. -/
theorem C73_pointers (n0 : 0 ≤ n) (hL : n ≤ LDA) (hA : n * LDA ≤ A.size) (hd : ∀ i, 0 ≤ i → i < n → A.val (i + i * LDA) ≠ 0) (ht : tr = 'N' ∨ tr = 'T') (hB : PtrsOk B n LDB N M.size)
    (hown : ∀ j, 0 ≤ j → j < N → owner j < T) (hown' : ∀ j, 0 ≤ j → j < N → owner' j < T) :
    ParPost T (mpfrTrmmPtr tr n A LDA B LDB N owner) M (Multiplied (fun j i => ptrAt B (j * LDB + i)) n N (mat tr A LDA) M) ∧
    ParPost T (mpfrTrsmPtr tr n A LDA B LDB N owner) M (Solved (fun j i => ptrAt B (j * LDB + i)) n N (mat tr A LDA) M) ∧
    Regions T [mpfrTrmmPtr tr n A LDA B LDB N owner, mpfrTrsmPtr tr n A LDA B LDB N owner'] M (fun M' => M' = M) ∧
    Regions T [mpfrTrsmPtr tr n A LDA B LDB N owner, mpfrTrmmPtr tr n A LDA B LDB N owner'] M (fun M' => M' = M) := by
  have hu := (C18_trsv hL hA hd ht).2
  refine ⟨(ptr_by n0 hL hA ht hB hown).mono fun _ h => h.multiplied (C18_trmv hL hA ht), (ptr_by_solve n0 hL hA hd ht hB hown).mono fun _ h => h.solved (C18_trsv hL hA hd ht).1,
    (ptr_by n0 hL hA ht hB hown).mono fun M' h => ?_, (ptr_by_solve n0 hL hA hd ht hB hown).mono fun M' h => ?_⟩
  · exact (ptr_by_solve n0 hL hA hd ht (M := M') (by rw [h.1]; exact hB) hown').mono fun M'' h' => h.back hu n0 h'
  · exact (ptr_by n0 hL hA ht (M := M') (by rw [h.1]; exact hB) hown').mono fun M'' h' => h.back hu.symm n0 h'

end pointers

/-- Two columns of two entries, three apart, on two threads. -/
example : Regions 2 [mpfrTrmm 'T' 2 (Buf.ofList [2, 7, 3, (5 : ℚ)]) 2 ⟨1, 6, 0⟩ 3 2 (fun j => (j % 2).toNat), mpfrTrsm 'T' 2 (Buf.ofList [2, 7, 3, (5 : ℚ)]) 2 ⟨1, 6, 0⟩ 3 2 fun _ => 1]
    (Buf.ofList [9, 1, 2, 9, 3, 4, 9, (9 : ℚ)]) (fun M' => M' = Buf.ofList [9, 1, 2, 9, 3, 4, 9, (9 : ℚ)]) :=
  (C73_round_trip (n := 2) (by norm_num) (by norm_num) (by decide) (fun i i0 i1 => by
    have : i = 0 ∨ i = 1 := by omega
    rcases this with rfl | rfl <;> decide) (.inr rfl) (by norm_num) (by unfold Ptr.Ok; decide) (fun j _ _ => by omega) (fun _ _ _ => by omega)).1

/-- Two columns of two pointers each, in the reverse order of the numbers they point to. -/
example : Regions 2 [mpfrTrmmPtr 'N' 2 (Buf.ofList [2, 7, 3, (5 : ℚ)]) 2 ⟨4, fun i => ⟨1, 4, 3 - i⟩⟩ 2 2 (fun j => (j % 2).toNat),
      mpfrTrsmPtr 'N' 2 (Buf.ofList [2, 7, 3, (5 : ℚ)]) 2 ⟨4, fun i => ⟨1, 4, 3 - i⟩⟩ 2 2 fun _ => 1]
    (Buf.ofList [9, 1, 2, 3, 4, (9 : ℚ)]) (fun M' => M' = Buf.ofList [9, 1, 2, 3, 4, (9 : ℚ)]) := by
  refine (C73_pointers (n := 2) (by norm_num) (by norm_num) (by decide) (fun i i0 i1 => ?_) (.inl rfl) ⟨le_rfl, by norm_num, fun j i j0 j1 i0 i1 => ?_, ?_⟩ (fun j _ _ => by omega) (fun _ _ _ => by omega)).2.2.1
  · have : i = 0 ∨ i = 1 := by omega
    rcases this with rfl | rfl <;> decide
  · show 0 ≤ 3 - (j * 2 + i) ∧ 3 - (j * 2 + i) + 1 ≤ 4 ∧ (0 : Int) ≤ 1 ∧ (1 : Int) + 4 ≤ (6 : Nat)
    omega
  · intro j i j' i' j0 j1 i0 i1 k0 k1 l0 l1 e
    simp only [ptrAt, Ptr.at] at e
    omega

end
end FT.Props.Cols
