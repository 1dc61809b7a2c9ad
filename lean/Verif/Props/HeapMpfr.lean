import Verif.Lemmas.HeapSpec
import Verif.Lemmas.HeapMpfr
/-
C42 for multiple precision: matrices are released completely, and every plan loses two numbers.
-/
namespace FT.Props.C42
open FT.Heap

/-- Arrays and triangular banded matrices of multiple precision numbers: every number is cleared
exactly once, before the array is released. -/
theorem C42_mpfr_matrices (kA : Nat) (n b : Int) (hn : 0 ≤ n) (hb : 0 ≤ b) :
    Balanced1 (mpfrArray (n * n)) (mpfrFree (n * n)) ∧ Balanced1 (mpfrTB n b) destroyMpfrTB ∧
      Balanced1 (mpfrPencil kA n b) destroyMpfrTB :=
  ⟨balanced1_of (makes_mpfrArray (by positivity)) fun _ _ h => mpfrFree_spec h,
    balanced1_of (makes_mpfrTB hn hb) fun _ _ h => destroyMpfrTB_spec h,
    balanced1_of (makes_mpfrPencil hn hb) fun _ _ h => destroyMpfrTB_spec h⟩

theorem leaks_plan {create : HM Val} {n : Int} {l : Nat} (H : MakesL create (IsMp (n * n)) l) (h : Heap)
    (hw : h.WF) : Leaks l (fun _ => create) (fun _ => mpfrFree (n * n)) h := by
  obtain ⟨R, S⟩ := sat_of_wf hw
  exact leaks_of (P := IsMp (n * n)) S (fun p m hm => ⟨0, fun _ _ => mpfrFree_spec hm⟩)
    fun Q K => ⟨0, fun _ _ => H R h Q S K⟩

/-- Every multiple precision plan, of whichever size, loses two numbers:
`ft_mpfr_triangular_banded_eigenvectors` initialises `t` and `lam` and never clears them
(transforms_mpfr.c L171-176 and L201-204).  Everything else is released by
`ft_mpfr_destroy_plan`. -/
theorem C42_mpfr_plans_defect (kA kB k k1 k2 : Nat) (bA bB n : Int) (hn : 0 ≤ n) (ha : 0 ≤ bA)
    (hb : 0 ≤ bB) (h : Heap) (hw : h.WF) :
    Leaks 2 (fun _ => mpfrPlan kA kB k bA bB n) (fun _ => mpfrFree (n * n)) h ∧
      Leaks 2 (fun _ => mpfrScaled k1 n (mpfrPlan kA kB k bA bB n)) (fun _ => mpfrFree (n * n)) h ∧
      Leaks 2 (fun _ => mpfrScaled k2 n (mpfrScaled k1 n (mpfrPlan kA kB k bA bB n)))
        (fun _ => mpfrFree (n * n)) h :=
  have H := mpfrPlan_spec (kA := kA) (kB := kB) (k := k) hn ha hb
  ⟨leaks_plan H h hw, leaks_plan (mpfrScaled_spec hn H) h hw,
    leaks_plan (mpfrScaled_spec hn (mpfrScaled_spec hn H)) h hw⟩

/-- The Legendre-Chebyshev plan of size 5 on the empty heap. -/
example : Leaks 2 (fun _ => mpfrPlan 1 1 9 2 2 5) (fun _ => mpfrFree (5 * 5)) ⟨0, fun _ => none⟩ :=
  (C42_mpfr_plans_defect 1 1 9 2 3 2 2 5 (by norm_num) (by norm_num) (by norm_num) _
    fun _ _ => rfl).1

/-- A banded matrix of size 4 and bandwidth 2. -/
example : Balanced1 (mpfrTB 4 2) destroyMpfrTB :=
  (C42_mpfr_matrices 0 4 2 (by norm_num) (by norm_num)).2.1

end FT.Props.C42
