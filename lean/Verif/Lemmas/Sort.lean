import Verif.Model.Sort
import Verif.Lemmas.Accum
import Mathlib.Algebra.Group.End
import Mathlib.Logic.Equiv.Basic

/-! # Lemmas on sorting -/

namespace FT
variable {α : Type*}

/-- A buffer read through a permutation of the indices. -/
def Buf.pm (a : Buf α) (π : Equiv.Perm Int) : Buf α := ⟨a.size, fun k => a.val (π k)⟩

theorem Buf.pm_one (a : Buf α) : a.pm 1 = a := rfl
theorem Buf.pm_mul (a : Buf α) (π σ : Equiv.Perm Int) : (a.pm π).pm σ = a.pm (π * σ) := rfl

theorem swapB_eq {a : Buf α} {i j : Int} (i0 : 0 ≤ i) (i1 : i < a.size) (j0 : 0 ≤ j) (j1 : j < a.size) : swapB a i j = some (a.pm (Equiv.swap i j)) := by
  unfold swapB
  rw [Buf.rd_of i0 i1, Option.bind_some, Buf.rd_of j0 j1, Option.bind_some, Buf.wr_of i0 i1, Option.bind_some, Buf.wr_of j0 (by exact j1)]
  congr 1
  refine Buf.ext' rfl fun k => ?_
  simp only [Buf.pm, Function.update_apply, Equiv.swap_apply_def]
  by_cases h1 : k = j
  · by_cases h2 : k = i
    · rw [if_pos h1, if_pos h2, ← h2, h1]
    · rw [if_pos h1, if_neg h2, if_pos h1]
  · by_cases h2 : k = i
    · rw [if_neg h1, if_pos h2, if_pos h2]
    · rw [if_neg h1, if_neg h2, if_neg h2, if_neg h1]

namespace SortSt

def pm (s : SortSt α) (π : Equiv.Perm Int) : SortSt α := ⟨s.a.pm π, s.cs.map (fun c => c.pm π), s.p.pm π⟩

theorem pm_one (s : SortSt α) : s.pm 1 = s := by
  cases s; simp only [pm, Buf.pm_one]; congr 1; exact List.map_id _

theorem pm_mul (s : SortSt α) (π σ : Equiv.Perm Int) : (s.pm π).pm σ = s.pm (π * σ) := by
  simp only [pm, Buf.pm_mul, List.map_map]; rfl

/-- All arrays contain the indices `lo … hi`. -/
def Has (lo hi : Int) (s : SortSt α) : Prop := 0 ≤ lo ∧ hi < s.a.size ∧ (∀ c ∈ s.cs, hi < c.size) ∧ hi < s.p.size

theorem Has.pm {lo hi : Int} {s : SortSt α} (h : Has lo hi s) (π : Equiv.Perm Int) : Has lo hi (s.pm π) := by
  refine ⟨h.1, h.2.1, fun c hc => ?_, h.2.2.2⟩
  obtain ⟨d, hd, rfl⟩ := List.mem_map.1 hc
  exact h.2.2.1 d hd

theorem Has.mono {lo hi lo' hi' : Int} {s : SortSt α} (h : Has lo hi s) (h1 : lo ≤ lo') (h2 : hi' ≤ hi) : Has lo' hi' s :=
  ⟨by have := h.1; omega, by have := h.2.1; omega, fun c hc => by have := h.2.2.1 c hc; omega, by have := h.2.2.2; omega⟩

end SortSt

theorem swapAll_eq {lo hi : Int} {s : SortSt α} (h : s.Has lo hi) {i j : Int} (i0 : lo ≤ i) (i1 : i ≤ hi) (j0 : lo ≤ j) (j1 : j ≤ hi) :
    swapAll s i j = some (s.pm (Equiv.swap i j)) := by
  obtain ⟨h1, h2, h3, h4⟩ := h
  have hm : ∀ l : List (Buf α), (∀ c ∈ l, hi < c.size) → l.mapM (fun c => swapB c i j) = some (l.map fun c => c.pm (Equiv.swap i j)) := by
    intro l
    induction l with
    | nil => intro _; rfl
    | cons c l ih =>
      intro hl
      have hc := hl c List.mem_cons_self
      rw [List.mapM_cons, swapB_eq (by omega) (by omega) (by omega) (by omega), ih fun d hd => hl d (List.mem_cons_of_mem _ hd)]
      rfl
  unfold swapAll
  rw [swapB_eq (by omega) (by omega) (by omega) (by omega), Option.bind_some, hm s.cs h3, Option.bind_some, swapB_eq (by omega) (by omega) (by omega) (by omega)]
  rfl

/-- The permutation moves only `lo … hi`. -/
def FixOut (lo hi : Int) (π : Equiv.Perm Int) : Prop := ∀ k, ¬ (lo ≤ k ∧ k ≤ hi) → π k = k

theorem FixOut.one {lo hi : Int} : FixOut lo hi 1 := fun _ _ => rfl
theorem FixOut.mul {lo hi : Int} {π σ : Equiv.Perm Int} (h : FixOut lo hi π) (g : FixOut lo hi σ) : FixOut lo hi (π * σ) := fun k hk => by
  rw [Equiv.Perm.mul_apply, g k hk, h k hk]
theorem FixOut.mono {lo hi lo' hi' : Int} {π : Equiv.Perm Int} (h : FixOut lo' hi' π) (h1 : lo ≤ lo') (h2 : hi' ≤ hi) : FixOut lo hi π := fun k hk => h k (by omega)
theorem FixOut.swap {lo hi i j : Int} (i0 : lo ≤ i) (i1 : i ≤ hi) (j0 : lo ≤ j) (j1 : j ≤ hi) : FixOut lo hi (Equiv.swap i j) := fun k hk =>
  Equiv.swap_apply_of_ne_of_ne (by rintro rfl; omega) (by rintro rfl; omega)
theorem FixOut.maps {lo hi : Int} {π : Equiv.Perm Int} (h : FixOut lo hi π) {k : Int} (h0 : lo ≤ k) (h1 : k ≤ hi) : lo ≤ π k ∧ π k ≤ hi := by
  by_contra hc
  have := π.injective (h _ hc)
  rw [this] at hc
  exact hc ⟨h0, h1⟩

section
variable {lt : α → α → Bool}

theorem swapIf_spec {lo hi : Int} {s : SortSt α} (h : s.Has lo hi) {u v : Int} (u0 : lo ≤ u) (u1 : u ≤ hi) (v0 : lo ≤ v) (v1 : v ≤ hi) :
    ∃ π, FixOut lo hi π ∧ swapIf lt u v s = some (s.pm π) := by
  unfold swapIf
  obtain ⟨h1, h2, h3, h4⟩ := h
  rw [Buf.rd_of (by omega) (by omega), Option.bind_some, Buf.rd_of (by omega) (by omega), Option.bind_some]
  split_ifs
  · exact ⟨_, .swap v0 v1 u0 u1, swapAll_eq ⟨h1, h2, h3, h4⟩ v0 v1 u0 u1⟩
  · exact ⟨1, .one, by rw [s.pm_one]⟩

/-- After choosing the pivot it is the last key, and the middle key is not before it. -/
theorem selectpivot_spec (asym : ∀ x y, lt x y = true → lt y x = false) {lo hi : Int} (hl : lo < hi) {s : SortSt α} (h : s.Has lo hi) :
    ∃ π, FixOut lo hi π ∧ selectpivot lt lo hi s = some (s.pm π, (s.pm π).a.val hi) ∧ lt ((s.pm π).a.val ((lo + hi) / 2)) ((s.pm π).a.val hi) = false := by
  have m0 : lo ≤ (lo + hi) / 2 := by omega
  have m1 : (lo + hi) / 2 < hi := by omega
  generalize hm : (lo + hi) / 2 = mid at m0 m1
  obtain ⟨π1, f1, e1⟩ := swapIf_spec (lt := lt) h m0 (le_of_lt m1) (le_refl lo) (le_of_lt hl)
  obtain ⟨π2, f2, e2⟩ := swapIf_spec (lt := lt) (h.pm π1) (le_of_lt hl) (le_refl hi) (le_refl lo) (le_of_lt hl)
  have h2 := (h.pm π1).pm π2
  rw [SortSt.pm_mul] at h2 e2
  unfold selectpivot
  simp only [hm]
  rw [e1, Option.bind_some, e2, Option.bind_some]
  have a1 : mid < (s.pm (π1 * π2)).a.size := by have := h2.2.1; omega
  rw [Buf.rd_of (by have := h2.1; omega) a1, Option.bind_some, Buf.rd_of (by have := h2.1; omega) h2.2.1, Option.bind_some]
  split_ifs with hc
  · refine ⟨π1 * π2 * Equiv.swap mid hi, (f1.mul f2).mul (.swap m0 (le_of_lt m1) (le_of_lt hl) (le_refl hi)), ?_, ?_⟩
    · rw [swapAll_eq h2 m0 (le_of_lt m1) (le_of_lt hl) (le_refl hi), Option.bind_some, SortSt.pm_mul]
      rw [Buf.rd_of (by have := h2.1; omega) (by exact h2.2.1)]; rfl
    · rw [← SortSt.pm_mul]
      show lt ((s.pm (π1 * π2)).a.val (Equiv.swap mid hi mid)) ((s.pm (π1 * π2)).a.val (Equiv.swap mid hi hi)) = false
      rw [Equiv.swap_apply_left, Equiv.swap_apply_right]
      exact asym _ _ hc
  · refine ⟨π1 * π2, f1.mul f2, ?_, ?_⟩
    · rw [Option.bind_some, Buf.rd_of (by have := h2.1; omega) h2.2.1]; rfl
    · simpa using hc

theorem scanUp_spec {a : Buf α} {pivot : α} : ∀ (f : Nat) (i q : Int), -1 ≤ i → i < q → q < a.size → q - i ≤ f → lt (a.val q) pivot = false →
    ∃ r, scanUp lt a pivot f i = some r ∧ i < r ∧ r ≤ q ∧ lt (a.val r) pivot = false ∧ ∀ k, i < k → k < r → lt (a.val k) pivot = true
  | 0, i, q, _, h1, _, h3, _ => by omega
  | f + 1, i, q, h0, h1, h2, h3, h4 => by
    rw [scanUp, Buf.rd_of (by omega) (by omega), Option.bind_some]
    by_cases hc : lt (a.val (i + 1)) pivot = true
    · rw [if_pos hc]
      have hq : i + 1 ≠ q := by rintro rfl; rw [hc] at h4; cases h4
      obtain ⟨r, e, r0, r1, r2, r3⟩ := scanUp_spec f (i + 1) q (by omega) (by omega) h2 (by omega) h4
      refine ⟨r, e, by omega, r1, r2, fun k k0 k1 => ?_⟩
      by_cases hk : k = i + 1
      · rw [hk]; exact hc
      · exact r3 k (by omega) k1
    · rw [if_neg hc]
      exact ⟨i + 1, rfl, by omega, by omega, by simpa using hc, fun k k0 k1 => by omega⟩

theorem scanDown_spec {a : Buf α} {pivot : α} : ∀ (f : Nat) (j q : Int), j ≤ a.size → q < j → 0 ≤ q → j - q ≤ f → lt pivot (a.val q) = false →
    ∃ r, scanDown lt a pivot f j = some r ∧ r < j ∧ q ≤ r ∧ lt pivot (a.val r) = false ∧ ∀ k, r < k → k < j → lt pivot (a.val k) = true
  | 0, j, q, _, h1, _, h3, _ => by omega
  | f + 1, j, q, h0, h1, h2, h3, h4 => by
    rw [scanDown, Buf.rd_of (by omega) (by omega), Option.bind_some]
    by_cases hc : lt pivot (a.val (j - 1)) = true
    · rw [if_pos hc]
      have hq : j - 1 ≠ q := by rintro rfl; rw [hc] at h4; cases h4
      obtain ⟨r, e, r0, r1, r2, r3⟩ := scanDown_spec f (j - 1) q (by omega) (by omega) h2 (by omega) h4
      refine ⟨r, e, by omega, r1, r2, fun k k0 k1 => ?_⟩
      by_cases hk : k = j - 1
      · rw [hk]; exact hc
      · exact r3 k k0 (by omega)
    · rw [if_neg hc]
      exact ⟨j - 1, rfl, by omega, by omega, by simpa using hc, fun k k0 k1 => by omega⟩

/-- What a partition returns. -/
def Parted (lt : α → α → Bool) (pivot : α) (lo r hi : Int) (a : Buf α) : Prop :=
  (∀ k, lo ≤ k → k ≤ r → lt pivot (a.val k) = false) ∧ ∀ k, r < k → k ≤ hi → lt (a.val k) pivot = false

theorem swap_left {i j k : Int} (h : k < i) (hij : i < j) : Equiv.swap i j k = k := Equiv.swap_apply_of_ne_of_ne (by omega) (by omega)

theorem partLoop_spec (asym : ∀ x y, lt x y = true → lt y x = false) {pivot : α} {lo hi : Int} : ∀ (f : Nat) (i j : Int) (s : SortSt α), s.Has lo hi → lo ≤ i → i < j → j ≤ hi →
    j - i ≤ f → (∀ k, lo ≤ k → k ≤ i → lt pivot (s.a.val k) = false) → (∀ k, j ≤ k → k ≤ hi → lt (s.a.val k) pivot = false) →
    ∃ π r, FixOut lo hi π ∧ partLoop lt pivot f i j s = some (s.pm π, r) ∧ lo ≤ r ∧ r < hi ∧ Parted lt pivot lo r hi (s.pm π).a
  | 0, i, j, s, _, _, h1, _, h2, _, _ => by omega
  | f + 1, i, j, s, h, hi0, hij, hj, hf, hL, hR => by
    have hb := h.1
    have hb2 := h.2.1
    obtain ⟨i', ei, i0, i1, i2, i3⟩ := scanUp_spec (lt := lt) (a := s.a) (pivot := pivot) (s.a.size + 1) i j (by omega) hij (by omega) (by push_cast; omega) (hR j (le_refl _) hj)
    obtain ⟨j', ej, j0, j1, j2, j3⟩ := scanDown_spec (lt := lt) (a := s.a) (pivot := pivot) (s.a.size + 1) j i (by omega) hij (by omega) (by push_cast; omega) (hL i hi0 (le_refl _))
    rw [partLoop, ei, Option.bind_some, ej, Option.bind_some]
    have left : ∀ k, lo ≤ k → k < i' → lt pivot (s.a.val k) = false := by
      intro k k0 k1
      by_cases hk : k ≤ i
      · exact hL k k0 hk
      · exact asym _ _ (i3 k (by omega) k1)
    have right : ∀ k, j' < k → k ≤ hi → lt (s.a.val k) pivot = false := by
      intro k k0 k1
      by_cases hk : j ≤ k
      · exact hR k hk k1
      · exact asym _ _ (j3 k k0 (by omega))
    by_cases hc : i' ≥ j'
    · rw [if_pos hc]
      refine ⟨1, j', .one, by rw [s.pm_one], by omega, by omega, ?_, ?_⟩
      · intro k k0 k1
        rw [s.pm_one]
        by_cases hk : k = j'
        · rw [hk]; exact j2
        · exact left k k0 (by omega)
      · intro k k0 k1
        rw [s.pm_one]
        exact right k k0 k1
    · rw [if_neg hc, swapAll_eq h (by omega) (by omega) (by omega) (by omega), Option.bind_some]
      obtain ⟨π, r, fp, e, r0, r1, pr⟩ := partLoop_spec asym f i' j' (s.pm (Equiv.swap i' j')) (h.pm _) (by omega) (by omega) (by omega) (by omega)
        (fun k k0 k1 => by
          show lt pivot (s.a.val (Equiv.swap i' j' k)) = false
          by_cases hk : k = i'
          · rw [hk, Equiv.swap_apply_left]; exact j2
          · rw [Equiv.swap_apply_of_ne_of_ne hk (by omega)]; exact left k k0 (by omega))
        (fun k k0 k1 => by
          show lt (s.a.val (Equiv.swap i' j' k)) pivot = false
          by_cases hk : k = j'
          · rw [hk, Equiv.swap_apply_right]; exact i2
          · rw [Equiv.swap_apply_of_ne_of_ne (by omega) hk]; exact right k (by omega) k1)
      rw [SortSt.pm_mul] at e pr
      exact ⟨_, r, (FixOut.swap (by omega) (by omega) (by omega) (by omega)).mul fp, e, r0, r1, pr⟩

theorem partition_spec (asym : ∀ x y, lt x y = true → lt y x = false) {lo hi : Int} (hl : lo < hi) {s : SortSt α} (h : s.Has lo hi) :
    ∃ π r pivot, FixOut lo hi π ∧ partition lt lo hi s = some (s.pm π, r) ∧ lo ≤ r ∧ r < hi ∧ Parted lt pivot lo r hi (s.pm π).a := by
  have irr : ∀ x, lt x x = false := fun x => by
    by_contra hx
    have hx' : lt x x = true := by simpa using hx
    rw [asym x x hx'] at hx'; cases hx'
  obtain ⟨π0, f0, e0, hm⟩ := selectpivot_spec asym hl h
  have h' := h.pm π0
  have hb := h'.1
  have hb2 := h'.2.1
  generalize hpv : (s.pm π0).a.val hi = pivot at e0 hm
  generalize hs : s.pm π0 = s' at e0 hm hb2 h' hpv
  obtain ⟨i', ei, i0, i1, i2, i3⟩ := scanUp_spec (lt := lt) (a := s'.a) (pivot := pivot) (s'.a.size + 1) (lo - 1) ((lo + hi) / 2) (by omega) (by omega) (by omega)
    (by push_cast; omega) hm
  obtain ⟨j', ej, j0, j1, j2, j3⟩ := scanDown_spec (lt := lt) (a := s'.a) (pivot := pivot) (s'.a.size + 1) (hi + 1) hi (by omega) (by omega) (by omega) (by push_cast; omega)
    (by rw [hpv]; exact irr pivot)
  have hj' : j' = hi := by omega
  subst hj'
  unfold partition
  rw [e0, Option.bind_some]
  obtain ⟨f, hf⟩ : ∃ f, (j' - lo + 2).toNat = f + 1 := ⟨(j' - lo + 2).toNat - 1, by omega⟩
  simp only [hf]
  rw [partLoop, ei, Option.bind_some, ej, Option.bind_some, if_neg (by omega), swapAll_eq h' (by omega) (by omega) (by omega) (by omega), Option.bind_some]
  obtain ⟨π, r, fp, e, r0, r1, pr⟩ := partLoop_spec asym (pivot := pivot) f i' j' (s'.pm (Equiv.swap i' j')) (h'.pm _) (by omega) (by omega) (by omega) (by omega)
    (fun k k0 k1 => by
      show lt pivot (s'.a.val (Equiv.swap i' j' k)) = false
      by_cases hk : k = i'
      · rw [hk, Equiv.swap_apply_left]; exact j2
      · rw [Equiv.swap_apply_of_ne_of_ne hk (by omega)]; exact asym _ _ (i3 k (by omega) (by omega)))
    (fun k k0 k1 => by
      have hk : k = j' := by omega
      show lt (s'.a.val (Equiv.swap i' j' k)) pivot = false
      rw [hk, Equiv.swap_apply_right]; exact i2)
  subst hs
  refine ⟨π0 * (Equiv.swap i' j' * π), r, pivot, f0.mul ((FixOut.swap (by omega) (by omega) (by omega) (by omega)).mul fp), ?_, r0, r1, ?_⟩
  · rw [e, SortSt.pm_mul, SortSt.pm_mul]
  · rw [SortSt.pm_mul, SortSt.pm_mul] at pr; exact pr

theorem qsort_spec (asym : ∀ x y, lt x y = true → lt y x = false) : ∀ (f : Nat) (lo hi : Int) (s : SortSt α), s.Has lo hi → hi - lo < f → 0 < f →
    ∃ π, FixOut lo hi π ∧ qsort lt f lo hi s = some (s.pm π) ∧
      ((∀ x y z, lt x y = false → lt y z = false → lt x z = false) → ∀ i j, lo ≤ i → i < j → j ≤ hi → lt ((s.pm π).a.val j) ((s.pm π).a.val i) = false)
  | 0, _, _, _, _, _, h0 => absurd h0 (lt_irrefl 0)
  | f + 1, lo, hi, s, h, hf, _ => by
    rw [qsort]
    by_cases hl : lo < hi
    · rw [if_pos hl]
      obtain ⟨π0, r, pivot, f0, e0, r0, r1, pr⟩ := partition_spec asym hl h
      rw [e0, Option.bind_some]
      obtain ⟨π1, f1, e1, s1⟩ := qsort_spec asym f lo r (s.pm π0) ((h.pm π0).mono (le_refl _) (by omega)) (by push_cast at hf; omega) (by push_cast at hf; omega)
      rw [SortSt.pm_mul] at e1 s1
      simp only [e1, Option.bind_some]
      obtain ⟨π2, f2, e2, s2⟩ := qsort_spec asym f (r + 1) hi (s.pm (π0 * π1)) ((h.pm _).mono (by omega) (le_refl _)) (by push_cast at hf; omega) (by push_cast at hf; omega)
      rw [SortSt.pm_mul] at e2 s2
      refine ⟨π0 * π1 * π2, (f0.mul (f1.mono (le_refl _) (by omega))).mul (f2.mono (by omega) (le_refl _)), e2, fun nt i j i0 ij j1 => ?_⟩
      by_cases hi' : i ≤ r
      · have ei : (s.pm (π0 * π1 * π2)).a.val i = (s.pm (π0 * π1)).a.val i := by
          show s.a.val ((π0 * π1) (π2 i)) = _
          rw [f2 i (by omega)]; rfl
        by_cases hj' : j ≤ r
        · have ej : (s.pm (π0 * π1 * π2)).a.val j = (s.pm (π0 * π1)).a.val j := by
            show s.a.val ((π0 * π1) (π2 j)) = _
            rw [f2 j (by omega)]; rfl
          rw [ei, ej]
          exact s1 nt i j i0 ij hj'
        · have mj := f2.maps (k := j) (by omega) j1
          have mi := f1.maps (k := i) i0 hi'
          have ej : (s.pm (π0 * π1 * π2)).a.val j = (s.pm π0).a.val (π2 j) := by
            show s.a.val (π0 (π1 (π2 j))) = _
            rw [f1 (π2 j) (by omega)]; rfl
          rw [ei, ej]
          exact nt _ pivot _ (pr.2 _ (by omega) mj.2) (pr.1 _ mi.1 mi.2)
      · exact s2 nt i j (by omega) ij j1
    · rw [if_neg hl]
      exact ⟨1, .one, by rw [s.pm_one], fun _ i j i0 ij j1 => by omega⟩

end

end FT
