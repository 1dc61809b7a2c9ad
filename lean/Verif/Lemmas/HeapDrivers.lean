import Verif.Model.HeapDrivers
import Verif.Lemmas.HeapBlock
import Verif.Lemmas.HeapIso
import Mathlib.Tactic.Linarith
/-
Specifications of the concrete pencils and plans.
-/
set_option linter.unusedVariables false
namespace FT.Heap

theorem makes_directTB {n b : Int} (h0 : 0 ≤ n) (h1 : 0 ≤ b) : Makes (directTB n b) (IsTB n b) := by
  intro R h Q S K
  unfold directTB
  refine wp_bind (callocTB_spec S h0 h1 ?_)
  intro A g ⟨m, hm, S1⟩
  refine wp_bind (useBanded_spec S1 (hm.tbin.liveAt.mono (by fle)) ?_)
  exact wp_pure (K _ _ ⟨m, hm, S1⟩)

/-- The banded matrices of a list, owning `m`. -/
inductive IsTemps : List Val → Res → Prop
  | nil : IsTemps [] 0
  | cons {p : Val} {ps : List Val} {m ms : Res} {mm n l u : Int} (H : IsBanded mm n l u p m)
    (T : IsTemps ps ms) : IsTemps (p :: ps) (m + ms)

theorem createTemps_spec : ∀ (ss : List Dims) (R : Res) (h : Heap) (Q : List Val → Heap → Prop),
    (∀ s ∈ ss, 0 ≤ s.n * (s.l + s.u + 1)) → Sat h R →
    (∀ ps h', Own (IsTemps ps) R h' → Q ps h') → WP (createTemps ss) h Q
  | [], R, h, Q, _, S, K => wp_pure (K _ _ ⟨0, .nil, by rwa [zero_add]⟩)
  | s :: ss, R, h, Q, H, S, K => by
    unfold createTemps
    refine wp_bind (callocBanded_spec S (H s (by simp)) ?_)
    intro p h1 ⟨m, hm, S1⟩
    refine wp_bind (createTemps_spec ss _ _ _ (fun s' hs => H s' (by simp [hs])) S1 ?_)
    intro ps h2 ⟨ms, hms, S2⟩
    exact wp_pure (K _ _ ⟨m + ms, .cons hm hms, S2.perm (by abel)⟩)

theorem useTemps_spec {M : Res} {h : Heap} (S : Sat h M) : ∀ (ps : List Val) (m : Res)
    (Q : Unit → Heap → Prop), IsTemps ps m → m ≤ M → Q () h → WP (useTemps ps) h Q
  | [], m, Q, _, _, K => wp_pure K
  | p :: ps, m, Q, H, e, K => by
    cases H with
    | cons hp hps =>
      unfold useTemps
      refine wp_bind (useBanded_spec S (hp.liveAt.mono (le_trans (Multiset.le_add_right ..) e)) ?_)
      exact useTemps_spec S ps _ Q hps (le_trans (Multiset.le_add_left ..) e) K

theorem destroyTemps_spec : ∀ (ps : List Val) (m : Res), IsTemps ps m →
    ∀ (R : Res) (h : Heap) (Q : Unit → Heap → Prop), Sat h (m + R) → (∀ h', Sat h' R → Q () h') →
    WP (destroyTemps ps) h Q
  | [], m, H, R, h, Q, S, K => by
    cases H
    exact wp_pure (K _ (by rwa [zero_add] at S))
  | p :: ps, m, H, R, h, Q, S, K => by
    cases H with
    | cons hp hps =>
      unfold destroyTemps
      refine wp_bind ((destroyBanded_spec hp).run S (add_assoc ..) fun h1 S1 => ?_)
      exact destroyTemps_spec ps _ hps R h1 Q S1 K

theorem makes_pencilTemps {n u : Int} {temps : List Dims} (h0 : 0 ≤ n) (hu : 0 ≤ u)
    (H : ∀ s ∈ temps, 0 ≤ s.n * (s.l + s.u + 1)) : Makes (pencilTemps n u temps) (IsTB n u) := by
  intro R h Q S K
  unfold pencilTemps
  refine wp_bind (callocBanded_spec S (by positivity) ?_)
  intro A h1 ⟨mA, hA, S1⟩
  refine wp_bind (createTemps_spec temps _ _ _ H S1 ?_)
  intro ts h2 ⟨mt, ht, S2⟩
  refine wp_bind (useTemps_spec S2 ts mt _ ht (by fle) ?_)
  refine wp_bind (useBanded_spec S2 (hA.liveAt.mono (by fle)) ?_)
  refine wp_bind (destroyTemps_spec ts mt ht _ _ _ S2 fun h3 S3 => ?_)
  exact convertBandedToTB_spec hA S3 rfl h0 hu K

theorem makes_assocJacobiA {n : Int} (h0 : 0 ≤ n) : Makes (assocJacobiA n) (IsTB n 4) :=
  makes_pencilTemps h0 (by norm_num) (by simp; omega)
theorem makes_assocJacobiB {n : Int} (h0 : 0 ≤ n) : Makes (assocJacobiB n) (IsTB n 4) :=
  makes_pencilTemps h0 (by norm_num) (by simp; omega)
theorem makes_assocJacobiC {n : Int} (h0 : 0 ≤ n) : Makes (assocJacobiC n) (IsTB n 4) :=
  makes_pencilTemps h0 (by norm_num) (by simp; omega)
theorem makes_assocLaguerreA {n : Int} (h0 : 0 ≤ n) : Makes (assocLaguerreA n) (IsTB n 4) :=
  makes_pencilTemps h0 (by norm_num) (by simp; omega)
theorem makes_assocLaguerreB {n : Int} (h0 : 0 ≤ n) : Makes (assocLaguerreB n) (IsTB n 3) :=
  makes_pencilTemps h0 (by norm_num) (by simp; omega)
theorem makes_assocLaguerreC {n : Int} (h0 : 0 ≤ n) : Makes (assocLaguerreC n) (IsTB n 2) :=
  makes_pencilTemps h0 (by norm_num) (by simp; omega)
theorem makes_assocHermiteA {n : Int} (h0 : 0 ≤ n) : Makes (assocHermiteA n) (IsTB n 4) :=
  makes_pencilTemps h0 (by norm_num) (by simp; omega)

theorem makes_denseDirect {n : Int} (h0 : 0 ≤ n) : Makes (denseDirect n) IsVec :=
  makes_densePlan h0 (makes_directTB h0 (by norm_num)) (makes_directTB h0 (by norm_num))
theorem makes_denseJacobi {n : Int} (h0 : 0 ≤ n) : Makes (denseJacobi n) IsVec :=
  makes_densePlan h0 (makes_createAJacobi h0) (makes_createBJacobi h0)
theorem makes_denseLaguerre {n : Int} (h0 : 0 ≤ n) : Makes (denseLaguerre n) IsVec :=
  makes_densePlan h0 (makes_directTB h0 (by norm_num)) (makes_createBLaguerre h0)
theorem makes_denseScaled {b : Bool} {n : Int} (h0 : 0 ≤ n) : Makes (denseScaled b n) IsVec :=
  makes_scaledDense h0 (makes_denseJacobi h0)
theorem makes_denseScaled2 {b1 b2 : Bool} {n : Int} (h0 : 0 ≤ n) :
    Makes (denseScaled2 b1 b2 n) IsVec :=
  makes_scaledDense h0 (makes_denseScaled h0)

theorem makes_annulusMP0 {n : Int} (h0 : 0 ≤ n) : Makes (annulusMP0 n) IsMod := by
  intro R h Q S K
  unfold annulusMP0
  hs
  refine wp_bind (makes_directTB h0 le_rfl _ _ _ (by assumption) ?_)
  intro T g2 ⟨mT, hT, S2⟩
  hss
  exact wp_pure (K _ _ (IsMod.poly hT (show (0 : Int) < 1 by norm_num) (by assumption) (by fnd)
    (by tg) (by getv) (by getv)))

theorem makes_annulusMP1 {n : Int} (h0 : 0 ≤ n) : Makes (annulusMP1 n) IsMod := by
  intro R h Q S K
  unfold annulusMP1
  refine wp_bind (callocBanded_spec S (by positivity) ?_)
  intro U g1 ⟨mU, hU, S1⟩
  refine wp_bind (useBanded_spec S1 (hU.liveAt.mono (by fle)) ?_)
  hs
  refine wp_bind (convertBandedToTB_spec hU (by assumption) (by fnd) h0 (by omega) ?_)
  intro T g2 ⟨mT, hT, S2⟩
  hss
  exact wp_pure (K _ _ (IsMod.poly hT (show (0 : Int) < 1 by norm_num) (by assumption) (by fnd)
    (by tg) (by getv) (by getv)))

theorem tri_nonneg {n : Int} (h0 : 0 ≤ n) : 0 ≤ n * (n + 1) / 2 :=
  Int.ediv_nonneg (by positivity) (by norm_num)

theorem buf_nonneg {n : Int} (a b : Int) (h0 : 0 ≤ n) (hab : b ≤ a) (ha : 0 ≤ a) :
    0 ≤ n * (a * n - b) := by
  rcases eq_or_lt_of_le h0 with h | h
  · subst h; simp
  · have : 1 ≤ n := h
    refine mul_nonneg h0 ?_
    nlinarith

theorem makes_planSph2fourier {n : Int} (h0 : 0 ≤ n) : Makes (planSph2fourier n) IsHarm :=
  makes_planHarmonic (buf_nonneg 2 1 h0 (by norm_num) (by norm_num))
    (by simp only [List.mem_singleton, forall_eq]; exact makes_planRotation (tri_nonneg h0))
    (by simp) (by simpa using makes_denseDirect h0) (by simpa using makes_denseDirect h0)
    (by simp) (by simp) rfl

theorem makes_planTri2cheb {n : Int} (h0 : 0 ≤ n) : Makes (planTri2cheb n) IsHarm :=
  makes_planHarmonic (by positivity)
    (by simp only [List.mem_singleton, forall_eq]; exact makes_planRotation (tri_nonneg h0))
    (by simp) (by simpa using makes_denseJacobi h0) (by simpa using makes_denseJacobi h0)
    (by simp) (by simp) rfl

theorem makes_planDisk2cxf {n : Int} (h0 : 0 ≤ n) : Makes (planDisk2cxf n) IsHarm :=
  makes_planHarmonic (buf_nonneg 4 3 h0 (by norm_num) (by norm_num))
    (by simp only [List.mem_singleton, forall_eq]; exact makes_planRotation (by positivity))
    (by simp) (by simpa using ⟨makes_denseScaled h0, makes_denseJacobi h0⟩)
    (by simpa using ⟨makes_denseScaled h0, makes_denseJacobi h0⟩)
    (by simp) (by simp) rfl

theorem makes_planAnn2cxf {n : Nat} (h1 : 1 ≤ n) : Makes (planAnn2cxf n) IsHarm :=
  makes_planHarmonic (buf_nonneg 4 3 (by positivity) (by norm_num) (by norm_num))
    (by simp only [List.mem_singleton, forall_eq]; exact makes_planRotAnnulus h1)
    (by simpa using ⟨makes_annulusMP0 (by positivity), makes_annulusMP1 (by positivity)⟩)
    (by simpa using makes_denseScaled (by positivity))
    (by simpa using makes_denseScaled (by positivity))
    (by simp) (by simp) rfl

theorem makes_planRectdisk2cheb {n : Int} (h0 : 0 ≤ n) : Makes (planRectdisk2cheb n) IsHarm :=
  makes_planHarmonic (by positivity)
    (by simp only [List.mem_singleton, forall_eq]; exact makes_planRotation (tri_nonneg h0))
    (by simp) (by simpa using ⟨makes_denseScaled2 h0, makes_denseDirect h0, makes_denseScaled2 h0⟩)
    (by simpa using ⟨makes_denseScaled2 h0, makes_denseDirect h0, makes_denseScaled2 h0⟩)
    (by simp) (by simp) rfl

theorem makes_planTet2cheb {n : Int} (h0 : 0 ≤ n) : Makes (planTet2cheb n) IsHarm :=
  makes_planHarmonic (by positivity)
    (by simpa using makes_planRotation (tri_nonneg h0))
    (by simp) (by simpa using makes_denseJacobi h0) (by simpa using makes_denseJacobi h0)
    (by simp) (by simp) rfl

theorem makes_planSpinsph2fourier {n s : Int} (h0 : 0 ≤ n) :
    Makes (planSpinsph2fourier n s) IsSpinHarm :=
  makes_planSpinHarmonic h0 (buf_nonneg 2 1 h0 (by norm_num) (by norm_num))
    (makes_denseDirect h0) (makes_denseDirect h0) (makes_denseDirect h0) (makes_denseDirect h0)

/-! ### From ownership to heaps -/

theorem sat_of_wf {h : Heap} (H : h.WF) : ∃ M, Sat h M := by
  refine ⟨(Multiset.range h.next).filterMap fun i => (h.cell i).map fun c => (i, c), ?_, ?_, ?_⟩
  · rw [Multiset.map_filterMap]
    have e : (fun i => Option.map Prod.fst ((h.cell i).map fun c => (i, c))) =
        fun i => if (h.cell i).isSome then some i else none := by
      funext i
      cases h.cell i <;> rfl
    rw [e]
    refine Multiset.Nodup.filterMap _ ?_ (Multiset.nodup_range _)
    intro a a' b
    by_cases h1 : (h.cell a).isSome <;> by_cases h2 : (h.cell a').isSome <;> simp [h1, h2]
    rintro rfl rfl; rfl
  · intro i c
    rw [Multiset.mem_filterMap]
    constructor
    · intro e
      refine ⟨i, Multiset.mem_range.2 ?_, by rw [e]; rfl⟩
      by_contra hc
      rw [H i (by omega)] at e
      exact nomatch e
    · rintro ⟨j, _, e⟩
      cases hj : h.cell j with
      | none => rw [hj] at e; exact nomatch e
      | some d =>
        rw [hj] at e
        simp only [Option.map_some, Option.some.injEq, Prod.mk.injEq] at e
        rw [← e.1, hj, e.2]
  · intro x hx
    obtain ⟨j, hj, e⟩ := (Multiset.mem_filterMap _ _).1 hx
    cases hc : h.cell j with
    | none => rw [hc] at e; exact nomatch e
    | some d =>
      rw [hc] at e
      simp only [Option.map_some, Option.some.injEq] at e
      rw [← e]
      exact Multiset.mem_range.1 hj

theorem Sat.unique {h h' : Heap} {M : Res} (H : Sat h M) (H' : Sat h' M) : h'.cell = h.cell := by
  funext i
  apply Option.ext
  intro c
  rw [H.cell, H'.cell]

end FT.Heap
