import Verif.Lemmas.HeapTb
import Verif.Model.HeapPlans
/-
Specifications of the constructors and destructors of plans.
-/
set_option linter.unusedVariables false
namespace FT.Heap

/-- `f` makes an object described by `P`. -/
def Makes (f : HM Val) (P : Val → Res → Prop) : Prop :=
  ∀ (R : Res) (h : Heap) (Q : Val → Heap → Prop), Sat h R → (∀ p h', Own (P p) R h' → Q p h') →
    WP f h Q

/-- A block from `malloc` or `calloc`. -/
def IsVec (p : Val) (m : Res) : Prop := ∃ i c, p = .ptr i 0 ∧ m = {(i, c)} ∧ c.tag = .libc

theorem freeVec_spec {p : Val} {m : Res} (H : IsVec p m) : Destroys free p m := by
  obtain ⟨i, c, rfl, rfl, h⟩ := H
  exact destroys_free h

theorem IsTB.ptr {n b : Int} {p : Val} {m : Res} (H : IsTB n b p m) : ∃ i, p = .ptr i 0 := by
  obtain ⟨i, _, _, _, e, _⟩ := H; exact ⟨i, e⟩

theorem IsTB.cell {n b : Int} {p : Val} {m : Res} (H : IsTB n b p m) :
    ∃ i c, p = .ptr i 0 ∧ (i, c) ∈ m ∧ c.val (.fld .n) = .int n ∧ c.val (.fld .b) = .int b := by
  obtain ⟨i, d, c, cd, rfl, rfl, _, _, h1, h2, h3⟩ := H
  exact ⟨i, c, rfl, by simp, h2, h3⟩

/-! ### Pencils -/

theorem makes_callocTB {n b : Int} (h0 : 0 ≤ n) (h1 : 0 ≤ b) : Makes (callocTB n b) (IsTB n b) :=
  fun _ _ _ S K => callocTB_spec S h0 h1 K

theorem makes_createAJacobi {n : Int} (h0 : 0 ≤ n) : Makes (createAJacobi n) (IsTB n 2) := by
  intro R h Q S K
  unfold createAJacobi
  refine wp_bind (callocBanded_spec (by assumption) (by positivity) ?_)
  intro A h1 ⟨mA, hA, S1⟩
  refine wp_bind (callocBanded_spec (by assumption) (by rw [show (-1 + 1 + 1 : Int) = 1 by rfl]; positivity) ?_)
  intro D1 h2 ⟨mD1, hD1, S2⟩
  refine wp_bind (callocBanded_spec (by assumption) (by rw [show (-2 + 2 + 1 : Int) = 1 by rfl]; positivity) ?_)
  intro D2 h3 ⟨mD2, hD2, S3⟩
  refine wp_bind (callocBanded_spec (by assumption) (by positivity) ?_)
  intro L1 h4 ⟨mL1, hL1, S4⟩
  refine wp_bind (callocBanded_spec (by assumption) (by positivity) ?_)
  intro M1 h5 ⟨mM1, hM1, S5⟩
  refine wp_bind (useBanded_spec (by assumption) (hL1.liveAt.mono (by fle)) ?_)
  refine wp_bind (useBanded_spec (by assumption) (hD2.liveAt.mono (by fle)) ?_)
  refine wp_bind (useBanded_spec (by assumption) (hA.liveAt.mono (by fle)) ?_)
  refine wp_bind (useBanded_spec (by assumption) (hD1.liveAt.mono (by fle)) ?_)
  refine wp_bind (useBanded_spec (by assumption) (hM1.liveAt.mono (by fle)) ?_)
  refine wp_bind ((destroyBanded_spec hD1).run (by assumption) (by fnd) fun _ _ => ?_)
  refine wp_bind ((destroyBanded_spec hD2).run (by assumption) (by fnd) fun _ _ => ?_)
  refine wp_bind ((destroyBanded_spec hL1).run (by assumption) (by fnd) fun _ _ => ?_)
  refine wp_bind ((destroyBanded_spec hM1).run (by assumption) (by fnd) fun _ _ => ?_)
  exact convertBandedToTB_spec hA (by assumption) (by fnd) h0 (by norm_num) K

theorem makes_createBJacobi {n : Int} (h0 : 0 ≤ n) : Makes (createBJacobi n) (IsTB n 2) := by
  intro R h Q S K
  unfold createBJacobi
  refine wp_bind (callocBanded_spec (by assumption) (by positivity) ?_)
  intro A h1 ⟨mA, hA, S1⟩
  refine wp_bind (useBanded_spec (by assumption) (hA.liveAt.mono (by fle)) ?_)
  exact convertBandedToTB_spec hA (by assumption) (by fnd) h0 (by norm_num) K

theorem makes_createBLaguerre {n : Int} (h0 : 0 ≤ n) : Makes (createBLaguerre n) (IsTB n 1) := by
  intro R h Q S K
  unfold createBLaguerre
  refine wp_bind (callocBanded_spec (by assumption) (by positivity) ?_)
  intro A h1 ⟨mA, hA, S1⟩
  refine wp_bind (useBanded_spec (by assumption) (hA.liveAt.mono (by fle)) ?_)
  exact convertBandedToTB_spec hA (by assumption) (by fnd) h0 (by norm_num) K

/-- The two blocks of `D2` survive. -/
theorem createBAssocHermite_spec {n : Int} {R : Res} {h : Heap} {Q : Val → Heap → Prop}
    (h0 : 0 ≤ n) (S : Sat h R)
    (K : ∀ p h' L, L.card = 2 → Own (IsTB n 2 p) (L + R) h' → Q p h') :
    WP (createBAssocHermite n) h Q := by
  unfold createBAssocHermite
  refine wp_bind (callocBanded_spec (by assumption) (by positivity) ?_)
  intro A h1 ⟨mA, hA, S1⟩
  refine wp_bind (callocBanded_spec (by assumption) (by rw [show (-2 + 2 + 1 : Int) = 1 by rfl]; positivity) ?_)
  intro D2 h3 ⟨mD2, hD2, S3⟩
  refine wp_bind (useBanded_spec (by assumption) (hA.liveAt.mono (by fle)) ?_)
  refine wp_bind (useBanded_spec (by assumption) (hD2.liveAt.mono (by fle)) ?_)
  have hc : mD2.card = 2 := by
    obtain ⟨i, d, c, cd, _, rfl, _⟩ := hD2
    rfl
  exact convertBandedToTB_spec hA (by assumption) (by fnd) h0 (by norm_num)
    fun p h' H => K p h' mD2 hc H

/-- `f` run with enough fuel. -/
def WPF {α : Type} (f : Nat → HM α) (h : Heap) (Q : α → Heap → Prop) : Prop :=
  ∃ k, ∀ fuel, k ≤ fuel → WP (f fuel) h Q

theorem wpf_bind {α β : Type} {m : HM α} {f : Nat → α → HM β} {h : Heap} {Q : β → Heap → Prop}
    (H : WP m h fun a h' => WPF (fun fuel => f fuel a) h' Q) :
    WPF (fun fuel => m >>= f fuel) h Q := by
  obtain ⟨a, h', e, k, hk⟩ := H
  exact ⟨k, fun fuel hf => wp_bind ⟨a, h', e, hk fuel hf⟩⟩

theorem DestroysF.runBind {d : Nat → Val → HM Unit} {p : Val} {m M R : Res} {h : Heap} {β : Type}
    {f : HM β} {Q : β → Heap → Prop} (D : DestroysF d p m) (H : Sat h M) (e : M = m + R)
    (K : ∀ h', Sat h' R → WP f h' Q) : WPF (fun fuel => d fuel p >>= fun _ => f) h Q := by
  obtain ⟨k, hk⟩ := D
  exact ⟨k, fun fuel hf => wp_bind ((hk fuel hf).run H e fun h' S => K h' S)⟩

theorem connPlan_spec {T : Nat} {sh2 sh : Int → Int → TbShape} {n b1 b2 : Int} {mkA mkB : HM Val}
    {fuel : Nat} (hf : n.toNat < fuel)
    (h0 : 0 ≤ n) (hb1 : 0 ≤ b1) (hb2 : 0 ≤ b2) (hA : Makes mkA (IsTB n b1))
    (hB : Makes mkB (IsTB n b2)) {R : Res} {h : Heap} (S : Sat h R) {Q : Val → Heap → Prop}
    (K : ∀ p h', Own (IsFmm n p) R h' → Q p h') :
    WPF (fun fd => connPlan T sh2 sh fuel fd n mkA mkB) h Q := by
  unfold connPlan
  refine wpf_bind (hA _ _ _ (by assumption) ?_)
  intro A h1 ⟨mA, hmA, S1⟩
  refine wpf_bind (hB _ _ _ (by assumption) ?_)
  intro B h2 ⟨mB, hmB, S2⟩
  refine wpf_bind ?_
  hs
  refine wpf_bind ?_
  hs
  refine wpf_bind (tbEigFMM_spec T sh2 fuel n b1 b2 0 _ _ _ _ _ _ hf h0 hb1 hb2 (by assumption)
    (hmA.tbin.mono (by fle)) (hmB.tbin.mono (by fle)) ⟨_, _, _, rfl, by fmem⟩ ?_)
  intro F2 h3 ⟨m2, hm2, S3⟩
  refine wpf_bind (dropTbFMM_spec T sh fuel n 0 _ _ _ _ _ hf (by assumption) hm2 (by fle) ?_)
  intro F h4 ⟨m, hm, S4⟩
  refine wpf_bind ((destroyTB_spec hmA).run (by assumption) (by fnd) fun _ _ => ?_)
  refine wpf_bind ((destroyTB_spec hmB).run (by assumption) (by fnd) fun _ _ => ?_)
  refine (destroyTbFMM_spec hm2).runBind (by assumption) (by fnd) fun _ _ => ?_
  hss
  exact wp_pure (K _ _ ⟨m, hm, by assumption⟩)

theorem makes_densePlan {n b1 b2 : Int} {mkA mkB : HM Val} (h0 : 0 ≤ n)
    (hA : Makes mkA (IsTB n b1)) (hB : Makes mkB (IsTB n b2)) :
    Makes (densePlan n mkA mkB) IsVec := by
  intro R h Q S K
  unfold densePlan
  refine wp_bind (hA _ _ _ (by assumption) ?_)
  intro A h1 ⟨mA, hmA, S1⟩
  refine wp_bind (hB _ _ _ (by assumption) ?_)
  intro B h2 ⟨mB, hmB, S2⟩
  hs
  hs
  refine wp_bind (useBanded_spec (by assumption) (hmA.tbin.liveAt.mono (by fle)) ?_)
  refine wp_bind (useBanded_spec (by assumption) (hmB.tbin.liveAt.mono (by fle)) ?_)
  hss
  refine wp_bind ((destroyTB_spec hmA).run (by assumption) (by fnd) fun _ _ => ?_)
  refine wp_bind ((destroyTB_spec hmB).run (by assumption) (by fnd) fun _ _ => ?_)
  hss
  exact wp_pure (K _ _ ⟨_, ⟨_, _, rfl, rfl, rfl⟩, by assumption⟩)

theorem makes_scaledDense {n : Int} {skip : Bool} {mk : HM Val} (h0 : 0 ≤ n)
    (H : Makes mk IsVec) : Makes (scaledDense skip n mk) IsVec := by
  intro R h Q S K
  unfold scaledDense
  refine wp_bind (H _ _ _ (by assumption) ?_)
  intro V h1 ⟨m, hm, S1⟩
  cases skip with
  | true => exact wp_pure (K _ _ ⟨m, hm, S1⟩)
  | false =>
    refine wp_if_neg (by simp) ?_
    have hm' := hm
    obtain ⟨i, c, rfl, rfl, t⟩ := hm
    hss
    exact wp_pure (K _ _ ⟨_, hm', by assumption⟩)

theorem scaledPlan_spec {n : Int} {skip : Bool} {mk : Nat → HM Val} (h0 : 0 ≤ n)
    (H : ∀ (R : Res) (h : Heap) (Q : Val → Heap → Prop), Sat h R →
      (∀ p h', Own (IsFmm n p) R h' → Q p h') → WPF mk h Q) {R : Res} {h : Heap} (S : Sat h R)
    {Q : Val → Heap → Prop} (K : ∀ p h', Own (IsFmm n p) R h' → Q p h') :
    WPF (fun fd => scaledPlan skip n (mk fd)) h Q := by
  have := H R h (fun F h' => WP (if skip then pure F
    else do
      let scl ← malloc n
      use scl
      let _ ← ldn F .n
      free scl
      pure F : HM Val) h' Q) S ?_
  · obtain ⟨k, hk⟩ := this
    exact ⟨k, fun fuel hf => wp_bind (hk fuel hf)⟩
  · intro F h' ⟨m, hm, S'⟩
    cases skip with
    | true => exact wp_pure (K _ _ ⟨m, hm, S'⟩)
    | false =>
      refine wp_if_neg (by simp) ?_
      obtain ⟨i, c, l, cl, rfl, mi, fl, ml, fn⟩ := hm.lam
      hss
      exact wp_pure (K _ _ ⟨_, hm, by assumption⟩)

end FT.Heap
