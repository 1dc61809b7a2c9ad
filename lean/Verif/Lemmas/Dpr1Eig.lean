import Verif.Lemmas.Dpr1Mv

/-! # Lemmas on the two deflations, the permutations and the assembly of the eigendecomposition of a rank-one update -/

namespace FT
variable {K α : Type*}

theorem firstIdx_spec {n : Int} {c : Int → Option Bool} {b : Int → Bool} (hn : 0 ≤ n) (hc : ∀ i, 0 ≤ i → i < n → c i = some (b i)) :
    ∃ i, firstIdx n c = some i ∧ 0 ≤ i ∧ i ≤ n ∧ (∀ k, 0 ≤ k → k < i → b k = false) ∧ (i < n → b i = true) := by
  unfold firstIdx
  obtain ⟨s, e, p⟩ := forUp_spec (lo := 0) (hi := n) (s := ((false, 0) : Bool × Int))
    (body := fun i (s : Bool × Int) => if s.1 then some s else (c i).map fun b => if b then (true, i) else (false, i + 1))
    (fun j s => 0 ≤ s.2 ∧ s.2 ≤ j ∧ (∀ k, 0 ≤ k → k < s.2 → b k = false) ∧ (s.1 = true → s.2 < j ∧ b s.2 = true) ∧ (s.1 = false → s.2 = j))
    ⟨le_refl _, le_refl _, fun k _ _ => by simp only at *; omega, fun h => by simp at h, fun _ => rfl⟩
    (fun j j0 j1 s ⟨h1, h2, h3, h4, h5⟩ => by
      cases hs : s.1 with
      | true =>
        refine ⟨s, by simp [hs], h1, by omega, h3, fun _ => ?_, fun h => by rw [hs] at h; cases h⟩
        have := h4 hs
        exact ⟨by omega, this.2⟩
      | false =>
        have h6 := h5 hs
        cases hb : b j with
        | true =>
          refine ⟨(true, j), by rw [if_neg (by decide), hc j j0 j1]; simp [hb], j0, by simp only; omega, fun k k0 k1 => h3 k k0 (by simp only at k1; omega), fun _ => ⟨by simp only; omega, hb⟩, fun h => by simp at h⟩
        | false =>
          refine ⟨(false, j + 1), by rw [if_neg (by decide), hc j j0 j1]; simp [hb], by simp only; omega, le_refl _, fun k k0 k1 => ?_, fun h => by simp at h, fun _ => rfl⟩
          simp only at k1
          by_cases hk : k = j
          · rw [hk, hb]
          · exact h3 k k0 (by omega))
  rw [e]
  refine ⟨s.2, rfl, p.1, ?_, p.2.2.1, fun h => ?_⟩
  · have := p.2.1; omega
  · cases hs : s.1 with
    | true => exact (p.2.2.2.1 hs).2
    | false => have := p.2.2.2.2 hs; omega

theorem iotaB_eq {n : Int} (ji : Int → Int) : iotaB n ji = some (mix ⟨n.toNat, ji⟩ 0 n fun k => k) :=
  sweepUp_eq _ (le_refl _) (by show n ≤ ((n.toNat : Nat) : Int); omega) fun i _ _ => rfl

theorem quicksort_pm {lt : α → α → Bool} (asym : ∀ x y, lt x y = true → lt y x = false) (tr : ∀ x y z, lt x y = false → lt y z = false → lt x z = false) {lo hi : Int} {s : SortSt α}
    (h : s.Has lo hi) : ∃ π, FixOut lo hi π ∧ quicksort lt lo hi s = some (s.pm π) ∧ ∀ i j, lo ≤ i → i < j → j ≤ hi → lt (s.a.val (π j)) (s.a.val (π i)) = false := by
  obtain ⟨π, f, e, hs⟩ := qsort_spec asym ((hi - lo).toNat + 1) lo hi s h (by push_cast; omega) (Nat.succ_pos _)
  exact ⟨π, f, e, hs tr⟩

section Ordered
variable [Field K] [LinearOrder K]

theorem ltK_asym (x y : K) (h : ltK x y = true) : ltK y x = false := by
  unfold ltK at *; rw [decide_eq_true_eq] at h; exact decide_eq_false (not_lt.2 (le_of_lt h))
theorem ltK_trans (x y z : K) (h : ltK x y = false) (g : ltK y z = false) : ltK x z = false := by
  unfold ltK at *; rw [decide_eq_false_iff_not] at *; exact not_lt.2 (le_trans (not_lt.1 g) (not_lt.1 h))
theorem ltabsK_asym (x y : K) (h : ltabsK x y = true) : ltabsK y x = false := ltK_asym _ _ h
theorem ltabsK_trans (x y z : K) (h : ltabsK x y = false) (g : ltabsK y z = false) : ltabsK x z = false := ltK_trans _ _ _ h g

theorem shiftDown_spec {iz n : Int} {d : Buf K} (h0 : 0 ≤ iz) (h1 : iz ≤ n) (hd : n ≤ d.size) :
    ∃ d', shiftDown iz n d = some d' ∧ d'.size = d.size ∧ ∀ k, 0 ≤ k → k < n - iz → d'.val k = d.val (k + iz) := by
  unfold shiftDown
  obtain ⟨s, e, p1, p2, p3⟩ := forUp_spec (lo := iz) (hi := n) (s := d) (body := fun i d => (d.rd i).bind fun v => d.wr (i - iz) v)
    (fun i s => s.size = d.size ∧ (∀ k, 0 ≤ k → k < i - iz → s.val k = d.val (k + iz)) ∧ ∀ k, i - iz ≤ k → s.val k = d.val k)
    ⟨rfl, fun k _ _ => by omega, fun _ _ => rfl⟩
    (fun i i0 i1 s ⟨p1, p2, p3⟩ => by
      refine ⟨⟨s.size, Function.update s.val (i - iz) (s.val i)⟩, ?_, p1, fun k k0 k1 => ?_, fun k k0 => ?_⟩
      · rw [Buf.rd_of (by omega) (by omega), Option.bind_some, Buf.wr_of (by omega) (by omega)]
      · show Function.update _ _ _ _ = _
        by_cases hk : k = i - iz
        · rw [hk, Function.update_self, p3 i (by omega), sub_add_cancel]
        · rw [Function.update_of_ne hk]; exact p2 k k0 (by omega)
      · show Function.update _ _ _ _ = _
        rw [Function.update_of_ne (by omega)]; exact p3 k (by omega))
  exact ⟨s, e, p1, fun k k0 k1 => p2 k k0 (by omega)⟩

/-- The first deflation. -/
theorem deflate_spec {sqrt : K → K} {eps w : K} (hw : 0 ≤ w) {A : Dpr1 K} {p : Buf Int} [IsStrictOrderedRing K] (hn : 0 ≤ A.n) (hd : A.n ≤ A.d.size) (hz : A.n ≤ A.z.size) (hp : A.n ≤ p.size) :
    ∃ (A' : Dpr1 K) (π : Equiv.Perm Int) (iz : Int), deflate sqrt eps w A p = some (A', p.pm π) ∧ FixOut 0 (A.n - 1) π ∧ 0 ≤ iz ∧ iz ≤ A.n ∧ A'.n = A.n - iz ∧ A'.rho = A.rho ∧
      A'.d.size = A.d.size ∧ A'.z.size = A.z.size ∧ (∀ k, 0 ≤ k → k < A.n - iz → A'.d.val k = A.d.val (π (k + iz)) ∧ A'.z.val k = A.z.val (π (k + iz))) ∧
      (∀ k, 0 ≤ k → k < iz → |A.z.val (π k)| ≤ sqrt w * sqrt (∑ i ∈ Finset.Ico 0 A.n, A.z.val i * A.z.val i) * eps) ∧
      (∀ k, iz ≤ k → k < A.n → sqrt w * sqrt (∑ i ∈ Finset.Ico 0 A.n, A.z.val i * A.z.val i) * eps < |A.z.val (π k)|) ∧
      ∀ k l, 0 ≤ k → k < l → l < A.n - iz → A'.d.val k ≤ A'.d.val l := by
  unfold deflate
  rw [accUp_eq (g := fun i => A.z.val i * A.z.val i) fun i i0 i1 => by rw [Buf.rd_of i0 (by omega)]; rfl, Option.bind_some, zero_add]
  have hs : ¬ ∑ i ∈ Finset.Ico 0 A.n, A.z.val i * A.z.val i < 0 := not_lt.2 (Finset.sum_nonneg fun i _ => mul_self_nonneg _)
  unfold sqrtC
  rw [if_neg hs, Option.bind_some, if_neg (not_lt.2 hw)]
  generalize sqrt (∑ i ∈ Finset.Ico 0 A.n, A.z.val i * A.z.val i) = nz
  obtain ⟨π1, f1, e1, o1⟩ := quicksort_pm (lt := ltabsK) ltabsK_asym ltabsK_trans (lo := 0) (hi := A.n - 1) (s := ⟨A.z, [A.d], p⟩)
    ⟨le_refl _, by simp only; omega, fun c hc => by simp only [List.mem_singleton] at hc; subst hc; omega, by simp only; omega⟩
  simp only [e1, SortSt.pm, List.map_cons, List.map_nil, List.getElem?_cons_zero, Option.bind_some]
  obtain ⟨iz, e2, z0, z1, below, at_⟩ := firstIdx_spec (n := A.n) (c := fun i => ((A.z.pm π1).rd i).map fun zi => decide (|zi| > sqrt w * nz * eps))
    (b := fun i => decide (|A.z.val (π1 i)| > sqrt w * nz * eps)) hn (fun i i0 i1 => by rw [Buf.rd_of i0 (by show i < (A.z.size : Int); omega)]; rfl)
  obtain ⟨π2, f2, e3, o3⟩ := quicksort_pm (lt := ltK) ltK_asym ltK_trans (lo := iz) (hi := A.n - 1) (s := ⟨A.d.pm π1, [A.z.pm π1], p.pm π1⟩)
    ⟨z0, by show _ < (A.d.size : Int); omega, fun c hc => by simp only [List.mem_singleton] at hc; subst hc; show _ < (A.z.size : Int); omega, by show _ < (p.size : Int); omega⟩
  simp only [e2, e3, SortSt.pm, List.map_cons, List.map_nil, List.getElem?_cons_zero, Option.bind_some]
  obtain ⟨d', e4, s4, v4⟩ := shiftDown_spec z0 z1 (d := (A.d.pm π1).pm π2) (by show _ ≤ (A.d.size : Int); omega)
  obtain ⟨z', e5, s5, v5⟩ := shiftDown_spec z0 z1 (d := (A.z.pm π1).pm π2) (by show _ ≤ (A.z.size : Int); omega)
  rw [e4, Option.bind_some, e5]
  simp only [decide_eq_false_iff_not, decide_eq_true_eq, gt_iff_lt, not_lt] at below at_
  have o1' : ∀ i j, 0 ≤ i → i < j → j ≤ A.n - 1 → |A.z.val (π1 i)| ≤ |A.z.val (π1 j)| := fun i j a b c => by
    have := o1 i j a b c; unfold ltabsK at this; rw [decide_eq_false_iff_not] at this; exact not_lt.1 this
  refine ⟨⟨A.n - iz, d', z', A.rho⟩, π1 * π2, iz, by rw [← Buf.pm_mul]; rfl, f1.mul (f2.mono z0 (le_refl _)), z0, z1, rfl, rfl, s4, s5, fun k k0 k1 => ⟨v4 k k0 k1, v5 k k0 k1⟩, fun k k0 k1 => ?_, fun k k0 k1 => ?_,
    fun k l k0 kl l1 => ?_⟩
  · rw [Equiv.Perm.mul_apply, f2 k (by omega)]; exact below k k0 k1
  · rw [Equiv.Perm.mul_apply]
    obtain ⟨m0, m1⟩ := f2.maps (k := k) k0 (by omega)
    refine lt_of_lt_of_le (at_ (by omega)) ?_
    rcases eq_or_lt_of_le m0 with h | h
    · rw [← h]
    · exact o1' _ _ z0 h m1
  · simp only
    rw [v4 k k0 (by omega), v4 l (by omega) l1]
    have := o3 (k + iz) (l + iz) (by omega) (by omega) (by omega)
    unfold ltK at this; rw [decide_eq_false_iff_not] at this; exact not_lt.1 this

/-- The second deflation. -/
theorem deflate2_spec {sqrt : K → K} {fmin : K} (hf : 0 ≤ fmin) {A : Dpr1 K} {lo hi : Buf K} {p : Buf Int} (hn : 0 ≤ A.n) (hd : A.n ≤ A.d.size) (hz : A.n ≤ A.z.size) (hl : A.n ≤ lo.size)
    (hh : A.n ≤ hi.size) (hp : A.n ≤ p.size) :
    ∃ (π : Equiv.Perm Int) (id : Int), deflate2 sqrt fmin A lo hi p = some (⟨A.n, A.d.pm π, A.z.pm π, A.rho⟩, lo.pm π, hi.pm π, p.pm π, id) ∧ FixOut 0 (A.n - 1) π ∧ 0 ≤ id ∧ id ≤ A.n ∧
      (∀ k, 0 ≤ k → k < id → |lo.val (π k)| ≤ sqrt fmin) ∧ (∀ k, id ≤ k → k < A.n → sqrt fmin < |lo.val (π k)|) := by
  unfold deflate2 sqrtC
  obtain ⟨π1, f1, e1, o1⟩ := quicksort_pm (lt := ltabsK) ltabsK_asym ltabsK_trans (lo := 0) (hi := A.n - 1) (s := ⟨lo, [hi, A.d, A.z], p⟩)
    ⟨le_refl _, by simp only; omega, fun c hc => by simp only [List.mem_cons, List.not_mem_nil, or_false] at hc; rcases hc with rfl | rfl | rfl <;> omega, by simp only; omega⟩
  simp only [e1, SortSt.pm, List.map_cons, List.map_nil, List.getElem?_cons_zero, List.getElem?_cons_succ, Option.bind_some, if_neg (not_lt.2 hf)]
  obtain ⟨id, e2, z0, z1, below, at_⟩ := firstIdx_spec (n := A.n) (c := fun i => ((lo.pm π1).rd i).map fun l => decide (|l| > sqrt fmin))
    (b := fun i => decide (|lo.val (π1 i)| > sqrt fmin)) hn (fun i i0 i1 => by rw [Buf.rd_of i0 (by show i < (lo.size : Int); omega)]; rfl)
  obtain ⟨π2, f2, e3, o3⟩ := quicksort_pm (lt := ltK) ltK_asym ltK_trans (lo := id) (hi := A.n - 1) (s := ⟨A.d.pm π1, [A.z.pm π1, lo.pm π1, hi.pm π1], p.pm π1⟩)
    ⟨z0, by show _ < (A.d.size : Int); omega, fun c hc => by
      simp only [List.mem_cons, List.not_mem_nil, or_false] at hc
      rcases hc with rfl | rfl | rfl
      · show _ < (A.z.size : Int); omega
      · show _ < (lo.size : Int); omega
      · show _ < (hi.size : Int); omega, by show _ < (p.size : Int); omega⟩
  simp only [e2, e3, SortSt.pm, List.map_cons, List.map_nil, List.getElem?_cons_zero, List.getElem?_cons_succ, Option.bind_some, Option.map_some]
  simp only [decide_eq_false_iff_not, decide_eq_true_eq, gt_iff_lt, not_lt] at below at_
  have o1' : ∀ i j, 0 ≤ i → i < j → j ≤ A.n - 1 → |lo.val (π1 i)| ≤ |lo.val (π1 j)| := fun i j a b c => by
    have := o1 i j a b c; unfold ltabsK at this; rw [decide_eq_false_iff_not] at this; exact not_lt.1 this
  refine ⟨π1 * π2, id, by simp only [Buf.pm_mul], f1.mul (f2.mono z0 (le_refl _)), z0, z1, fun k k0 k1 => ?_, fun k k0 k1 => ?_⟩
  · rw [Equiv.Perm.mul_apply, f2 k (by omega)]; exact below k k0 k1
  · rw [Equiv.Perm.mul_apply]
    obtain ⟨m0, m1⟩ := f2.maps (k := k) k0 (by omega)
    refine lt_of_lt_of_le (at_ (by omega)) ?_
    rcases eq_or_lt_of_le m0 with h | h
    · rw [← h]
    · exact o1' _ _ z0 h m1

/-- The order of the eigenvalues `lambdalo`, `lambdahi` after the second deflation. -/
def ordB (b : Buf K) (iz : Int) (π : Equiv.Perm Int) : Buf K := b.unview iz ((b.view iz).pm π)

omit [Field K] [LinearOrder K] in
theorem ordB_lt {b : Buf K} {iz : Int} {π : Equiv.Perm Int} {k : Int} (h : k < iz) : (ordB b iz π).val k = b.val k := if_neg (by omega)
omit [Field K] [LinearOrder K] in
theorem ordB_ge {b : Buf K} {iz : Int} {π : Equiv.Perm Int} {k : Int} (h : iz ≤ k) : (ordB b iz π).val k = b.val (π (k - iz) + iz) := if_pos h

theorem eigFinish_spec {sqrt : K → K} {fmin : K} (hf : 0 ≤ fmin) {vf : Dpr1 K → Int → Option K} {vecs : Dpr1 K → Buf K → Buf K → Int → Option (Buf K)} {off : Int → Int} {jk : Int → K}
    {ji : Int → Int} {n : Int} {A : Dpr1 K} {p1 : Buf Int} {lo hi : Buf K} (hn : 0 ≤ A.n) (hn' : A.n ≤ n) (hd : A.n ≤ A.d.size) (hz : A.n ≤ A.z.size) (hl : (lo.size : Int) = n)
    (hh : (hi.size : Int) = n) (hp : IsPerm n p1) :
    ∃ (π : Equiv.Perm Int) (id : Int), FixOut 0 (A.n - 1) π ∧ 0 ≤ id ∧ id ≤ A.n ∧
      (∀ k, 0 ≤ k → k < id → |lo.val (π k + (n - A.n))| ≤ sqrt fmin) ∧ (∀ k, id ≤ k → k < A.n → sqrt fmin < |lo.val (π k + (n - A.n))|) ∧
      ∀ (vv : Int → K) (V : Buf K), (∀ i, 0 ≤ i → i < id → vf ⟨A.n, A.d.pm π, A.z.pm π, A.rho⟩ i = some (vv i)) →
        vecs ⟨A.n, A.d.pm π, A.z.pm π, A.rho⟩ ((ordB lo (n - A.n) π).view (n - A.n + off id)) ((ordB hi (n - A.n) π).view (n - A.n + off id)) (A.n - id) = some V →
        ∃ F, eigFinish sqrt fmin vf vecs off jk ji n A p1 lo hi = some F ∧ F.n = n ∧ F.iz = n - A.n ∧ F.id = id ∧ F.V = V ∧ (F.v.size : Int) = id ∧ (∀ i, 0 ≤ i → i < id → F.v.val i = vv i) ∧
          IsPerm n F.p ∧ IsPerm n F.q ∧ (∀ i, 0 ≤ i → i < n - A.n → F.p.val i = p1.val i) ∧ (∀ i, n - A.n ≤ i → i < n → F.p.val i = p1.val (π (i - (n - A.n)) + (n - A.n))) ∧
          (F.lambda.size : Int) = n ∧ (F.lo.size : Int) = n ∧ (F.hi.size : Int) = n ∧
          (∀ j, 0 ≤ j → j < n → F.lambda.val j = (ordB hi (n - A.n) π).val (F.q.val j) + (ordB lo (n - A.n) π).val (F.q.val j)) ∧
          ∀ i j, 0 ≤ i → i < j → j < n → F.lambda.val i ≤ F.lambda.val j := by
  have viz : ∀ b : Buf K, (b.size : Int) = n → ((b.view (n - A.n)).size : Int) = A.n := fun b hb => by
    show ((b.size - (n - A.n).toNat : Nat) : Int) = A.n; omega
  obtain ⟨π, id, e1, f1, i0, i1, small, large⟩ := deflate2_spec (sqrt := sqrt) hf (A := A) (lo := lo.view (n - A.n)) (hi := hi.view (n - A.n)) (p := mix ⟨(n - (n - A.n)).toNat, ji⟩ 0 (n - (n - A.n)) fun k => k)
    hn hd hz (le_of_eq (viz lo hl).symm) (le_of_eq (viz hi hh).symm) (by show A.n ≤ (((n - (n - A.n)).toNat : Nat) : Int); omega)
  refine ⟨π, id, f1, i0, i1, small, large, fun vv V hvv hV => ?_⟩
  unfold eigFinish
  simp only [iotaB_eq, e1, Option.bind_some]
  have p2v : ∀ k, 0 ≤ k → k < A.n → ((mix ⟨(n - (n - A.n)).toNat, ji⟩ 0 (n - (n - A.n)) fun k => k).pm π).rd k = some (π k) := fun k k0 k1 => by
    obtain ⟨m0, m1⟩ := f1.maps (k := k) k0 (by omega)
    rw [Buf.rd_of k0 (by show k < (((n - (n - A.n)).toNat : Nat) : Int); omega)]
    show some ((mix (⟨(n - (n - A.n)).toNat, ji⟩ : Buf Int) 0 (n - (n - A.n)) fun k => k).val (π k)) = _
    rw [mix_val_in (by omega) (by omega)]
  rw [sweepUp_eq (hi := id) vv (le_refl _) (by show id ≤ ((id.toNat : Nat) : Int); omega) fun i a b => hvv i a b, Option.bind_some]
  rw [sweepUp_eq (hi := n - A.n) p1.val (le_refl _) (by show _ ≤ ((n.toNat : Nat) : Int); omega) fun i a b => Buf.rd_of a (by have := hp.le; omega), Option.bind_some]
  have hmaps : ∀ i, n - A.n ≤ i → i < n → n - A.n ≤ π (i - (n - A.n)) + (n - A.n) ∧ π (i - (n - A.n)) + (n - A.n) < n := fun i a b => by
    obtain ⟨m0, m1⟩ := f1.maps (k := i - (n - A.n)) (by omega) (by omega)
    omega
  rw [sweepUp_eq (lo := n - A.n) (hi := n) (fun i => p1.val (π (i - (n - A.n)) + (n - A.n))) (by omega) (by show _ ≤ ((n.toNat : Nat) : Int); omega) fun i a b => by
    obtain ⟨m0, m1⟩ := hmaps i a b
    rw [p2v _ (by omega) (by omega), Option.bind_some, Buf.rd_of (by omega) (by have := hp.le; omega)], Option.bind_some]
  rw [sweepUp_eq (lo := 0) (hi := n) (fun i => (ordB hi (n - A.n) π).val i + (ordB lo (n - A.n) π).val i) (le_refl _) (by show _ ≤ ((n.toNat : Nat) : Int); omega) fun i a b => by
    rw [Buf.rd_of a (by show i < (hi.size : Int); omega), Option.bind_some, Buf.rd_of a (by show i < (lo.size : Int); omega)]; rfl, Option.bind_some]
  rw [show n - (n - A.n) - id = A.n - id by omega]
  have hV' : vecs ⟨A.n, A.d.pm π, A.z.pm π, A.rho⟩ ((lo.unview (n - A.n) ((lo.view (n - A.n)).pm π)).view (n - A.n + off id))
      ((hi.unview (n - A.n) ((hi.view (n - A.n)).pm π)).view (n - A.n + off id)) (A.n - id) = some V := hV
  rw [hV', Option.bind_some]
  obtain ⟨π3, f3, e3, o3⟩ := quicksort_pm (lt := ltK) ltK_asym ltK_trans (lo := 0) (hi := n - 1)
    (s := ⟨mix ⟨n.toNat, jk⟩ 0 n fun i => (ordB hi (n - A.n) π).val i + (ordB lo (n - A.n) π).val i, [lo.unview (n - A.n) ((lo.view (n - A.n)).pm π), hi.unview (n - A.n) ((hi.view (n - A.n)).pm π)],
      mix ⟨n.toNat, ji⟩ 0 n fun k => k⟩)
    ⟨le_refl _, by show _ < ((n.toNat : Nat) : Int); omega, fun c hc => by
      simp only [List.mem_cons, List.not_mem_nil, or_false] at hc
      rcases hc with rfl | rfl
      · show _ < (lo.size : Int); omega
      · show _ < (hi.size : Int); omega, by show _ < ((n.toNat : Nat) : Int); omega⟩
  simp only [e3, SortSt.pm, List.map_cons, List.map_nil, List.getElem?_cons_zero, List.getElem?_cons_succ, Option.bind_some, Option.map_some]
  have qv : ∀ j, 0 ≤ j → j < n → ((mix (⟨n.toNat, ji⟩ : Buf Int) 0 n fun k => k).pm π3).val j = π3 j := fun j a b => by
    obtain ⟨m0, m1⟩ := f3.maps (k := j) a (by omega)
    show (mix (⟨n.toNat, ji⟩ : Buf Int) 0 n fun k => k).val (π3 j) = _
    rw [mix_val_in (by omega) (by omega)]
  have pv1 : ∀ i, 0 ≤ i → i < n - A.n → (mix (mix (⟨n.toNat, ji⟩ : Buf Int) 0 (n - A.n) p1.val) (n - A.n) n fun i => p1.val (π (i - (n - A.n)) + (n - A.n))).val i = p1.val i := fun i a b => by
    rw [mix_val_out (by omega), mix_val_in a b]
  have pv2 : ∀ i, n - A.n ≤ i → i < n → (mix (mix (⟨n.toNat, ji⟩ : Buf Int) 0 (n - A.n) p1.val) (n - A.n) n fun i => p1.val (π (i - (n - A.n)) + (n - A.n))).val i =
      p1.val (π (i - (n - A.n)) + (n - A.n)) := fun i a b => mix_val_in a b
  have pfun : ∀ i, 0 ≤ i → i < n → ∃ r, 0 ≤ r ∧ r < n ∧ (mix (mix (⟨n.toNat, ji⟩ : Buf Int) 0 (n - A.n) p1.val) (n - A.n) n fun i => p1.val (π (i - (n - A.n)) + (n - A.n))).val i = p1.val r ∧
      r = if i < n - A.n then i else π (i - (n - A.n)) + (n - A.n) := fun i a b => by
    by_cases h : i < n - A.n
    · exact ⟨i, a, b, pv1 i a h, by rw [if_pos h]⟩
    · have := hmaps i (by omega) b
      exact ⟨_, by omega, this.2, pv2 i (by omega) b, by rw [if_neg h]⟩
  refine ⟨_, rfl, rfl, rfl, rfl, rfl, by show ((id.toNat : Nat) : Int) = id; omega, fun i a b => mix_val_in a b, ⟨by show n ≤ ((n.toNat : Nat) : Int); omega, fun k a b => ?_, fun k a b => ?_, fun k l a b c d h => ?_⟩,
    ⟨by show n ≤ ((n.toNat : Nat) : Int); omega, fun k a b => ?_, fun k a b => ?_, fun k l a b c d h => ?_⟩, pv1, pv2, by show ((n.toNat : Nat) : Int) = n; omega, by show (lo.size : Int) = n; omega, by show (hi.size : Int) = n; omega, fun j a b => ?_, fun i j a b c => ?_⟩
  · obtain ⟨r, r0, r1, e, _⟩ := pfun k a b
    exact e ▸ hp.lo r r0 r1
  · obtain ⟨r, r0, r1, e, _⟩ := pfun k a b
    exact e ▸ hp.hi r r0 r1
  · obtain ⟨r, r0, r1, e, er⟩ := pfun k a b
    obtain ⟨t, t0, t1, e', et⟩ := pfun l c d
    have := hp.inj r t r0 r1 t0 t1 (e.symm.trans (h.trans e'))
    subst this
    split_ifs at er et with h1 h2 h2
    · omega
    · have := hmaps l (by omega) d; omega
    · have := hmaps k (by omega) b; omega
    · have : π (k - (n - A.n)) = π (l - (n - A.n)) := by omega
      have := π.injective this; omega
  · rw [qv k a b]; exact (f3.maps (k := k) a (by omega)).1
  · rw [qv k a b]; have := (f3.maps (k := k) a (by omega)).2; omega
  · rw [qv k a b, qv l c d] at h; exact π3.injective h
  · simp only
    rw [qv j a b]
    obtain ⟨m0, m1⟩ := f3.maps (k := j) a (by omega)
    exact mix_val_in (x := (⟨n.toNat, jk⟩ : Buf K)) (y := fun i => (ordB hi (n - A.n) π).val i + (ordB lo (n - A.n) π).val i) (j := π3 j) (by omega) (by omega)
  · have := o3 i j a b (by omega)
    unfold ltK at this; rw [decide_eq_false_iff_not] at this; exact not_lt.1 this

theorem eigStart_spec [IsStrictOrderedRing K] {sqrt : K → K} {eps w : K} (hw : 0 ≤ w) {roots : Dpr1 K → Buf K → Buf K → Option (Buf K × Buf K)} {jk : Int → K} {ji : Int → Int} {A : Dpr1 K}
    (hn : 0 ≤ A.n) (hd : A.n ≤ A.d.size) (hz : A.n ≤ A.z.size) :
    ∃ (A' : Dpr1 K) (π : Equiv.Perm Int) (iz : Int) (L H : Buf K), FixOut 0 (A.n - 1) π ∧ 0 ≤ iz ∧ iz ≤ A.n ∧ A'.n = A.n - iz ∧ A'.rho = A.rho ∧
      A'.d.size = A.d.size ∧ A'.z.size = A.z.size ∧ (∀ k, 0 ≤ k → k < A.n - iz → A'.d.val k = A.d.val (π (k + iz)) ∧ A'.z.val k = A.z.val (π (k + iz))) ∧
      (∀ k, 0 ≤ k → k < iz → |A.z.val (π k)| ≤ sqrt w * sqrt (∑ i ∈ Finset.Ico 0 A.n, A.z.val i * A.z.val i) * eps) ∧
      (∀ k, iz ≤ k → k < A.n → sqrt w * sqrt (∑ i ∈ Finset.Ico 0 A.n, A.z.val i * A.z.val i) * eps < |A.z.val (π k)|) ∧
      (∀ k l, 0 ≤ k → k < l → l < A.n - iz → A'.d.val k ≤ A'.d.val l) ∧ (L.size : Int) = A'.n ∧ (H.size : Int) = A'.n ∧
      (roots A' L H = none → eigStart sqrt eps w roots jk ji A = none) ∧
      ∀ lo' hi', roots A' L H = some (lo', hi') → ∃ p1 lo hi, eigStart sqrt eps w roots jk ji A = some (A', p1, lo, hi) ∧ IsPerm A.n p1 ∧ (∀ k, 0 ≤ k → k < A.n → p1.val k = π k) ∧
        (lo.size : Int) = A.n ∧ (hi.size : Int) = A.n ∧ (∀ k, 0 ≤ k → k < iz → lo.val k = 0 ∧ hi.val k = A.d.val (π k)) ∧
        ∀ k, 0 ≤ k → lo.val (k + iz) = lo'.val k ∧ hi.val (k + iz) = hi'.val k := by
  obtain ⟨A', π, iz, e, f, i0, i1, h1, h2, h3, h4, h5, h6, h7, h8⟩ := deflate_spec (sqrt := sqrt) (eps := eps) hw (A := A) (p := mix ⟨A.n.toNat, ji⟩ 0 A.n fun k => k) hn hd hz
    (by show A.n ≤ ((A.n.toNat : Nat) : Int); omega)
  have pv : ∀ k, 0 ≤ k → k < A.n → ((mix (⟨A.n.toNat, ji⟩ : Buf Int) 0 A.n fun k => k).pm π).val k = π k := fun k a b => by
    obtain ⟨m0, m1⟩ := f.maps (k := k) a (by omega)
    exact mix_val_in (x := (⟨A.n.toNat, ji⟩ : Buf Int)) (y := fun k => k) (by omega) (by omega)
  have hp : IsPerm A.n ((mix (⟨A.n.toNat, ji⟩ : Buf Int) 0 A.n fun k => k).pm π) := ⟨by show A.n ≤ ((A.n.toNat : Nat) : Int); omega,
    fun k a b => by rw [pv k a b]; exact (f.maps a (by omega)).1, fun k a b => by rw [pv k a b]; have := (f.maps (k := k) a (by omega)).2; omega,
    fun k l a b c d h => by rw [pv k a b, pv l c d] at h; exact π.injective h⟩
  obtain ⟨lo, e1, s1, v1, _⟩ := perm_N_eq hp (x := (⟨A.n.toNat, fun _ => 0⟩ : Buf K)) (by show A.n ≤ ((A.n.toNat : Nat) : Int); omega)
  obtain ⟨hi, e2, s2, v2, _⟩ := perm_N_eq hp (x := mix (⟨A.n.toNat, jk⟩ : Buf K) 0 A.n A.d.val) (by show A.n ≤ ((A.n.toNat : Nat) : Int); omega)
  have s1' : (lo.size : Int) = A.n := by rw [s1]; show ((A.n.toNat : Nat) : Int) = A.n; omega
  have s2' : (hi.size : Int) = A.n := by rw [s2]; show ((A.n.toNat : Nat) : Int) = A.n; omega
  have hiz : A.n - A'.n = iz := by omega
  have run : eigStart sqrt eps w roots jk ji A = (roots A' (lo.view iz) (hi.view iz)).map fun (lo', hi') =>
      (A', (mix (⟨A.n.toNat, ji⟩ : Buf Int) 0 A.n fun k => k).pm π, lo.unview iz lo', hi.unview iz hi') := by
    unfold eigStart
    rw [sweepUp_eq A.d.val (le_refl _) (by show A.n ≤ ((A.n.toNat : Nat) : Int); omega) fun i a b => Buf.rd_of a (by omega), Option.bind_some, iotaB_eq, Option.bind_some, e]
    simp only [Option.bind_some, e1, e2, hiz]
  refine ⟨A', π, iz, lo.view iz, hi.view iz, f, i0, i1, h1, h2, h3, h4, h5, h6, h7, h8, by show ((lo.size - iz.toNat : Nat) : Int) = A'.n; omega,
    by show ((hi.size - iz.toNat : Nat) : Int) = A'.n; omega, fun h => by rw [run, h]; rfl, fun lo' hi' hr => ?_⟩
  refine ⟨_, lo.unview iz lo', hi.unview iz hi', by rw [run, hr]; rfl, hp, pv, s1', s2', fun k a b => ⟨?_, ?_⟩, fun k a => ⟨?_, ?_⟩⟩
  · show (if iz ≤ k then _ else lo.val k) = 0
    rw [if_neg (by omega), v1 k a (by omega)]
  · show (if iz ≤ k then _ else hi.val k) = _
    rw [if_neg (by omega), v2 k a (by omega), pv k a (by omega)]
    obtain ⟨m0, m1⟩ := f.maps (k := k) a (by omega)
    exact mix_val_in (by omega) (by omega)
  · show (if iz ≤ k + iz then lo'.val (k + iz - iz) else _) = _
    rw [if_pos (by omega), add_sub_cancel_right]
  · show (if iz ≤ k + iz then hi'.val (k + iz - iz) else _) = _
    rw [if_pos (by omega), add_sub_cancel_right]

end Ordered

end FT
