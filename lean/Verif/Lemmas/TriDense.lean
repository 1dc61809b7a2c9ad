import Verif.Lemmas.Tri

/-! # Dense triangular and bidiagonal products and solves -/

namespace FT
variable {K : Type*}

/-- The upper triangular matrix stored in columns of length `LDA`. -/
def triU [Zero K] (A : Buf K) (LDA : Int) (i k : Int) : K := if i ≤ k then A.val (i + k * LDA) else 0

/-- The upper bidiagonal matrix with diagonal `c` and superdiagonal `d`. -/
def biU [Zero K] (c d : Buf K) (i k : Int) : K := if k = i then c.val i else if k = i + 1 then d.val i else 0

/-- Reads of the upper triangle stay in the allocation. -/
def TriOk (n : Int) (A : Buf K) (LDA : Int) : Prop := n ≤ LDA ∧ n * LDA ≤ A.size

theorem TriOk.rd {n LDA i k : Int} {A : Buf K} (h : TriOk n A LDA) (i0 : 0 ≤ i) (i1 : i < n) (k0 : 0 ≤ k) (k1 : k < n) : A.rd (i + k * LDA) = some (A.val (i + k * LDA)) := by
  have h1 : (k + 1) * LDA ≤ n * LDA := Int.mul_le_mul_of_nonneg_right (by omega) (by have := h.1; omega)
  have h2 : 0 ≤ k * LDA := Int.mul_nonneg k0 (by have := h.1; omega)
  have h3 : (k + 1) * LDA = k * LDA + LDA := by ring
  have := h.1
  have := h.2
  exact Buf.rd_of (by omega) (by omega)

section mul
variable [CommRing K] {n LDA : Int} {A x : Buf K}

theorem trmvN_eq (hA : TriOk n A LDA) (hn : n ≤ x.size) : trmv 'N' n A LDA x = some (mix x 0 n fun i => ∑ k ∈ Finset.Ico 0 n, triU A LDA i k * x.val k) := by
  unfold trmv
  rw [if_pos rfl]
  obtain ⟨s, e, p⟩ := forUp_spec (lo := 0) (hi := n) (s := x) (body := fun j x =>
      (sweepUp 0 j (fun i x => (x.rd i).bind fun xi => (A.rd (i + j * LDA)).bind fun a => (x.rd j).map fun xj => xi + a * xj) x).bind fun x =>
      (x.rd j).bind fun xj => (A.rd (j + j * LDA)).bind fun a => x.wr j (xj * a))
    (fun j s => s = mix x 0 j fun i => ∑ k ∈ Finset.Ico 0 j, triU A LDA i k * x.val k) (mix_empty x (le_refl _) _).symm
    (fun j j0 j1 s p => by
      subst p
      refine ⟨_, ?_, rfl⟩
      rw [sweepUp_eq (fun i => ∑ k ∈ Finset.Ico 0 (j + 1), triU A LDA i k * x.val k) (le_refl _) (by rw [mix_size]; omega)]
      · rw [Option.bind_some, Buf.rd_of j0 (by rw [mix_size, mix_size]; omega), Option.bind_some, hA.rd j0 j1 j0 j1, Option.bind_some, mix_val_out (by omega), mix_val_out (by omega),
          Buf.wr_of j0 (by rw [mix_size, mix_size]; omega)]
        congr 1
        refine Buf.ext' rfl fun q => ?_
        show Function.update _ j _ q = _
        by_cases hq : q = j
        · subst hq
          rw [Function.update_self, mix_val_in j0 (by omega), sum_Ico_succ j0, sum_Ico_congr (g := fun _ => 0) fun k k0 k1 => by unfold triU; rw [if_neg (by omega), zero_mul],
            Finset.sum_const_zero, zero_add]
          unfold triU; rw [if_pos (le_refl _), mul_comm]
        · rw [Function.update_of_ne hq]
          by_cases hr : 0 ≤ q ∧ q < j
          · rw [mix_val_in hr.1 hr.2, mix_val_in hr.1 (by omega)]
          · rw [mix_val_out hr, mix_val_out hr, mix_val_out (by omega)]
      · intro i i0 i1
        rw [Buf.rd_of i0 (by rw [mix_size, mix_size]; omega), Option.bind_some, hA.rd i0 (by omega) j0 j1, Option.bind_some, Buf.rd_of j0 (by rw [mix_size, mix_size]; omega),
          mix_val_out (by omega), mix_val_in i0 i1, mix_val_out (by omega), mix_val_out (by omega), sum_Ico_succ j0]
        unfold triU
        rw [if_pos (by omega : i ≤ j)]; rfl)
  rw [e, p]
  rcases le_total 0 n with h | h
  · rw [max_eq_right h]
  · rw [max_eq_left h, mix_empty x (le_refl _), mix_empty x h]

theorem trmvT_eq (hA : TriOk n A LDA) (hn : n ≤ x.size) : trmv 'T' n A LDA x = some (mix x 0 n fun i => ∑ k ∈ Finset.Ico 0 n, triU A LDA k i * x.val k) := by
  unfold trmv
  rw [if_neg (by decide), if_pos rfl]
  obtain ⟨s, e, p⟩ := forDown_spec (lo := 0) (hi := n - 1) (s := x) (body := fun i x =>
      ((x.rd i).bind fun xi => (A.rd (i + i * LDA)).bind fun a => x.wr i (xi * a)).bind fun x =>
      forDown (i - 1) 0 (fun j x => (x.rd i).bind fun xi => (A.rd (j + i * LDA)).bind fun a => (x.rd j).bind fun xj => x.wr i (xi + a * xj)) x)
    (fun i s => s = mix x (i + 1) n fun i => ∑ k ∈ Finset.Ico 0 n, triU A LDA k i * x.val k) (mix_empty x (by omega) _).symm
    (fun i i0 i1 s p => by
      subst p
      refine ⟨_, ?_, rfl⟩
      rw [Buf.rd_of i0 (by rw [mix_size]; omega), Option.bind_some, hA.rd i0 (by omega) i0 (by omega), Option.bind_some, Buf.wr_of i0 (by rw [mix_size]; omega), Option.bind_some]
      set X := mix x (i + 1) n fun i => ∑ k ∈ Finset.Ico 0 n, triU A LDA k i * x.val k with hX
      have hXv : ∀ j, j ≤ i → X.val j = x.val j := fun j hj => mix_val_out (by omega)
      have hXs : X.size = x.size := rfl
      obtain ⟨s, e, p⟩ := forDown_spec (lo := 0) (hi := i - 1) (s := (⟨X.size, Function.update X.val i (X.val i * A.val (i + i * LDA))⟩ : Buf K))
        (body := fun j x => (x.rd i).bind fun xi => (A.rd (j + i * LDA)).bind fun a => (x.rd j).bind fun xj => x.wr i (xi + a * xj))
        (fun j s => s = ⟨X.size, Function.update X.val i (X.val i * A.val (i + i * LDA) + ∑ k ∈ Finset.Ico (j + 1) i, A.val (k + i * LDA) * x.val k)⟩)
        (by simp)
        (fun j j0 j1 s p => by
          subst p
          refine ⟨_, ?_, rfl⟩
          rw [Buf.rd_of i0 (by rw [hXs]; omega), Option.bind_some, hA.rd j0 (by omega) i0 (by omega), Option.bind_some, Buf.rd_of j0 (by rw [hXs]; omega), Option.bind_some,
            Buf.wr_of i0 (by rw [hXs]; omega)]
          simp only [Function.update_self, Function.update_idem, Function.update_of_ne (show j ≠ i by omega), sub_add_cancel]
          rw [sum_Ico_pred (show j < i by omega), hXv j (by omega), add_assoc, add_comm (∑ k ∈ _, _)])
      rw [e, p]
      congr 1
      refine Buf.ext' rfl fun q => ?_
      show Function.update _ i _ q = _
      by_cases hq : q = i
      · subst hq
        rw [Function.update_self, hXv _ (le_refl _), mix_val_in (by omega) (by omega), min_eq_right (by omega), sum_Ico_shrink (lo' := 0) (hi' := q + 1) _ (le_refl _) (by omega),
          sum_Ico_succ i0, sub_add_cancel]
        · rw [sum_Ico_congr (f := fun k => triU A LDA k q * x.val k) (g := fun k => A.val (k + q * LDA) * x.val k) fun k k0 k1 => by unfold triU; rw [if_pos (by omega)],
            show triU A LDA q q = A.val (q + q * LDA) from if_pos (le_refl _)]
          ring
        · intro k k0 k1 hk; unfold triU; rw [if_neg (by omega), zero_mul]
      · rw [Function.update_of_ne hq, hX]
        by_cases hr : i + 1 ≤ q ∧ q < n
        · rw [mix_val_in hr.1 hr.2, mix_val_in (by omega) (by omega)]
        · rw [mix_val_out hr, mix_val_out (by omega)])
  rw [e, p]
  rcases le_total 0 n with h | h
  · rw [min_eq_right (by omega)]; rfl
  · rw [min_eq_left (by omega), mix_empty x (by omega), mix_empty x h]

theorem bdmvN_eq {c d : Buf K} (hn : 1 ≤ n) (hc : n ≤ c.size) (hd : n - 1 ≤ d.size) (hx : n ≤ x.size) :
    bdmv 'N' n c d x = some (mix x 0 n fun i => ∑ k ∈ Finset.Ico 0 n, biU c d i k * x.val k) := by
  unfold bdmv
  rw [if_pos rfl, sweepUp_eq (fun i => ∑ k ∈ Finset.Ico 0 n, biU c d i k * x.val k) (le_refl _) (by omega)]
  · rw [Option.bind_some, Buf.rd_of (by omega) (by rw [mix_size]; omega), Option.bind_some, Buf.rd_of (b := c) (by omega) (by omega), Option.bind_some, mix_val_out (by omega)]
    have : x.val (n - 1) * c.val (n - 1) = ∑ k ∈ Finset.Ico 0 n, biU c d (n - 1) k * x.val k := by
      rw [sum_Ico_shrink (lo' := n - 1) (hi' := n) (fun k k0 k1 hk => by unfold biU; rw [if_neg (by omega), if_neg (by omega), zero_mul]) (by omega) (le_refl _),
        sum_Ico_pred (by omega), sub_add_cancel, Finset.Ico_self, Finset.sum_empty, add_zero]
      unfold biU; rw [if_pos rfl, mul_comm]
    rw [this]
    have := mix_wr_up (x := x) (lo := 0) (i := n - 1) (y := fun i => ∑ k ∈ Finset.Ico 0 n, biU c d i k * x.val k) (by omega) (by omega) (by omega)
    rwa [sub_add_cancel] at this
  · intro i i0 i1
    rw [Buf.rd_of (b := c) (by omega) (by omega), Option.bind_some, Buf.rd_of (by omega) (by rw [mix_size]; omega), Option.bind_some, Buf.rd_of (b := d) (by omega) (by omega), Option.bind_some,
      Buf.rd_of (by omega) (by rw [mix_size]; omega), mix_val_out (by omega), mix_val_out (by omega),
      sum_Ico_shrink (lo' := i) (hi' := i + 1 + 1) (fun k k0 k1 hk => by unfold biU; rw [if_neg (by omega), if_neg (by omega), zero_mul]) (by omega) (by omega),
      sum_Ico_succ (by omega), sum_Ico_succ (by omega), Finset.Ico_self, Finset.sum_empty, zero_add]
    unfold biU
    rw [if_pos rfl, if_neg (by omega), if_pos rfl]; rfl

theorem bdmvT_eq {c d : Buf K} (hn : 1 ≤ n) (hc : n ≤ c.size) (hd : n - 1 ≤ d.size) (hx : n ≤ x.size) :
    bdmv 'T' n c d x = some (mix x 0 n fun i => ∑ k ∈ Finset.Ico 0 n, biU c d k i * x.val k) := by
  unfold bdmv
  rw [if_neg (by decide), if_pos rfl, sweepDown_eq (fun i => ∑ k ∈ Finset.Ico 0 n, biU c d k i * x.val k) (by omega) (by omega), sub_add_cancel]
  · rw [Option.bind_some, Buf.rd_of (by omega) (by rw [mix_size]; omega), Option.bind_some, Buf.rd_of (b := c) (by omega) (by omega), Option.bind_some, mix_val_out (by omega)]
    have : x.val 0 * c.val 0 = ∑ k ∈ Finset.Ico 0 n, biU c d k 0 * x.val k := by
      rw [sum_Ico_shrink (lo' := 0) (hi' := 0 + 1) (fun k k0 k1 hk => by unfold biU; rw [if_neg (by omega), if_neg (by omega), zero_mul]) (by omega) (by omega),
        sum_Ico_succ (by omega), Finset.Ico_self, Finset.sum_empty, zero_add]
      unfold biU; rw [if_pos rfl, mul_comm]
    rw [this]
    exact mix_wr_down (x := x) (hi := n) (i := 0) (y := fun i => ∑ k ∈ Finset.Ico 0 n, biU c d k i * x.val k) (by omega) (by omega) (by omega)
  · intro i i0 i1
    rw [sub_add_cancel, Buf.rd_of (b := d) (by omega) (by omega), Option.bind_some, Buf.rd_of (by omega) (by rw [mix_size]; omega), Option.bind_some, Buf.rd_of (b := c) (by omega) (by omega), Option.bind_some,
      Buf.rd_of (by omega) (by rw [mix_size]; omega), mix_val_out (by omega), mix_val_out (by omega),
      sum_Ico_shrink (lo' := i - 1) (hi' := i + 1) (fun k k0 k1 hk => by unfold biU; rw [if_neg (by omega), if_neg (by omega), zero_mul]) (by omega) (by omega),
      sum_Ico_succ (by omega), sum_Ico_pred (by omega), sub_add_cancel, Finset.Ico_self, Finset.sum_empty, add_zero]
    unfold biU
    rw [if_neg (by omega), if_pos (by omega), if_pos rfl]; rfl

end mul

section solve
variable [Field K] [DecidableEq K] {n LDA : Int} {A x : Buf K}

theorem tri_exists {c : Int → Int → K} (hn : n ≤ x.size) (hd : ∀ i, 0 ≤ i → i < n → c i i ≠ 0) (hl : ∀ i k, 0 ≤ i → i < n → 0 ≤ k → k < i → c i k = 0) :
    ∃ y, Solves n c y x.val := by
  obtain ⟨y, -, h⟩ := solveUpper_total (co := fun i k => some (c i k)) (hi := fun _ => n) hn (fun i _ h => ⟨h, le_refl _⟩) (fun _ _ _ _ _ _ => rfl) hd hl (fun i k _ _ h1 h2 => by omega)
  exact ⟨y, h⟩

theorem tri_exists_lower {c : Int → Int → K} (hn : n ≤ x.size) (hd : ∀ i, 0 ≤ i → i < n → c i i ≠ 0) (hu : ∀ i k, 0 ≤ i → i < n → i < k → k < n → c i k = 0) :
    ∃ y, Solves n c y x.val := by
  obtain ⟨y, -, h⟩ := solveLower_total (co := fun i k => some (c i k)) (lo := fun _ => 0) hn (fun i h _ => ⟨le_refl _, h⟩) (fun _ _ _ _ _ _ => rfl) hd hu (fun i k _ _ h1 h2 => by omega)
  exact ⟨y, h⟩

theorem trsvN_of (hA : TriOk n A LDA) (hn : n ≤ x.size) (hd : ∀ i, 0 ≤ i → i < n → triU A LDA i i ≠ 0) {y : Int → K} (hy : Solves n (triU A LDA) y x.val) :
    trsv 'N' n A LDA x = some (mix x 0 n y) := by
  unfold trsv
  rw [if_pos rfl]
  obtain ⟨s, e, p⟩ := forDown_spec (lo := 0) (hi := n - 1) (s := x) (body := fun j x =>
      ((x.rd j).bind fun xj => (A.rd (j + j * LDA)).bind fun a => (divC xj a).bind fun v => x.wr j v).bind fun x =>
      sweepUp 0 j (fun i x => (x.rd i).bind fun xi => (A.rd (i + j * LDA)).bind fun a => (x.rd j).map fun xj => xi - a * xj) x)
    (fun j s => s = mix x 0 n fun i => if j < i then y i else x.val i - ∑ k ∈ Finset.Ico (j + 1) n, triU A LDA i k * y k)
    (Buf.ext' rfl fun q => by
      by_cases hq : 0 ≤ q ∧ q < n
      · rw [mix_val_in hq.1 hq.2, if_neg (by omega), sub_add_cancel, Finset.Ico_self, Finset.sum_empty, sub_zero]
      · rw [mix_val_out hq])
    (fun j j0 j1 s p => by
      subst p
      refine ⟨_, ?_, rfl⟩
      have hdj := hd j j0 (by omega)
      have hyj := hy j j0 (by omega)
      rw [sum_upper (c := triU A LDA) (i := j) (h := n) j0 (le_refl _) (fun k k0 k1 => if_neg (by omega)) (fun k k0 k1 => by omega), sum_Ico_pred (by omega)] at hyj
      have hAj : A.val (j + j * LDA) = triU A LDA j j := (if_pos (le_refl _)).symm
      rw [Buf.rd_of j0 (by rw [mix_size]; omega), Option.bind_some, hA.rd j0 (by omega) j0 (by omega), Option.bind_some, hAj, divC_of hdj, Option.bind_some,
        Buf.wr_of j0 (by rw [mix_size]; omega), Option.bind_some, mix_val_in j0 (by omega), if_neg (by omega), ← hyj, add_sub_cancel_right, mul_div_cancel_left₀ _ hdj,
        sweepUp_eq (fun i => x.val i - ∑ k ∈ Finset.Ico j n, triU A LDA i k * y k) (le_refl _) (by rw [mix_size]; omega)]
      · congr 1
        refine Buf.ext' rfl fun q => ?_
        by_cases hq : 0 ≤ q ∧ q < j
        · rw [mix_val_in hq.1 hq.2, mix_val_in hq.1 (by omega), if_neg (by omega), sub_add_cancel]
        · rw [mix_val_out hq]
          show Function.update _ j _ q = _
          by_cases hq' : q = j
          · subst hq'
            rw [Function.update_self, mix_val_in (by omega) (by omega), if_pos (by omega)]
          · rw [Function.update_of_ne hq']
            by_cases hr : 0 ≤ q ∧ q < n
            · rw [mix_val_in hr.1 hr.2, mix_val_in hr.1 hr.2, if_pos (by omega), if_pos (by omega)]
            · rw [mix_val_out hr, mix_val_out hr]
      · intro i i0 i1
        rw [Buf.rd_of i0 (by rw [mix_size]; simp only [mix_size]; omega), Option.bind_some, hA.rd i0 (by omega) j0 (by omega), Option.bind_some,
          Buf.rd_of j0 (by rw [mix_size]; simp only [mix_size]; omega), mix_val_out (by omega), mix_val_out (by omega)]
        simp only [Function.update_self, Function.update_of_ne (show i ≠ j by omega), Option.map_some]
        rw [mix_val_in i0 (by omega), if_neg (by omega), sum_Ico_pred (show j < n by omega), show A.val (i + j * LDA) = triU A LDA i j from (if_pos (by omega)).symm]
        congr 1; ring)
  rw [e, p]
  congr 1
  refine Buf.ext' rfl fun q => ?_
  by_cases hq : 0 ≤ q ∧ q < n
  · rw [mix_val_in hq.1 hq.2, mix_val_in hq.1 hq.2, if_pos (by omega)]
  · rw [mix_val_out hq, mix_val_out hq]

theorem trsvT_of (hA : TriOk n A LDA) (hn : n ≤ x.size) (hd : ∀ i, 0 ≤ i → i < n → triU A LDA i i ≠ 0) {y : Int → K} (hy : Solves n (fun i k => triU A LDA k i) y x.val) :
    trsv 'T' n A LDA x = some (mix x 0 n y) := by
  unfold trsv
  rw [if_neg (by decide), if_pos rfl]
  obtain ⟨s, e, p⟩ := forUp_spec (lo := 0) (hi := n) (s := x) (body := fun i x =>
      (forUp 0 i (fun j x => (x.rd i).bind fun xi => (A.rd (j + i * LDA)).bind fun a => (x.rd j).bind fun xj => x.wr i (xi - a * xj)) x).bind fun x =>
      (x.rd i).bind fun xi => (A.rd (i + i * LDA)).bind fun a => (divC xi a).bind fun v => x.wr i v)
    (fun i s => s = mix x 0 i y) (mix_empty x (le_refl _) _).symm
    (fun i i0 i1 s p => by
      subst p
      refine ⟨_, ?_, rfl⟩
      have hdi := hd i i0 (by omega)
      have hyi := hy i i0 (by omega)
      rw [sum_lower (c := fun i k => triU A LDA k i) (i := i) (l := 0) (le_refl _) i1 (fun k k0 k1 => if_neg (by omega)) (fun k k0 k1 => by omega), sum_Ico_succ i0] at hyi
      have hAi : A.val (i + i * LDA) = triU A LDA i i := (if_pos (le_refl _)).symm
      have hXs : (mix x 0 i y).size = x.size := rfl
      obtain ⟨s, e, p⟩ := forUp_spec (lo := 0) (hi := i) (s := mix x 0 i y)
        (body := fun j x => (x.rd i).bind fun xi => (A.rd (j + i * LDA)).bind fun a => (x.rd j).bind fun xj => x.wr i (xi - a * xj))
        (fun j s => s = ⟨(mix x 0 i y).size, Function.update (mix x 0 i y).val i (x.val i - ∑ k ∈ Finset.Ico 0 j, triU A LDA k i * y k)⟩)
        (by rw [Finset.Ico_self, Finset.sum_empty, sub_zero, ← mix_val_out (x := x) (lo := 0) (hi := i) (j := i) (y := y) (by omega), Function.update_eq_self])
        (fun j j0 j1 s p => by
          subst p
          refine ⟨_, ?_, rfl⟩
          rw [Buf.rd_of i0 (by rw [hXs]; omega), Option.bind_some, hA.rd j0 (by omega) i0 (by omega), Option.bind_some, Buf.rd_of j0 (by rw [hXs]; omega), Option.bind_some,
            Buf.wr_of i0 (by rw [hXs]; omega)]
          simp only [Function.update_self, Function.update_idem, Function.update_of_ne (show j ≠ i by omega)]
          rw [mix_val_in j0 j1, sum_Ico_succ j0, show A.val (j + i * LDA) = triU A LDA j i from (if_pos (by omega)).symm, sub_sub])
      rw [e, Option.bind_some, p, max_eq_right i0, Buf.rd_of i0 (by rw [hXs]; omega), Option.bind_some, hA.rd i0 (by omega) i0 (by omega), Option.bind_some, hAi]
      simp only [Function.update_self]
      rw [← hyi, add_sub_cancel_left, divC_of hdi, Option.bind_some, mul_div_cancel_left₀ _ hdi, Buf.wr_of i0 (by rw [hXs]; omega)]
      simp only [Function.update_idem]
      have := mix_wr_up (x := x) (lo := 0) (y := y) i0 (by omega) i0
      rwa [Buf.wr_of (b := mix x 0 i y) i0 (by rw [hXs]; omega)] at this)
  rw [e, p]
  rcases le_total 0 n with h | h
  · rw [max_eq_right h]
  · rw [max_eq_left h, mix_empty x (le_refl _), mix_empty x h]

theorem bdsvN_of {c d : Buf K} (hn : 1 ≤ n) (hc : n ≤ c.size) (hd : n - 1 ≤ d.size) (hx : n ≤ x.size) (h0 : ∀ i, 0 ≤ i → i < n → c.val i ≠ 0) {y : Int → K} (hy : Solves n (biU c d) y x.val) :
    bdsv 'N' n c d x = some (mix x 0 n y) := by
  unfold bdsv
  have hl := hy (n - 1) (by omega) (by omega)
  rw [sum_Ico_shrink (lo' := n - 1) (hi' := n) (fun k k0 k1 hk => by unfold biU; rw [if_neg (by omega), if_neg (by omega), zero_mul]) (by omega) (le_refl _),
    sum_Ico_pred (by omega), sub_add_cancel, Finset.Ico_self, Finset.sum_empty, add_zero, show biU c d (n - 1) (n - 1) = c.val (n - 1) from if_pos rfl] at hl
  have hw : x.wr (n - 1) (y (n - 1)) = some (mix x (n - 1) n y) := by
    have := mix_wr_down (x := x) (hi := n) (i := n - 1) (y := y) (by omega) (by omega) (by omega)
    rwa [sub_add_cancel, mix_empty x (le_refl _)] at this
  rw [if_pos rfl, Buf.rd_of (by omega) (by omega), Option.bind_some, Buf.rd_of (b := c) (by omega) (by omega), Option.bind_some, ← hl, divC_of (h0 _ (by omega) (by omega)), Option.bind_some,
    mul_div_cancel_left₀ _ (h0 _ (by omega) (by omega)), hw, Option.bind_some, sweepDown_eq y (le_refl _) (by rw [mix_size]; omega)]
  · congr 1
    refine Buf.ext' rfl fun q => ?_
    by_cases hq : 0 ≤ q ∧ q < n - 2 + 1
    · rw [mix_val_in hq.1 hq.2, mix_val_in hq.1 (by omega)]
    · rw [mix_val_out hq]
      by_cases hr : n - 1 ≤ q ∧ q < n
      · rw [mix_val_in hr.1 hr.2, mix_val_in (by omega) (by omega)]
      · rw [mix_val_out hr, mix_val_out (by omega)]
  · intro i i0 i1
    have hi := hy i i0 (by omega)
    rw [sum_Ico_shrink (lo' := i) (hi' := i + 1 + 1) (fun k k0 k1 hk => by unfold biU; rw [if_neg (by omega), if_neg (by omega), zero_mul]) (by omega) (by omega),
      sum_Ico_succ (by omega), sum_Ico_succ (by omega), Finset.Ico_self, Finset.sum_empty, zero_add, show biU c d i i = c.val i from if_pos rfl,
      show biU c d i (i + 1) = d.val i by unfold biU; rw [if_neg (by omega), if_pos rfl]] at hi
    have hk : (mix (mix x (n - 1) n y) (i + 1) (n - 2 + 1) y).val (i + 1) = y (i + 1) := by
      by_cases h : i + 1 < n - 2 + 1
      · rw [mix_val_in (le_refl _) h]
      · rw [mix_val_out (by omega), mix_val_in (by omega) (by omega)]
    rw [Buf.rd_of i0 (by rw [mix_size, mix_size]; omega), Option.bind_some, Buf.rd_of (b := d) i0 (by omega), Option.bind_some, Buf.rd_of (by omega) (by rw [mix_size, mix_size]; omega), Option.bind_some,
      Buf.rd_of (b := c) i0 (by omega), Option.bind_some, hk, mix_val_out (by omega), mix_val_out (by omega), ← hi, add_sub_cancel_right, divC_of (h0 _ (by omega) (by omega)),
      mul_div_cancel_left₀ _ (h0 _ (by omega) (by omega))]

theorem bdsvT_of {c d : Buf K} (hn : 1 ≤ n) (hc : n ≤ c.size) (hd : n - 1 ≤ d.size) (hx : n ≤ x.size) (h0 : ∀ i, 0 ≤ i → i < n → c.val i ≠ 0) {y : Int → K}
    (hy : Solves n (fun i k => biU c d k i) y x.val) : bdsv 'T' n c d x = some (mix x 0 n y) := by
  unfold bdsv
  have hl : ∑ k ∈ Finset.Ico 0 n, biU c d k 0 * y k = x.val 0 := hy 0 (by omega) (by omega)
  rw [sum_Ico_shrink (lo' := 0) (hi' := 0 + 1) (fun k k0 k1 hk => by unfold biU; rw [if_neg (by omega), if_neg (by omega), zero_mul]) (by omega) (by omega),
    sum_Ico_succ (by omega), Finset.Ico_self, Finset.sum_empty, zero_add, show biU c d 0 0 = c.val 0 from if_pos rfl] at hl
  have hw : x.wr 0 (y 0) = some (mix x 0 1 y) := by
    have := mix_wr_up (x := x) (lo := 0) (i := 0) (y := y) (by omega) (by omega) (by omega)
    rwa [mix_empty x (le_refl _)] at this
  rw [if_neg (by decide), if_pos rfl, Buf.rd_of (by omega) (by omega), Option.bind_some, Buf.rd_of (b := c) (by omega) (by omega), Option.bind_some, ← hl, divC_of (h0 _ (by omega) (by omega)), Option.bind_some,
    mul_div_cancel_left₀ _ (h0 _ (by omega) (by omega)), hw, Option.bind_some, sweepUp_eq y (by omega) (by rw [mix_size]; omega)]
  · congr 1
    refine Buf.ext' rfl fun q => ?_
    by_cases hq : 1 ≤ q ∧ q < n
    · rw [mix_val_in hq.1 hq.2, mix_val_in (by omega) (by omega)]
    · rw [mix_val_out hq]
      by_cases hr : 0 ≤ q ∧ q < 1
      · rw [mix_val_in hr.1 hr.2, mix_val_in (by omega) (by omega)]
      · rw [mix_val_out hr, mix_val_out (by omega)]
  · intro i i0 i1
    have hi : ∑ k ∈ Finset.Ico 0 n, biU c d k i * y k = x.val i := hy i (by omega) (by omega)
    rw [sum_Ico_shrink (lo' := i - 1) (hi' := i + 1) (fun k k0 k1 hk => by unfold biU; rw [if_neg (by omega), if_neg (by omega), zero_mul]) (by omega) (by omega),
      sum_Ico_succ (by omega), sum_Ico_pred (by omega), sub_add_cancel, Finset.Ico_self, Finset.sum_empty, add_zero, show biU c d i i = c.val i from if_pos rfl,
      show biU c d (i - 1) i = d.val (i - 1) by unfold biU; rw [if_neg (by omega), if_pos (by omega)]] at hi
    have hk : (mix (mix x 0 1 y) 1 i y).val (i - 1) = y (i - 1) := by
      by_cases h : 1 ≤ i - 1
      · rw [mix_val_in h (by omega)]
      · rw [mix_val_out (by omega), mix_val_in (by omega) (by omega)]
    rw [Buf.rd_of (by omega) (by rw [mix_size, mix_size]; omega), Option.bind_some, Buf.rd_of (b := d) (by omega) (by omega), Option.bind_some, Buf.rd_of (by omega) (by rw [mix_size, mix_size]; omega), Option.bind_some,
      Buf.rd_of (b := c) (by omega) (by omega), Option.bind_some, hk, mix_val_out (by omega), mix_val_out (by omega), ← hi, add_sub_cancel_left, divC_of (h0 _ (by omega) (by omega)),
      mul_div_cancel_left₀ _ (h0 _ (by omega) (by omega))]

end solve
end FT
