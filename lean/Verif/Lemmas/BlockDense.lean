import Verif.Lemmas.BlockTri

/-! # Dense block triangular products and solves -/

set_option linter.unusedSectionVars false

namespace FT
variable {K : Type*}

/-- The block upper triangular part of the matrix stored in columns of length `LDA`. -/
def triB [Zero K] (A : Buf K) (LDA : Int) (i k : Int) : K := if i / 2 ≤ k / 2 then A.val (i + k * LDA) else 0

/-- `x` with the pair at `i` replaced. -/
def setPair (x : Buf K) (i : Int) (u v : K) : Buf K := ⟨x.size, Function.update (Function.update x.val (2 * i) u) (2 * i + 1) v⟩

theorem wrPair_set {x : Buf K} {k : Int} (h0 : 0 ≤ k) (h1 : 2 * k + 1 < x.size) (v : K × K) : wrPair x k v = some (setPair x k v.1 v.2) := wrPair_of h0 h1 v
theorem setPair_set (x : Buf K) (i : Int) (u v w z : K) : setPair (setPair x i u v) i w z = setPair x i w z := by
  refine Buf.ext' rfl fun j => ?_
  unfold setPair
  dsimp only
  by_cases h1 : j = 2 * i + 1
  · rw [h1, Function.update_self, Function.update_self]
  · rw [Function.update_of_ne h1, Function.update_of_ne h1]
    by_cases h2 : j = 2 * i
    · rw [h2, Function.update_self, Function.update_self]
    · rw [Function.update_of_ne h2, Function.update_of_ne h2, Function.update_of_ne h1, Function.update_of_ne h2]
theorem setPair_fst (x : Buf K) (i : Int) (u v : K) : (setPair x i u v).val (2 * i) = u := by
  unfold setPair; dsimp only; rw [Function.update_of_ne (by omega), Function.update_self]
theorem setPair_snd (x : Buf K) (i : Int) (u v : K) : (setPair x i u v).val (2 * i + 1) = v := by
  unfold setPair; dsimp only; rw [Function.update_self]
theorem setPair_ne (x : Buf K) (i : Int) (u v : K) {j : Int} (h : j / 2 ≠ i) : (setPair x i u v).val j = x.val j := by
  unfold setPair; dsimp only; rw [Function.update_of_ne (by omega), Function.update_of_ne (by omega)]
theorem setPair_rd {x : Buf K} {i : Int} {u v : K} (h0 : 0 ≤ i) (h1 : 2 * i + 1 < x.size) : rdPair (setPair x i u v) i = some (u, v) := by
  rw [rdPair_of h0 (by exact h1), setPair_fst, setPair_snd]

theorem setPair_up {x : Buf K} {i : Int} {y : Int → K} (h0 : 0 ≤ i) (h1 : 2 * i + 1 < x.size) :
    setPair (mix x 0 (2 * i) y) i (y (2 * i)) (y (2 * i + 1)) = mix x 0 (2 * (i + 1)) y := by
  have h := wrPair_up (y := y) h0 h1
  rw [wrPair_set h0 (by exact h1)] at h
  exact Option.some.inj h

theorem setPair_down {x : Buf K} {i n : Int} {y : Int → K} (h0 : 0 ≤ i) (h1 : 2 * i + 1 < x.size) (hi : i < n) :
    setPair (mix x (2 * (i + 1)) (2 * n) y) i (y (2 * i)) (y (2 * i + 1)) = mix x (2 * i) (2 * n) y := by
  have h := wrPair_down (y := y) h0 h1 hi
  rw [wrPair_set h0 (by exact h1)] at h
  exact Option.some.inj h

theorem mix_again {x : Buf K} {n : Int} {y z : Int → K} : mix (mix x 0 n y) 0 n z = mix x 0 n z :=
  Buf.ext' rfl fun j => by
    by_cases h : 0 ≤ j ∧ j < n
    · rw [mix_val_in h.1 h.2, mix_val_in h.1 h.2]
    · rw [mix_val_out h, mix_val_out h, mix_val_out h]

section ring
variable [CommRing K]

theorem dblk_of {A : Buf K} {n LDA i k : Int} (h : TriOk (2 * n) A LDA) (i0 : 0 ≤ i) (hik : i ≤ k) (k1 : k < n) : dblk A LDA i k = some (blkOf (triB A LDA) i k) := by
  unfold dblk
  rw [h.rd (by omega) (by omega) (by omega) (by omega), Option.bind_some, h.rd (by omega) (by omega) (by omega) (by omega), Option.bind_some,
    h.rd (by omega) (by omega) (by omega) (by omega), Option.bind_some, h.rd (by omega) (by omega) (by omega) (by omega), Option.map_some]
  unfold blkOf triB
  rw [if_pos (by omega), if_pos (by omega), if_pos (by omega), if_pos (by omega)]

theorem triB_zero {A : Buf K} {LDA i k : Int} (h : k < i) : BZ (triB A LDA) i k := by
  unfold BZ triB
  rw [if_neg (by omega), if_neg (by omega), if_neg (by omega), if_neg (by omega)]
  simp

theorem triBT_zero {A : Buf K} {LDA i k : Int} (h : i < k) : BZ (fun i k => triB A LDA k i) i k := by
  unfold BZ triB
  dsimp only
  rw [if_neg (by omega), if_neg (by omega), if_neg (by omega), if_neg (by omega)]
  simp

theorem blkOf_tr (c : Int → Int → K) (i k : Int) : (blkOf c k i).tr = blkOf (fun i k => c k i) i k := rfl

variable {n LDA : Int} {A x : Buf K}

theorem btrmvN_eq (hA : TriOk (2 * n) A LDA) (hn : 2 * n ≤ x.size) :
    btrmv 'N' n A LDA x = some (mix x 0 (2 * n) fun i => ∑ k ∈ Finset.Ico 0 (2 * n), triB A LDA i k * x.val k) := by
  unfold btrmv
  rw [if_pos rfl]
  obtain ⟨s, e, p⟩ := forUp_spec (lo := 0) (hi := n) (s := x) (body := fun j x =>
      (pairUp 0 j (fun i x => (rdPair x i).bind fun xi => (termPair (dblk A LDA i j) x j).map fun t => (xi.1 + t.1, xi.2 + t.2)) x).bind fun x =>
      (termPair (dblk A LDA j j) x j).bind (wrPair x j))
    (fun j s => s = mix x 0 (2 * j) fun r => ∑ k ∈ Finset.Ico 0 j, trm (triB A LDA) x.val r k) (mix_empty x (by omega) _).symm
    (fun j j0 j1 s p => by
      subst p
      refine ⟨_, ?_, rfl⟩
      rw [pairUp_eq (fun r => ∑ k ∈ Finset.Ico 0 (j + 1), trm (triB A LDA) x.val r k) (by rw [mix_size]; omega)]
      · rw [Option.bind_some, mix_again, termPair_of (dblk_of hA j0 le_rfl j1) j0 (by rw [mix_size]; omega), Option.bind_some,
          trm_congr (w := x.val) (mix_val_out (by omega)) (mix_val_out (by omega)), trm_congr (w := x.val) (mix_val_out (by omega)) (mix_val_out (by omega))]
        have hs : ∑ k ∈ Finset.Ico 0 (j + 1), trm (triB A LDA) x.val (2 * j) k = trm (triB A LDA) x.val (2 * j) j ∧
            ∑ k ∈ Finset.Ico 0 (j + 1), trm (triB A LDA) x.val (2 * j + 1) k = trm (triB A LDA) x.val (2 * j + 1) j := by
          rw [sum_Ico_succ j0, sum_Ico_succ j0, sum_Ico_congr fun k _ k1 => (trm_zero (triB_zero k1)).1, sum_Ico_congr (f := trm (triB A LDA) x.val (2 * j + 1)) fun k _ k1 => (trm_zero (triB_zero k1)).2]
          simp
        rw [← hs.1, ← hs.2]
        exact wrPair_up j0 (by omega)
      · intro i i0 i1
        set S := mix x 0 (2 * j) fun r => ∑ k ∈ Finset.Ico 0 j, trm (triB A LDA) x.val r k with hS
        have q : ∀ y r, trm (triB A LDA) (mix S 0 (2 * i) y).val r j = trm (triB A LDA) x.val r j := fun y r =>
          trm_congr (by rw [mix_val_out (by omega), hS, mix_val_out (by omega)]) (by rw [mix_val_out (by omega), hS, mix_val_out (by omega)]) r
        have w : ∀ y r, 2 * i ≤ r → r ≤ 2 * i + 1 → (mix S 0 (2 * i) y).val r + trm (triB A LDA) x.val r j = ∑ k ∈ Finset.Ico 0 (j + 1), trm (triB A LDA) x.val r k := fun y r r0 r1 => by
          rw [mix_val_out (by omega), hS, mix_val_in (by omega) (by omega), sum_Ico_succ j0]
        have hSs : S.size = x.size := rfl
        rw [rdPair_of i0 (by rw [mix_size]; omega), Option.bind_some, termPair_of (dblk_of hA i0 (by omega) j1) j0 (by rw [mix_size]; omega), Option.map_some, q, q]
        dsimp only
        rw [w _ _ le_rfl (by omega), w _ _ (by omega) le_rfl])
  rw [e, p]
  have hf : (fun i => ∑ k ∈ Finset.Ico 0 (2 * n), triB A LDA i k * x.val k) = fun r => ∑ k ∈ Finset.Ico 0 n, trm (triB A LDA) x.val r k := funext fun r => row_pairs _ _ _ _
  rw [hf]
  rcases le_total 0 n with h | h
  · rw [max_eq_right h]
  · rw [max_eq_left h, mix_empty x (by omega), mix_empty x (by omega)]

theorem btrmvT_eq (hA : TriOk (2 * n) A LDA) (hn : 2 * n ≤ x.size) :
    btrmv 'T' n A LDA x = some (mix x 0 (2 * n) fun i => ∑ k ∈ Finset.Ico 0 (2 * n), triB A LDA k i * x.val k) := by
  unfold btrmv
  rw [if_neg (by decide), if_pos rfl]
  set c : Int → Int → K := fun i k => triB A LDA k i with hc
  obtain ⟨s, e, p⟩ := forDown_spec (lo := 0) (hi := n - 1) (s := x) (body := fun i x =>
      ((termPair ((dblk A LDA i i).map M2.tr) x i).bind (wrPair x i)).bind fun x =>
      forDown (i - 1) 0 (fun j x => (rdPair x i).bind fun xi => (termPair ((dblk A LDA j i).map M2.tr) x j).bind fun t => wrPair x i (xi.1 + t.1, xi.2 + t.2)) x)
    (fun i s => s = mix x (2 * (i + 1)) (2 * n) fun r => ∑ k ∈ Finset.Ico 0 n, trm c x.val r k) (mix_empty x (by omega) _).symm
    (fun i i0 i1 s p => by
      subst p
      set X := mix x (2 * (i + 1)) (2 * n) fun r => ∑ k ∈ Finset.Ico 0 n, trm c x.val r k with hX
      have hXs : X.size = x.size := rfl
      have hXt : ∀ k r, k ≤ i → trm c X.val r k = trm c x.val r k := fun k r hk => trm_congr (mix_val_out (by omega)) (mix_val_out (by omega)) r
      have hblk : ∀ j, 0 ≤ j → j ≤ i → (dblk A LDA j i).map M2.tr = some (blkOf c i j) := fun j j0 j1 => by rw [dblk_of hA j0 j1 (by omega)]; rfl
      obtain ⟨t, e, p⟩ := forDown_spec (lo := 0) (hi := i - 1) (s := setPair X i (trm c x.val (2 * i) i) (trm c x.val (2 * i + 1) i))
        (body := fun j x => (rdPair x i).bind fun xi => (termPair ((dblk A LDA j i).map M2.tr) x j).bind fun t => wrPair x i (xi.1 + t.1, xi.2 + t.2))
        (fun j s => s = setPair X i (∑ k ∈ Finset.Ico (j + 1) (i + 1), trm c x.val (2 * i) k) (∑ k ∈ Finset.Ico (j + 1) (i + 1), trm c x.val (2 * i + 1) k))
        (by rw [sub_add_cancel, sum_Ico_succ le_rfl, sum_Ico_succ le_rfl]; simp)
        (fun j j0 j1 s p => by
          subst p
          refine ⟨_, ?_, rfl⟩
          rw [setPair_rd i0 (by omega), Option.bind_some, termPair_of (hblk j j0 (by omega)) j0 (by show _ < (X.size : Int); omega), Option.bind_some]
          have q : ∀ r, trm c (setPair X i (∑ k ∈ Finset.Ico (j + 1) (i + 1), trm c x.val (2 * i) k) (∑ k ∈ Finset.Ico (j + 1) (i + 1), trm c x.val (2 * i + 1) k)).val r j = trm c x.val r j := fun r => by
            rw [← hXt j r (by omega)]; exact trm_congr (setPair_ne _ _ _ _ (by omega)) (setPair_ne _ _ _ _ (by omega)) r
          rw [q, q, wrPair_set i0 (by show _ < (X.size : Int); omega), setPair_set, sub_add_cancel, sum_Ico_pred (lo := j) (by omega), sum_Ico_pred (lo := j) (by omega)]
          dsimp only
          rw [add_comm (trm c x.val (2 * i) j), add_comm (trm c x.val (2 * i + 1) j)])
      refine ⟨mix x (2 * i) (2 * n) fun r => ∑ k ∈ Finset.Ico 0 n, trm c x.val r k, ?_, by rw [sub_add_cancel]⟩
      rw [termPair_of (hblk i i0 le_rfl) i0 (by omega), Option.bind_some, hXt i _ le_rfl, hXt i _ le_rfl, wrPair_set i0 (by omega), Option.bind_some, e, p, min_eq_right (by omega)]
      have q1 : ∑ k ∈ Finset.Ico 0 n, trm c x.val (2 * i) k = ∑ k ∈ Finset.Ico 0 (i + 1), trm c x.val (2 * i) k :=
        sum_Ico_shrink (fun k k0 k1 hk => (trm_zero (triBT_zero (by omega))).1) le_rfl (by omega)
      have q2 : ∑ k ∈ Finset.Ico 0 n, trm c x.val (2 * i + 1) k = ∑ k ∈ Finset.Ico 0 (i + 1), trm c x.val (2 * i + 1) k :=
        sum_Ico_shrink (fun k k0 k1 hk => (trm_zero (triBT_zero (by omega))).2) le_rfl (by omega)
      show some (setPair X i (∑ k ∈ Finset.Ico 0 (i + 1), trm c x.val (2 * i) k) (∑ k ∈ Finset.Ico 0 (i + 1), trm c x.val (2 * i + 1) k)) = _
      rw [← q1, ← q2]
      exact congrArg some (setPair_down (y := fun r => ∑ k ∈ Finset.Ico 0 n, trm c x.val r k) i0 (by omega) (by omega)))
  rw [e, p]
  have hf : (fun i => ∑ k ∈ Finset.Ico 0 (2 * n), triB A LDA k i * x.val k) = fun r => ∑ k ∈ Finset.Ico 0 n, trm c x.val r k := funext fun r => row_pairs c _ _ _
  rw [hf]
  rcases le_total 0 n with h | h
  · rw [min_eq_right (by omega)]; rfl
  · rw [min_eq_left (by omega), mix_empty x (by omega), mix_empty x (by omega)]

end ring

section field
variable [Field K] [DecidableEq K] {n LDA : Int} {A x : Buf K} {y : Int → K}

theorem btrsvN_of (hA : TriOk (2 * n) A LDA) (hn : 2 * n ≤ x.size) (hd : ∀ i, 0 ≤ i → i < n → (blkOf (triB A LDA) i i).det ≠ 0) (hy : Solves (2 * n) (triB A LDA) y x.val) :
    btrsv 'N' n A LDA x = some (mix x 0 (2 * n) y) := by
  unfold btrsv
  rw [if_pos rfl]
  set c := triB A LDA with hc
  let z := fun (j r : Int) => if r < 2 * (j + 1) then x.val r - ∑ k ∈ Finset.Ico (j + 1) n, trm c y r k else y r
  have row : ∀ i, 0 ≤ i → i < n → ∑ k ∈ Finset.Ico i n, trm c y (2 * i) k = x.val (2 * i) ∧ ∑ k ∈ Finset.Ico i n, trm c y (2 * i + 1) k = x.val (2 * i + 1) := fun i i0 i1 => by
    rw [← hy (2 * i) (by omega) (by omega), ← hy (2 * i + 1) (by omega) (by omega)]
    obtain ⟨h1, h2⟩ := row_shrink (c := c) (z := y) (n := n) (i := i) i0 le_rfl fun k k0 k1 hk => triB_zero (by omega)
    exact ⟨h1.symm, h2.symm⟩
  obtain ⟨s, e, p⟩ := forDown_spec (lo := 0) (hi := n - 1) (s := x) (body := fun j x =>
      ((termPair ((dblk A LDA j j).bind M2.inv) x j).bind (wrPair x j)).bind fun x =>
      pairUp 0 j (fun i x => (rdPair x i).bind fun xi => (termPair (dblk A LDA i j) x j).map fun t => (xi.1 - t.1, xi.2 - t.2)) x)
    (fun j s => s = mix x 0 (2 * n) (z j))
    (Buf.ext' rfl fun r => by
      by_cases h : 0 ≤ r ∧ r < 2 * n
      · rw [mix_val_in h.1 h.2]; show _ = if _ then _ else _; rw [if_pos (by omega), sub_add_cancel, Finset.Ico_self, Finset.sum_empty, sub_zero]
      · rw [mix_val_out h])
    (fun j j0 j1 s p => by
      subst p
      refine ⟨_, ?_, rfl⟩
      obtain ⟨D, eD, hD⟩ := M2.inv_inv (hd j j0 (by omega))
      have zj : z j (2 * j) = trm c y (2 * j) j ∧ z j (2 * j + 1) = trm c y (2 * j + 1) j := by
        obtain ⟨h1, h2⟩ := row j j0 (by omega)
        rw [sum_Ico_pred (by omega)] at h1 h2
        show (if _ then _ else _) = _ ∧ (if _ then _ else _) = _
        rw [if_pos (by omega), if_pos (by omega), ← h1, ← h2]
        exact ⟨add_sub_cancel_right _ _, add_sub_cancel_right _ _⟩
      have st : (termPair ((dblk A LDA j j).bind M2.inv) (mix x 0 (2 * n) (z j)) j) = some (y (2 * j), y (2 * j + 1)) := by
        unfold termPair
        rw [dblk_of hA j0 le_rfl (by omega), Option.bind_some, ← hc, eD, Option.bind_some, rdPair_of j0 (by rw [mix_size]; omega), Option.map_some, mix_val_in (by omega) (by omega),
          mix_val_in (by omega) (by omega), zj.1, zj.2]
        exact congrArg some (hD _ _)
      rw [st, Option.bind_some, wrPair_set j0 (by rw [mix_size]; omega), Option.bind_some]
      set S := setPair (mix x 0 (2 * n) (z j)) j (y (2 * j)) (y (2 * j + 1)) with hS
      have hSs : S.size = x.size := rfl
      rw [pairUp_eq (z (j - 1)) (by omega)]
      · congr 1
        refine Buf.ext' rfl fun r => ?_
        by_cases h : 0 ≤ r ∧ r < 2 * j
        · rw [mix_val_in h.1 h.2, mix_val_in h.1 (by omega)]
        · rw [mix_val_out h]
          by_cases h2 : r / 2 = j
          · rw [mix_val_in (by omega) (by omega)]
            show _ = if _ then _ else _
            rw [if_neg (by omega)]
            rcases Int.emod_two_eq_zero_or_one r with h3 | h3
            · rw [show r = 2 * j by omega, hS, setPair_fst]
            · rw [show r = 2 * j + 1 by omega, hS, setPair_snd]
          · rw [hS, setPair_ne _ _ _ _ h2]
            by_cases h4 : 0 ≤ r ∧ r < 2 * n
            · rw [mix_val_in h4.1 h4.2, mix_val_in h4.1 h4.2]
              show (if _ then _ else _) = if _ then _ else _
              rw [if_neg (by omega), if_neg (by omega)]
            · rw [mix_val_out h4, mix_val_out h4]
      · intro i i0 i1
        rw [rdPair_of i0 (by rw [mix_size]; omega), Option.bind_some, termPair_of (dblk_of hA i0 (by omega) (by omega)) j0 (by rw [mix_size]; omega), Option.map_some]
        have q : ∀ r, trm (triB A LDA) (mix S 0 (2 * i) (z (j - 1))).val r j = trm c y r j := fun r =>
          trm_congr (by rw [mix_val_out (by omega), hS, setPair_fst]) (by rw [mix_val_out (by omega), hS, setPair_snd]) r
        have w : ∀ r, 2 * i ≤ r → r ≤ 2 * i + 1 → (mix S 0 (2 * i) (z (j - 1))).val r - trm c y r j = z (j - 1) r := fun r r0 r1 => by
          rw [mix_val_out (by omega), hS, setPair_ne _ _ _ _ (by omega), mix_val_in (by omega) (by omega)]
          show (if _ then _ else _) - _ = if _ then _ else _
          rw [if_pos (by omega), if_pos (by omega), sub_add_cancel, sum_Ico_pred (lo := j) (by omega), sub_sub, add_comm (trm c y r j)]
        rw [q, q]
        dsimp only
        rw [w _ le_rfl (by omega), w _ (by omega) le_rfl])
  rw [e, p]
  congr 1
  refine Buf.ext' rfl fun r => ?_
  by_cases h : 0 ≤ r ∧ r < 2 * n
  · rw [mix_val_in h.1 h.2, mix_val_in h.1 h.2]
    show (if _ then _ else _) = _
    rw [if_neg (by omega)]
  · rw [mix_val_out h, mix_val_out h]

theorem btrsvT_of (hA : TriOk (2 * n) A LDA) (hn : 2 * n ≤ x.size) (hd : ∀ i, 0 ≤ i → i < n → (blkOf (triB A LDA) i i).det ≠ 0) (hy : Solves (2 * n) (fun i k => triB A LDA k i) y x.val) :
    btrsv 'T' n A LDA x = some (mix x 0 (2 * n) y) := by
  unfold btrsv
  rw [if_neg (by decide), if_pos rfl]
  set c : Int → Int → K := fun i k => triB A LDA k i with hc
  have row : ∀ i, 0 ≤ i → i < n → ∑ k ∈ Finset.Ico 0 (i + 1), trm c y (2 * i) k = x.val (2 * i) ∧ ∑ k ∈ Finset.Ico 0 (i + 1), trm c y (2 * i + 1) k = x.val (2 * i + 1) := fun i i0 i1 => by
    rw [← hy (2 * i) (by omega) (by omega), ← hy (2 * i + 1) (by omega) (by omega)]
    obtain ⟨h1, h2⟩ := row_shrink (c := c) (z := y) (n := n) (i := i) le_rfl (show i + 1 ≤ n by omega) fun k k0 k1 hk => triBT_zero (by omega)
    exact ⟨h1.symm, h2.symm⟩
  obtain ⟨s, e, p⟩ := forUp_spec (lo := 0) (hi := n) (s := x) (body := fun i x =>
      (forUp 0 i (fun j x => (rdPair x i).bind fun xi => (termPair ((dblk A LDA j i).map M2.tr) x j).bind fun t => wrPair x i (xi.1 - t.1, xi.2 - t.2)) x).bind fun x =>
      (termPair (((dblk A LDA i i).map M2.tr).bind M2.inv) x i).bind (wrPair x i))
    (fun i s => s = mix x 0 (2 * i) y) (mix_empty x (by omega) _).symm
    (fun i i0 i1 s p => by
      subst p
      refine ⟨_, ?_, rfl⟩
      set X := mix x 0 (2 * i) y with hX
      have hXs : X.size = x.size := rfl
      have hblk : ∀ j, 0 ≤ j → j ≤ i → (dblk A LDA j i).map M2.tr = some (blkOf c i j) := fun j j0 j1 => by rw [dblk_of hA j0 j1 (by omega)]; rfl
      obtain ⟨t, e, p⟩ := forUp_spec (lo := 0) (hi := i) (s := X)
        (body := fun j x => (rdPair x i).bind fun xi => (termPair ((dblk A LDA j i).map M2.tr) x j).bind fun t => wrPair x i (xi.1 - t.1, xi.2 - t.2))
        (fun j s => s = setPair X i (x.val (2 * i) - ∑ k ∈ Finset.Ico 0 j, trm c y (2 * i) k) (x.val (2 * i + 1) - ∑ k ∈ Finset.Ico 0 j, trm c y (2 * i + 1) k))
        (by
          rw [Finset.Ico_self, Finset.sum_empty, Finset.sum_empty, sub_zero, sub_zero]
          refine Buf.ext' rfl fun r => ?_
          by_cases h : r / 2 = i
          · rcases Int.emod_two_eq_zero_or_one r with h3 | h3
            · rw [show r = 2 * i by omega, setPair_fst, hX, mix_val_out (by omega)]
            · rw [show r = 2 * i + 1 by omega, setPair_snd, hX, mix_val_out (by omega)]
          · rw [setPair_ne _ _ _ _ h])
        (fun j j0 j1 s p => by
          subst p
          refine ⟨_, ?_, rfl⟩
          rw [setPair_rd i0 (by omega), Option.bind_some, termPair_of (hblk j j0 (by omega)) j0 (by show _ < (X.size : Int); omega), Option.bind_some]
          have q : ∀ u v r, trm c (setPair X i u v).val r j = trm c y r j := fun u v r =>
            trm_congr (by rw [setPair_ne _ _ _ _ (by omega), hX, mix_val_in (by omega) (by omega)]) (by rw [setPair_ne _ _ _ _ (by omega), hX, mix_val_in (by omega) (by omega)]) r
          rw [q, q, wrPair_set i0 (by show _ < (X.size : Int); omega), setPair_set, sum_Ico_succ j0, sum_Ico_succ j0, sub_sub, sub_sub])
      obtain ⟨D, eD, hD⟩ := M2.inv_inv (A := blkOf c i i) (by have := hd i i0 i1; intro h; apply this; unfold M2.det blkOf at *; rw [← h]; show _ - _ * _ = _ - _ * _; dsimp only; ring)
      rw [e, p, max_eq_right i0, Option.bind_some]
      have st : ∀ Y : Buf K, rdPair Y i = some (trm c y (2 * i) i, trm c y (2 * i + 1) i) → termPair (((dblk A LDA i i).map M2.tr).bind M2.inv) Y i = some (y (2 * i), y (2 * i + 1)) := fun Y h => by
        unfold termPair
        rw [hblk i i0 le_rfl, Option.bind_some, eD, Option.bind_some, h, Option.map_some]
        exact congrArg some (hD _ _)
      obtain ⟨r1, r2⟩ := row i i0 i1
      rw [sum_Ico_succ i0] at r1 r2
      rw [st _ (by rw [setPair_rd i0 (by omega), ← r1, ← r2, add_sub_cancel_left, add_sub_cancel_left]), Option.bind_some, wrPair_set i0 (by show _ < (X.size : Int); omega), setPair_set]
      exact congrArg some (setPair_up i0 (by omega)))
  rw [e, p]
  rcases le_total 0 n with h | h
  · rw [max_eq_right h]
  · rw [max_eq_left h, mix_empty x (by omega), mix_empty x (by omega)]

end field

end FT
