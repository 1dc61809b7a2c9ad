import Verif.Model.Dpr1Eig
import Verif.Lemmas.RankOne
import Verif.Lemmas.SortPerm

/-! # Lemmas on products with the eigenvectors of a rank-one update -/

namespace FT
variable {K : Type*}

theorem mix_congr {x : Buf K} {lo hi : Int} {f g : Int → K} (h : ∀ k, lo ≤ k → k < hi → f k = g k) : mix x lo hi f = mix x lo hi g := mix_succ_congr h

section Ring
variable [CommRing K] [DecidableEq K]

theorem betaB_eq {beta : K} {n : Int} {y : Buf K} {oy : Int} (h0 : 0 ≤ oy) (h1 : oy + n ≤ y.size) : betaB beta n y oy = some (mix y oy (oy + n) fun k => beta * y.val k) := by
  unfold betaB
  split_ifs with a b
  · congr 1
    refine Buf.ext' rfl fun j => ?_
    unfold mix; simp only; split_ifs
    · rw [a, one_mul]
    · rfl
  · rw [sweepOff_eq (fun _ => 0) (by omega) h1 fun i _ _ => rfl, add_zero]
    congr 1
    exact mix_congr fun k _ _ => by rw [b, zero_mul]
  · rw [sweepOff_eq (fun i => beta * y.val (oy + i)) (by omega) h1 fun i i0 i1 => ?_, add_zero]
    · congr 1
      exact mix_congr fun k _ _ => by rw [add_sub_cancel]
    · rw [Buf.rd_of (by omega) (by show _ < (y.size : Int); omega), mix_val_out (by omega)]; rfl

variable {m n LDA ox oy : Int} {alpha beta : K} {A x y : Buf K}

theorem gemvB_N (hx0 : 0 ≤ ox) (hx1 : ox + n ≤ x.size) (hy0 : 0 ≤ oy) (hy1 : oy + m ≤ y.size)
    (hA : ∀ i j, 0 ≤ i → i < m → 0 ≤ j → j < n → A.rd (i + j * LDA) = some (A.val (i + j * LDA))) :
    gemvB 'N' m n alpha A LDA x ox beta y oy =
      some (mix y oy (oy + m) fun k => beta * y.val k + alpha * ∑ j ∈ Finset.Ico 0 n, A.val (k - oy + j * LDA) * x.val (ox + j)) := by
  unfold gemvB
  rw [if_pos rfl, betaB_eq hy0 hy1, Option.bind_some]
  obtain ⟨Z, e, p⟩ := forUp_spec (lo := 0) (hi := n) (s := mix y oy (oy + m) fun k => beta * y.val k)
    (body := fun j y => (x.rd (ox + j)).bind fun v => sweepOff oy 0 m (fun i y => (A.rd (i + j * LDA)).bind fun a => (y.rd (oy + i)).map fun w => w + a * (alpha * v)) y)
    (fun J Z => Z = mix y oy (oy + m) fun k => beta * y.val k + alpha * ∑ j ∈ Finset.Ico 0 J, A.val (k - oy + j * LDA) * x.val (ox + j))
    (by simp) (fun j j0 j1 Z hZ => by
      subst hZ
      refine ⟨_, ?_, rfl⟩
      rw [Buf.rd_of (by omega) (by omega), Option.bind_some]
      rw [sweepOff_eq (fun i => beta * y.val (oy + i) + alpha * ∑ j ∈ Finset.Ico 0 (j + 1), A.val (i + j * LDA) * x.val (ox + j)) (by omega) (by show _ ≤ (y.size : Int); omega) fun i i0 i1 => ?_]
      · rw [add_zero, mix_mix]
        congr 1
        exact mix_congr fun k _ _ => by rw [add_sub_cancel]
      · rw [hA i j i0 i1 j0 j1, Option.bind_some, Buf.rd_of (by omega) (by show _ < (y.size : Int); omega), mix_val_out (by omega), mix_val_in (by omega) (by omega), add_sub_cancel_left,
          sum_Ico_succ j0]
        show some _ = some _
        congr 1; ring)
  rw [e, p]
  congr 1
  rcases le_total 0 n with hl | hl
  · rw [max_eq_right hl]
  · rw [max_eq_left hl, Finset.Ico_self, Finset.Ico_eq_empty (by omega)]

theorem gemvB_T (hx0 : 0 ≤ ox) (hx1 : ox + m ≤ x.size) (hy0 : 0 ≤ oy) (hy1 : oy + n ≤ y.size)
    (hA : ∀ j i, 0 ≤ j → j < m → 0 ≤ i → i < n → A.rd (j + i * LDA) = some (A.val (j + i * LDA))) :
    gemvB 'T' m n alpha A LDA x ox beta y oy =
      some (mix y oy (oy + n) fun k => beta * y.val k + alpha * ∑ j ∈ Finset.Ico 0 m, A.val (j + (k - oy) * LDA) * x.val (ox + j)) := by
  unfold gemvB
  rw [if_neg (by decide), if_pos rfl, betaB_eq hy0 hy1, Option.bind_some]
  rw [sweepOff_eq (fun i => beta * y.val (oy + i) + alpha * ∑ j ∈ Finset.Ico 0 m, A.val (j + i * LDA) * x.val (ox + j)) (by omega) (by show _ ≤ (y.size : Int); omega) fun i i0 i1 => ?_]
  · rw [add_zero, mix_mix]
    congr 1
    exact mix_congr fun k _ _ => by rw [add_sub_cancel]
  · rw [accUp_eq (g := fun j => A.val (j + i * LDA) * x.val (ox + j)) fun j j0 j1 => by
      rw [hA j i j0 j1 i0 i1, Option.bind_some, Buf.rd_of (by omega) (by omega)]; rfl]
    rw [Option.bind_some, Buf.rd_of (by omega) (by show _ < (y.size : Int); omega), mix_val_out (by omega), mix_val_in (by omega) (by omega), zero_add]
    rfl

end Ring

/-! ## Permutations -/

section Perm
variable {α : Type*} {n : Int} {p : Buf Int}

/-- The inverse of a permutation. -/
noncomputable def IsPerm.inv (hp : IsPerm n p) (k : Int) : Int := if h : 0 ≤ k ∧ k < n then (hp.surj h.1 h.2).choose else k

theorem IsPerm.inv_spec (hp : IsPerm n p) {k : Int} (k0 : 0 ≤ k) (k1 : k < n) : 0 ≤ hp.inv k ∧ hp.inv k < n ∧ p.val (hp.inv k) = k := by
  unfold IsPerm.inv
  rw [dif_pos ⟨k0, k1⟩]
  exact (hp.surj k0 k1).choose_spec

theorem IsPerm.inv_val (hp : IsPerm n p) {k : Int} (k0 : 0 ≤ k) (k1 : k < n) : hp.inv (p.val k) = k := by
  obtain ⟨a, b, c⟩ := hp.inv_spec (hp.lo k k0 k1) (hp.hi k k0 k1)
  exact hp.inj _ _ a b k0 k1 c

theorem IsPerm.sum [AddCommMonoid α] (hp : IsPerm n p) (f : Int → α) : ∑ k ∈ Finset.Ico 0 n, f (p.val k) = ∑ k ∈ Finset.Ico 0 n, f k := by
  refine Finset.sum_bij (fun k _ => p.val k) (fun k hk => ?_) (fun k hk l hl h => ?_) (fun k hk => ?_) (fun k _ => rfl)
  · rw [Finset.mem_Ico] at hk ⊢; exact ⟨hp.lo k hk.1 hk.2, hp.hi k hk.1 hk.2⟩
  · rw [Finset.mem_Ico] at hk hl; exact hp.inj k l hk.1 hk.2 hl.1 hl.2 h
  · rw [Finset.mem_Ico] at hk
    obtain ⟨i, a, b, c⟩ := hp.surj hk.1 hk.2
    exact ⟨i, Finset.mem_Ico.2 ⟨a, b⟩, c⟩

theorem perm_NT (hp : IsPerm n p) {x x' : Buf α} (hx : n ≤ x.size) (e : perm 'N' x p n = some (x', p)) : perm 'T' x' p n = some (x, p) := by
  obtain ⟨y, e1, hs, h1, h2⟩ := perm_N_eq hp hx
  rw [e] at e1
  injection e1 with e1
  injection e1 with e1 _
  subst e1
  obtain ⟨z, e', hs', h1', h2'⟩ := perm_T_eq hp (x := x') (by omega)
  rw [e']
  congr 2
  refine Buf.ext' (by omega) fun k => ?_
  by_cases hk : 0 ≤ k ∧ k < n
  · obtain ⟨i, i0, i1, rfl⟩ := hp.surj hk.1 hk.2
    rw [h1' i i0 i1, h1 i i0 i1]
  · rw [h2' k hk, h2 k hk]

theorem perm_TN (hp : IsPerm n p) {x x' : Buf α} (hx : n ≤ x.size) (e : perm 'T' x p n = some (x', p)) : perm 'N' x' p n = some (x, p) := by
  obtain ⟨y, e1, hs, h1, h2⟩ := perm_T_eq hp hx
  rw [e] at e1
  injection e1 with e1
  injection e1 with e1 _
  subst e1
  obtain ⟨z, e', hs', h1', h2'⟩ := perm_N_eq hp (x := x') (by omega)
  rw [e']
  congr 2
  refine Buf.ext' (by omega) fun k => ?_
  by_cases hk : 0 ≤ k ∧ k < n
  · rw [h1' k hk.1 hk.2, h1 k hk.1 hk.2]
  · rw [h2' k hk, h2 k hk]

end Perm

/-! ## `dvmv` -/

section Dvmv
variable [CommRing K] [DecidableEq K]

/-- What the code relies on in a decomposition. -/
structure Dpr1Eigen.Ok (F : Dpr1Eigen K) : Prop where
  iz0 : 0 ≤ F.iz
  id0 : 0 ≤ F.id
  le : F.iz + F.id ≤ F.n
  p : IsPerm F.n F.p
  q : IsPerm F.n F.q
  v : F.id ≤ F.v.size
  V : (F.n - F.iz) * (F.n - F.iz - F.id) ≤ F.V.size

/-- All arrays of `F` have the sizes and the permutations the contents that the code relies on. -/
structure Dpr1Eigen.Formed (F : Dpr1Eigen K) : Prop where
  ok : F.Ok
  lambda : (F.lambda.size : Int) = F.n
  lo : (F.lo.size : Int) = F.n
  hi : (F.hi.size : Int) = F.n

/-- The matrix in the order of the deflated problem. -/
def Dpr1Eigen.W (F : Dpr1Eigen K) (i k : Int) : K :=
  if i < F.iz then (if k = i then 1 else 0)
  else if k < F.iz then 0
  else if k < F.iz + F.id then (if i = k then F.v.val (k - F.iz) else 0)
  else F.V.val (i - F.iz + (k - (F.iz + F.id)) * (F.n - F.iz))

omit [CommRing K] [DecidableEq K] in
theorem Dpr1Eigen.Ok.rd {F : Dpr1Eigen K} (h : F.Ok) : ∀ i j, 0 ≤ i → i < F.n - F.iz → 0 ≤ j → j < F.n - F.iz - F.id → F.V.rd (i + j * (F.n - F.iz)) = some (F.V.val (i + j * (F.n - F.iz))) := by
  intro i j i0 i1 j0 j1
  have h1 : 0 ≤ j * (F.n - F.iz) := Int.mul_nonneg j0 (by omega)
  have h2 : (j + 1) * (F.n - F.iz) ≤ (F.n - F.iz - F.id) * (F.n - F.iz) := Int.mul_le_mul_of_nonneg_right (by omega) (by omega)
  have h3 := h.V
  rw [Int.mul_comm] at h3
  rw [Int.add_mul, Int.one_mul] at h2
  exact Buf.rd_of (by omega) (by omega)

omit [DecidableEq K] in
theorem ico_split {lo a hi : Int} (h1 : lo ≤ a) (h2 : a ≤ hi) (f : Int → K) : ∑ k ∈ Finset.Ico lo hi, f k = (∑ k ∈ Finset.Ico lo a, f k) + ∑ k ∈ Finset.Ico a hi, f k := by
  rw [← Finset.sum_union (by
    rw [Finset.disjoint_left]; intro x hx hy; rw [Finset.mem_Ico] at hx hy; omega)]
  congr 1
  ext x; simp only [Finset.mem_Ico, Finset.mem_union]; omega

omit [DecidableEq K] in
theorem ico_shift (a n : Int) (f : Int → K) : ∑ k ∈ Finset.Ico a (a + n), f k = ∑ k ∈ Finset.Ico 0 n, f (a + k) := by
  refine (Finset.sum_bij (fun k _ => a + k) (fun k hk => ?_) (fun k _ l _ h => by omega) (fun k hk => ⟨k - a, ?_, by omega⟩) (fun k _ => rfl)).symm
  · rw [Finset.mem_Ico] at hk ⊢; omega
  · rw [Finset.mem_Ico] at hk ⊢; omega

omit [DecidableEq K] in
theorem W_row {F : Dpr1Eigen K} (h : F.Ok) {i : Int} (i0 : F.iz ≤ i) (x : Int → K) :
    ∑ k ∈ Finset.Ico 0 F.n, F.W i k * x k = (if i < F.iz + F.id then F.v.val (i - F.iz) * x i else 0) +
      ∑ j ∈ Finset.Ico 0 (F.n - F.iz - F.id), F.V.val (i - F.iz + j * (F.n - F.iz)) * x (F.iz + F.id + j) := by
  obtain ⟨a, b, c, _⟩ := h
  rw [ico_split (a := F.iz) a (by omega), ico_split (lo := F.iz) (a := F.iz + F.id) (by omega) c]
  have e1 : ∑ k ∈ Finset.Ico 0 F.iz, F.W i k * x k = 0 := by
    rw [sum_Ico_congr (g := fun _ => 0) fun k _ k1 => by unfold Dpr1Eigen.W; rw [if_neg (by omega), if_pos k1, zero_mul]]
    exact Finset.sum_const_zero
  have e2 : ∑ k ∈ Finset.Ico F.iz (F.iz + F.id), F.W i k * x k = (if i < F.iz + F.id then F.v.val (i - F.iz) * x i else 0) := by
    rw [sum_Ico_congr (g := fun k => if k = i then F.v.val (k - F.iz) * x k else 0) fun k k0 k1 => by
      unfold Dpr1Eigen.W
      rw [if_neg (by omega), if_neg (by omega), if_pos k1]
      by_cases hk : i = k
      · rw [if_pos hk, if_pos hk.symm]
      · rw [if_neg hk, if_neg (Ne.symm hk), zero_mul]]
    by_cases hi : i < F.iz + F.id
    · rw [if_pos hi, sum_Ico_delta i0 hi]
    · rw [if_neg hi, sum_Ico_congr (g := fun _ => 0) fun k _ k1 => if_neg (by omega)]
      exact Finset.sum_const_zero
  have e3 : ∑ k ∈ Finset.Ico (F.iz + F.id) F.n, F.W i k * x k = ∑ j ∈ Finset.Ico 0 (F.n - F.iz - F.id), F.V.val (i - F.iz + j * (F.n - F.iz)) * x (F.iz + F.id + j) := by
    rw [show F.n = F.iz + F.id + (F.n - F.iz - F.id) by omega, ico_shift, ← show F.n = F.iz + F.id + (F.n - F.iz - F.id) by omega]
    refine sum_Ico_congr fun k k0 k1 => ?_
    unfold Dpr1Eigen.W
    rw [if_neg (by omega), if_neg (by omega), if_neg (by omega), add_sub_cancel_left]
  rw [e1, e2, e3, zero_add]

omit [DecidableEq K] in
theorem W_top {F : Dpr1Eigen K} {i : Int} (i0 : 0 ≤ i) (i1 : i < F.iz) (h : F.iz ≤ F.n) (x : Int → K) : ∑ k ∈ Finset.Ico 0 F.n, F.W i k * x k = x i := by
  rw [sum_Ico_congr (g := fun k => if k = i then x k else 0) fun k _ _ => by
    unfold Dpr1Eigen.W; rw [if_pos i1]; split_ifs <;> simp]
  exact sum_Ico_delta i0 (by omega) _

omit [DecidableEq K] in
theorem W_col {F : Dpr1Eigen K} (h : F.Ok) {k : Int} (k0 : 0 ≤ k) (k1 : k < F.n) (x : Int → K) :
    ∑ i ∈ Finset.Ico 0 F.n, F.W i k * x i = if k < F.iz then x k else if k < F.iz + F.id then F.v.val (k - F.iz) * x k else
      ∑ i ∈ Finset.Ico 0 (F.n - F.iz), F.V.val (i + (k - (F.iz + F.id)) * (F.n - F.iz)) * x (F.iz + i) := by
  obtain ⟨a, b, c, _⟩ := h
  split_ifs with h1 h2
  · rw [sum_Ico_congr (g := fun i => if i = k then x i else 0) fun i i0 i1 => by
      unfold Dpr1Eigen.W
      by_cases hi : i < F.iz
      · rw [if_pos hi]
        by_cases hk : k = i
        · rw [if_pos hk, if_pos hk.symm, one_mul]
        · rw [if_neg hk, if_neg (Ne.symm hk), zero_mul]
      · rw [if_neg hi, if_pos h1, if_neg (by omega), zero_mul]]
    exact sum_Ico_delta k0 k1 _
  · rw [sum_Ico_congr (g := fun i => if i = k then F.v.val (k - F.iz) * x i else 0) fun i i0 i1 => by
      unfold Dpr1Eigen.W
      by_cases hi : i < F.iz
      · rw [if_pos hi, if_neg (by omega), if_neg (by omega), zero_mul]
      · rw [if_neg hi, if_neg h1, if_pos h2]
        split_ifs <;> simp]
    exact sum_Ico_delta k0 k1 _
  · rw [ico_split (a := F.iz) a (by omega)]
    have e1 : ∑ i ∈ Finset.Ico 0 F.iz, F.W i k * x i = 0 := by
      rw [sum_Ico_congr (g := fun _ => 0) fun i _ i1 => by unfold Dpr1Eigen.W; rw [if_pos i1, if_neg (by omega), zero_mul]]
      exact Finset.sum_const_zero
    rw [e1, zero_add, show F.n = F.iz + (F.n - F.iz) by omega, ico_shift, ← show F.n = F.iz + (F.n - F.iz) by omega]
    refine sum_Ico_congr fun i i0 i1 => ?_
    unfold Dpr1Eigen.W
    rw [if_neg (by omega), if_neg h1, if_neg h2, add_sub_cancel_left]

/-- `dvmv('N')` in the order of the deflated problem. -/
theorem dvmv_N {F : Dpr1Eigen K} (h : F.Ok) {alpha beta : K} {x y : Buf K} (hx : F.n ≤ x.size) (hy : F.n ≤ y.size) :
    ∃ y', dvmv 'N' alpha F x beta y = some (F, x, y') ∧ y'.size = y.size ∧ (∀ r, ¬ (0 ≤ r ∧ r < F.n) → y'.val r = y.val r) ∧
      ∀ i, 0 ≤ i → i < F.n → y'.val (F.p.val i) = alpha * (∑ j ∈ Finset.Ico 0 F.n, F.W i (F.q.val j) * x.val j) + beta * y.val (F.p.val i) := by
  obtain ⟨x1, e1, s1, v1, _⟩ := perm_T_eq h.q hx
  obtain ⟨y1, e2, s2, v2, w2⟩ := perm_N_eq h.p hy
  have hsum : ∀ i, ∑ j ∈ Finset.Ico 0 F.n, F.W i (F.q.val j) * x.val j = ∑ k ∈ Finset.Ico 0 F.n, F.W i k * x1.val k := fun i => by
    rw [← h.q.sum fun k => F.W i k * x1.val k]
    exact sum_Ico_congr fun j j0 j1 => by rw [v1 j j0 j1]
  have o1 := h.iz0
  have o2 := h.id0
  have o3 := h.le
  have o4 := h.v
  unfold dvmv
  rw [if_pos rfl, e1]
  simp only [Option.bind_some, e2]
  rw [sweepUp_eq (fun i => alpha * x1.val i + beta * y1.val i) (le_refl _) (by omega) fun i i0 i1 => by
    rw [Buf.rd_of i0 (by omega), Option.bind_some, Buf.rd_of i0 (by show _ < (y1.size : Int); omega), mix_val_out (by omega)]; rfl]
  rw [Option.bind_some, gemvB_N (by omega) (by omega) (by omega) (by show _ ≤ (y1.size : Int); omega) h.rd, Option.bind_some]
  rw [sweepUp_eq (fun i => beta * y1.val i + alpha * (∑ j ∈ Finset.Ico 0 (F.n - F.iz - F.id), F.V.val (i - F.iz + j * (F.n - F.iz)) * x1.val (F.iz + F.id + j)) +
      alpha * F.v.val (i - F.iz) * x1.val i) o1 (by show _ ≤ (y1.size : Int); omega) fun i i0 i1 => by
    rw [Buf.rd_of (by omega) (by show _ < (y1.size : Int); omega), mix_val_out (by omega), mix_val_in (by omega) (by omega), mix_val_out (by omega), Option.bind_some,
      Buf.rd_of (by omega) (by omega), Option.bind_some, Buf.rd_of (by omega) (by omega)]; rfl]
  rw [Option.bind_some, perm_TN h.q hx e1]
  simp only [Option.bind_some]
  obtain ⟨y2, e3, s3, v3, w3⟩ := perm_T_eq h.p (x := mix (mix (mix y1 0 F.iz fun i => alpha * x1.val i + beta * y1.val i) F.iz (F.iz + (F.n - F.iz)) fun k =>
      beta * (mix y1 0 F.iz fun i => alpha * x1.val i + beta * y1.val i).val k +
        alpha * ∑ j ∈ Finset.Ico 0 (F.n - F.iz - F.id), F.V.val (k - F.iz + j * (F.n - F.iz)) * x1.val (F.iz + F.id + j)) F.iz (F.iz + F.id) fun i =>
      beta * y1.val i + alpha * (∑ j ∈ Finset.Ico 0 (F.n - F.iz - F.id), F.V.val (i - F.iz + j * (F.n - F.iz)) * x1.val (F.iz + F.id + j)) +
        alpha * F.v.val (i - F.iz) * x1.val i) (by show _ ≤ (y1.size : Int); omega)
  rw [e3]
  refine ⟨y2, rfl, s3.trans s2, fun r hr => ?_, fun i i0 i1 => ?_⟩
  · rw [w3 r hr, mix_val_out (by omega), mix_val_out (by omega), mix_val_out (by omega), w2 r hr]
  · rw [v3 i i0 i1, hsum i, ← v2 i i0 i1]
    by_cases h1 : i < F.iz
    · rw [mix_val_out (by omega), mix_val_out (by omega), mix_val_in i0 h1, W_top i0 h1 (by omega)]
    · rw [W_row h (by omega)]
      by_cases h2 : i < F.iz + F.id
      · rw [mix_val_in (by omega) h2, if_pos h2]; ring
      · rw [mix_val_out (by omega), mix_val_in (by omega) (by omega), mix_val_out (by omega), if_neg h2]; ring

/-- `dvmv('T')` in the order of the deflated problem. -/
theorem dvmv_T {F : Dpr1Eigen K} (h : F.Ok) {alpha beta : K} {x y : Buf K} (hx : F.n ≤ x.size) (hy : F.n ≤ y.size) :
    ∃ y', dvmv 'T' alpha F x beta y = some (F, x, y') ∧ y'.size = y.size ∧ (∀ r, ¬ (0 ≤ r ∧ r < F.n) → y'.val r = y.val r) ∧
      ∀ j, 0 ≤ j → j < F.n → y'.val j = alpha * (∑ i ∈ Finset.Ico 0 F.n, F.W i (F.q.val j) * x.val (F.p.val i)) + beta * y.val j := by
  obtain ⟨x1, e1, s1, v1, _⟩ := perm_N_eq h.p hx
  obtain ⟨y1, e2, s2, v2, w2⟩ := perm_T_eq h.q hy
  have o1 := h.iz0
  have o2 := h.id0
  have o3 := h.le
  have o4 := h.v
  unfold dvmv
  rw [if_neg (by decide), if_pos rfl, e1]
  simp only [Option.bind_some, e2]
  rw [sweepUp_eq (fun i => alpha * x1.val i + beta * y1.val i) (le_refl _) (by omega) fun i i0 i1 => by
    rw [Buf.rd_of i0 (by omega), Option.bind_some, Buf.rd_of i0 (by show _ < (y1.size : Int); omega), mix_val_out (by omega)]; rfl]
  rw [Option.bind_some, sweepUp_eq (fun i => alpha * F.v.val (i - F.iz) * x1.val i + beta * y1.val i) o1 (by show _ ≤ (y1.size : Int); omega) fun i i0 i1 => by
    rw [Buf.rd_of (by omega) (by omega), Option.bind_some, Buf.rd_of (by omega) (by omega), Option.bind_some,
      Buf.rd_of (by omega) (by show _ < (y1.size : Int); omega), mix_val_out (by omega), mix_val_out (by omega)]; rfl]
  rw [Option.bind_some, gemvB_T (by omega) (by omega) (by omega) (by show _ ≤ (y1.size : Int); omega) h.rd, Option.bind_some, perm_NT h.p hx e1]
  simp only [Option.bind_some]
  obtain ⟨y2, e3, s3, v3, w3⟩ := perm_N_eq h.q (x := mix (mix (mix y1 0 F.iz fun i => alpha * x1.val i + beta * y1.val i) F.iz (F.iz + F.id) fun i =>
      alpha * F.v.val (i - F.iz) * x1.val i + beta * y1.val i) (F.iz + F.id) (F.iz + F.id + (F.n - F.iz - F.id)) fun k =>
      beta * (mix (mix y1 0 F.iz fun i => alpha * x1.val i + beta * y1.val i) F.iz (F.iz + F.id) fun i => alpha * F.v.val (i - F.iz) * x1.val i + beta * y1.val i).val k +
        alpha * ∑ j ∈ Finset.Ico 0 (F.n - F.iz), F.V.val (j + (k - (F.iz + F.id)) * (F.n - F.iz)) * x1.val (F.iz + j)) (by show _ ≤ (y1.size : Int); omega)
  rw [e3]
  refine ⟨y2, rfl, s3.trans s2, fun r hr => ?_, fun j j0 j1 => ?_⟩
  · rw [w3 r hr, mix_val_out (by omega), mix_val_out (by omega), mix_val_out (by omega), w2 r hr]
  · have q0 := h.q.lo j j0 j1
    have q1 := h.q.hi j j0 j1
    have hv := v2 j j0 j1
    rw [v3 j j0 j1, ← hv, sum_Ico_congr (g := fun i => F.W i (F.q.val j) * x1.val i) fun i i0 i1 => by rw [v1 i i0 i1], W_col h q0 q1]
    generalize F.q.val j = k at *
    by_cases h1 : k < F.iz
    · rw [mix_val_out (by omega), mix_val_out (by omega), mix_val_in q0 h1, if_pos h1]
    · rw [if_neg h1]
      by_cases h2 : k < F.iz + F.id
      · rw [mix_val_out (by omega), mix_val_in (by omega) h2, if_pos h2]; ring
      · rw [mix_val_in (by omega) (by omega), mix_val_out (by omega), mix_val_out (by omega), if_neg h2]; ring

end Dvmv

end FT
