import Verif.Props.TdcSpec

/-! # Lemmas for C67: the products -/

namespace FT.Props
open FT

variable {K : Type*}

theorem TSame.refl : ∀ F : Tdc K, TSame F F
  | .leaf n V l => .leaf n V l
  | .node n F0 F1 F2 z => .node n F0 F1 F2 F1 F2 z z (TSame.refl F1) (TSame.refl F2) rfl

theorem TSame.symm {F G : Tdc K} (h : TSame F G) : TSame G F := by
  induction h with
  | leaf n V l => exact .leaf n V l
  | node n F0 F1 F2 G1 G2 z w _ _ hz i1 i2 => exact .node n F0 G1 G2 F1 F2 w z i1 i2 hz.symm

theorem TSame.trans {F G : Tdc K} (h : TSame F G) : ∀ {H : Tdc K}, TSame G H → TSame F H := by
  induction h with
  | leaf n V l => exact fun h => h
  | node n F0 F1 F2 G1 G2 z w _ _ hz i1 i2 =>
    intro H h
    cases h with
    | node _ _ _ _ H1 H2 _ v h1 h2 hv => exact .node n F0 F1 F2 H1 H2 z v (i1 h1) (i2 h2) (hz.trans hv)

theorem TSame.lambda {F G : Tdc K} (h : TSame F G) : F.lambda = G.lambda := by cases h <;> rfl

/-- All arrays of `F`, an object for size `n`, have the sizes and the permutations the contents that the code relies on, and the leaves are the objects below the block size. -/
inductive TFormed (bs : Int) : Int → Tdc K → Prop
  | leaf (n : Int) (V l : Buf K) : 0 ≤ n → n < bs → (V.size : Int) = n * n → (l.size : Int) = n → TFormed bs n (.leaf n V l)
  | node (n : Int) (F0 : Dpr1Eigen K) (F1 F2 : Tdc K) (z : Buf K) : bs ≤ n → F0.Formed → F0.n = n → TFormed bs (n / 2) F1 → TFormed bs (n - n / 2) F2 → n ≤ z.size →
      TFormed bs n (.node n F0 F1 F2 z)

theorem TFormed.same {bs n : Int} {F : Tdc K} (h : TFormed bs n F) : ∀ {G : Tdc K}, TSame F G → TFormed bs n G := by
  induction h with
  | leaf n V l h0 h1 h2 h3 => intro G s; cases s; exact .leaf n V l h0 h1 h2 h3
  | node n F0 F1 F2 z hb h0 hn _ _ hz i1 i2 =>
    intro G s
    cases s with
    | node _ _ _ _ G1 G2 _ w s1 s2 hw => exact .node n F0 G1 G2 w hb h0 hn (i1 s1) (i2 s2) (by omega)

section
variable [CommRing K]

theorem blk_row {s n : Int} (h0 : 0 ≤ s) (h1 : s ≤ n) (P Q : Int → Int → K) (x : Int → K) (i : Int) :
    ∑ k ∈ Finset.Ico 0 n, blockDiag s P Q i k * x k =
      if i < s then ∑ k ∈ Finset.Ico 0 s, P i k * x k else ∑ k ∈ Finset.Ico 0 (n - s), Q (i - s) k * x (s + k) := by
  have hn : n = s + (n - s) := by omega
  rw [ico_split h0 h1]
  conv_lhs => rw [hn]
  rw [ico_shift s (n - s)]
  split
  · rename_i hi
    rw [Finset.sum_eq_zero (s := Finset.Ico 0 (n - s)) (fun k hk => by
        rw [Finset.mem_Ico] at hk
        rw [show blockDiag s P Q i (s + k) = 0 by unfold blockDiag; rw [if_neg (by omega), if_neg (by omega)], zero_mul]), add_zero]
    refine Finset.sum_congr rfl (fun k hk => ?_)
    rw [Finset.mem_Ico] at hk
    rw [show blockDiag s P Q i k = P i k by unfold blockDiag; rw [if_pos ⟨hi, by omega⟩]]
  · rename_i hi
    rw [Finset.sum_eq_zero (s := Finset.Ico 0 s) (fun k hk => by
        rw [Finset.mem_Ico] at hk
        rw [show blockDiag s P Q i k = 0 by unfold blockDiag; rw [if_neg (by omega), if_neg (by omega)], zero_mul]), zero_add]
    refine Finset.sum_congr rfl (fun k hk => ?_)
    rw [Finset.mem_Ico] at hk
    rw [show blockDiag s P Q i (s + k) = Q (i - s) k by unfold blockDiag; rw [if_neg (by omega), if_pos (by omega), show s + k - s = k by omega]]

theorem blk_swap {s : Int} (P Q : Int → Int → K) (i j : Int) : blockDiag s P Q i j = blockDiag s (fun a b => P b a) (fun a b => Q b a) j i := by
  unfold blockDiag
  simp only [and_comm]

theorem blk_col {s n : Int} (h0 : 0 ≤ s) (h1 : s ≤ n) (P Q : Int → Int → K) (x : Int → K) (j : Int) :
    ∑ k ∈ Finset.Ico 0 n, blockDiag s P Q k j * x k =
      if j < s then ∑ k ∈ Finset.Ico 0 s, P k j * x k else ∑ k ∈ Finset.Ico 0 (n - s), Q k (j - s) * x (s + k) := by
  rw [Finset.sum_congr rfl fun k _ => by rw [blk_swap P Q k j], blk_row h0 h1]

end

section
variable [CommRing K] [DecidableEq K]

theorem TActs.same {n : Int} {F G : Tdc K} {M : Int → Int → K} (h : TActs n F M) (hs : TSame F G) : TActs n G M :=
  ⟨fun H hH a b x y hx hy => by
    obtain ⟨H', y', e, s, r⟩ := h.N H (hs.trans hH) a b x y hx hy
    exact ⟨H', y', e, hs.symm.trans s, r⟩,
   fun H hH a b x y hx hy => by
    obtain ⟨H', y', e, s, r⟩ := h.T H (hs.trans hH) a b x y hx hy
    exact ⟨H', y', e, hs.symm.trans s, r⟩⟩

theorem idx_lt {n i j : Int} (i0 : 0 ≤ i) (i1 : i < n) (j0 : 0 ≤ j) (j1 : j < n) : 0 ≤ i + j * n ∧ i + j * n < n * n :=
  ⟨by nlinarith, by nlinarith⟩

theorem tacts_leaf {n : Int} {V l : Buf K} (hV : (V.size : Int) = n * n) : TActs n (.leaf n V l) (fun r j => V.val (r + j * n)) := by
  constructor
  · intro G hG alpha beta x y hx hy
    cases hG
    unfold tdmv
    rw [gemvB_N (le_refl _) (by omega) (le_refl _) (by omega) (fun i j i0 i1 j0 j1 => Buf.rd_of (idx_lt i0 i1 j0 j1).1 (by rw [hV]; exact (idx_lt i0 i1 j0 j1).2)), Option.map_some]
    refine ⟨_, _, rfl, .leaf n V l, rfl, fun r hr => mix_val_out (by omega), fun r r0 r1 => ?_⟩
    rw [mix_val_in r0 (by omega), add_comm]
    congr 2
    exact Finset.sum_congr rfl fun j _ => by rw [sub_zero, zero_add]
  · intro G hG alpha beta x y hx hy
    cases hG
    unfold tdmv
    rw [gemvB_T (le_refl _) (by omega) (le_refl _) (by omega) (fun i j i0 i1 j0 j1 => Buf.rd_of (idx_lt i0 i1 j0 j1).1 (by rw [hV]; exact (idx_lt i0 i1 j0 j1).2)), Option.map_some]
    refine ⟨_, _, rfl, .leaf n V l, rfl, fun r hr => mix_val_out (by omega), fun r r0 r1 => ?_⟩
    rw [mix_val_in r0 (by omega), add_comm]
    congr 2
    exact Finset.sum_congr rfl fun j _ => by rw [sub_zero, zero_add]

omit [CommRing K] [DecidableEq K] in
theorem unview_view (b : Buf K) {o : Int} : b.unview o (b.view o) = b := by
  unfold Buf.unview Buf.view
  cases b with
  | mk s v =>
    congr 1
    funext k
    dsimp only
    split
    · rw [sub_add_cancel]
    · rfl

omit [CommRing K] [DecidableEq K] in
theorem view_size {b : Buf K} {o m : Int} (h0 : 0 ≤ o) (h : o + m ≤ b.size) : m ≤ (b.view o).size := by
  show m ≤ ((b.size - o.toNat : Nat) : Int)
  omega

/-- The matrix of a node. -/
noncomputable def nodeM (n s : Int) (M1 M2 W : Int → Int → K) (r j : Int) : K := ∑ k ∈ Finset.Ico 0 n, blockDiag s M1 M2 r k * W k j

theorem tacts_node {n s : Int} (hs : s = n / 2) (hn : 0 ≤ n) {F0 : Dpr1Eigen K} {F1 F2 : Tdc K} {z : Buf K} {M1 M2 W : Int → Int → K} (h0 : ActsAs n F0 W) (h1 : TActs s F1 M1)
    (h2 : TActs (n - s) F2 M2) (hz : n ≤ z.size) : TActs n (.node n F0 F1 F2 z) (nodeM n s M1 M2 W) := by
  have s0 : 0 ≤ s := by omega
  have s1 : s ≤ n := by omega
  constructor
  · intro G hG alpha beta x y hx hy
    cases hG with
    | node _ _ _ _ G1 G2 _ w g1 g2 hw =>
    obtain ⟨z1, e1, q1, q2, q3⟩ := h0.N 1 0 x w hx (by omega)
    obtain ⟨G1', y1, e2, p1, p2, p3, p4⟩ := h1.N G1 g1 alpha beta z1 y (by omega) (by omega)
    obtain ⟨G2', y2, e3, r1, r2, r3, r4⟩ := h2.N G2 g2 alpha beta (z1.view s) (y1.view s) (view_size s0 (by omega)) (view_size s0 (by omega))
    unfold tdmv
    simp only [if_true]
    rw [e1, Option.bind_some]
    simp only [← hs]
    rw [e2, Option.bind_some]
    simp only
    rw [e3, Option.map_some]
    simp only
    rw [unview_view]
    refine ⟨_, _, rfl, .node n F0 F1 F2 G1' G2' z z1 p1 r1 (by omega), p2, fun r hr => ?_, fun r r0 rn => ?_⟩
    · show (if s ≤ r then y2.val (r - s) else y1.val r) = _
      split
      · rw [r3 _ (by omega)]
        show y1.val (r - s + s) = _
        rw [sub_add_cancel, p3 _ (by omega)]
      · rw [p3 _ (by omega)]
    · have key : ∑ j ∈ Finset.Ico 0 n, nodeM n s M1 M2 W r j * x.val j = ∑ k ∈ Finset.Ico 0 n, blockDiag s M1 M2 r k * z1.val k := by
        unfold nodeM
        rw [Finset.sum_congr rfl (fun j _ => Finset.sum_mul _ _ _), Finset.sum_comm]
        refine Finset.sum_congr rfl fun k hk => ?_
        rw [Finset.mem_Ico] at hk
        rw [q3 k hk.1 hk.2, one_mul, zero_mul, add_zero, Finset.mul_sum]
        exact Finset.sum_congr rfl fun j _ => by ring
      rw [key, blk_row s0 s1]
      show (if s ≤ r then y2.val (r - s) else y1.val r) = _
      split
      · rw [if_neg (by omega), r4 _ (by omega) (by omega)]
        congr 2
        · exact Finset.sum_congr rfl fun k _ => by
            show _ * z1.val (k + s) = _
            rw [add_comm k s]
        · show y1.val (r - s + s) = _
          rw [sub_add_cancel, p3 _ (by omega)]
      · rw [if_pos (by omega), p4 _ (by omega) (by omega)]
  · intro G hG alpha beta x y hx hy
    cases hG with
    | node _ _ _ _ G1 G2 _ w g1 g2 hw =>
    obtain ⟨G1', z1, e1, p1, p2, p3, p4⟩ := h1.T G1 g1 1 0 x w (by omega) (by omega)
    obtain ⟨G2', z2, e2, r1, r2, r3, r4⟩ := h2.T G2 g2 1 0 (x.view s) (z1.view s) (view_size s0 (by omega)) (view_size s0 (by omega))
    obtain ⟨y1, e3, q1, q2, q3⟩ := h0.T alpha beta (z1.unview s z2) y (by show n ≤ (z1.size : Int); omega) hy
    unfold tdmv
    simp only [if_true, show ¬ ('T' = 'N') by decide, if_false]
    rw [e1, Option.bind_some]
    simp only [← hs]
    rw [e2, Option.bind_some]
    simp only
    rw [e3, Option.map_some]
    simp only
    rw [unview_view]
    refine ⟨_, _, rfl, .node n F0 F1 F2 G1' G2' z (z1.unview s z2) p1 r1 (by show z.size = z1.size; omega), q1, q2, fun j j0 jn => ?_⟩
    rw [q3 j j0 jn]
    congr 2
    unfold nodeM
    rw [Finset.sum_congr rfl (fun r (_ : r ∈ Finset.Ico 0 n) => Finset.sum_mul (Finset.Ico 0 n) (fun k => blockDiag s M1 M2 r k * W k j) (x.val r)), Finset.sum_comm]
    refine Finset.sum_congr rfl fun k hk => ?_
    rw [Finset.mem_Ico] at hk
    have hc := blk_col s0 s1 M1 M2 x.val k
    rw [Finset.sum_congr rfl (fun r _ => by rw [mul_right_comm]), ← Finset.sum_mul, hc, mul_comm]
    congr 1
    show (if s ≤ k then z2.val (k - s) else z1.val k) = _
    split
    · rw [if_neg (by omega), r4 _ (by omega) (by omega), one_mul, zero_mul, add_zero]
      exact Finset.sum_congr rfl fun i _ => by
        show _ * x.val (i + s) = _
        rw [add_comm i s]
    · rw [if_pos (by omega), p4 _ (by omega) (by omega), one_mul, zero_mul, add_zero]

end

end FT.Props
