import Verif.Lemmas.Hmv

/-! # Norms and scalings of hierarchical matrices -/

namespace FT.Props.Hier
open FT FT.Model
set_option linter.unusedSectionVars false
variable {K : Type*} [CommRing K] [DecidableEq K]

/-! ## Entries of blocks -/

section Entries
variable {P Q m n : Int} {b : Int → Int → HMat K}

theorem eo_block (hS : Sized (.hier P Q m n b)) {a c : Int} (a0 : 0 ≤ a) (a1 : a < P) (c0 : 0 ≤ c) (c1 : c < Q) {i j : Int}
    (hij : ¬ ((0 ≤ i ∧ i < (b a (Q - 1)).rows) ∧ 0 ≤ j ∧ j < (b 0 c).cols)) : ent (b a c) i j = 0 := by
  obtain ⟨hs, hb⟩ := hS.2.2.1 a c a0 a1 c0 c1
  rcases hb with hb | ⟨hr, hl⟩
  · rw [hb]; rfl
  · exact ent_out hs (by rw [hr, hl]; exact hij)

theorem pre_apart {w : Int → Int} {N : Int} (hw : ∀ o, 0 ≤ o → o < N → 0 ≤ w o) {o o' : Int} (o0 : 0 ≤ o) (o1 : o < N) (o0' : 0 ≤ o') (o1' : o' < N) (h : o ≠ o') {r : Int}
    (h1 : pre w o ≤ r ∧ r < pre w o + w o) : ¬ (pre w o' ≤ r ∧ r < pre w o' + w o') := by
  rcases lt_or_gt_of_ne h with c | c
  · have := pre_mono (j := o + 1) (k := o') hw (by omega) (by omega)
    rw [pre_succ o0] at this; omega
  · have := pre_mono (j := o' + 1) (k := o) hw (by omega) (by omega)
    rw [pre_succ o0'] at this; omega

/-- The entries of a hierarchical matrix are those of its blocks, in their places. -/
theorem ent_block (hS : Sized (.hier P Q m n b)) {a c : Int} (a0 : 0 ≤ a) (a1 : a < P) (c0 : 0 ≤ c) (c1 : c < Q) {i j : Int}
    (i0 : 0 ≤ i) (i1 : i < (b a (Q - 1)).rows) (j0 : 0 ≤ j) (j1 : j < (b 0 c).cols) : ent (.hier P Q m n b) (top Q b a + i) (left b c + j) = ent (b a c) i j := by
  have h3 := hS.2.2.1
  have nr := fun i i0 i1 => (sized_nonneg (h3 i (Q - 1) i0 i1 (by omega) (by omega)).1).1
  have nc := fun j j0 j1 => (sized_nonneg (h3 0 j (by omega) (by omega) j0 j1).1).2
  rw [ent, Finset.sum_eq_single a, Finset.sum_eq_single c]
  · rw [show top Q b a + i - top Q b a = i by omega, show left b c + j - left b c = j by omega]
  · intro c' hc' hne
    rw [Finset.mem_Ico] at hc'
    refine eo_block hS a0 a1 hc'.1 hc'.2 ?_
    have := pre_apart (w := fun k => (b 0 k).cols) (N := Q) nc c0 c1 hc'.1 hc'.2 (Ne.symm hne) (r := left b c + j) (by show left b c ≤ _ ∧ _ < left b c + (b 0 c).cols; omega)
    change ¬ (left b c' ≤ _ ∧ _ < left b c' + (b 0 c').cols) at this
    omega
  · intro h; exact (h (Finset.mem_Ico.2 ⟨c0, c1⟩)).elim
  · intro a' ha' hne
    rw [Finset.mem_Ico] at ha'
    refine Finset.sum_eq_zero fun c' hc' => ?_
    rw [Finset.mem_Ico] at hc'
    refine eo_block hS ha'.1 ha'.2 hc'.1 hc'.2 ?_
    have := pre_apart (w := fun k => (b k (Q - 1)).rows) (N := P) nr a0 a1 ha'.1 ha'.2 (Ne.symm hne) (r := top Q b a + i) (by show top Q b a ≤ _ ∧ _ < top Q b a + (b a (Q - 1)).rows; omega)
    change ¬ (top Q b a' ≤ _ ∧ _ < top Q b a' + (b a' (Q - 1)).rows) at this
    omega
  · intro h; exact (h (Finset.mem_Ico.2 ⟨a0, a1⟩)).elim

end Entries

/-- A sum over consecutive groups. -/
theorem sum_pre {w : Int → Int} {N : Int} (hN : 0 ≤ N) (hw : ∀ o, 0 ≤ o → o < N → 0 ≤ w o) (f : Int → K) :
    ∑ i ∈ Finset.Ico 0 (pre w N), f i = ∑ a ∈ Finset.Ico 0 N, ∑ i ∈ Finset.Ico 0 (w a), f (pre w a + i) := by
  obtain ⟨k, rfl⟩ := Int.eq_ofNat_of_zero_le hN
  clear hN
  induction k with
  | zero => simp [pre]
  | succ k ih =>
    have h := ih (fun o o0 o1 => hw o o0 (by push_cast; omega))
    have n0 := pre_nonneg (k := (k : Int)) hw (by push_cast; omega)
    have w0 := hw k (by omega) (by push_cast; omega)
    push_cast
    rw [sum_Ico_succ (by omega), pre_succ (by omega), ← h, ← Finset.Ico_union_Ico_eq_Ico n0 (by omega : pre w k ≤ pre w k + w k),
      Finset.sum_union (by rw [Finset.disjoint_left]; intro x hx hy; rw [Finset.mem_Ico] at *; omega)]
    congr 1
    refine (Finset.sum_bij (fun j _ => pre w k + j) ?_ ?_ ?_ ?_).symm
    · intro j hj; rw [Finset.mem_Ico] at *; omega
    · intro j _ k _ h; omega
    · intro j hj; rw [Finset.mem_Ico] at hj; exact ⟨j - pre w k, by rw [Finset.mem_Ico]; omega, by omega⟩
    · intro j _; rfl

/-! ## Norms -/

theorem sumC_run {lo hi : Int} {f : Int → Option K} {g : Int → K} (h : ∀ i, lo ≤ i → i < hi → f i = some (g i)) : sumC lo hi f = some (∑ i ∈ Finset.Ico lo hi, g i) := by
  unfold sumC
  obtain ⟨s, e, p⟩ := forUp_spec (lo := lo) (hi := hi) (s := (0 : K)) (body := fun i s => do let v ← f i; some (s + v))
    (fun i s => s = ∑ k ∈ Finset.Ico lo i, g k) (by rw [Finset.Ico_self, Finset.sum_empty]) (by
      intro i i0 i1 s hs
      exact ⟨s + g i, by simp [h i i0 i1], by rw [sum_Ico_succ i0, hs]⟩)
  rw [e, p]
  rcases le_total lo hi with h | h
  · rw [max_eq_right h]
  · rw [max_eq_left h, Finset.Ico_self, Finset.Ico_eq_empty (by omega)]

theorem sum2_run {N M : Int} {f : Int → Int → Option K} {g : Int → Int → K} (h : ∀ l k, 0 ≤ l → l < N → 0 ≤ k → k < M → f l k = some (g l k)) :
    forUp 0 N (fun l s => forUp 0 M (fun k s => do let v ← f l k; some (s + v)) s) (0 : K) = some (∑ l ∈ Finset.Ico 0 N, ∑ k ∈ Finset.Ico 0 M, g l k) := by
  obtain ⟨s, e, p⟩ := forUp_spec (lo := 0) (hi := N) (s := (0 : K)) (body := fun l s => forUp 0 M (fun k s => do let v ← f l k; some (s + v)) s)
    (fun l s => s = ∑ l' ∈ Finset.Ico 0 l, ∑ k ∈ Finset.Ico 0 M, g l' k) (by rw [Finset.Ico_self, Finset.sum_empty]) (by
      intro l l0 l1 s hs
      obtain ⟨s', e, p⟩ := forUp_spec (lo := 0) (hi := M) (s := s) (body := fun k s => do let v ← f l k; some (s + v))
        (fun k s' => s' = s + ∑ k' ∈ Finset.Ico 0 k, g l k') (by rw [Finset.Ico_self, Finset.sum_empty, add_zero]) (by
          intro k k0 k1 s' hs'
          exact ⟨s' + g l k, by simp [h l k l0 l1 k0 k1], by rw [sum_Ico_succ k0, hs', add_assoc]⟩)
      refine ⟨s', e, ?_⟩
      rw [p, sum_Ico_succ l0, hs]
      congr 1
      rcases le_total 0 M with h | h
      · rw [max_eq_right h]
      · rw [max_eq_left h, Finset.Ico_self, Finset.Ico_eq_empty (by omega)])
  rw [e, p]
  rcases le_total 0 N with h | h
  · rw [max_eq_right h]
  · rw [max_eq_left h, Finset.Ico_self, Finset.Ico_eq_empty (a := (0 : Int)) (b := N) (by omega)]

/-- The sum of the squares of the entries. -/
def frob2 (H : HMat K) : K := ∑ i ∈ Finset.Ico 0 H.rows, ∑ j ∈ Finset.Ico 0 H.cols, ent H i j * ent H i j

theorem norm2_dense {D : Dense K} (hS : Sized (.dense D)) : norm2Dense D = some (frob2 (.dense D)) := by
  obtain ⟨m0, n0, hs⟩ := hS
  unfold norm2Dense
  rw [sumC_run (g := fun i => D.A.val i * D.A.val i) (fun i i0 i1 => by rw [Buf.rd_of i0 (by omega)]; rfl)]
  congr 1
  have : D.m * D.n = pre (fun _ => D.m) D.n := by
    unfold pre
    rw [Finset.sum_const, Int.card_Ico, Int.nsmul_eq_mul, Int.sub_zero, Int.toNat_of_nonneg n0, Int.mul_comm]
  rw [this, sum_pre n0 (fun _ _ _ => m0)]
  unfold frob2
  simp only [HMat.rows, HMat.cols]
  rw [Finset.sum_comm]
  refine sum_Ico_congr fun i i0 i1 => sum_Ico_congr fun j j0 j1 => ?_
  rw [ent, if_pos ⟨i0, i1, j0, j1⟩]
  have : pre (fun _ => D.m) j = j * D.m := by
    unfold pre
    rw [Finset.sum_const, Int.card_Ico, Int.nsmul_eq_mul, Int.sub_zero, Int.toNat_of_nonneg j0]
  rw [this, Int.add_comm]

/-- The Gram matrix of the columns of a matrix. -/
theorem dot_run {Z : Buf K} {m r : Int} (hZ : m * r ≤ Z.size) {a c : Int} (a0 : 0 ≤ a) (a1 : a < r) (c0 : 0 ≤ c) (c1 : c < r) :
    (sumC 0 m fun i => do let u ← Z.rd (i + a * m); let v ← Z.rd (i + c * m); some (u * v)) = some (∑ i ∈ Finset.Ico 0 m, Z.val (i + a * m) * Z.val (i + c * m)) :=
  sumC_run fun i i0 i1 => by rw [col_rd hZ i0 i1 a0 a1, col_rd hZ i0 i1 c0 c1]; rfl

theorem gram2 {m n r : Int} (u v : Int → Int → K) :
    ∑ l ∈ Finset.Ico 0 r, ∑ k ∈ Finset.Ico 0 r, (∑ i ∈ Finset.Ico 0 m, u i l * u i k) * (∑ j ∈ Finset.Ico 0 n, v j k * v j l) =
    ∑ i ∈ Finset.Ico 0 m, ∑ j ∈ Finset.Ico 0 n, (∑ k ∈ Finset.Ico 0 r, u i k * v j k) * (∑ k ∈ Finset.Ico 0 r, u i k * v j k) := by
  have : ∀ i j, (∑ k ∈ Finset.Ico 0 r, u i k * v j k) * (∑ k ∈ Finset.Ico 0 r, u i k * v j k) =
      ∑ l ∈ Finset.Ico 0 r, ∑ k ∈ Finset.Ico 0 r, (u i l * u i k) * (v j k * v j l) := by
    intro i j
    rw [Finset.sum_mul_sum]
    exact Finset.sum_congr rfl fun _ _ => Finset.sum_congr rfl fun _ _ => by ring
  simp only [this, Finset.sum_mul_sum]
  rw [Finset.sum_congr rfl fun l _ => Finset.sum_comm, Finset.sum_comm]
  refine Finset.sum_congr rfl fun i _ => ?_
  rw [Finset.sum_congr rfl fun l _ => Finset.sum_comm, Finset.sum_comm]

theorem norm2_low {L : Low K} (hS : Sized (.low L)) : norm2Low L = some (frob2 (.low L)) := by
  obtain ⟨hN, m0, n0, r0, hU, hV, hS3⟩ := hS
  unfold norm2Low frob2
  simp only [HMat.rows, HMat.cols]
  rcases hN with hN | hN
  · rw [if_pos hN]
    unfold norm2Low.sumC'
    rw [sum2_run (g := fun l k => (∑ i ∈ Finset.Ico 0 L.m, L.U.val (i + l * L.m) * L.U.val (i + k * L.m)) * (∑ j ∈ Finset.Ico 0 L.n, L.V.val (j + k * L.n) * L.V.val (j + l * L.n)))
      (fun l k l0 l1 k0 k1 => by rw [dot_run hU l0 l1 k0 k1, dot_run hV k0 k1 l0 l1]; rfl)]
    congr 1
    rw [gram2 (fun i k => L.U.val (i + k * L.m)) (fun j k => L.V.val (j + k * L.n))]
    refine sum_Ico_congr fun i i0 i1 => sum_Ico_congr fun j j0 j1 => ?_
    rw [ent, if_pos ⟨i0, i1, j0, j1⟩, if_pos hN]
  · rw [if_neg (by rw [hN]; decide), if_pos hN]
    unfold norm2Low.sumC'
    rw [sum2_run (g := fun l k => (∑ j ∈ Finset.Ico 0 L.r, (∑ i ∈ Finset.Ico 0 L.m, L.U.val (i + l * L.m) * L.U.val (i + j * L.m)) * L.S.val (j + k * L.r)) *
        (∑ i ∈ Finset.Ico 0 L.r, (∑ j ∈ Finset.Ico 0 L.n, L.V.val (j + k * L.n) * L.V.val (j + i * L.n)) * L.S.val (l + i * L.r)))
      (fun l k l0 l1 k0 k1 => by
        rw [sumC_run (g := fun j => (∑ i ∈ Finset.Ico 0 L.m, L.U.val (i + l * L.m) * L.U.val (i + j * L.m)) * L.S.val (j + k * L.r))
          (fun j j0 j1 => by rw [dot_run hU l0 l1 j0 j1, col_rd (hS3 hN) j0 j1 k0 k1]; rfl),
          sumC_run (g := fun i => (∑ j ∈ Finset.Ico 0 L.n, L.V.val (j + k * L.n) * L.V.val (j + i * L.n)) * L.S.val (l + i * L.r))
          (fun i i0 i1 => by rw [dot_run hV k0 k1 i0 i1, col_rd (hS3 hN) l0 l1 i0 i1]; rfl)]
        rfl)]
    congr 1
    -- with `W = V Sᵀ` the matrix is `U Wᵀ`
    have key : ∀ i j, 0 ≤ i → i < L.m → 0 ≤ j → j < L.n → ent (.low L) i j = ∑ k ∈ Finset.Ico 0 L.r, (∑ h ∈ Finset.Ico 0 L.r, L.U.val (i + h * L.m) * L.S.val (h + k * L.r)) * L.V.val (j + k * L.n) := by
      intro i j i0 i1 j0 j1
      rw [ent, if_pos ⟨i0, i1, j0, j1⟩, if_neg (by rw [hN]; decide), Finset.sum_comm]
      refine sum_Ico_congr fun k _ _ => ?_
      rw [Finset.sum_mul]
    have rhs : ∀ i j, 0 ≤ i → i < L.m → 0 ≤ j → j < L.n → ent (.low L) i j * ent (.low L) i j =
        ∑ l ∈ Finset.Ico 0 L.r, ∑ k ∈ Finset.Ico 0 L.r, (L.U.val (i + l * L.m) * ∑ h ∈ Finset.Ico 0 L.r, L.U.val (i + h * L.m) * L.S.val (h + k * L.r)) *
          (L.V.val (j + k * L.n) * ∑ h ∈ Finset.Ico 0 L.r, L.V.val (j + h * L.n) * L.S.val (l + h * L.r)) := by
      intro i j i0 i1 j0 j1
      have h1 := key i j i0 i1 j0 j1
      have h2 : ent (.low L) i j = ∑ l ∈ Finset.Ico 0 L.r, L.U.val (i + l * L.m) * ∑ h ∈ Finset.Ico 0 L.r, L.V.val (j + h * L.n) * L.S.val (l + h * L.r) := by
        rw [ent, if_pos ⟨i0, i1, j0, j1⟩, if_neg (by rw [hN]; decide)]
        refine sum_Ico_congr fun k _ _ => ?_
        rw [Finset.mul_sum]
        exact sum_Ico_congr fun l _ _ => by ring
      refine (congrArg₂ (· * ·) h2 h1).trans ?_
      rw [Finset.sum_mul_sum]
      exact Finset.sum_congr rfl fun _ _ => Finset.sum_congr rfl fun _ _ => by ring
    rw [sum_Ico_congr (hi := L.m) fun i i0 i1 => sum_Ico_congr (hi := L.n) fun j j0 j1 => rhs i j i0 i1 j0 j1]
    -- collect
    have col : ∀ l k, ∑ i ∈ Finset.Ico 0 L.m, ∑ j ∈ Finset.Ico 0 L.n, (L.U.val (i + l * L.m) * ∑ h ∈ Finset.Ico 0 L.r, L.U.val (i + h * L.m) * L.S.val (h + k * L.r)) *
          (L.V.val (j + k * L.n) * ∑ h ∈ Finset.Ico 0 L.r, L.V.val (j + h * L.n) * L.S.val (l + h * L.r)) =
        (∑ j ∈ Finset.Ico 0 L.r, (∑ i ∈ Finset.Ico 0 L.m, L.U.val (i + l * L.m) * L.U.val (i + j * L.m)) * L.S.val (j + k * L.r)) *
        (∑ i ∈ Finset.Ico 0 L.r, (∑ j ∈ Finset.Ico 0 L.n, L.V.val (j + k * L.n) * L.V.val (j + i * L.n)) * L.S.val (l + i * L.r)) := by
      intro l k
      rw [← Finset.sum_mul_sum]
      congr 1
      · simp only [Finset.mul_sum, Finset.sum_mul]
        rw [Finset.sum_comm]
        exact Finset.sum_congr rfl fun _ _ => Finset.sum_congr rfl fun _ _ => by ring
      · simp only [Finset.mul_sum, Finset.sum_mul]
        rw [Finset.sum_comm]
        exact Finset.sum_congr rfl fun _ _ => Finset.sum_congr rfl fun _ _ => by ring
    simp only [← col]
    rw [Finset.sum_congr rfl fun l _ => Finset.sum_comm, Finset.sum_comm]
    refine Finset.sum_congr rfl fun i _ => ?_
    rw [Finset.sum_congr rfl fun l _ => Finset.sum_comm, Finset.sum_comm]

theorem norm2_run : ∀ {H : HMat K}, Sized H → norm2 H = some (frob2 H)
  | .nil, _ => by simp [norm2, frob2, ent]
  | .dense _, hS => norm2_dense hS
  | .low _, hS => norm2_low hS
  | .hier P Q m n b, hS => by
    have ih : ∀ a c, 0 ≤ a → a < P → 0 ≤ c → c < Q → norm2 (b a c) = some (frob2 (b a c)) := fun a c a0 a1 c0 c1 => norm2_run (hS.2.2.1 a c a0 a1 c0 c1).1
    have h3 := hS.2.2.1
    have h1 := hS.1
    have h2 := hS.2.1
    have nr := fun i i0 i1 => (sized_nonneg (h3 i (Q - 1) i0 i1 (by omega) (by omega)).1).1
    have nc := fun j j0 j1 => (sized_nonneg (h3 0 j (by omega) (by omega) j0 j1).1).2
    rw [norm2]
    have : (fun n s => forUp 0 P (fun m s => if 0 ≤ m ∧ m < P ∧ 0 ≤ n ∧ n < Q then do let v ← norm2 (b m n); some (s + v) else none) s) =
        fun n (s : K) => forUp 0 P (fun m s => do let v ← (if 0 ≤ m ∧ m < P ∧ 0 ≤ n ∧ n < Q then norm2 (b m n) else none); some (s + v)) s := by
      funext n s
      congr 1
      funext m s
      split_ifs <;> rfl
    rw [this, sum2_run (g := fun c a => frob2 (b a c)) (fun c a c0 c1 a0 a1 => by rw [if_pos ⟨a0, a1, c0, c1⟩]; exact ih a c a0 a1 c0 c1)]
    congr 1
    unfold frob2
    have er : (HMat.hier P Q m n b).rows = pre (fun k => (b k (Q - 1)).rows) P := hS.2.2.2.1
    have ec : (HMat.hier P Q m n b).cols = pre (fun k => (b 0 k).cols) Q := hS.2.2.2.2
    rw [er, ec, sum_pre (by omega) nr, Finset.sum_comm]
    refine sum_Ico_congr fun a a0 a1 => ?_
    rw [Finset.sum_congr (s₁ := Finset.Ico 0 (b a (Q - 1)).rows) rfl fun i _ => sum_pre (by omega) nc _, Finset.sum_comm]
    refine sum_Ico_congr fun c c0 c1 => ?_
    rw [sum_Ico_congr (g := fun i => ∑ j ∈ Finset.Ico 0 (b 0 c).cols, ent (b a c) i j * ent (b a c) i j) (hi := (b a (Q - 1)).rows) fun i i0 i1 => sum_Ico_congr fun j j0 j1 => by
      have := ent_block hS a0 a1 c0 c1 i0 i1 j0 j1
      change ent _ (pre (fun k => (b k (Q - 1)).rows) a + i) (pre (fun k => (b 0 k).cols) c + j) = _ at this
      rw [this]]
    rcases (h3 a c a0 a1 c0 c1).2 with hb | ⟨hr, hc⟩
    · rw [hb]; simp [ent]
    · rw [hr, hc]

/-! ## Scalings -/

/-- `H'` has the shape and the workspace of `H` and its entries are those of `H` multiplied by `f`. -/
structure Scaled (f : Int → Int → K) (H H' : HMat K) : Prop where
  rows : H'.rows = H.rows
  cols : H'.cols = H.cols
  nil : H = .nil → H' = .nil
  sized : Sized H'
  scr : ∀ t, Scr t H' = Scr t H
  scrOk : ∀ t s, ScrOk t s H' = ScrOk t s H
  scrM : ∀ p, ScrM p H' = ScrM p H
  scrMOk : ∀ p s, ScrMOk p s H' = ScrMOk p s H
  ent : ∀ i j, 0 ≤ i → i < H.rows → 0 ≤ j → j < H.cols → ent H' i j = f i j * ent H i j

theorem rc_inj' {m i j r k : Int} (i0 : 0 ≤ i) (i1 : i < m) (r0 : 0 ≤ r) (r1 : r < m) (h : i + k * m = r + j * m) : i = r ∧ k = j := by
  have e : k = j := by
    have h1 : (i + k * m) / m = k := by rw [Int.add_mul_ediv_right _ _ (by omega), Int.ediv_eq_zero_of_lt i0 i1]; omega
    have h2 : (r + j * m) / m = j := by rw [Int.add_mul_ediv_right _ _ (by omega), Int.ediv_eq_zero_of_lt r0 r1]; omega
    rw [← h1, h, h2]
  subst e
  exact ⟨by omega, rfl⟩

theorem scaleC_run {m n : Int} {f : Int → Int → Option K} {g : Int → Int → K} {A : Buf K} (hA : m * n ≤ A.size)
    (hf : ∀ i j, 0 ≤ i → i < m → 0 ≤ j → j < n → f i j = some (g i j)) :
    ∃ A', scaleC m n f A = some A' ∧ A'.size = A.size ∧ ∀ i j, 0 ≤ i → i < m → 0 ≤ j → j < n → A'.val (i + j * m) = A.val (i + j * m) * g i j := by
  unfold scaleC
  obtain ⟨A', e, p⟩ := forUp_spec (lo := 0) (hi := n) (s := A)
    (body := fun j A => forUp 0 m (fun i A => do let a ← A.rd (i + j * m); let v ← f i j; A.wr (i + j * m) (a * v)) A)
    (fun j A' => A'.size = A.size ∧ ∀ i k, 0 ≤ i → i < m → 0 ≤ k → k < n → A'.val (i + k * m) = if k < j then A.val (i + k * m) * g i k else A.val (i + k * m))
    ⟨rfl, fun i k _ _ k0 _ => by rw [if_neg (by omega)]⟩ (by
      intro j j0 j1 A1 ⟨h1, h2⟩
      obtain ⟨A2, e2, p1, p2⟩ := forUp_spec (lo := 0) (hi := m) (s := A1) (body := fun i A => do let a ← A.rd (i + j * m); let v ← f i j; A.wr (i + j * m) (a * v))
        (fun r A' => A'.size = A.size ∧ ∀ i k, 0 ≤ i → i < m → 0 ≤ k → k < n → A'.val (i + k * m) = if k < j ∨ (k = j ∧ i < r) then A.val (i + k * m) * g i k else A.val (i + k * m))
        ⟨h1, fun i k i0 i1 k0 k1 => by rw [h2 i k i0 i1 k0 k1]; congr 1; apply propext; omega⟩ (by
          intro r r0 r1 A2 ⟨q1, q2⟩
          have b0 : 0 ≤ r + j * m := by have := mul_nonneg j0 (by omega : 0 ≤ m); omega
          have b1 : r + j * m < A2.size := by
            have : (j + 1) * m ≤ n * m := Int.mul_le_mul_of_nonneg_right (by omega) (by omega)
            rw [Int.add_mul, Int.one_mul, Int.mul_comm n m] at this
            rw [q1]; omega
          refine ⟨_, by rw [Buf.rd_of b0 b1, hf r j r0 r1 j0 j1]; exact Buf.wr_of (b := A2) b0 b1, ?_, ?_⟩
          · exact q1
          · intro i k i0 i1 k0 k1
            dsimp only
            rw [q2 r j r0 r1 j0 j1, if_neg (by omega)]
            by_cases hik : i = r ∧ k = j
            · obtain ⟨rfl, rfl⟩ := hik
              rw [Function.update_self, if_pos (by omega)]
            · rw [Function.update_of_ne (fun h => hik (rc_inj' i0 i1 r0 r1 h)), q2 i k i0 i1 k0 k1]
              congr 1; apply propext; omega)
      refine ⟨A2, e2, p1, fun i k i0 i1 k0 k1 => ?_⟩
      rw [p2 i k i0 i1 k0 k1]
      congr 1; apply propext
      have : max 0 m = m := max_eq_right (by omega)
      omega)
  refine ⟨A', e, p.1, fun i j i0 i1 j0 j1 => ?_⟩
  rw [p.2 i j i0 i1 j0 j1, if_pos (by omega)]

/-- Replacing every block by a scaled one scales the matrix. -/
theorem scaled_hier {P Q m n : Int} {b c : Int → Int → HMat K} (hS : Sized (.hier P Q m n b)) {f : Int → Int → K}
    (h : ∀ i j, 0 ≤ i → i < P → 0 ≤ j → j < Q → Scaled (fun r s => f (top Q b i + r) (left b j + s)) (b i j) (c i j)) :
    Scaled f (.hier P Q m n b) (.hier P Q m n c) := by
  have hP := hS.1
  have hQ := hS.2.1
  have h3 := hS.2.2.1
  have nr := fun i i0 i1 => (sized_nonneg (h3 i (Q - 1) i0 i1 (by omega) (by omega)).1).1
  have nc := fun j j0 j1 => (sized_nonneg (h3 0 j (by omega) (by omega) j0 j1).1).2
  have et : ∀ a, a ≤ P → top Q c a = top Q b a := fun a ha => sum_Ico_congr fun k k0 k1 => (h k (Q - 1) k0 (by omega) (by omega) (by omega)).rows
  have el : ∀ a, a ≤ Q → left c a = left b a := fun a ha => sum_Ico_congr fun k k0 k1 => (h 0 k (by omega) (by omega) k0 (by omega)).cols
  have hS' : Sized (.hier P Q m n c) := by
    refine ⟨hP, hQ, fun a d a0 a1 d0 d1 => ?_, ?_, ?_⟩
    · have hh := h a d a0 a1 d0 d1
      refine ⟨hh.sized, ?_⟩
      rcases (h3 a d a0 a1 d0 d1).2 with e | ⟨e1, e2⟩
      · exact Or.inl (hh.nil e)
      · exact Or.inr ⟨by rw [hh.rows, e1, (h a (Q - 1) a0 a1 (by omega) (by omega)).rows], by rw [hh.cols, e2, (h 0 d (by omega) (by omega) d0 d1).cols]⟩
    · rw [et P (le_refl _)]; exact hS.2.2.2.1
    · rw [el Q (le_refl _)]; exact hS.2.2.2.2
  refine ⟨rfl, rfl, fun h => (by cases h), hS', fun t => ?_, fun t s => ?_, fun p => ?_, fun p s => ?_, fun i j i0 i1 j0 j1 => ?_⟩
  · funext a
    apply propext
    constructor
    · rintro ⟨i, j, i0, i1, j0, j1, hh⟩; exact ⟨i, j, i0, i1, j0, j1, by rw [← (h i j i0 i1 j0 j1).scr]; exact hh⟩
    · rintro ⟨i, j, i0, i1, j0, j1, hh⟩; exact ⟨i, j, i0, i1, j0, j1, by rw [(h i j i0 i1 j0 j1).scr]; exact hh⟩
  · apply propext
    constructor
    · intro hh i j i0 i1 j0 j1; rw [← (h i j i0 i1 j0 j1).scrOk]; exact hh i j i0 i1 j0 j1
    · intro hh i j i0 i1 j0 j1; rw [(h i j i0 i1 j0 j1).scrOk]; exact hh i j i0 i1 j0 j1
  · funext a
    apply propext
    constructor
    · rintro ⟨i, j, i0, i1, j0, j1, hh⟩; exact ⟨i, j, i0, i1, j0, j1, by rw [← (h i j i0 i1 j0 j1).scrM]; exact hh⟩
    · rintro ⟨i, j, i0, i1, j0, j1, hh⟩; exact ⟨i, j, i0, i1, j0, j1, by rw [(h i j i0 i1 j0 j1).scrM]; exact hh⟩
  · apply propext
    constructor
    · intro hh i j i0 i1 j0 j1; rw [← (h i j i0 i1 j0 j1).scrMOk]; exact hh i j i0 i1 j0 j1
    · intro hh i j i0 i1 j0 j1; rw [(h i j i0 i1 j0 j1).scrMOk]; exact hh i j i0 i1 j0 j1
  · rw [ent, ent, Finset.mul_sum]
    refine sum_Ico_congr fun a a0 a1 => ?_
    rw [Finset.mul_sum]
    refine sum_Ico_congr fun d d0 d1 => ?_
    rw [et a (by omega), el d (by omega)]
    have hh := h a d a0 a1 d0 d1
    by_cases hij : (0 ≤ i - top Q b a ∧ i - top Q b a < (b a (Q - 1)).rows) ∧ 0 ≤ j - left b d ∧ j - left b d < (b 0 d).cols
    · rcases (h3 a d a0 a1 d0 d1).2 with e | ⟨e1, e2⟩
      · rw [hh.nil e, e]; simp [ent]
      · rw [hh.ent _ _ hij.1.1 (by rw [e1]; exact hij.1.2) hij.2.1 (by rw [e2]; exact hij.2.2)]
        rw [show top Q b a + (i - top Q b a) = i by omega, show left b d + (j - left b d) = j by omega]
    · rw [eo_block hS a0 a1 d0 d1 hij, eo_block hS' a0 a1 d0 d1 (by
        rw [(h a (Q - 1) a0 a1 (by omega) (by omega)).rows, (h 0 d (by omega) (by omega) d0 d1).cols]; exact hij), mul_zero]

theorem scaled_nil (f : Int → Int → K) : Scaled f .nil .nil :=
  ⟨rfl, rfl, fun _ => rfl, trivial, fun _ => rfl, fun _ _ => rfl, fun _ => rfl, fun _ _ => rfl, fun _ _ _ _ _ _ => by simp [ent]⟩

theorem scaleRows_run (alpha : K) (x : Buf K) : ∀ {H : HMat K}, Sized H → ∀ {d : Int}, 0 ≤ d → d + H.rows ≤ x.size →
    ∃ H', scaleRows alpha x H d = some H' ∧ Scaled (fun i _ => alpha * x.val (d + i)) H H'
  | .nil, _, _, _, _ => ⟨.nil, rfl, scaled_nil _⟩
  | .dense D, hS, d, d0, d1 => by
    simp only [HMat.rows] at d1
    obtain ⟨A, e, s, v⟩ := scaleC_run (f := fun i _ => do let v ← x.rd (d + i); some (alpha * v)) (g := fun i _ => alpha * x.val (d + i)) hS.2.2
      (fun i j i0 i1 _ _ => by rw [Buf.rd_of (by omega) (by omega)]; rfl)
    refine ⟨.dense { D with A := A }, by rw [scaleRows, e]; rfl, rfl, rfl, fun h => (by cases h), ⟨hS.1, hS.2.1, by rw [s]; exact hS.2.2⟩, fun _ => rfl, fun _ _ => rfl, fun _ => rfl, fun _ _ => rfl, ?_⟩
    intro i j i0 i1 j0 j1
    simp only [HMat.rows, HMat.cols] at i1 j1
    rw [ent, ent, if_pos ⟨i0, i1, j0, j1⟩, if_pos ⟨i0, i1, j0, j1⟩, v i j i0 i1 j0 j1, mul_comm]
  | .low L, hS, d, d0, d1 => by
    simp only [HMat.rows] at d1
    obtain ⟨hN, m0, n0, r0, hU, hV, hS3⟩ := hS
    obtain ⟨U, e, s, v⟩ := scaleC_run (f := fun i _ => do let v ← x.rd (d + i); some (alpha * v)) (g := fun i _ => alpha * x.val (d + i)) hU
      (fun i j i0 i1 _ _ => by rw [Buf.rd_of (by omega) (by omega)]; rfl)
    refine ⟨.low { L with U := U }, by rw [scaleRows, e]; rfl, rfl, rfl, fun h => (by cases h), ⟨hN, m0, n0, r0, by rw [s]; exact hU, hV, hS3⟩, fun _ => rfl, fun _ _ => rfl, fun _ => rfl, fun _ _ => rfl, ?_⟩
    intro i j i0 i1 j0 j1
    simp only [HMat.rows, HMat.cols] at i1 j1
    rw [ent, ent]
    dsimp only
    rw [if_pos (c := 0 ≤ i ∧ i < L.m ∧ 0 ≤ j ∧ j < L.n) ⟨i0, i1, j0, j1⟩, if_pos (c := 0 ≤ i ∧ i < L.m ∧ 0 ≤ j ∧ j < L.n) ⟨i0, i1, j0, j1⟩]
    by_cases h2 : L.N = '2'
    · rw [if_pos h2, if_pos h2, Finset.mul_sum]
      refine sum_Ico_congr fun k k0 k1 => ?_
      rw [v i k i0 i1 k0 k1]; ring
    · rw [if_neg h2, if_neg h2, Finset.mul_sum]
      refine sum_Ico_congr fun k k0 k1 => ?_
      rw [Finset.mul_sum]
      refine sum_Ico_congr fun l l0 l1 => ?_
      rw [v i k i0 i1 k0 k1]; ring
  | .hier P Q m n b, hS, d, d0, d1 => by
    have ih : ∀ a c, 0 ≤ a → a < P → 0 ≤ c → c < Q → ∀ {d : Int}, 0 ≤ d → d + (b a c).rows ≤ x.size →
        ∃ H', scaleRows alpha x (b a c) d = some H' ∧ Scaled (fun i _ => alpha * x.val (d + i)) (b a c) H' := fun a c a0 a1 c0 c1 => scaleRows_run alpha x (hS.2.2.1 a c a0 a1 c0 c1).1
    have hP := hS.1
    have hQ := hS.2.1
    have h3 := hS.2.2.1
    have nr := fun i i0 i1 => (sized_nonneg (h3 i (Q - 1) i0 i1 (by omega) (by omega)).1).1
    have er : d + pre (fun k => (b k (Q - 1)).rows) P ≤ x.size := by
      have : m = pre (fun k => (b k (Q - 1)).rows) P := hS.2.2.2.1
      rw [← this]; exact d1
    have hF : ∀ a c, ∃ H', 0 ≤ a → a < P → 0 ≤ c → c < Q → scaleRows alpha x (b a c) (d + pre (fun k => (b k (Q - 1)).rows) a) = some H' ∧
        Scaled (fun i _ => alpha * x.val (d + (top Q b a + i))) (b a c) H' := by
      intro a c
      by_cases h : 0 ≤ a ∧ a < P ∧ 0 ≤ c ∧ c < Q
      · obtain ⟨a0, a1, c0, c1⟩ := h
        rcases (h3 a c a0 a1 c0 c1).2 with hb | ⟨hr, -⟩
        · refine ⟨.nil, fun _ _ _ _ => ?_⟩
          rw [hb]
          exact ⟨rfl, scaled_nil _⟩
        · have ft := pre_fits (w := fun k => (b k (Q - 1)).rows) nr a0 a1
          obtain ⟨H', e, p⟩ := ih a c a0 a1 c0 c1 (d := d + pre (fun k => (b k (Q - 1)).rows) a) (by omega) (by rw [hr]; omega)
          refine ⟨H', fun _ _ _ _ => ⟨e, ?_⟩⟩
          simp only [Int.add_assoc] at p
          exact p
      · exact ⟨.nil, fun a0 a1 c0 c1 => (h ⟨a0, a1, c0, c1⟩).elim⟩
    choose F hF using hF
    have loop : ∃ c, forUp 0 Q (fun l c => do
        let (_, c) ← forUp 0 P (fun k (s : Int × (Int → Int → HMat K)) => do
          let B ← scaleRows alpha x (b k l) (d + s.1)
          (blockRows P Q b k (Q - 1)).bind fun w => some (s.1 + w, fun i j => if i = k ∧ j = l then B else s.2 i j)) (0, c)
        some c) b = some c ∧ ∀ i j, 0 ≤ i → i < P → 0 ≤ j → j < max 0 Q → c i j = F i j := by
      refine forUp_spec (fun l (c : Int → Int → HMat K) => ∀ i j, 0 ≤ i → i < P → 0 ≤ j → j < l → c i j = F i j) (fun i j _ _ _ _ => by omega) fun l l0 l1 c hc => ?_
      obtain ⟨⟨o, c'⟩, e, -, p⟩ := forUp_spec (lo := 0) (hi := P) (s := ((0 : Int), c)) (body := fun k (s : Int × (Int → Int → HMat K)) => do
          let B ← scaleRows alpha x (b k l) (d + s.1)
          (blockRows P Q b k (Q - 1)).bind fun w => some (s.1 + w, fun i j => if i = k ∧ j = l then B else s.2 i j))
        (fun k s => s.1 = pre (fun k => (b k (Q - 1)).rows) k ∧ ∀ i j, 0 ≤ i → i < P → 0 ≤ j → (j < l ∨ j = l ∧ i < k) → s.2 i j = F i j)
        ⟨(pre_zero _).symm, fun i j i0 i1 j0 j1 => hc i j i0 i1 j0 (by omega)⟩ (by
          rintro k k0 k1 ⟨o, c'⟩ ⟨ho, hc'⟩
          dsimp only at ho hc' ⊢
          refine ⟨(o + (b k (Q - 1)).rows, fun i j => if i = k ∧ j = l then F k l else c' i j), ?_, ?_, ?_⟩
          · rw [ho, (hF k l k0 k1 l0 l1).1, blockRows, if_pos (by omega)]; rfl
          · rw [pre_succ k0, ho]
          · intro i j i0 i1 j0 j1
            dsimp only
            by_cases h : i = k ∧ j = l
            · rw [if_pos h, h.1, h.2]
            · rw [if_neg h]; exact hc' i j i0 i1 j0 (by omega))
      refine ⟨c', by dsimp only at e ⊢; rw [e]; rfl, fun i j i0 i1 j0 j1 => p i j i0 i1 j0 ?_⟩
      have : max 0 P = P := max_eq_right (by omega)
      omega
    obtain ⟨c, e, hc⟩ := loop
    refine ⟨.hier P Q m n c, by rw [scaleRows, e]; rfl, scaled_hier hS fun i j i0 i1 j0 j1 => ?_⟩
    rw [hc i j i0 i1 j0 (by omega)]
    exact (hF i j i0 i1 j0 j1).2

theorem scaleCols_run (alpha : K) (x : Buf K) : ∀ {H : HMat K}, Sized H → ∀ {d : Int}, 0 ≤ d → d + H.cols ≤ x.size →
    ∃ H', scaleCols alpha x H d = some H' ∧ Scaled (fun _ j => alpha * x.val (d + j)) H H'
  | .nil, _, _, _, _ => ⟨.nil, rfl, scaled_nil _⟩
  | .dense D, hS, d, d0, d1 => by
    simp only [HMat.cols] at d1
    obtain ⟨A, e, s, v⟩ := scaleC_run (f := fun _ j => do let v ← x.rd (d + j); some (alpha * v)) (g := fun _ j => alpha * x.val (d + j)) hS.2.2
      (fun i j _ _ j0 j1 => by rw [Buf.rd_of (by omega) (by omega)]; rfl)
    refine ⟨.dense { D with A := A }, by rw [scaleCols, e]; rfl, rfl, rfl, fun h => (by cases h), ⟨hS.1, hS.2.1, by rw [s]; exact hS.2.2⟩, fun _ => rfl, fun _ _ => rfl, fun _ => rfl, fun _ _ => rfl, ?_⟩
    intro i j i0 i1 j0 j1
    simp only [HMat.rows, HMat.cols] at i1 j1
    rw [ent, ent, if_pos ⟨i0, i1, j0, j1⟩, if_pos ⟨i0, i1, j0, j1⟩, v i j i0 i1 j0 j1, mul_comm]
  | .low L, hS, d, d0, d1 => by
    simp only [HMat.cols] at d1
    obtain ⟨hN, m0, n0, r0, hU, hV, hS3⟩ := hS
    obtain ⟨V, e, s, v⟩ := scaleC_run (f := fun i _ => do let v ← x.rd (d + i); some (alpha * v)) (g := fun i _ => alpha * x.val (d + i)) hV
      (fun i j i0 i1 _ _ => by rw [Buf.rd_of (by omega) (by omega)]; rfl)
    refine ⟨.low { L with V := V }, by rw [scaleCols, e]; rfl, rfl, rfl, fun h => (by cases h), ⟨hN, m0, n0, r0, hU, by rw [s]; exact hV, hS3⟩, fun _ => rfl, fun _ _ => rfl, fun _ => rfl, fun _ _ => rfl, ?_⟩
    intro i j i0 i1 j0 j1
    simp only [HMat.rows, HMat.cols] at i1 j1
    rw [ent, ent]
    dsimp only
    rw [if_pos (c := 0 ≤ i ∧ i < L.m ∧ 0 ≤ j ∧ j < L.n) ⟨i0, i1, j0, j1⟩, if_pos (c := 0 ≤ i ∧ i < L.m ∧ 0 ≤ j ∧ j < L.n) ⟨i0, i1, j0, j1⟩]
    by_cases h2 : L.N = '2'
    · rw [if_pos h2, if_pos h2, Finset.mul_sum]
      refine sum_Ico_congr fun k k0 k1 => ?_
      rw [v j k j0 j1 k0 k1]; ring
    · rw [if_neg h2, if_neg h2, Finset.mul_sum]
      refine sum_Ico_congr fun k k0 k1 => ?_
      rw [Finset.mul_sum]
      refine sum_Ico_congr fun l l0 l1 => ?_
      rw [v j l j0 j1 l0 l1]; ring
  | .hier P Q m n b, hS, d, d0, d1 => by
    have ih : ∀ a c, 0 ≤ a → a < P → 0 ≤ c → c < Q → ∀ {d : Int}, 0 ≤ d → d + (b a c).cols ≤ x.size →
        ∃ H', scaleCols alpha x (b a c) d = some H' ∧ Scaled (fun _ j => alpha * x.val (d + j)) (b a c) H' := fun a c a0 a1 c0 c1 => scaleCols_run alpha x (hS.2.2.1 a c a0 a1 c0 c1).1
    have hP := hS.1
    have hQ := hS.2.1
    have h3 := hS.2.2.1
    have nc := fun j j0 j1 => (sized_nonneg (h3 0 j (by omega) (by omega) j0 j1).1).2
    have er : d + pre (fun k => (b 0 k).cols) Q ≤ x.size := by
      have : n = pre (fun k => (b 0 k).cols) Q := hS.2.2.2.2
      rw [← this]; exact d1
    have hF : ∀ a c, ∃ H', 0 ≤ a → a < P → 0 ≤ c → c < Q → scaleCols alpha x (b a c) (d + pre (fun k => (b 0 k).cols) c) = some H' ∧
        Scaled (fun _ j => alpha * x.val (d + (left b c + j))) (b a c) H' := by
      intro a c
      by_cases h : 0 ≤ a ∧ a < P ∧ 0 ≤ c ∧ c < Q
      · obtain ⟨a0, a1, c0, c1⟩ := h
        rcases (h3 a c a0 a1 c0 c1).2 with hb | ⟨-, hr⟩
        · refine ⟨.nil, fun _ _ _ _ => ?_⟩
          rw [hb]
          exact ⟨rfl, scaled_nil _⟩
        · have ft := pre_fits (w := fun k => (b 0 k).cols) nc c0 c1
          obtain ⟨H', e, p⟩ := ih a c a0 a1 c0 c1 (d := d + pre (fun k => (b 0 k).cols) c) (by omega) (by rw [hr]; omega)
          refine ⟨H', fun _ _ _ _ => ⟨e, ?_⟩⟩
          simp only [Int.add_assoc] at p
          exact p
      · exact ⟨.nil, fun a0 a1 c0 c1 => (h ⟨a0, a1, c0, c1⟩).elim⟩
    choose F hF using hF
    obtain ⟨⟨o, c⟩, e, -, hc⟩ := forUp_spec (lo := 0) (hi := Q) (s := ((0 : Int), b)) (body := fun l (s : Int × (Int → Int → HMat K)) => do
        let c ← forUp 0 P (fun k c => do
          let B ← scaleCols alpha x (b k l) (d + s.1)
          some (fun i j => if i = k ∧ j = l then B else c i j)) s.2
        (blockCols P Q b 0 l).bind fun w => some (s.1 + w, c))
      (fun l s => s.1 = pre (fun k => (b 0 k).cols) l ∧ ∀ i j, 0 ≤ i → i < P → 0 ≤ j → j < l → s.2 i j = F i j)
      ⟨(pre_zero _).symm, fun i j _ _ _ _ => by omega⟩ (by
        rintro l l0 l1 ⟨o, c⟩ ⟨ho, hc⟩
        dsimp only at ho hc ⊢
        obtain ⟨c', e, p⟩ := forUp_spec (lo := 0) (hi := P) (s := c) (body := fun k c => do
            let B ← scaleCols alpha x (b k l) (d + o)
            some (fun i j => if i = k ∧ j = l then B else c i j))
          (fun k c' => ∀ i j, 0 ≤ i → i < P → 0 ≤ j → (j < l ∨ j = l ∧ i < k) → c' i j = F i j)
          (fun i j i0 i1 j0 j1 => hc i j i0 i1 j0 (by omega)) (by
            intro k k0 k1 c' hc'
            refine ⟨fun i j => if i = k ∧ j = l then F k l else c' i j, by rw [ho, (hF k l k0 k1 l0 l1).1]; rfl, ?_⟩
            intro i j i0 i1 j0 j1
            dsimp only
            by_cases h : i = k ∧ j = l
            · rw [if_pos h, h.1, h.2]
            · rw [if_neg h]; exact hc' i j i0 i1 j0 (by omega))
        refine ⟨(o + (b 0 l).cols, c'), ?_, ?_, ?_⟩
        · rw [e, blockCols, if_pos (by omega)]; rfl
        · rw [pre_succ l0, ho]
        · intro i j i0 i1 j0 j1
          have : max 0 P = P := max_eq_right (by omega)
          exact p i j i0 i1 j0 (by omega))
    refine ⟨.hier P Q m n c, by rw [scaleCols, e]; rfl, scaled_hier hS fun i j i0 i1 j0 j1 => ?_⟩
    dsimp only at hc
    rw [hc i j i0 i1 j0 (by omega)]
    exact (hF i j i0 i1 j0 j1).2

end FT.Props.Hier
