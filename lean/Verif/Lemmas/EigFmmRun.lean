import Verif.Lemmas.EigFmmNode

/-!
# Running the divide-and-conquer construction
-/

set_option linter.unusedSectionVars false

namespace FT.Fmm
open FT FT.Model FT.Prog FT.Props FT.Props.Hier FT.Props.TbEig FT.Props.Eig
variable {K : Type*} [Field K] [LinearOrder K] [IsStrictOrderedRing K]

/-- The matrix of a node. -/
theorem mat_node {n : Int} {c : Couple K} {F1 F2 : TbEig K} (i j : Int) : mat (.node n c F1 F2) i j =
    if i < n / 2 then if j < n / 2 then mat F1 i j else ∑ k ∈ Finset.Ico 0 (n / 2), mat F1 i k * coupling n c k (j - n / 2) else if j < n / 2 then 0 else mat F2 (i - n / 2) (j - n / 2) := by
  rw [mat]

/-- Eigenvectors of the whole from those of the halves and a coupling that solves the equation. -/
theorem node_isEig {BS n d bA : Int} {a b : Int → Int → K} {D : Buf K} {F1 F2 : TbEig K} {l1 l2 lam : Buf K} {X Y : Int → Int → K} {c : Couple K} (n2 : 2 ≤ n) (hBS : BS ≤ n)
    (haz : ∀ i k, k < i → a i k = 0) (hbz : ∀ i k, k < i → b i k = 0)
    (h1 : IsEig BS (n / 2) d a b D F1 l1) (h2 : IsEig BS (n - n / 2) (d + n / 2) (fun i j => a (i + n / 2) (j + n / 2)) (fun i j => b (i + n / 2) (j + n / 2)) D F2 l2)
    (H : Halves (n / 2) (n - n / 2) bA a b (mat F1) (mat F2) l1.val l2.val X Y) (hc : CplSized n c)
    (hC : ∀ i j, 0 ≤ i → i < n / 2 → 0 ≤ j → j < n - n / 2 → (l1.val i - l2.val j) * coupling n c i j = -∑ k ∈ Finset.Ico 0 bA, X i k * Y j k)
    (hl : n ≤ lam.size) (hl1 : ∀ i, 0 ≤ i → i < n / 2 → lam.val i = l1.val i) (hl2 : ∀ i, 0 ≤ i → i < n - n / 2 → lam.val (i + n / 2) = l2.val i) :
    IsEig BS n d a b D (.node n c F1 F2) lam := by
  have s0 : 0 ≤ n / 2 := by omega
  have lamv : ∀ j, 0 ≤ j → j < n → lam.val j = a j j / b j j := fun j j0 j1 => by
    by_cases h : j < n / 2
    · rw [hl1 j j0 h, h1.lam j j0 h]
    · have := hl2 (j - n / 2) (by omega) (by omega)
      rw [sub_add_cancel] at this
      rw [this, h2.lam _ (by omega) (by omega), sub_add_cancel]
  refine ⟨rfl, ⟨by omega, hBS, hc, ⟨h1.size, h1.sized⟩, h2.size, h2.sized⟩, ⟨h1.regular, h2.regular⟩, fun i j j0 ji i1 => ?_, fun j j0 j1 => ?_, fun i j i0 i1 j0 j1 => ?_, hl, lamv⟩
  · rw [mat_node]
    by_cases hi : i < n / 2
    · rw [if_pos hi, if_pos (by omega), h1.upper i j j0 ji hi]
    · rw [if_neg hi]
      split_ifs with hj
      · rfl
      · exact h2.upper _ _ (by omega) (by omega) (by omega)
  · rw [mat_node]
    by_cases hj : j < n / 2
    · rw [if_pos hj, if_pos hj, h1.diag j j0 hj]
    · rw [if_neg hj, if_neg hj, h2.diag _ (by omega) (by omega)]
      congr 1; ring
  · rw [sum_split (m := n - n / 2) s0 (by omega) (by omega) fun k => a i k * _, sum_split (m := n - n / 2) s0 (by omega) (by omega) fun k => b i k * _]
    by_cases hj : j < n / 2
    · have lower : ∀ f : Int → K, ∑ k ∈ Finset.Ico 0 (n - n / 2), f (k + n / 2) * mat (.node n c F1 F2) (k + n / 2) j = 0 := fun f => Finset.sum_eq_zero fun k hk => by
        rw [Finset.mem_Ico] at hk
        rw [mat_node, if_neg (by omega), if_pos hj, mul_zero]
      rw [lower, lower, add_zero, add_zero]
      have top : ∀ f : Int → K, ∑ k ∈ Finset.Ico 0 (n / 2), f k * mat (.node n c F1 F2) k j = ∑ k ∈ Finset.Ico 0 (n / 2), f k * mat F1 k j := fun f => sum_Ico_congr fun k k0 k1 => by
        rw [mat_node, if_pos k1, if_pos hj]
      rw [top, top]
      by_cases hi : i < n / 2
      · exact h1.eqn i j i0 hi j0 hj
      · rw [Finset.sum_eq_zero fun k hk => by rw [Finset.mem_Ico] at hk; rw [haz i k (by omega), zero_mul], Finset.sum_eq_zero fun k hk => by rw [Finset.mem_Ico] at hk; rw [hbz i k (by omega), zero_mul], mul_zero]
    · have lower : ∀ f : Int → K, ∑ k ∈ Finset.Ico 0 (n - n / 2), f (k + n / 2) * mat (.node n c F1 F2) (k + n / 2) j = ∑ k ∈ Finset.Ico 0 (n - n / 2), f (k + n / 2) * mat F2 k (j - n / 2) := fun f =>
        sum_Ico_congr fun k k0 k1 => by rw [mat_node, if_neg (by omega), if_neg hj, add_sub_cancel_right]
      have top : ∀ f : Int → K, ∑ k ∈ Finset.Ico 0 (n / 2), f k * mat (.node n c F1 F2) k j = ∑ k ∈ Finset.Ico 0 (n / 2), f k * ∑ l ∈ Finset.Ico 0 (n / 2), mat F1 k l * coupling n c l (j - n / 2) := fun f =>
        sum_Ico_congr fun k k0 k1 => by rw [mat_node, if_pos k1, if_neg hj]
      rw [lower, lower, top, top]
      by_cases hi : i < n / 2
      · have r := H.residual (fun l => coupling n c l (j - n / 2)) i0 hi (j := j - n / 2) (by omega) (by omega)
        rw [Finset.sum_eq_zero fun l hl => by rw [Finset.mem_Ico] at hl; rw [hC l _ hl.1 hl.2 (by omega) (by omega), neg_add_cancel, mul_zero]] at r
        have e2 := h2.lam (j - n / 2) (by omega) (by omega)
        rw [sub_add_cancel] at e2
        rw [← e2, mul_add, Finset.mul_sum, Finset.mul_sum, ← sub_eq_zero, r]
        have e : ∀ (lo hi : Int) (f g v : Int → K) (x : K), ∑ k ∈ Finset.Ico lo hi, (f k - x * g k) * v k = ∑ k ∈ Finset.Ico lo hi, f k * v k - ∑ k ∈ Finset.Ico lo hi, x * (g k * v k) := fun lo hi f g v x => by
          rw [← Finset.sum_sub_distrib]; exact sum_Ico_congr fun k _ _ => by ring
        rw [e, e]
        ring
      · rw [Finset.sum_eq_zero fun k hk => by rw [Finset.mem_Ico] at hk; rw [haz i k (by omega), zero_mul], Finset.sum_eq_zero (s := Finset.Ico 0 (n / 2)) fun k hk => by rw [Finset.mem_Ico] at hk; rw [hbz i k (by omega), zero_mul],
          zero_add, zero_add]
        have := h2.eqn (i - n / 2) (j - n / 2) (by omega) (by omega) (by omega) (by omega)
        rw [sub_add_cancel, sub_add_cancel] at this
        exact this

/-- Eigenvectors with the same diagonal entry agree. -/
theorem eig_unique {n j : Int} {a b : Int → Int → K} {lam : K} {v w : Int → K} (haz : ∀ i k, k < i → a i k = 0) (hbz : ∀ i k, k < i → b i k = 0) (hd : ∀ i, 0 ≤ i → i < j → a i i - lam * b i i ≠ 0)
    (hv : ∀ k, j < k → k < n → v k = 0) (hw : ∀ k, j < k → k < n → w k = 0) (hj : v j = w j)
    (ev : ∀ i, 0 ≤ i → i < n → ∑ k ∈ Finset.Ico 0 n, (a i k - lam * b i k) * v k = 0) (ew : ∀ i, 0 ≤ i → i < n → ∑ k ∈ Finset.Ico 0 n, (a i k - lam * b i k) * w k = 0) :
    ∀ i, 0 ≤ i → i < n → v i = w i := by
  intro i i0 i1
  refine sub_eq_zero.1 (tri_zero (n := n) (M := fun i k => a i k - lam * b i k) (w := fun i => v i - w i) (fun i k _ h _ => by rw [haz i k h, hbz i k h]; ring) (fun i i0 i1 => ?_) (fun i i0 i1 => ?_) i i0 i1)
  · rcases lt_trichotomy i j with h | h | h
    · exact .inl (hd i i0 h)
    · right; rw [h, hj, sub_self]
    · right; rw [hv i h i1, hw i h i1, sub_self]
  · simp only [mul_sub, Finset.sum_sub_distrib]
    rw [ev i i0 i1, ew i i0 i1, sub_self]

theorem placed_append {p lo mid hi : Int} {l m : List (Ptr × Int)} (h0 : 0 ≤ lo) (h1 : Placed p lo mid l) (h2 : Placed p mid hi m) : Placed p lo hi (l ++ m) := by
  have := h1.le
  have := h2.le
  refine ⟨by omega, ⟨fun q hq => ?_, ?_⟩, fun q hq => ?_⟩
  · rcases List.mem_append.1 hq with h | h
    · exact (allocd_mono h1.alloc (by omega)).1 q h
    · exact h2.alloc.1 q h
  · rw [List.pairwise_append]
    refine ⟨h1.alloc.2, h2.alloc.2, fun q hq r hr => ?_⟩
    obtain ⟨-, -, -, h⟩ := h1.alloc.1 q hq
    have := h2.above r hr
    unfold Apart
    omega
  · rcases List.mem_append.1 hq with h | h
    · exact h1.above q h
    · have := h2.above q h; omega

theorem placed_perm {p lo hi : Int} {l m : List (Ptr × Int)} (h : Placed p lo hi l) (hp : l.Perm m) : Placed p lo hi m :=
  ⟨h.le, ⟨fun q hq => h.alloc.1 q (hp.mem_iff.2 hq), (hp.pairwise_iff fun h => apart_symm h).1 h.alloc.2⟩, fun q hq => h.above q (hp.mem_iff.2 hq)⟩

theorem placed_one {p lo w : Int} (h0 : 0 ≤ lo) (hp : 0 ≤ p) (hw : 0 ≤ w) : Placed p lo (lo + w * p) [(⟨lo, w * p, 0⟩, w)] := by
  have := mul_nonneg hw hp
  refine ⟨by omega, ⟨fun q hq => ?_, List.pairwise_singleton _ _⟩, fun q hq => ?_⟩
  · rw [List.mem_singleton] at hq
    subst hq
    exact ⟨rfl, rfl, h0, by dsimp only; omega⟩
  · rw [List.mem_singleton] at hq
    subst hq
    exact le_rfl

/-- In each node the permutations sort the eigenvalues `l` of the halves, and the matrix between them holds the values of the kernel. -/
def Kern (tol : K) : TbEig K → (Int → K) → Prop
  | .leaf _ _, _ => True
  | .node n (.fmm c) F1 F2, l => (IsPerm (n / 2) c.p1 ∧ IsPerm (n - n / 2) c.p2 ∧ (∀ i j, 0 ≤ i → i ≤ j → j < n / 2 → l (c.p1.val i) ≤ l (c.p1.val j)) ∧
      (∀ i j, 0 ≤ i → i ≤ j → j < n - n / 2 → l (c.p2.val i + n / 2) ≤ l (c.p2.val j + n / 2)) ∧ (∀ i j, 0 ≤ i → i < n / 2 → 0 ≤ j → j < n - n / 2 → l i ≠ l (j + n / 2)) ∧
      ∀ i j, 0 ≤ i → i < n / 2 → 0 ≤ j → j < n - n / 2 → ent c.F0 i j = if meets tol (l (c.p1.val i)) (l (c.p2.val j + n / 2)) then 0 else 1 / (l (c.p1.val i) - l (c.p2.val j + n / 2))) ∧
      Kern tol F1 l ∧ Kern tol F2 fun i => l (i + n / 2)
  | .node _ (.adi _) _ _, _ => False

theorem kern_congr {tol : K} {BS : Int} : ∀ {F : TbEig K} {l l' : Int → K}, ESized BS F → (∀ i, 0 ≤ i → i < F.n → l i = l' i) → Kern tol F l → Kern tol F l'
  | .leaf _ _, _, _, _, _, _ => trivial
  | .node n (.adi _) _ _, _, _, _, _, h => h.elim
  | .node n (.fmm c) F1 F2, l, l', ⟨n0, _, _, ⟨z1, s1⟩, z2, s2⟩, hl, ⟨⟨k1, k2, k3, k4, k5, k6⟩, h1, h2⟩ => by
    have e1 : ∀ i, 0 ≤ i → i < n / 2 → l i = l' i := fun i i0 i1 => hl i i0 (by show i < n; omega)
    have e2 : ∀ i, 0 ≤ i → i < n - n / 2 → l (i + n / 2) = l' (i + n / 2) := fun i i0 i1 => hl _ (by omega) (by show i + n / 2 < n; omega)
    have f1 : ∀ i, 0 ≤ i → i < n / 2 → l (c.p1.val i) = l' (c.p1.val i) := fun i i0 i1 => e1 _ (k1.lo i i0 i1) (k1.hi i i0 i1)
    have f2 : ∀ i, 0 ≤ i → i < n - n / 2 → l (c.p2.val i + n / 2) = l' (c.p2.val i + n / 2) := fun i i0 i1 => e2 _ (k2.lo i i0 i1) (k2.hi i i0 i1)
    refine ⟨⟨k1, k2, fun i j i0 ij j1 => ?_, fun i j i0 ij j1 => ?_, fun i j i0 i1 j0 j1 => ?_, fun i j i0 i1 j0 j1 => ?_⟩, kern_congr s1 (fun i i0 i1 => e1 i i0 (by omega)) h1, kern_congr s2 (fun i i0 i1 => e2 i i0 (by omega)) h2⟩
    · rw [← f1 i i0 (by omega), ← f1 j (by omega) j1]; exact k3 i j i0 ij j1
    · rw [← f2 i i0 (by omega), ← f2 j (by omega) j1]; exact k4 i j i0 ij j1
    · rw [← e1 i i0 i1, ← e2 j j0 j1]; exact k5 i j i0 i1 j0 j1
    · rw [← f1 i i0 i1, ← f2 j j0 j1]; exact k6 i j i0 i1 j0 j1

theorem fmmNode_run {E : FmmEnv K} {n d bA bB t0 t1 t2 : Int} {A B : TB K} {a b : Int → Int → K} {D : Buf K} {F1 F2 : TbEig K} {l1 l2 : Buf K} (hE : E.eps = 0) (ht : E.tol ≤ 1) (hS : Samples E)
    (hth : 1 ≤ E.threads) (hA : StoresT A n bA a) (hB : StoresT B n bB b) (b0 : 0 ≤ bB) (hb : bB ≤ bA) (hbn : 2 * bA ≤ n) (n2 : 2 ≤ n) (hBS : E.BS ≤ n) (hbd : ∀ j, 0 ≤ j → j < n → b j j ≠ 0)
    (hdist : ∀ i j, 0 ≤ i → i < j → j < n → a j j / b j j ≠ a i i / b i i) (d0 : 0 ≤ d) (hD : d + n ≤ D.size) (hDz : ∀ j, 0 ≤ j → j < n → D.val (d + j) ≠ 0)
    (h1 : IsEig E.BS (n / 2) d a b D F1 l1) (h2 : IsEig E.BS (n - n / 2) (d + n / 2) (fun i j => a (i + n / 2) (j + n / 2)) (fun i j => b (i + n / 2) (j + n / 2)) D F2 l2)
    (hB1 : StoresT (B.view 0 (n / 2)) (n / 2) bB b1) (hb1 : ∀ i j, 0 ≤ i → i < n / 2 → 0 ≤ j → j < n / 2 → b1 i j = b i j)
    (h0 : 0 ≤ t0) (p1 : Placed E.threads t0 t1 (eArrs F1)) (p2 : Placed E.threads t1 t2 (eArrs F2)) (k1 : Kern E.tol F1 l1.val) (k2 : Kern E.tol F2 l2.val) :
    ∃ F lam top, fmmNode E A B D d F1 l1 F2 l2 t2 = some (F, lam, top) ∧ IsEig E.BS n d a b D F lam ∧ Placed E.threads t0 top (eArrs F) ∧ Kern E.tol F lam.val ∧
      ((∀ i j, 0 ≤ i → i < n / 2 → 0 ≤ j → j < n - n / 2 → ¬ meets E.tol (l1.val i) (l2.val j)) → NoSparse F1 → NoSparse F2 → NoSparse F) := by
  have haz : ∀ i k, k < i → a i k = 0 := fun i k h => C14_zero_outside_tri hA (by unfold band; omega)
  have hbz : ∀ i k, k < i → b i k = 0 := fun i k h => C14_zero_outside_tri hB (by unfold band; omega)
  have h01 := p1.le
  have h12 := p2.le
  have hF1 : Allocd E.threads t2.toNat (eArrs F1) := allocd_mono p1.alloc (by omega)
  obtain ⟨X, eX, sX, vX⟩ := fmmX_run (E := E) (top := t2) (b := bA) (by omega) h1.size (by omega) (by omega) hB1 b0 (fun i i0 i1 => by rw [hb1 i i i0 i1 i0 i1]; exact hbd i i0 (by omega)) hth h1.sized h1.regular hF1
  obtain ⟨Y, eY, sY, vY⟩ := fmmY_run (E := E) (s := n / 2) (top := t2) (by omega) h2.size hA hB b0 hb (by omega) hth h2.sized p2.alloc h2.lamSize
  have HH : Halves (n / 2) (n - n / 2) bA a b (mat F1) (mat F2) l1.val l2.val (fun i k => X.val (i + k * (n / 2))) (fun j k => Y.val (j + k * (n - n / 2))) :=
    { s0 := by omega, m0 := by omega, bA0 := by omega, bAs := by omega
      band := fun i k h => ⟨C14_zero_outside_tri hA (by unfold band; omega), C14_zero_outside_tri hB (by unfold band; omega)⟩
      eqn1 := fun i j i0 i1 j0 j1 => by rw [h1.lam j j0 j1]; exact h1.eqn i j i0 i1 j0 j1
      hX := fun i j i0 i1 j0 j1 => by
        rw [← vX i j i0 i1 j0 j1]
        exact sum_Ico_congr fun k k0 k1 => by rw [hb1 i k i0 i1 k0 k1]
      hY := fun j k j0 j1 k0 k1 => vY j k j0 j1 k0 k1 }
  obtain ⟨x1, q1, e1, sz1, ip1, v1, so1⟩ := sortLam_run h1.lamSize
  obtain ⟨x2, q2, e2, sz2, ip2, v2, so2⟩ := sortLam_run h2.lamSize
  have lam2 : ∀ j, 0 ≤ j → j < n - n / 2 → l2.val j = a (j + n / 2) (j + n / 2) / b (j + n / 2) (j + n / 2) := h2.lam
  have sep : ∀ i j, 0 ≤ i → i < n / 2 → 0 ≤ j → j < n - n / 2 → l1.val i - l2.val j ≠ 0 := fun i j i0 i1 j0 j1 => by
    rw [h1.lam i i0 i1, lam2 j j0 j1]
    exact sub_ne_zero.2 (hdist i (j + n / 2) i0 (by omega) (by omega)).symm
  have ec := count_eq (tol := E.tol) ht (m := n / 2) (n := n - n / 2) (by omega) (by rw [sz1]; exact h1.lamSize) (by rw [sz2]; exact h2.lamSize) so1 so2
  obtain ⟨p3, p4, ep, sp3, sp4, v34⟩ := produce_eq (tol := E.tol) ht (m := n / 2) (n := n - n / 2) (by omega) (by rw [sz1]; exact h1.lamSize) (by rw [sz2]; exact h2.lamSize) so1 so2
    (p := ⟨((pairs E.tol x1 (n / 2) x2 0 (n - n / 2)).length : Int).toNat, fun _ => 0⟩) (q := ⟨((pairs E.tol x1 (n / 2) x2 0 (n - n / 2)).length : Int).toNat, fun _ => 0⟩) rfl rfl
  set L := pairs E.tol x1 (n / 2) x2 0 (n - n / 2) with hL
  have rng : ∀ l, 0 ≤ l → l < (L.length : Int) → (0 ≤ p3.val l ∧ p3.val l < n / 2) ∧ 0 ≤ p4.val l ∧ p4.val l < n - n / 2 := fun l l0 l1 => by
    have hl : l.toNat < L.length := by omega
    have := v34 l.toNat hl
    rw [Int.toNat_of_nonneg l0] at this
    have hm : (p3.val l, p4.val l) ∈ L := by rw [this]; exact List.getElem_mem hl
    rw [hL, mem_pairs] at hm
    exact ⟨hm.1, hm.2.1⟩
  set z : Int → Int → K := fun i j => -(∑ k ∈ Finset.Ico 0 bA, X.val (i + k * (n / 2)) * Y.val (j + k * (n - n / 2))) / (l1.val i - l2.val j) with hz
  have col : ∀ j, 0 ≤ j → j < n - n / 2 → ∃ V, sparseColumn E t2 (n / 2) n (max bA bB) F1 A B D d (j + n / 2) = some V ∧ V.size = n.toNat ∧ ∀ i, 0 ≤ i → i < n / 2 → V.val i = z i j := fun j j0 j1 => by
    obtain ⟨V, v, eV, sV, w1, w2, w3, w4⟩ := sparseColumn_run (E := E) (top := t2) (s := n / 2) (d := d) (j := j + n / 2) (D := D) hE hA hB (hbd _ (by omega) (by omega))
      (fun i i0 i1 h => hdist i _ i0 i1 (by omega) ((eq_div_iff (hbd i i0 (by omega))).2 h)) (by omega) (by omega) (by omega) (by omega) (by omega) h1.size (by omega) (by omega) hth h1.sized h1.regular hF1
    refine ⟨V, eV, sV, fun i i0 i1 => ?_⟩
    have low : ∀ k, 0 ≤ k → k < n - n / 2 → v (k + n / 2) = mat F2 k j := by
      refine eig_unique (n := n - n / 2) (j := j) (a := fun i j => a (i + n / 2) (j + n / 2)) (b := fun i j => b (i + n / 2) (j + n / 2)) (lam := a (j + n / 2) (j + n / 2) / b (j + n / 2) (j + n / 2))
        (fun i k h => haz _ _ (by omega)) (fun i k h => hbz _ _ (by omega)) (fun i i0 i1 => ?_) (fun k k0 k1 => w1 _ (by omega) (by omega)) (fun k k0 k1 => h2.upper k j j0 k0 k1) ?_ (fun i i0 i1 => ?_) (fun i i0 i1 => ?_)
      · rw [sub_ne_zero]
        exact fun h => hdist (i + n / 2) (j + n / 2) (by omega) (by omega) (by omega) ((eq_div_iff (hbd _ (by omega) (by omega))).2 h.symm)
      · rw [w2, h2.diag j j0 j1]; congr 1; ring
      · have := w3 (i + n / 2) (by omega) (by omega)
        rw [sum_split (s := n / 2) (m := n - n / 2) (by omega) (by omega) (by omega), Finset.sum_eq_zero (s := Finset.Ico 0 (n / 2)) fun k hk => by
          rw [Finset.mem_Ico] at hk; rw [haz _ k (by omega), hbz _ k (by omega)]; ring, zero_add] at this
        exact this
      · have := h2.eqn i j i0 i1 j0 j1
        rw [← sub_eq_zero, Finset.mul_sum, ← Finset.sum_sub_distrib] at this
        rw [← this]
        exact sum_Ico_congr fun k _ _ => by ring
    have := HH.coupling_of hbz (fun i i0 i1 => hbd i i0 (by omega)) h1.upper (fun i i0 i1 => by rw [h1.diag i i0 i1]; exact hDz i i0 (by omega)) (z := V.val) j0 j1 (fun r r0 r1 => by
      have e := w3 r r0 (by omega)
      rw [sum_split (s := n / 2) (m := n - n / 2) (by omega) (by omega) (by omega)] at e
      rw [lam2 j j0 j1, ← e]
      congr 1
      · exact sum_Ico_congr fun k k0 k1 => by rw [w4 k k0 k1]
      · exact sum_Ico_congr fun k k0 k1 => by rw [low k k0 k1]) i0 i1
    rw [hz]
    dsimp only
    rw [eq_div_iff (sep i j i0 i1 j0 j1), mul_comm]
    exact this
  obtain ⟨sp, sq, sv, eS, s1, s2, s3, vS⟩ := sparsePart_run (E := E) (top := t2) (n := n) (b := max bA bB) (d := d) (A := A) (B := B) (D := D) (F1 := F1) (p3 := p3) (p4 := p4) (idx := (L.length : Int)) (z := z)
    ip1 ip2 (by omega) (by omega) (by rw [sp3]; simp) (by rw [sp4]; simp) (fun l l0 l1 => (rng l l0 l1).1) (fun l l0 l1 => (rng l l0 l1).2) col
  obtain ⟨g1, g2, g3, g4, g5, g6⟩ := hS t2 (n / 2) (n - n / 2) x1 x2 (by omega) (by omega) (by omega) (by rw [sz1]; exact h1.lamSize) (by rw [sz2]; exact h2.lamSize) so1 so2
    (fun i j i0 i1 j0 j1 => by
      rw [v1 i i0 i1, v2 j j0 j1]
      exact sub_ne_zero.1 (sep _ _ (ip1.lo i i0 i1) (ip1.hi i i0 i1) (ip2.lo j j0 j1) (ip2.hi j j0 j1)))
  obtain ⟨y1, f1, w1⟩ := permT_run ip1 (by rw [sz1]; exact h1.lamSize) v1
  obtain ⟨y2, f2, w2⟩ := permT_run ip2 (by rw [sz2]; exact h2.lamSize) v2
  have hmax : max A.b B.b = bA := by rw [hA.dims.2, hB.dims.2, max_eq_left hb]
  have hmax' : max bA bB = bA := max_eq_left hb
  refine ⟨_, _, (E.cauchy t2 (n / 2) (n - n / 2) x1 x2).2 + n / 2 * E.threads + (n - n / 2) * E.threads, ?_, node_isEig (X := fun i k => X.val (i + k * (n / 2))) (Y := fun j k => Y.val (j + k * (n - n / 2))) (lam := joinB (n / 2) (n - n / 2) y1 y2)
    (c := .fmm ⟨bA, (E.cauchy t2 (n / 2) (n - n / 2) x1 x2).1, X, Y, q1, q2, (L.length : Int), sp, sq, sv, ⟨(E.cauchy t2 (n / 2) (n - n / 2) x1 x2).2, n / 2 * E.threads, 0⟩,
      ⟨(E.cauchy t2 (n / 2) (n - n / 2) x1 x2).2 + n / 2 * E.threads, (n - n / 2) * E.threads, 0⟩⟩) n2 hBS haz hbz h1 h2 HH ?_ (fun i j i0 i1 j0 j1 => ?_) ?_ (fun i i0 i1 => ?_) (fun i i0 i1 => ?_), ?_, ?_, fun hm n1 n2 => ⟨?_, n1, n2⟩⟩
  · unfold fmmNode
    dsimp only
    rw [hA.dims.1, hmax, eX, Option.bind_some, eY, Option.bind_some, e1, Option.bind_some, e2, Option.bind_some, ec, Option.bind_some, ep, Option.bind_some]
    rw [hmax'] at eS
    rw [eS, Option.bind_some, f1, Option.bind_some, f2]
    rfl
  · refine ⟨show 0 ≤ bA by omega, ⟨g1, g2, g3, g4⟩, sX, sY, ⟨ip1.le, fun i i0 i1 => ⟨ip1.lo i i0 i1, ip1.hi i i0 i1⟩⟩, ⟨ip2.le, fun i i0 i1 => ⟨ip2.lo i i0 i1, ip2.hi i i0 i1⟩⟩, s1, s2, s3, fun l l0 l1 => ?_⟩
    obtain ⟨c1, c2, -⟩ := vS l l0 l1
    obtain ⟨r1, r2⟩ := rng l l0 l1
    dsimp only
    rw [c1, c2]
    exact ⟨⟨ip1.lo _ r1.1 r1.2, ip1.hi _ r1.1 r1.2⟩, ip2.lo _ r2.1 r2.2, ip2.hi _ r2.1 r2.2⟩
  · unfold coupling
    dsimp only
    have hp := perm_sum ip1 ip2 (e := ent (E.cauchy t2 (n / 2) (n - n / 2) x1 x2).1) (g := fun i j => if meets E.tol (l1.val i) (l2.val j) then 0 else 1 / (l1.val i - l2.val j))
      (fun i j i0 i1 j0 j1 => by rw [g5 i j i0 i1 j0 j1, v1 i i0 i1, v2 j j0 j1]; rfl) i0 i1 j0 j1
    have hs : (∑ l ∈ Finset.Ico 0 (L.length : Int), if sp.val l = i ∧ sq.val l = j then sv.val l else 0) = if meets E.tol (l1.val i) (l2.val j) then z i j else 0 := by
      obtain ⟨r, r0, r1, rfl⟩ := ip1.surj i0 i1
      obtain ⟨c, c0, c1, rfl⟩ := ip2.surj j0 j1
      rw [← v1 r r0 r1, ← v2 c c0 c1]
      exact sparse_sum ip1 ip2 v34 vS r0 r1 c0 c1
    rw [hp, hs]
    have hzz : (l1.val i - l2.val j) * z i j = -∑ k ∈ Finset.Ico 0 bA, X.val (i + k * (n / 2)) * Y.val (j + k * (n - n / 2)) := by
      rw [hz]; dsimp only; rw [mul_comm, div_mul_cancel₀ _ (sep i j i0 i1 j0 j1)]
    by_cases hm : meets E.tol (l1.val i) (l2.val j)
    · rw [if_pos hm, if_pos hm, Finset.sum_eq_zero fun k _ => by rw [mul_zero, zero_mul], neg_zero, zero_add, hzz]
    · rw [if_neg hm, if_neg hm, add_zero]
      have := sep i j i0 i1 j0 j1
      rw [mul_neg, Finset.mul_sum]
      congr 1
      refine sum_Ico_congr fun k _ _ => ?_
      field_simp
  · show n ≤ ((n / 2 + (n - n / 2)).toNat : Int); omega
  · show (if i < n / 2 then y1.val i else _) = _
    rw [if_pos i1, w1 i i0 i1]
  · show (if i + n / 2 < n / 2 then _ else y2.val (i + n / 2 - n / 2)) = _
    rw [if_neg (by omega), add_sub_cancel_right, w2 i i0 i1]
  · have hg := g6.le
    have m1 : 0 ≤ n / 2 * E.threads := mul_nonneg (by omega) (by omega)
    have a1 := placed_append h0 (placed_append h0 p1 p2) (placed_append (by omega) (placed_append (by omega) g6 (placed_one (p := E.threads) (w := n / 2) (by omega) (by omega) (by omega)))
      (placed_one (p := E.threads) (w := n - n / 2) (by omega) (by omega) (by omega)))
    refine placed_perm a1 ?_
    show List.Perm ((eArrs F1 ++ eArrs F2) ++ ((hArrs _ ++ [_]) ++ [_])) ((_ :: _ :: hArrs _) ++ (eArrs F1 ++ eArrs F2))
    refine List.perm_append_comm.trans (List.Perm.append_right _ ?_)
    rw [List.append_assoc]
    exact List.perm_append_comm
  · have j1 : ∀ i, 0 ≤ i → i < n / 2 → (joinB (n / 2) (n - n / 2) y1 y2).val i = l1.val i := fun i i0 i1 => by
      show (if i < n / 2 then y1.val i else _) = _
      rw [if_pos i1, w1 i i0 i1]
    have j2 : ∀ i, 0 ≤ i → i < n - n / 2 → (joinB (n / 2) (n - n / 2) y1 y2).val (i + n / 2) = l2.val i := fun i i0 i1 => by
      show (if i + n / 2 < n / 2 then _ else y2.val (i + n / 2 - n / 2)) = _
      rw [if_neg (by omega), add_sub_cancel_right, w2 i i0 i1]
    have f1 : ∀ i, 0 ≤ i → i < n / 2 → (joinB (n / 2) (n - n / 2) y1 y2).val (q1.val i) = x1.val i := fun i i0 i1 => by rw [j1 _ (ip1.lo i i0 i1) (ip1.hi i i0 i1), v1 i i0 i1]
    have f2 : ∀ i, 0 ≤ i → i < n - n / 2 → (joinB (n / 2) (n - n / 2) y1 y2).val (q2.val i + n / 2) = x2.val i := fun i i0 i1 => by rw [j2 _ (ip2.lo i i0 i1) (ip2.hi i i0 i1), v2 i i0 i1]
    refine ⟨⟨ip1, ip2, fun i j i0 ij j1 => ?_, fun i j i0 ij j1 => ?_, fun i j i0 i1 j0 hj => ?_, fun i j i0 i1 j0 hj => ?_⟩, kern_congr h1.sized (fun i i0 i1 => ?_) k1, kern_congr h2.sized (fun i i0 i1 => ?_) k2⟩
    · dsimp only; rw [f1 i i0 (by omega), f1 j (by omega) j1]; exact so1 i j i0 ij j1
    · dsimp only; rw [f2 i i0 (by omega), f2 j (by omega) j1]; exact so2 i j i0 ij j1
    · rw [j1 i i0 i1, j2 j j0 hj]; exact sub_ne_zero.1 (sep i j i0 i1 j0 hj)
    · dsimp only; rw [f1 i i0 i1, f2 j j0 hj, g5 i j i0 i1 j0 hj]; rfl
    · rw [j1 i i0 (by have := h1.size; omega)]
    · rw [j2 i i0 (by have := h2.size; omega)]
  · show (L.length : Int) ≤ 0
    have : L = [] := by
      rw [List.eq_nil_iff_forall_not_mem]
      intro r hr
      rw [hL, mem_pairs] at hr
      obtain ⟨⟨r0, r1⟩, ⟨c0, c1⟩, h⟩ := hr
      rw [v1 _ r0 r1, v2 _ c0 c1] at h
      exact hm _ _ (ip1.lo _ r0 r1) (ip1.hi _ r0 r1) (ip2.lo _ c0 c1) (ip2.hi _ c0 c1) h
    rw [this]; rfl

theorem isEig_congr {BS n d : Int} {a b a' b' : Int → Int → K} {D : Buf K} {F : TbEig K} {lam : Buf K} (h : IsEig BS n d a b D F lam)
    (ha : ∀ i j, 0 ≤ i → i < n → 0 ≤ j → j < n → a i j = a' i j) (hb : ∀ i j, 0 ≤ i → i < n → 0 ≤ j → j < n → b i j = b' i j) : IsEig BS n d a' b' D F lam := by
  refine ⟨h.size, h.sized, h.regular, h.upper, h.diag, fun i j i0 i1 j0 j1 => ?_, h.lamSize, fun j j0 j1 => ?_⟩
  · have := h.eqn i j i0 i1 j0 j1
    rw [ha j j j0 j1 j0 j1, hb j j j0 j1 j0 j1, sum_Ico_congr fun k k0 k1 => by rw [ha i k i0 i1 k0 k1], sum_Ico_congr (f := fun k => b i k * _) fun k k0 k1 => by rw [hb i k i0 i1 k0 k1]] at this
    exact this
  · rw [h.lam j j0 j1, ha j j j0 j1 j0 j1, hb j j j0 j1 j0 j1]

theorem leafV_run {n d : Int} {D : Buf K} (n0 : 0 ≤ n) (d0 : 0 ≤ d) (hD : d + n ≤ D.size) : ∃ V, leafV n D d = some V ∧ n * n ≤ V.size ∧
    ∀ i j, 0 ≤ i → i < n → 0 ≤ j → j < n → V.val (i + j * n) = if i = j then D.val (d + i) else 0 := by
  unfold leafV
  obtain ⟨V, e, q1, q2⟩ := forUp_spec (lo := 0) (hi := n) (s := (callocB (n * n) : Buf K)) (body := fun i V => (D.rd (d + i)).bind fun v => V.wr (i + i * n) v)
    (fun I V => n * n ≤ V.size ∧ ∀ i j, 0 ≤ i → i < n → 0 ≤ j → j < n → V.val (i + j * n) = if i = j ∧ i < I then D.val (d + i) else 0)
    ⟨by show n * n ≤ ((n * n).toNat : Int); omega, fun i j i0 _ _ _ => by rw [if_neg (by omega)]; rfl⟩
    (fun I I0 I1 V h => by
      obtain ⟨b1, b2⟩ := ij_lt I0 I1 I0 I1 h.1
      refine ⟨⟨V.size, Function.update V.val (I + I * n) (D.val (d + I))⟩, by rw [Buf.rd_of (by omega) (by omega), Option.bind_some, Buf.wr_of b1 b2], h.1, fun i j i0 i1 j0 j1 => ?_⟩
      by_cases hij : i = I ∧ j = I
      · obtain ⟨rfl, rfl⟩ := hij
        rw [if_pos (by omega)]
        exact Function.update_self _ _ _
      · refine (Function.update_of_ne (fun h => hij (ij_inj i0 i1 I0 I1 h)) _ _).trans ?_
        rw [h.2 i j i0 i1 j0 j1]
        split_ifs <;> first | rfl | omega)
  refine ⟨V, e, q1, fun i j i0 i1 j0 j1 => ?_⟩
  rw [q2 i j i0 i1 j0 j1]
  split_ifs <;> first | rfl | omega

/-- The whole construction. -/
theorem eigFmm_run {E : FmmEnv K} {D : Buf K} {bA bB : Int} (hE : E.eps = 0) (ht : E.tol ≤ 1) (hS : Samples E) (hth : 1 ≤ E.threads) (b0 : 0 ≤ bB) (hb : bB ≤ bA) (hBS : 2 ≤ E.BS) (hbBS : 2 * bA ≤ E.BS) :
    ∀ (f : Nat) (n d t0 : Int) (A B : TB K) (a b : Int → Int → K), n < f → 0 ≤ n → StoresT A n bA a → StoresT B n bB b → (∀ j, 0 ≤ j → j < n → b j j ≠ 0) →
      (∀ i j, 0 ≤ i → i < j → j < n → a j j / b j j ≠ a i i / b i i) → 0 ≤ d → d + n ≤ D.size → (∀ j, 0 ≤ j → j < n → D.val (d + j) ≠ 0) → 0 ≤ t0 →
      ∃ F lam top, eigFmm E D f A B d t0 = some (F, lam, top) ∧ IsEig E.BS n d a b D F lam ∧ Placed E.threads t0 top (eArrs F) ∧ Kern E.tol F lam.val ∧
        ((∀ i j, 0 ≤ i → i < j → j < n → ¬ meets E.tol (a i i / b i i) (a j j / b j j)) → NoSparse F)
  | 0, n, d, t0, A, B, a, b, hf, n0, _, _, _, _, _, _, _, _ => by simp only [Nat.cast_zero] at hf; omega
  | f + 1, n, d, t0, A, B, a, b, hf, n0, hA, hB, hbd, hdist, d0, hD, hDz, h0 => by
    push_cast at hf
    unfold eigFmm
    dsimp only
    rw [hA.dims.1]
    by_cases hn : n < E.BS
    · rw [if_pos hn]
      obtain ⟨V, e1, s1, v1⟩ := leafV_run n0 d0 hD
      obtain ⟨lam, e2, s2, v2, -⟩ := C21_eigenvalues hA hB hbd (L := ⟨n.toNat, E.junk⟩) (by show n ≤ (n.toNat : Int); omega)
      obtain ⟨V', e3, o, w⟩ := C21_exact hA hB hbd s1 (fun i j j0 ji i1 => by unfold col; rw [v1 i j (by omega) i1 j0 (by omega), if_neg (by omega)]) hdist
      have hlow : ∀ i j, 0 ≤ i → i < n → 0 ≤ j → j < n → mat (.leaf n V') i j = Eig.col V' n i j := fun i j i0 i1 j0 j1 => by
        rw [mat]
        by_cases hij : i ≤ j
        · rw [if_pos hij]; rfl
        · rw [if_neg hij, o.keep (by omega) i0 i1]; unfold col; rw [v1 i j i0 i1 j0 j1, if_neg (by omega)]
      have hdiag : ∀ j, 0 ≤ j → j < n → V'.val (j + j * n) = D.val (d + j) := fun j j0 j1 => by
        have := o.keep (le_refl j) j0 j1
        unfold col at this
        rw [this, v1 j j j0 j1 j0 j1, if_pos rfl]
      refine ⟨.leaf n V', lam, t0, ?_, ⟨rfl, ⟨n0, hn, by rw [o.1]; exact s1⟩, fun j j0 j1 => ?_, fun i j j0 ji i1 => ?_, fun j j0 j1 => ?_, fun i j i0 i1 j0 j1 => ?_, ?_, fun j j0 j1 => ?_⟩,
        ⟨le_rfl, ⟨fun q hq => by simp [eArrs] at hq, by simp [eArrs]⟩, fun q hq => by simp [eArrs] at hq⟩, trivial, fun _ => trivial⟩
      · show (leafV n D d).bind _ = _
        rw [e1]
        show (tbEigenvalues A B _).bind _ = _
        rw [e2]
        show (tbEigenvectors E.eps A B V).bind _ = _
        rw [hE, e3]
        rfl
      · rw [hdiag j j0 j1]; exact hDz j j0 j1
      · rw [mat, if_neg (by omega)]
      · rw [mat, if_pos le_rfl, hdiag j j0 j1]
      · rw [sum_Ico_congr fun k k0 k1 => by rw [hlow k j k0 k1 j0 j1], sum_Ico_congr (f := fun k => b i k * _) fun k k0 k1 => by rw [hlow k j k0 k1 j0 j1]]
        exact w i j i0 i1 j0 j1
      · rw [s2]; show n ≤ (n.toNat : Int); omega
      · rw [eq_div_iff (hbd j j0 j1), v2 j j0 j1]
    · rw [if_neg hn]
      have vA1 := C16_view_get hA (s := 0) (t := n / 2) (by omega) le_rfl (by omega) (by omega)
      have vB1 := C16_view_get hB (s := 0) (t := n / 2) (by omega) le_rfl (by omega) (by omega)
      have vA2 := C16_view_get hA (s := n / 2) (t := n) (by omega) (by omega) (by omega) le_rfl
      have vB2 := C16_view_get hB (s := n / 2) (t := n) (by omega) (by omega) (by omega) le_rfl
      simp only [add_zero, sub_zero] at vA1 vB1
      have cut : ∀ (x : Int → Int → K) (N s i j : Int), 0 ≤ i → i < N → 0 ≤ j → j < N → (if (0 ≤ i ∧ i < N) ∧ (0 ≤ j ∧ j < N) then x (i + s) (j + s) else 0) = x (i + s) (j + s) := fun x N s i j i0 i1 j0 j1 =>
        if_pos ⟨⟨i0, i1⟩, j0, j1⟩
      have cut0 : ∀ (x : Int → Int → K) (N i j : Int), 0 ≤ i → i < N → 0 ≤ j → j < N → (if (0 ≤ i ∧ i < N) ∧ (0 ≤ j ∧ j < N) then x i j else 0) = x i j := fun x N i j i0 i1 j0 j1 =>
        if_pos ⟨⟨i0, i1⟩, j0, j1⟩
      obtain ⟨F1, l1, t1, e1, i1, p1, k1, s1⟩ := eigFmm_run (D := D) hE ht hS hth b0 hb hBS hbBS f (n / 2) d t0 _ _ _ _ (by omega) (by omega) vA1 vB1 (fun j j0 j1 => by rw [cut0 b _ j j j0 j1 j0 j1]; exact hbd j j0 (by omega))
        (fun i j i0 ij j1 => by rw [cut0 b _ j j (by omega) j1 (by omega) j1, cut0 a _ j j (by omega) j1 (by omega) j1, cut0 b _ i i i0 (by omega) i0 (by omega), cut0 a _ i i i0 (by omega) i0 (by omega)]; exact hdist i j i0 ij (by omega))
        d0 (by omega) (fun j j0 j1 => hDz j j0 (by omega)) h0
      have := p1.le
      obtain ⟨F2, l2, t2, e2, i2, p2, k2, s2⟩ := eigFmm_run (D := D) hE ht hS hth b0 hb hBS hbBS f (n - n / 2) (d + n / 2) t1 _ _ _ _ (by omega) (by omega) vA2 vB2 (fun j j0 j1 => by rw [cut b _ _ j j j0 j1 j0 j1]; exact hbd _ (by omega) (by omega))
        (fun i j i0 ij j1 => by rw [cut b _ _ j j (by omega) j1 (by omega) j1, cut a _ _ j j (by omega) j1 (by omega) j1, cut b _ _ i i i0 (by omega) i0 (by omega), cut a _ _ i i i0 (by omega) i0 (by omega)]; exact hdist _ _ (by omega) (by omega) (by omega))
        (by omega) (by omega) (fun j j0 j1 => by rw [add_assoc]; exact hDz _ (by omega) (by omega)) (by omega)
      obtain ⟨F, lam, top, e, hF, hp, hk, hs⟩ := fmmNode_run hE ht hS hth hA hB b0 hb (by omega) (by omega) (by omega) hbd hdist d0 hD hDz
        (isEig_congr i1 (fun i j => cut0 a _ i j) (fun i j => cut0 b _ i j)) (isEig_congr i2 (fun i j => cut a _ _ i j) (fun i j => cut b _ _ i j)) vB1 (fun i j => cut0 b _ i j) h0 p1 p2 k1 k2
      refine ⟨F, lam, top, ?_, hF, hp, hk, fun hm => hs (fun i j i0 h1 j0 h2 => ?_) (s1 fun i j i0 ij j1 => ?_) (s2 fun i j i0 ij j1 => ?_)⟩
      rotate_left
      · have := i2.lam j j0 h2
        rw [cut a _ _ j j j0 h2 j0 h2, cut b _ _ j j j0 h2 j0 h2] at this
        rw [this, i1.lam i i0 h1, cut0 a _ i i i0 h1 i0 h1, cut0 b _ i i i0 h1 i0 h1]
        exact hm i (j + n / 2) i0 (by omega) (by omega)
      · rw [cut0 b _ j j (by omega) j1 (by omega) j1, cut0 a _ j j (by omega) j1 (by omega) j1, cut0 b _ i i i0 (by omega) i0 (by omega), cut0 a _ i i i0 (by omega) i0 (by omega)]
        exact hm i j i0 ij (by omega)
      · rw [cut b _ _ j j (by omega) j1 (by omega) j1, cut a _ _ j j (by omega) j1 (by omega) j1, cut b _ _ i i i0 (by omega) i0 (by omega), cut a _ _ i i i0 (by omega) i0 (by omega)]
        exact hm _ _ (by omega) (by omega) (by omega)
      show (eigFmm E D f (A.view 0 (n / 2)) (B.view 0 (n / 2)) d t0).bind _ = _
      rw [e1]
      show (eigFmm E D f (A.view (n / 2) n) (B.view (n / 2) n) (d + n / 2) t1).bind _ = _
      rw [e2]
      exact e

end FT.Fmm
