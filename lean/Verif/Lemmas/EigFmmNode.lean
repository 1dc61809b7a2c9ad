import Verif.Lemmas.EigFmmSort
import Verif.Props.EigVec
import Verif.Props.EigFmmSpec

/-!
# The node of the divide-and-conquer construction
-/

set_option linter.unusedSectionVars false

namespace FT.Fmm
open FT FT.Model FT.Prog FT.Props FT.Props.Hier FT.Props.TbEig FT.Props.Eig
variable {K : Type*} [Field K] [LinearOrder K] [IsStrictOrderedRing K]

/-- A triangular system with right-hand side zero has the solution zero. -/
theorem tri_zero {n : Int} {M : Int → Int → K} {w : Int → K} (hM : ∀ i k, 0 ≤ k → k < i → i < n → M i k = 0) (hd : ∀ i, 0 ≤ i → i < n → M i i ≠ 0 ∨ w i = 0)
    (h : ∀ i, 0 ≤ i → i < n → ∑ k ∈ Finset.Ico 0 n, M i k * w k = 0) : ∀ i, 0 ≤ i → i < n → w i = 0 := by
  have key : ∀ (d : Nat) i, 0 ≤ i → n - 1 - i < d → i < n → w i = 0 := by
    intro d
    induction d with
    | zero => intro i _ h1 h2; push_cast at h1; omega
    | succ d ih =>
      intro i i0 hi i1
      push_cast at hi
      have := h i i0 i1
      rw [sum_Ico_shrink (lo' := i) (hi' := i + 1) (fun k k0 k1 hk => by
        by_cases hki : k < i
        · rw [hM i k k0 hki i1, zero_mul]
        · rw [ih k k0 (by omega) k1, mul_zero]) i0 (by omega), sum_Ico_pred (by omega)] at this
      rw [Finset.Ico_self, Finset.sum_empty, add_zero] at this
      rcases hd i i0 i1 with hh | hh
      · exact (mul_eq_zero.1 this).resolve_left hh
      · exact hh
  exact fun i i0 i1 => key (n - i).toNat i i0 (by omega) i1

/-- The back-substitution for one column. -/
theorem sparseColumn_run {E : FmmEnv K} {top s n bA bB p d j : Int} {A B : TB K} {a b : Int → Int → K} {D : Buf K} {F1 : TbEig K} (hE : E.eps = 0) (hA : StoresT A n bA a) (hB : StoresT B n bB b)
    (hbj : b j j ≠ 0) (hdist : ∀ i, 0 ≤ i → i < j → a j j / b j j * b i i ≠ a i i) (d0 : 0 ≤ d + j) (d1 : d + j < D.size) (j0 : 0 ≤ j) (j1 : j < n)
    (h0 : 0 ≤ top) (hn : F1.n = s) (s0 : 0 ≤ s) (sn : s ≤ n) (hp : 1 ≤ p) (hS : ESized E.BS F1) (hr : Regular F1) (hF : Allocd p top.toNat (eArrs F1)) :
    ∃ V, ∃ v : Int → K, sparseColumn E top s n (max bA bB) F1 A B D d j = some V ∧ V.size = n.toNat ∧ (∀ k, j < k → k < n → v k = 0) ∧ v j = D.val (d + j) ∧
      (∀ i, 0 ≤ i → i < n → ∑ k ∈ Finset.Ico 0 n, (a i k - a j j / b j j * b i k) * v k = 0) ∧ ∀ i, 0 ≤ i → i < s → ∑ k ∈ Finset.Ico 0 s, mat F1 i k * V.val k = v i := by
  have haz : ∀ i k, k < i → a i k = 0 := fun i k h => C14_zero_outside_tri hA (by unfold band; omega)
  have hbz : ∀ i k, k < i → b i k = 0 := fun i k h => C14_zero_outside_tri hB (by unfold band; omega)
  obtain ⟨V1, e1, q1, q2, q3, q4⟩ := forDown_spec (lo := 0) (hi := j - 1) (s := (⟨n.toNat, Function.update (callocB n).val j (D.val (d + j))⟩ : Buf K))
    (body := fun i (V : Buf K) => (do
      let t ← accPair (i + 1) (min (i + max bA bB + 1) n) fun k =>
        (A.get i k).bind fun a' => (B.get i k).bind fun b' => (V.rd k).map fun v => ((a' - (a j j / b j j) * b') * v, (|a'| + |(a j j / b j j) * b'|) * |v|)
      let bi ← B.get i i
      let ai ← A.get i i
      let dd := a j j / b j j * bi - ai
      let kd := |a j j / b j j * bi| + |ai|
      let w ← if |dd| < 4 * kd * E.eps ∨ |t.1| < 4 * t.2 * E.eps then some 0 else divC t.1 dd
      V.wr i w))
    (fun I V => V.size = n.toNat ∧ (∀ k, j < k → k < n → V.val k = 0) ∧ V.val j = D.val (d + j) ∧
      ∀ i, I < i → 0 ≤ i → i < j → (a j j / b j j * b i i - a i i) * V.val i = ∑ k ∈ Finset.Ico (i + 1) n, (a i k - a j j / b j j * b i k) * V.val k)
    ⟨rfl, fun k k0 k1 => (Function.update_of_ne (by omega) _ _).trans rfl, Function.update_self _ _ _, fun i h1 h2 h3 => by omega⟩
    (fun i i0 i1 V hV => by
      obtain ⟨v1, v2, v3, v4⟩ := hV
      have hd := sub_ne_zero.2 (hdist i i0 (by omega))
      have hz : ∀ k, i + 1 ≤ k → k < n → ¬ (i + 1 ≤ k ∧ k < min (i + max bA bB + 1) n) → a i k = 0 ∧ b i k = 0 := fun k k0 k1 hk =>
        ⟨C14_zero_outside_tri hA (by unfold band; omega), C14_zero_outside_tri hB (by unfold band; omega)⟩
      refine ⟨⟨V.size, Function.update V.val i ((∑ k ∈ Finset.Ico (i + 1) n, (a i k - a j j / b j j * b i k) * V.val k) / (a j j / b j j * b i i - a i i))⟩, ?_, v1, fun k k0 k1 => ?_, ?_, fun i' h1 h2 h3 => ?_⟩
      · show (accPair _ _ _).bind _ = _
        rw [accPair_eq (g := fun k => (a i k - a j j / b j j * b i k) * V.val k) (h := fun k => (|a i k| + |a j j / b j j * b i k|) * |V.val k|) fun k k0 k1 => by
          rw [hA.get, Option.bind_some, hB.get, Option.bind_some, Buf.rd_of (by omega) (by omega)]; rfl]
        rw [← sum_Ico_shrink (hi := n) (f := fun k => (a i k - a j j / b j j * b i k) * V.val k) (fun k k0 k1 hk => by obtain ⟨h1, h2⟩ := hz k k0 k1 hk; rw [h1, h2]; simp) le_rfl (min_le_right _ _)]
        show (B.get i i).bind _ = _
        rw [hB.get]
        show (A.get i i).bind _ = _
        rw [hA.get]
        simp only [Option.bind_some, hE, mul_zero]
        rw [if_neg (by rw [not_or]; exact ⟨not_lt.2 (abs_nonneg _), not_lt.2 (abs_nonneg _)⟩), divC_of hd]
        exact Buf.wr_of i0 (by omega)
      · exact (Function.update_of_ne (by omega) _ _).trans (v2 k k0 k1)
      · exact (Function.update_of_ne (by omega) _ _).trans v3
      · dsimp only
        rw [sum_Ico_congr (lo := i' + 1) (g := fun k => (a i' k - a j j / b j j * b i' k) * V.val k) fun k k0 k1 => by rw [Function.update_of_ne (show k ≠ i by omega)]]
        by_cases hi : i' = i
        · subst hi
          rw [Function.update_self, mul_div_cancel₀ _ hd]
        · rw [Function.update_of_ne hi, v4 i' (by omega) h2 h3])
  obtain ⟨V2, e2, c⟩ := onCol_bfsv (junk := E.junk) (X := V1) (d := 0) h0 hn s0 hp hS hr hF le_rfl (by rw [q1]; omega)
  refine ⟨V2, V1.val, ?_, by rw [c.size, q1], q2, q3, fun i i0 i1 => ?_, fun i i0 i1 => ?_⟩
  · unfold sparseColumn
    show (D.rd (d + j)).bind _ = _
    rw [Buf.rd_of d0 d1]
    show ((callocB n).wr j (D.val (d + j))).bind _ = _
    rw [Buf.wr_of j0 (by show j < (n.toNat : Int); omega)]
    show (pencilLam A B j).bind _ = _
    rw [pencilLam_of hA hB hbj]
    show (forDown (j - 1) 0 _ _).bind _ = _
    exact (congrArg (fun o => Option.bind o fun V => onCol E.junk top s (bfsvP E.BS 'N' 0 F1) V 0) e1).trans e2
  · have := tri_rows (n := n) haz hbz (lam := a j j / b j j) (v := V1.val) i0 i1
    rw [Finset.mul_sum, ← Finset.sum_sub_distrib, sum_Ico_congr (g := fun k => (a i k - a j j / b j j * b i k) * V1.val k) fun k k0 k1 => by ring] at this
    rw [this]
    rcases lt_trichotomy i j with h | h | h
    · rw [← q4 i (by omega) i0 h]; ring
    · subst h
      rw [sum_Ico_congr (g := fun _ => (0 : K)) fun k k0 k1 => by rw [q2 k (by omega) k1, mul_zero], Finset.sum_const_zero, div_mul_cancel₀ _ hbj]
      ring
    · rw [sum_Ico_congr (g := fun _ => (0 : K)) fun k k0 k1 => by rw [q2 k (by omega) k1, mul_zero], Finset.sum_const_zero, q2 i h i1]
      ring
  · have := c.rel i i0 i1
    simp only [zero_add] at this
    exact this

/-- Halves of a sum. -/
theorem sum_split {s m n : Int} (s0 : 0 ≤ s) (m0 : 0 ≤ m) (hn : n = s + m) (f : Int → K) : ∑ k ∈ Finset.Ico 0 n, f k = ∑ k ∈ Finset.Ico 0 s, f k + ∑ k ∈ Finset.Ico 0 m, f (k + s) := by
  subst hn
  obtain ⟨d, rfl⟩ := Int.eq_ofNat_of_zero_le m0
  induction d with
  | zero => simp
  | succ d ih =>
    push_cast
    rw [← add_assoc, sum_Ico_succ (by omega), sum_Ico_succ (lo := 0) (i := (d : Int)) (by omega), ih (by omega), add_comm (d : Int) s]
    ring

/-- What is known of the halves and of the low-rank factors of the corner. -/
structure Halves (s m bA : Int) (a b V1 V2 : Int → Int → K) (l1 l2 : Int → K) (X Y : Int → Int → K) : Prop where
  s0 : 0 ≤ s
  m0 : 0 ≤ m
  bA0 : 0 ≤ bA
  bAs : bA ≤ s
  band : ∀ i k, i + bA < k → a i k = 0 ∧ b i k = 0
  eqn1 : ∀ i j, 0 ≤ i → i < s → 0 ≤ j → j < s → ∑ k ∈ Finset.Ico 0 s, a i k * V1 k j = l1 j * ∑ k ∈ Finset.Ico 0 s, b i k * V1 k j
  hX : ∀ i j, 0 ≤ i → i < s → 0 ≤ j → j < bA → ∑ k ∈ Finset.Ico 0 s, b i k * ∑ l ∈ Finset.Ico 0 s, V1 k l * X l j = if i = s - bA + j then 1 else 0
  hY : ∀ j k, 0 ≤ j → j < m → 0 ≤ k → k < bA → Y j k = ∑ l ∈ Finset.Ico 0 m, (a (k + s - bA) (l + s) - l2 j * b (k + s - bA) (l + s)) * V2 l j

section halves
variable {s m bA : Int} {a b V1 V2 : Int → Int → K} {l1 l2 : Int → K} {X Y : Int → Int → K} (H : Halves s m bA a b V1 V2 l1 l2 X Y)
include H

/-- `A₁ V₁ = B₁ V₁ Λ₁` on a vector. -/
theorem Halves.apply (z : Int → K) (lam : K) {i : Int} (i0 : 0 ≤ i) (i1 : i < s) :
    ∑ k ∈ Finset.Ico 0 s, (a i k - lam * b i k) * ∑ l ∈ Finset.Ico 0 s, V1 k l * z l = ∑ l ∈ Finset.Ico 0 s, (∑ k ∈ Finset.Ico 0 s, b i k * V1 k l) * ((l1 l - lam) * z l) := by
  simp only [Finset.mul_sum]
  rw [Finset.sum_comm]
  refine sum_Ico_congr fun l l0 hl => ?_
  have := H.eqn1 i l i0 i1 l0 hl
  rw [Finset.sum_mul]
  have e : ∑ k ∈ Finset.Ico 0 s, (a i k - lam * b i k) * (V1 k l * z l) = (∑ k ∈ Finset.Ico 0 s, a i k * V1 k l - lam * ∑ k ∈ Finset.Ico 0 s, b i k * V1 k l) * z l := by
    rw [Finset.mul_sum, ← Finset.sum_sub_distrib, Finset.sum_mul]
    exact sum_Ico_congr fun k _ _ => by ring
  rw [e, this, ← sub_mul, Finset.mul_sum, Finset.sum_mul]
  exact sum_Ico_congr fun k _ _ => by ring

/-- The low-rank factors stand for the corner of the pencil. -/
theorem Halves.corner {i j : Int} (i0 : 0 ≤ i) (i1 : i < s) (j0 : 0 ≤ j) (j1 : j < m) :
    ∑ l ∈ Finset.Ico 0 s, (∑ k ∈ Finset.Ico 0 s, b i k * V1 k l) * ∑ k ∈ Finset.Ico 0 bA, X l k * Y j k = ∑ k ∈ Finset.Ico 0 m, (a i (k + s) - l2 j * b i (k + s)) * V2 k j := by
  have e : ∑ l ∈ Finset.Ico 0 s, (∑ k ∈ Finset.Ico 0 s, b i k * V1 k l) * ∑ k ∈ Finset.Ico 0 bA, X l k * Y j k
      = ∑ r ∈ Finset.Ico 0 bA, Y j r * ∑ k ∈ Finset.Ico 0 s, b i k * ∑ l ∈ Finset.Ico 0 s, V1 k l * X l r := by
    simp only [Finset.mul_sum, Finset.sum_mul]
    rw [Finset.sum_comm]
    refine sum_Ico_congr fun r _ _ => ?_
    rw [Finset.sum_comm]
    exact sum_Ico_congr fun k _ _ => sum_Ico_congr fun l _ _ => by ring
  rw [e, sum_Ico_congr (g := fun r => if r = i - s + bA then Y j (i - s + bA) else 0) fun r r0 r1 => by
    rw [H.hX i r i0 i1 r0 r1]
    by_cases h : r = i - s + bA
    · rw [if_pos h, if_pos (by omega), mul_one, h]
    · rw [if_neg h, if_neg (by omega), mul_zero]]
  by_cases h : s - bA ≤ i
  · rw [Finset.sum_ite_eq' , if_pos (Finset.mem_Ico.2 ⟨by omega, by omega⟩), H.hY j _ j0 j1 (by omega) (by omega), show i - s + bA + s - bA = i by ring]
  · rw [Finset.sum_ite_eq', if_neg (by rw [Finset.mem_Ico]; omega)]
    symm
    refine Finset.sum_eq_zero fun k hk => ?_
    rw [Finset.mem_Ico] at hk
    obtain ⟨h1, h2⟩ := H.band i (k + s) (by omega)
    rw [h1, h2]; ring

/-- A vector whose upper half is `V₁ z` solves the equation in the rows of the first half exactly if `z` is what the Cauchy matrix and the low-rank factors give. -/
theorem Halves.residual (z : Int → K) {i j : Int} (i0 : 0 ≤ i) (i1 : i < s) (j0 : 0 ≤ j) (j1 : j < m) :
    ∑ l ∈ Finset.Ico 0 s, (∑ k ∈ Finset.Ico 0 s, b i k * V1 k l) * ((l1 l - l2 j) * z l + ∑ k ∈ Finset.Ico 0 bA, X l k * Y j k)
      = ∑ k ∈ Finset.Ico 0 s, (a i k - l2 j * b i k) * (∑ l ∈ Finset.Ico 0 s, V1 k l * z l) + ∑ k ∈ Finset.Ico 0 m, (a i (k + s) - l2 j * b i (k + s)) * V2 k j := by
  rw [← H.corner i0 i1 j0 j1, H.apply z (l2 j) i0 i1, ← Finset.sum_add_distrib]
  exact sum_Ico_congr fun l _ _ => by ring

/-- The entries of the coupling follow from the equation. -/
theorem Halves.coupling_of (hb : ∀ i k, k < i → b i k = 0) (hbd : ∀ i, 0 ≤ i → i < s → b i i ≠ 0) (hV : ∀ i k, 0 ≤ k → k < i → i < s → V1 i k = 0) (hVd : ∀ i, 0 ≤ i → i < s → V1 i i ≠ 0)
    {z : Int → K} {j : Int} (j0 : 0 ≤ j) (j1 : j < m)
    (h : ∀ i, 0 ≤ i → i < s → ∑ k ∈ Finset.Ico 0 s, (a i k - l2 j * b i k) * (∑ l ∈ Finset.Ico 0 s, V1 k l * z l) + ∑ k ∈ Finset.Ico 0 m, (a i (k + s) - l2 j * b i (k + s)) * V2 k j = 0)
    {l : Int} (l0 : 0 ≤ l) (hl : l < s) : (l1 l - l2 j) * z l = -∑ k ∈ Finset.Ico 0 bA, X l k * Y j k := by
  set w : Int → K := fun l => (l1 l - l2 j) * z l + ∑ k ∈ Finset.Ico 0 bA, X l k * Y j k with hw
  have h1 : ∀ i, 0 ≤ i → i < s → ∑ k ∈ Finset.Ico 0 s, b i k * ∑ l ∈ Finset.Ico 0 s, V1 k l * w l = 0 := fun i i0 i1 => by
    rw [← h i i0 i1, ← H.residual z i0 i1 j0 j1]
    simp only [Finset.mul_sum]
    rw [Finset.sum_comm]
    refine sum_Ico_congr fun l _ _ => ?_
    rw [Finset.sum_mul]
    exact sum_Ico_congr fun k _ _ => by rw [hw]; ring
  have h2 := tri_zero (fun i k k0 ki _ => hb i k ki) (fun i i0 i1 => .inl (hbd i i0 i1)) h1
  have h3 := tri_zero hV (fun i i0 i1 => .inl (hVd i i0 i1)) h2 l l0 hl
  exact eq_neg_of_add_eq_zero_left h3

end halves

/-- The triplets of the sparse part. -/
theorem sparsePart_run {E : FmmEnv K} {top s m n b d idx : Int} {A B : TB K} {D : Buf K} {F1 : TbEig K} {p1 p2 p3 p4 : Buf Int} {z : Int → Int → K} (hp1 : IsPerm s p1) (hp2 : IsPerm m p2)
    (sn : s ≤ n) (i0 : 0 ≤ idx) (h3 : idx ≤ p3.size) (h4 : idx ≤ p4.size) (h3v : ∀ l, 0 ≤ l → l < idx → 0 ≤ p3.val l ∧ p3.val l < s) (h4v : ∀ l, 0 ≤ l → l < idx → 0 ≤ p4.val l ∧ p4.val l < m)
    (hz : ∀ j, 0 ≤ j → j < m → ∃ V, sparseColumn E top s n b F1 A B D d (j + s) = some V ∧ V.size = n.toNat ∧ ∀ i, 0 ≤ i → i < s → V.val i = z i j) :
    ∃ sp sq sv, sparsePart E top s n b F1 A B D d p1 p2 p3 p4 idx = some (sp, sq, sv) ∧ idx ≤ sp.size ∧ idx ≤ sq.size ∧ idx ≤ sv.size ∧
      ∀ l, 0 ≤ l → l < idx → sp.val l = p1.val (p3.val l) ∧ sq.val l = p2.val (p4.val l) ∧ sv.val l = z (p1.val (p3.val l)) (p2.val (p4.val l)) := by
  unfold sparsePart
  obtain ⟨⟨sp, sq, sv⟩, e, q1, q2, q3, q4⟩ := forUp_spec (lo := 0) (hi := idx) (s := ((⟨idx.toNat, fun _ => 0⟩, ⟨idx.toNat, fun _ => 0⟩, ⟨idx.toNat, E.junk⟩) : Buf Int × Buf Int × Buf K))
    (body := fun l (S : Buf Int × Buf Int × Buf K) =>
    (p4.rd l).bind fun q => (p2.rd q).bind fun j =>
    (sparseColumn E top s n b F1 A B D d (j + s)).bind fun V =>
    (p3.rd l).bind fun q => (p1.rd q).bind fun i =>
    (S.1.wr l i).bind fun sp => (S.2.1.wr l j).bind fun sq => (V.rd i).bind fun v => (S.2.2.wr l v).map fun sv => (sp, sq, sv))
    (fun L S => idx ≤ S.1.size ∧ idx ≤ S.2.1.size ∧ idx ≤ S.2.2.size ∧
      ∀ l, 0 ≤ l → l < L → S.1.val l = p1.val (p3.val l) ∧ S.2.1.val l = p2.val (p4.val l) ∧ S.2.2.val l = z (p1.val (p3.val l)) (p2.val (p4.val l)))
    ⟨by show idx ≤ (idx.toNat : Int); omega, by show idx ≤ (idx.toNat : Int); omega, by show idx ≤ (idx.toNat : Int); omega, fun l _ _ => by omega⟩
    (fun l l0 l1 S h => by
      obtain ⟨s1, s2, s3, s4⟩ := h
      obtain ⟨a0, a1⟩ := h4v l l0 l1
      obtain ⟨c0, c1⟩ := h3v l l0 l1
      have j0 := hp2.lo _ a0 a1
      have j1 := hp2.hi _ a0 a1
      have i0 := hp1.lo _ c0 c1
      have i1 := hp1.hi _ c0 c1
      obtain ⟨V, eV, sV, vV⟩ := hz _ j0 j1
      refine ⟨(⟨S.1.size, Function.update S.1.val l (p1.val (p3.val l))⟩, ⟨S.2.1.size, Function.update S.2.1.val l (p2.val (p4.val l))⟩,
        ⟨S.2.2.size, Function.update S.2.2.val l (z (p1.val (p3.val l)) (p2.val (p4.val l)))⟩), ?_, s1, s2, s3, fun l' h0 h1 => ?_⟩
      · rw [Buf.rd_of l0 (by omega), Option.bind_some, Buf.rd_of a0 (by have := hp2.le; omega), Option.bind_some, eV, Option.bind_some, Buf.rd_of l0 (by omega), Option.bind_some,
          Buf.rd_of c0 (by have := hp1.le; omega), Option.bind_some, Buf.wr_of l0 (by omega), Option.bind_some, Buf.wr_of l0 (by omega), Option.bind_some, Buf.rd_of i0 (by omega), Option.bind_some,
          Buf.wr_of l0 (by omega), vV _ i0 i1]
        rfl
      · dsimp only
        by_cases hl : l' = l
        · subst hl; simp only [Function.update_self, and_self]
        · simp only [Function.update_of_ne hl]; exact s4 l' h0 (by omega))
  rw [max_eq_right i0] at q4
  exact ⟨sp, sq, sv, e, q1, q2, q3, q4⟩

/-- The sparse part holds each close pair once. -/
theorem sparse_sum {tol : K} {x y : Buf K} {s m : Int} {p1 p2 p3 p4 sp sq : Buf Int} {sv : Buf K} {z : Int → Int → K} (hp1 : IsPerm s p1) (hp2 : IsPerm m p2)
    (h34 : ∀ k (hk : k < (pairs tol x s y 0 m).length), (p3.val k, p4.val k) = (pairs tol x s y 0 m)[k])
    (hs : ∀ l, 0 ≤ l → l < ((pairs tol x s y 0 m).length : Int) → sp.val l = p1.val (p3.val l) ∧ sq.val l = p2.val (p4.val l) ∧ sv.val l = z (p1.val (p3.val l)) (p2.val (p4.val l)))
    {a c : Int} (a0 : 0 ≤ a) (a1 : a < s) (c0 : 0 ≤ c) (c1 : c < m) :
    (∑ l ∈ Finset.Ico 0 ((pairs tol x s y 0 m).length : Int), if sp.val l = p1.val a ∧ sq.val l = p2.val c then sv.val l else 0) = if meets tol (x.val a) (y.val c) then z (p1.val a) (p2.val c) else 0 := by
  have at' : ∀ l, 0 ≤ l → l < ((pairs tol x s y 0 m).length : Int) → ∃ h : l.toNat < (pairs tol x s y 0 m).length, (p3.val l, p4.val l) = (pairs tol x s y 0 m)[l.toNat] := fun l l0 l1 => by
    have h : l.toNat < (pairs tol x s y 0 m).length := by omega
    have := h34 l.toNat h
    rw [Int.toNat_of_nonneg l0] at this
    exact ⟨h, this⟩
  have hit : ∀ l, 0 ≤ l → l < ((pairs tol x s y 0 m).length : Int) → (sp.val l = p1.val a ∧ sq.val l = p2.val c) → p3.val l = a ∧ p4.val l = c := fun l l0 l1 h => by
    obtain ⟨hl, e⟩ := at' l l0 l1
    have hm : (p3.val l, p4.val l) ∈ pairs tol x s y 0 m := by rw [e]; exact List.getElem_mem hl
    rw [mem_pairs] at hm
    obtain ⟨v1, v2, -⟩ := hs l l0 l1
    rw [v1, v2] at h
    exact ⟨hp1.inj _ _ hm.1.1 hm.1.2 a0 a1 h.1, hp2.inj _ _ hm.2.1.1 hm.2.1.2 c0 c1 h.2⟩
  by_cases hm : meets tol (x.val a) (y.val c)
  · rw [if_pos hm]
    have hmem : (a, c) ∈ pairs tol x s y 0 m := mem_pairs.2 ⟨⟨a0, a1⟩, ⟨c0, c1⟩, hm⟩
    obtain ⟨k, hk, ek⟩ := List.getElem_of_mem hmem
    have e3 := h34 k hk
    rw [ek] at e3
    obtain ⟨e3, e4⟩ := Prod.mk.inj e3
    rw [Finset.sum_eq_single (k : Int)]
    · obtain ⟨v1, v2, v3⟩ := hs k (by omega) (by omega)
      rw [v1, v2, v3, e3, e4, if_pos ⟨rfl, rfl⟩]
    · intro l hl hne
      rw [Finset.mem_Ico] at hl
      refine if_neg fun h => hne ?_
      obtain ⟨g1, g2⟩ := hit l hl.1 hl.2 h
      obtain ⟨hl', el⟩ := at' l hl.1 hl.2
      rw [g1, g2, ← ek] at el
      have := (List.Nodup.getElem_inj_iff (pairs_nodup (tol := tol) (x := x) (y := y) (m := s) (n := m) (j0 := 0))).1 el
      omega
    · intro h; exact absurd (Finset.mem_Ico.2 ⟨by omega, by omega⟩) h
  · rw [if_neg hm]
    refine Finset.sum_eq_zero fun l hl => ?_
    rw [Finset.mem_Ico] at hl
    refine if_neg fun h => hm ?_
    obtain ⟨g1, g2⟩ := hit l hl.1 hl.2 h
    obtain ⟨hl', el⟩ := at' l hl.1 hl.2
    have : (p3.val l, p4.val l) ∈ pairs tol x s y 0 m := by rw [el]; exact List.getElem_mem hl'
    rw [mem_pairs, g1, g2] at this
    exact this.2.2

end FT.Fmm
