import Verif.Lemmas.TriCong
import Verif.Lemmas.TriEigAll

/-! # Lemmas for C69: the whole congruence -/

namespace FT
open FT.Props
variable {K : Type*} [Field K]

theorem bil_eye {n : Int} (M : Int → Int → K) {j k : Int} (j0 : 0 ≤ j) (j1 : j < n) (k0 : 0 ≤ k) (k1 : k < n) : bil n M (fun i j => if i = j then 1 else 0) j k = M j k := by
  unfold bil
  simp only
  rw [Finset.sum_eq_single j]
  · rw [if_pos rfl, one_mul, Finset.sum_eq_single k]
    · rw [if_pos rfl, mul_one]
    · intro b _ hb; rw [if_neg hb, mul_zero]
    · intro h; exact absurd (Finset.mem_Ico.2 ⟨k0, k1⟩) h
  · intro b _ hb; rw [if_neg hb, zero_mul]
  · intro h; exact absurd (Finset.mem_Ico.2 ⟨j0, j1⟩) h

section
variable [LinearOrder K] [IsStrictOrderedRing K]

/-- The entries of the second matrix from its Cholesky factor. -/
theorem chol_entries {sqrt : K → K} (hs : IsSqrt sqrt) {B : SymTri K} (hn : 1 ≤ B.n) {j1 j2 : Int → K} {c d : Buf K} (h : tridiagChol sqrt B j1 j2 = some (c, d)) {i j : Int} (i0 : 0 ≤ i) (i1 : i < B.n)
    (j0 : 0 ≤ j) (j1' : j < B.n) : triMat B.a.val B.b.val i j = bul (cgGA c.val d.val 0) (cgGB c.val d.val 0) 0 0 i j := by
  obtain ⟨_, _, h3⟩ := C19_tridiag_chol hs hn h
  rw [← h3 i j i0 i1 j0 j1', bul_zero]
  refine bid_gram (fun k k0 k1 => ?_) (fun k k0 k1 => ?_) i0 i1 j0 j1'
  · unfold cgGA
    rw [if_neg (c := k < 0) (by omega)]
    by_cases hk : k = 0
    · rw [if_neg (by omega), if_pos hk, add_zero]
    · rw [if_pos (by omega), if_neg hk]
  · unfold cgGB
    rw [if_neg (by omega), mul_comm]

/-- The copies. -/
theorem cg_copy {A : SymTri K} (n1 : 1 ≤ A.n) (ha : A.n ≤ A.a.size) (hb : A.n - 1 ≤ A.b.size) (j3 j4 : Int → K) : ∃ a b a' : Buf K,
    forUp 0 (A.n - 1) (fun i (s : Buf K × Buf K) => (A.a.rd i).bind fun p => (s.1.wr i p).bind fun a => (A.b.rd i).bind fun q => (s.2.wr i q).map fun b => (a, b)) (⟨A.n.toNat, j3⟩, ⟨(A.n - 1).toNat, j4⟩) = some (a, b) ∧
    ((A.a.rd (A.n - 1)).bind fun p => a.wr (A.n - 1) p) = some a' ∧ (a'.size : Int) = A.n ∧ (b.size : Int) = A.n - 1 ∧ (∀ i, 0 ≤ i → i < A.n → a'.val i = A.a.val i) ∧
    ∀ i, 0 ≤ i → i < A.n - 1 → b.val i = A.b.val i := by
  obtain ⟨⟨a, b⟩, e, h1, h2, h3, h4⟩ := forUp_spec (lo := 0) (hi := A.n - 1)
    (body := fun i (s : Buf K × Buf K) => (A.a.rd i).bind fun p => (s.1.wr i p).bind fun a => (A.b.rd i).bind fun q => (s.2.wr i q).map fun b => (a, b)) (s := (⟨A.n.toNat, j3⟩, ⟨(A.n - 1).toNat, j4⟩))
    (fun i s => (s.1.size : Int) = A.n ∧ (s.2.size : Int) = A.n - 1 ∧ (∀ j, 0 ≤ j → j < i → s.1.val j = A.a.val j) ∧ ∀ j, 0 ≤ j → j < i → s.2.val j = A.b.val j)
    ⟨by show (A.n.toNat : Int) = _; omega, by show ((A.n - 1).toNat : Int) = _; omega, fun j _ _ => by omega, fun j _ _ => by omega⟩
    (fun i i0 i1 s h => by
      obtain ⟨h1, h2, h3, h4⟩ := h
      rw [Buf.rd_of i0 (by omega), Option.bind_some, Buf.wr_of i0 (by omega), Option.bind_some, Buf.rd_of i0 (by omega), Option.bind_some, Buf.wr_of i0 (by omega), Option.map_some]
      refine ⟨_, rfl, h1, h2, fun j j0 j1 => ?_, fun j j0 j1 => ?_⟩
      · show Function.update _ _ _ j = _
        by_cases hj : j = i
        · rw [hj, Function.update_self]
        · rw [Function.update_of_ne hj, h3 j j0 (by omega)]
      · show Function.update _ _ _ j = _
        by_cases hj : j = i
        · rw [hj, Function.update_self]
        · rw [Function.update_of_ne hj, h4 j j0 (by omega)])
  rw [max_eq_right (by omega)] at h3 h4
  dsimp only at h1 h2 h3 h4
  refine ⟨a, b, ⟨a.size, Function.update a.val (A.n - 1) (A.a.val (A.n - 1))⟩, e, by rw [Buf.rd_of (by omega) (by omega), Option.bind_some, Buf.wr_of (by omega) (by omega)], h1, h2, fun i i0 i1 => ?_, h4⟩
  show Function.update _ _ _ i = _
  by_cases hi : i = A.n - 1
  · rw [hi, Function.update_self]
  · rw [Function.update_of_ne hi, h3 i i0 (by omega)]

theorem triCong_core {sqrt : K → K} (hs : IsSqrt sqrt) {A B : SymTri K} (n2 : 2 ≤ A.n) (hBn : B.n = A.n) (ha : A.n ≤ A.a.size) (hb : A.n - 1 ≤ A.b.size) (hBa : B.a.size = B.n) (hBb : B.b.size = B.n - 1)
    {p : Int → K} (p0 : p 0 = B.a.val 0) (ps : ∀ i, 0 ≤ i → i < A.n - 1 → p (i + 1) = B.a.val (i + 1) - B.b.val i ^ 2 / p i) (hp : ∀ i, 0 ≤ i → i < A.n → 0 < p i)
    {V : Buf K} (hV : (V.size : Int) = A.n * A.n) (j1 j2 j3 j4 : Int → K) :
    ∃ AS V', triCong sqrt j1 j2 j3 j4 A B V = some (AS, V') ∧ AS.n = A.n ∧ (AS.a.size : Int) = A.n ∧ (AS.b.size : Int) = A.n - 1 ∧ V'.size = V.size ∧
      Cg A.n (triMat A.a.val A.b.val) (triMat B.a.val B.b.val) (fun k r => V.val (k + A.n * r)) V' (triMat AS.a.val AS.b.val) fun j k => if j = k then 1 else 0 := by
  obtain ⟨c, d, ec, hc⟩ := C19_tridiag_chol_total hs (A := B) (by omega) hBa hBb j1 j2 p0 (by rw [hBn]; exact ps) (by rw [hBn]; exact hp)
  obtain ⟨sc, sd, _⟩ := C19_tridiag_chol hs (by omega) ec
  rw [hBn] at sc sd hc
  have hc0 : ∀ i, 0 ≤ i → i < A.n → c.val i ≠ 0 := fun i i0 i1 => ne_of_gt (hc i i0 i1).1
  obtain ⟨a, b, a', e1, e2, sa, sb, va, vb⟩ := cg_copy (A := A) (by omega) ha hb j3 j4
  have h0 : CI A.n (triMat A.a.val A.b.val) (triMat B.a.val B.b.val) (fun k r => V.val (k + A.n * r)) c.val d.val 0 0 0 ⟨a', b, V⟩ := by
    refine ⟨sa, sb, hV, fun i j => if i = j then 1 else 0, fun k j k0 k1 j0 j1 => ?_, fun j k j0 j1 k0 k1 => ?_, fun j k j0 j1 k0 k1 => ?_⟩
    · dsimp only
      rw [Finset.sum_eq_single j]
      · rw [if_pos rfl, mul_one]
      · intro b _ hb; rw [if_neg hb, mul_zero]
      · intro h; exact absurd (Finset.mem_Ico.2 ⟨j0, j1⟩) h
    · rw [bil_eye _ j0 j1 k0 k1, bul_zero]
      exact (triMat_congr va vb j0 j1 k0 k1).symm
    · rw [bil_eye _ j0 j1 k0 k1]
      exact chol_entries hs (by omega) ec j0 (by omega) k0 (by omega)
  obtain ⟨st1, f1, h1⟩ := cgFirst_spec n2 sc sd (hc0 0 (le_refl _) (by omega)) h0
  obtain ⟨st2, f2, h2⟩ := forUp_spec (lo := 1) (hi := A.n - 1) (body := cgBody sqrt A.n c d) (s := st1)
    (fun i st => CI A.n (triMat A.a.val A.b.val) (triMat B.a.val B.b.val) (fun k r => V.val (k + A.n * r)) c.val d.val i 0 0 st) h1
    (fun i i1 i2 st h => cgBody_spec hs i1 i2 sc sd (hc0 i (by omega) (by omega)) h)
  rw [max_eq_right (by omega)] at h2
  obtain ⟨st3, f3, h3, h4, h5, h6⟩ := cgLast_spec n2 sc (hc0 _ (by omega) (by omega)) h2
  refine ⟨⟨A.n, st3.a, st3.b⟩, st3.V, ?_, rfl, h3, h4, ?_, h6⟩
  · unfold triCong
    rw [ec, Option.bind_some]
    simp only
    rw [e1, Option.bind_some]
    simp only
    rw [← Option.bind_assoc, e2, Option.bind_some, f1, Option.bind_some, f2, Option.bind_some, f3, Option.map_some]
  · rw [h5]
    have : (st2.V.size : Int) = V.size := by rw [h2.sV, hV]
    exact_mod_cast this

end

end FT
