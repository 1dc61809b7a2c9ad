import Verif.Lemmas.Tridiag
import Verif.Lemmas.Sqrt
import Verif.Model.Tri

/-! # Properties of tridiagonal matrices: C19 (tridiagonal Cholesky factorisation), C52 (tearing), C55 (products) -/

namespace FT.Props
open FT
variable {K : Type*}

/-! ## Specifications: the matrices -/

/-- Entry `(i, j)` of the symmetric tridiagonal matrix with diagonal `a` and off-diagonal `b`. -/
def triMat [Zero K] (a b : Int → K) (i j : Int) : K := if i = j then a i else if j = i + 1 then b i else if i = j + 1 then b j else 0

/-- Entry `(i, j)` of the skew-symmetric tridiagonal matrix with superdiagonal `b`. -/
def skewMat [Zero K] [Neg K] (b : Int → K) (i j : Int) : K := if j = i + 1 then b i else if i = j + 1 then -b j else 0

/-- Entry `(i, j)` of the upper bidiagonal matrix with diagonal `c` and superdiagonal `d`. -/
def bidMat [Zero K] (c d : Int → K) (i j : Int) : K := if i = j then c i else if j = i + 1 then d i else 0

theorem triMat_diag [Zero K] (a b : Int → K) (i : Int) : triMat a b i i = a i := if_pos rfl
theorem triMat_sup [Zero K] {a b : Int → K} {i j : Int} (h : j = i + 1) : triMat a b i j = b i := by unfold triMat; rw [if_neg (by omega), if_pos h]
theorem triMat_sub [Zero K] {a b : Int → K} {i j : Int} (h : i = j + 1) : triMat a b i j = b j := by unfold triMat; rw [if_neg (by omega), if_neg (by omega), if_pos h]
theorem triMat_far [Zero K] {a b : Int → K} {i j : Int} (h : i + 1 < j ∨ j + 1 < i) : triMat a b i j = 0 := by
  unfold triMat; rw [if_neg (by omega), if_neg (by omega), if_neg (by omega)]

/-! ## C55 -/

section Ring
variable [CommRing K]

/-- **C55 (symmetric).** For `n ≥ 2` the symmetric tridiagonal product is `y ← α A x + β y`, for either value of `TRANS`, and nothing beyond `y[0..n-1]` is written. -/
theorem C55_stmv {A : SymTri K} {x y : Buf K} {tr : Char} (ht : tr = 'N' ∨ tr = 'T') (alpha beta : K) (hn : 2 ≤ A.n) (ha : A.a.size = A.n) (hb : A.b.size = A.n - 1) (hx : A.n ≤ x.size) (hy : A.n ≤ y.size) :
    ∃ z, stmv tr alpha A x beta y = some z ∧ z.size = y.size ∧
      (∀ i, 0 ≤ i → i < A.n → z.val i = alpha * (∑ j ∈ Finset.Ico 0 A.n, triMat A.a.val A.b.val i j * x.val j) + beta * y.val i) ∧
      ∀ i, ¬ (0 ≤ i ∧ i < A.n) → z.val i = y.val i := by
  unfold stmv
  rw [scaleY_eq hy, Option.bind_some, if_pos ht]
  have key : ∀ i, 0 ≤ i → i < A.n → ∑ j ∈ Finset.Ico 0 A.n, triMat A.a.val A.b.val i j * x.val j =
      (if 0 < i then A.b.val (i - 1) * x.val (i - 1) else 0) + A.a.val i * x.val i + if i + 1 < A.n then A.b.val i * x.val (i + 1) else 0 := by
    intro i i0 i1
    rw [sum_three i0 i1 _ (fun j j0 j1 hj => by unfold triMat; rw [if_neg (by omega), if_neg (by omega), if_neg (by omega), zero_mul])]
    rw [triMat_sub (show i = i - 1 + 1 by ring), triMat_diag, triMat_sup rfl]
  rw [triUpdate_eq (y := mix y 0 A.n _) (g := fun i => alpha * ∑ j ∈ Finset.Ico 0 A.n, triMat A.a.val A.b.val i j * x.val j) hn hy]
  · refine ⟨_, rfl, rfl, fun i i0 i1 => ?_, fun i hi => ?_⟩
    · rw [mix_val_in i0 i1, mix_val_in i0 i1, add_comm]
    · rw [mix_val_out hi, mix_val_out hi]
  · rw [mul2_eq (le_refl _) (by omega) (le_refl _) (by omega), Option.bind_some, mul2_eq (le_refl _) (by omega) (by omega) (by omega), Option.map_some, key 0 (le_refl _) (by omega), if_neg (by omega), if_pos (by omega)]
    rw [zero_add, zero_add]
  · intro i i0 i1
    rw [mul2_eq (by omega) (by omega) (by omega) (by omega), Option.bind_some, mul2_eq (by omega) (by omega) (by omega) (by omega), Option.bind_some, mul2_eq (by omega) (by omega) (by omega) (by omega), Option.map_some,
      key i (by omega) (by omega), if_pos (by omega), if_pos (by omega)]
  · rw [mul2_eq (by omega) (by omega) (by omega) (by omega), Option.bind_some, mul2_eq (by omega) (by omega) (by omega) (by omega), Option.map_some,
      key (A.n - 1) (by omega) (by omega), if_pos (by omega), if_neg (by omega), add_zero, show A.n - 1 - 1 = A.n - 2 by ring]

/-- **C55 (skew-symmetric).** For `n ≥ 2` the skew-symmetric product is `y ← α A x + β y` for `N` and `y ← α Aᵀ x + β y` for `T`. -/
theorem C55_ktmv {n : Int} {b x y : Buf K} {tr : Char} (ht : tr = 'N' ∨ tr = 'T') (alpha beta : K) (hn : 2 ≤ n) (hb : b.size = n - 1) (hx : n ≤ x.size) (hy : n ≤ y.size) :
    ∃ z, ktmv tr n b alpha x beta y = some z ∧ z.size = y.size ∧
      (∀ i, 0 ≤ i → i < n → z.val i = alpha * (∑ j ∈ Finset.Ico 0 n, (if tr = 'N' then skewMat b.val i j else skewMat b.val j i) * x.val j) + beta * y.val i) ∧
      ∀ i, ¬ (0 ≤ i ∧ i < n) → z.val i = y.val i := by
  unfold ktmv
  rw [scaleY_eq hy, Option.bind_some]
  have key : ∀ i, 0 ≤ i → i < n → ∑ j ∈ Finset.Ico 0 n, skewMat b.val i j * x.val j =
      (if 0 < i then -b.val (i - 1) * x.val (i - 1) else 0) + if i + 1 < n then b.val i * x.val (i + 1) else 0 := by
    intro i i0 i1
    rw [sum_three i0 i1 _ (fun j j0 j1 hj => by unfold skewMat; rw [if_neg (by omega), if_neg (by omega), zero_mul])]
    have h1 : skewMat b.val i (i - 1) = -b.val (i - 1) := by unfold skewMat; rw [if_neg (by omega), if_pos (by omega)]
    have h2 : skewMat b.val i i = 0 := by unfold skewMat; rw [if_neg (by omega), if_neg (by omega)]
    have h3 : skewMat b.val i (i + 1) = b.val i := by unfold skewMat; rw [if_pos rfl]
    rw [h1, h2, h3, zero_mul, add_zero]
  have keyT : ∀ i, ∑ j ∈ Finset.Ico 0 n, skewMat b.val j i * x.val j = -∑ j ∈ Finset.Ico 0 n, skewMat b.val i j * x.val j := by
    intro i
    rw [← Finset.sum_neg_distrib]
    refine Finset.sum_congr rfl fun j _ => ?_
    unfold skewMat
    by_cases h1 : j = i + 1
    · rw [if_neg (by omega), if_pos h1, if_pos h1]; ring
    · by_cases h2 : i = j + 1
      · rw [if_pos h2, if_neg h1, if_pos h2]; ring
      · rw [if_neg h2, if_neg h1, if_neg h1, if_neg h2]; ring
  have m2 : ∀ i j, 0 ≤ i → i < n - 1 → 0 ≤ j → j < n → mul2 b x i j = some (b.val i * x.val j) := fun i j a b' c d => mul2_eq a (by omega) c (by omega)
  by_cases hN : tr = 'N'
  · rw [if_pos hN, triUpdate_eq (y := mix y 0 n _) (g := fun i => alpha * ∑ j ∈ Finset.Ico 0 n, skewMat b.val i j * x.val j) hn hy]
    · refine ⟨_, rfl, rfl, fun i i0 i1 => ?_, fun i hi => ?_⟩
      · simp only [if_pos hN]
        rw [mix_val_in i0 i1, mix_val_in i0 i1, add_comm]
      · rw [mix_val_out hi, mix_val_out hi]
    · rw [m2 0 1 (le_refl _) (by omega) (by omega) (by omega), Option.map_some, key 0 (le_refl _) (by omega), if_neg (by omega), if_pos (by omega), zero_add, zero_add]
    · intro i i0 i1
      rw [m2 (i - 1) (i - 1) (by omega) (by omega) (by omega) (by omega), Option.bind_some, m2 i (i + 1) (by omega) (by omega) (by omega) (by omega), Option.map_some, key i (by omega) (by omega), if_pos (by omega), if_pos (by omega)]
      congr 1; ring
    · rw [m2 (n - 2) (n - 2) (by omega) (by omega) (by omega) (by omega), Option.map_some, key (n - 1) (by omega) (by omega), if_pos (by omega), if_neg (by omega), show n - 1 - 1 = n - 2 by ring]
      congr 1; ring
  · rw [if_neg hN, if_pos (ht.resolve_left hN), triUpdate_eq (y := mix y 0 n _) (g := fun i => alpha * -∑ j ∈ Finset.Ico 0 n, skewMat b.val i j * x.val j) hn hy]
    · refine ⟨_, rfl, rfl, fun i i0 i1 => ?_, fun i hi => ?_⟩
      · simp only [if_neg hN]
        rw [mix_val_in i0 i1, mix_val_in i0 i1, add_comm, keyT]
      · rw [mix_val_out hi, mix_val_out hi]
    · rw [m2 0 1 (le_refl _) (by omega) (by omega) (by omega), Option.map_some, key 0 (le_refl _) (by omega), if_neg (by omega), if_pos (by omega)]
      congr 1; rw [zero_add, zero_add]; ring
    · intro i i0 i1
      rw [m2 (i - 1) (i - 1) (by omega) (by omega) (by omega) (by omega), Option.bind_some, m2 i (i + 1) (by omega) (by omega) (by omega) (by omega), Option.map_some, key i (by omega) (by omega), if_pos (by omega), if_pos (by omega)]
      congr 1; ring
    · rw [m2 (n - 2) (n - 2) (by omega) (by omega) (by omega) (by omega), Option.map_some, key (n - 1) (by omega) (by omega), if_pos (by omega), if_neg (by omega), show n - 1 - 1 = n - 2 by ring]
      congr 1; ring

/-- **C55 (defect).** For `n = 1` both products read `b[0]`, which does not exist. -/
theorem C55_one_defect {a b x y : Buf K} (hb : b.size = 0) (alpha beta : K) : stmv 'N' alpha ⟨1, a, b⟩ x beta y = none ∧ ktmv 'N' 1 b alpha x beta y = none := by
  have h : ∀ i j, mul2 b x i j = none := fun i j => by unfold mul2; rw [Buf.rd_oob (by omega)]; rfl
  have h2 : ∀ (y : Buf K) i, addAt y i none = none := fun y i => by unfold addAt; cases y.rd i <;> rfl
  constructor
  · unfold stmv
    simp only [h]
    cases sweepUp 0 (1 : Int) (fun i y => (y.rd i).map fun v => beta * v) y with
    | none => rfl
    | some z => cases h3 : mul2 a x 0 0 <;> simp [h2]
  · unfold ktmv
    simp only [h]
    cases sweepUp 0 (1 : Int) (fun i y => (y.rd i).map fun v => beta * v) y with
    | none => rfl
    | some z => simp [h2]

end Ring

/-! ## C19 -/

section Field
variable [Field K] [LinearOrder K] [IsStrictOrderedRing K]

omit [LinearOrder K] [IsStrictOrderedRing K] in
/-- The scalar equations that make a bidiagonal matrix a Cholesky factor. -/
theorem bid_gram {n : Int} {a b c d : Int → K} (h1 : ∀ k, 0 ≤ k → k < n → c k * c k + (if 0 < k then d (k - 1) * d (k - 1) else 0) = a k)
    (h2 : ∀ k, 0 ≤ k → k < n - 1 → d k * c k = b k) {i j : Int} (i0 : 0 ≤ i) (i1 : i < n) (j0 : 0 ≤ j) (j1 : j < n) :
    ∑ k ∈ Finset.Ico 0 n, bidMat c d k i * bidMat c d k j = triMat a b i j := by
  have z : ∀ {p q : Int}, q < p ∨ p + 1 < q → bidMat c d p q = 0 := fun h => by unfold bidMat; rw [if_neg (by omega), if_neg (by omega)]
  have dg : ∀ p, bidMat c d p p = c p := fun p => if_pos rfl
  have sp : ∀ {p q : Int}, q = p + 1 → bidMat c d p q = d p := fun h => by unfold bidMat; rw [if_neg (by omega), if_pos h]
  rw [sum_three i0 i1 _ (fun k k0 k1 hk => by rw [z (p := k) (q := i) (by omega), zero_mul]), z (p := i + 1) (q := i) (by omega), zero_mul, ite_self, add_zero, dg, sp (show i = i - 1 + 1 by ring)]
  rcases lt_trichotomy i j with h | h | h
  · rw [z (p := i - 1) (q := j) (by omega), mul_zero, ite_self, zero_add]
    by_cases hj : j = i + 1
    · rw [sp hj, triMat_sup hj, ← h2 i i0 (by omega), mul_comm]
    · rw [z (by omega), triMat_far (by omega), mul_zero]
  · subst h
    rw [dg, triMat_diag, ← h1 i i0 i1, sp (show i = i - 1 + 1 by ring), add_comm]
  · rw [z (p := i) (q := j) (Or.inl h), mul_zero, add_zero, if_pos (by omega)]
    by_cases hj : i = j + 1
    · subst hj; rw [triMat_sub rfl, add_sub_cancel_right, dg, h2 j j0 (by omega)]
    · rw [z (p := i - 1) (by omega), triMat_far (by omega), mul_zero]

/-- **C19 (tridiagonal Cholesky, soundness).** Whenever the factorisation returns, the bidiagonal factor `R` satisfies `RᵀR = A`: every entry, every size. -/
theorem C19_tridiag_chol {sqrt : K → K} (hs : IsSqrt sqrt) {A : SymTri K} (hn : 1 ≤ A.n) {j1 j2 : Int → K} {c d : Buf K}
    (h : tridiagChol sqrt A j1 j2 = some (c, d)) : c.size = A.n ∧ d.size = A.n - 1 ∧
      ∀ i j, 0 ≤ i → i < A.n → 0 ≤ j → j < A.n → ∑ k ∈ Finset.Ico 0 A.n, bidMat c.val d.val k i * bidMat c.val d.val k j = triMat A.a.val A.b.val i j := by
  obtain ⟨c0, e1, h⟩ := Option.bind_eq_some_iff.1 h
  obtain ⟨a0, ea, e2⟩ := Option.bind_eq_some_iff.1 e1
  obtain ⟨v, ev, e3⟩ := Option.bind_eq_some_iff.1 e2
  clear e1 e2
  have sq : ∀ x v, sqrtC sqrt x = some v → v * v = x := fun x v h => by
    unfold sqrtC at h
    by_cases hx : x < 0
    · rw [if_pos hx] at h; exact absurd h (by simp)
    · rw [if_neg hx] at h; injection h with h; rw [← h]; exact (hs x (not_lt.1 hx)).2
  obtain ⟨_, ea⟩ := Buf.rd_eq_some_iff.1 ea
  obtain ⟨_, e0⟩ := Buf.wr_eq_some_iff.1 e3
  clear e3
  subst ea e0
  have := forUp_inv (fun i (s : Buf K × Buf K) => (s.1.size : Int) = A.n ∧ (s.2.size : Int) = A.n - 1 ∧
      (∀ k, 0 ≤ k → k ≤ i → s.1.val k * s.1.val k + (if 0 < k then s.2.val (k - 1) * s.2.val (k - 1) else 0) = A.a.val k) ∧
      ∀ k, 0 ≤ k → k < i → s.2.val k * s.1.val k = A.b.val k)
    ⟨by show ((A.n.toNat : Nat) : Int) = A.n; omega, by show (((A.n - 1).toNat : Nat) : Int) = A.n - 1; omega, fun k k0 k1 => by
      have : k = 0 := by omega
      subst this
      rw [if_neg (by omega), add_zero]
      show Function.update j1 0 v 0 * Function.update j1 0 v 0 = _
      rw [Function.update_self]; exact sq _ _ ev, fun k k0 k1 => by omega⟩
    (fun i i0 i1 s t p e => by
      obtain ⟨p1, p2, p3, p4⟩ := p
      obtain ⟨d', ed, e⟩ := Option.bind_eq_some_iff.1 e
      obtain ⟨c', ec, e⟩ := Option.map_eq_some_iff.1 e
      obtain ⟨b, eb, ed1⟩ := Option.bind_eq_some_iff.1 ed
      obtain ⟨ci, eci, ed2⟩ := Option.bind_eq_some_iff.1 ed1
      obtain ⟨q, eq, ed3⟩ := Option.bind_eq_some_iff.1 ed2
      have hd := (Buf.wr_eq_some_iff.1 ed3).2
      clear ed ed1 ed2 ed3
      subst hd e
      obtain ⟨a, ea, ec1⟩ := Option.bind_eq_some_iff.1 ec
      obtain ⟨di, edi, ec2⟩ := Option.bind_eq_some_iff.1 ec1
      obtain ⟨r, er, ec3⟩ := Option.bind_eq_some_iff.1 ec2
      have hc' := (Buf.wr_eq_some_iff.1 ec3).2
      have hb := (Buf.rd_eq_some_iff.1 eb).2
      have hci := (Buf.rd_eq_some_iff.1 eci).2
      have ha := (Buf.rd_eq_some_iff.1 ea).2
      have hdi := (Buf.rd_eq_some_iff.1 edi).2
      clear ec ec1 ec2 ec3 edi ea eci eb
      subst hc' hb hci ha hdi
      have hc : s.1.val i ≠ 0 := fun h => by unfold divC at eq; rw [if_pos h] at eq; exact absurd eq (by simp)
      rw [divC_of hc] at eq; injection eq with eq
      have er := sq _ _ er
      rw [show (⟨s.2.size, Function.update s.2.val i q⟩ : Buf K).val i = q from Function.update_self ..] at er
      refine ⟨p1, p2, fun k k0 k1 => ?_, fun k k0 k1 => ?_⟩
      · show Function.update s.1.val (i + 1) r k * Function.update s.1.val (i + 1) r k + (if 0 < k then Function.update s.2.val i q (k - 1) * Function.update s.2.val i q (k - 1) else 0) = _
        by_cases hk : k = i + 1
        · subst hk
          rw [Function.update_self, if_pos (by omega), add_sub_cancel_right, Function.update_self, er]; ring
        · rw [Function.update_of_ne hk, Function.update_of_ne (show k - 1 ≠ i by omega)]; exact p3 k k0 (by omega)
      · show Function.update s.2.val i q k * Function.update s.1.val (i + 1) r k = _
        rw [Function.update_of_ne (show k ≠ i + 1 by omega)]
        by_cases hk : k = i
        · subst hk; rw [Function.update_self, ← eq, div_mul_cancel₀ _ hc]
        · rw [Function.update_of_ne hk]; exact p4 k k0 (by omega)) h
  rw [max_eq_right (by omega)] at this
  obtain ⟨h1, h2, h3, h4⟩ := this
  exact ⟨h1, h2, fun i j i0 i1 j0 j1 => bid_gram (fun k k0 k1 => h3 k k0 (by omega)) h4 i0 i1 j0 j1⟩

/-- **C19 (tridiagonal Cholesky, totality).** If the pivots `p₀ = a₀`, `pᵢ₊₁ = aᵢ₊₁ - bᵢ²/pᵢ` of elimination are positive, the factorisation returns, without an access
out of bounds, and the diagonal of the factor is positive. -/
theorem C19_tridiag_chol_total {sqrt : K → K} (hs : IsSqrt sqrt) {A : SymTri K} (hn : 1 ≤ A.n) (ha : A.a.size = A.n) (hb : A.b.size = A.n - 1) (j1 j2 : Int → K) {p : Int → K}
    (p0 : p 0 = A.a.val 0) (ps : ∀ i, 0 ≤ i → i < A.n - 1 → p (i + 1) = A.a.val (i + 1) - A.b.val i ^ 2 / p i) (hp : ∀ i, 0 ≤ i → i < A.n → 0 < p i) :
    ∃ c d, tridiagChol sqrt A j1 j2 = some (c, d) ∧ ∀ i, 0 ≤ i → i < A.n → 0 < c.val i ∧ c.val i ^ 2 = p i := by
  have sq : ∀ x, 0 < x → sqrtC sqrt x = some (sqrt x) := fun x h => if_neg (by linarith)
  unfold tridiagChol
  have pp := hp 0 (le_refl _) (by omega)
  rw [Buf.rd_of (le_refl _) (by omega), Option.bind_some, sq _ (by rw [← p0]; exact pp), Option.bind_some, Buf.wr_of (b := ⟨A.n.toNat, j1⟩) (le_refl _) (by show (0 : Int) < (A.n.toNat : Nat); omega), Option.bind_some]
  obtain ⟨s, e, q1, q2, q3⟩ := forUp_spec (body := cholBody sqrt A) (lo := 0) (hi := A.n - 1) (s := (⟨A.n.toNat, Function.update j1 0 (sqrt (A.a.val 0))⟩, ⟨(A.n - 1).toNat, j2⟩))
    (fun i (s : Buf K × Buf K) => (s.1.size : Int) = A.n ∧ (s.2.size : Int) = A.n - 1 ∧ ∀ k, 0 ≤ k → k ≤ i → k < A.n → s.1.val k = sqrt (p k))
    ⟨by show ((A.n.toNat : Nat) : Int) = A.n; omega, by show (((A.n - 1).toNat : Nat) : Int) = A.n - 1; omega, fun k k0 k1 _ => by
      have : k = 0 := by omega
      subst this
      show Function.update j1 0 (sqrt (A.a.val 0)) 0 = _
      rw [Function.update_self, p0]⟩
    (fun i i0 i1 s q => by
      obtain ⟨q1, q2, q3⟩ := q
      have pi := hp i i0 (by omega)
      have hsq := hs (p i) (le_of_lt pi)
      have hc : s.1.val i ≠ 0 := by rw [q3 i i0 (le_refl _) (by omega)]; exact ne_of_gt (sqrt_pos hs pi)
      have hv : A.a.val (i + 1) - A.b.val i / s.1.val i * (A.b.val i / s.1.val i) = p (i + 1) := by
        rw [ps i i0 i1, div_mul_div_comm, q3 i i0 (le_refl _) (by omega), hsq.2, pow_two]
      refine ⟨(⟨s.1.size, Function.update s.1.val (i + 1) (sqrt (p (i + 1)))⟩, ⟨s.2.size, Function.update s.2.val i (A.b.val i / s.1.val i)⟩), ?_, q1, q2, fun k k0 k1 k2 => ?_⟩
      · unfold cholBody
        rw [Buf.rd_of i0 (by omega), Option.bind_some, Buf.rd_of (b := s.1) i0 (by omega), Option.bind_some, divC_of hc, Option.bind_some, Buf.wr_of i0 (by omega), Option.bind_some,
          Buf.rd_of (by omega) (by omega), Option.bind_some, Buf.rd_of (b := ⟨s.2.size, Function.update s.2.val i (A.b.val i / s.1.val i)⟩) i0 (by show i < (s.2.size : Int); omega), Option.bind_some]
        simp only [Function.update_self]
        rw [hv, sq _ (hp (i + 1) (by omega) (by omega)), Option.bind_some, Buf.wr_of (by omega) (by omega)]; rfl
      · show Function.update s.1.val (i + 1) (sqrt (p (i + 1))) k = _
        by_cases hk : k = i + 1
        · subst hk; exact Function.update_self _ _ _
        · rw [Function.update_of_ne hk]; exact q3 k k0 (by omega) k2)
  refine ⟨s.1, s.2, e, fun i i0 i1 => ?_⟩
  have := hp i i0 i1
  rw [q3 i i0 (by omega) i1, pow_two]
  exact ⟨sqrt_pos hs this, (hs _ (le_of_lt this)).2⟩

/-! ## C52 -/

/-- Entry `(i, j)` of the block diagonal matrix with blocks `P` of size `s` and `Q`. -/
def blockDiag {K : Type*} [Zero K] (s : Int) (P Q : Int → Int → K) (i j : Int) : K := if i < s ∧ j < s then P i j else if s ≤ i ∧ s ≤ j then Q (i - s) (j - s) else 0

omit [IsStrictOrderedRing K] in
theorem tearTop_eq {T : SymTri K} {s : Int} (hs : 1 ≤ s) (hn : s ≤ T.n - 1) (ha : T.a.size = T.n) (hb : T.b.size = T.n - 1) (rho : K) (j1 j2 : Int → K) :
    ∃ T1, tearTop T s rho j1 j2 = some T1 ∧ T1.n = s ∧ (T1.a.size : Int) = s ∧ (T1.b.size : Int) = s - 1 ∧
      (∀ i, 0 ≤ i → i < s → T1.a.val i = T.a.val i - if i = s - 1 then |rho| else 0) ∧ ∀ i, 0 ≤ i → i < s - 1 → T1.b.val i = T.b.val i := by
  unfold tearTop
  obtain ⟨st, e, q1, q2, q3, q4⟩ := forUp_spec (lo := 0) (hi := s - 1) (s := ((⟨s.toNat, j1⟩, ⟨(s - 1).toNat, j2⟩) : Buf K × Buf K))
    (body := fun i (st : Buf K × Buf K) => (T.a.rd i).bind fun a => (T.b.rd i).bind fun b => (st.1.wr i a).bind fun p => (st.2.wr i b).map fun q => (p, q))
    (fun i (st : Buf K × Buf K) => (st.1.size : Int) = s ∧ (st.2.size : Int) = s - 1 ∧ (∀ k, 0 ≤ k → k < i → st.1.val k = T.a.val k) ∧ ∀ k, 0 ≤ k → k < i → st.2.val k = T.b.val k)
    ⟨by show ((s.toNat : Nat) : Int) = s; omega, by show (((s - 1).toNat : Nat) : Int) = s - 1; omega, fun k _ _ => by omega, fun k _ _ => by omega⟩
    (fun i i0 i1 st q => by
      obtain ⟨q1, q2, q3, q4⟩ := q
      refine ⟨(⟨st.1.size, Function.update st.1.val i (T.a.val i)⟩, ⟨st.2.size, Function.update st.2.val i (T.b.val i)⟩), ?_, q1, q2, fun k k0 k1 => ?_, fun k k0 k1 => ?_⟩
      · rw [Buf.rd_of i0 (by omega), Option.bind_some, Buf.rd_of i0 (by omega), Option.bind_some, Buf.wr_of i0 (by omega), Option.bind_some, Buf.wr_of i0 (by omega)]; rfl
      · show Function.update _ _ _ _ = _
        by_cases hk : k = i
        · subst hk; exact Function.update_self _ _ _
        · rw [Function.update_of_ne hk]; exact q3 k k0 (by omega)
      · show Function.update _ _ _ _ = _
        by_cases hk : k = i
        · subst hk; exact Function.update_self _ _ _
        · rw [Function.update_of_ne hk]; exact q4 k k0 (by omega))
  rw [e, Option.bind_some, Buf.rd_of (by omega) (by omega), Option.bind_some, Buf.wr_of (by omega) (by omega)]
  refine ⟨_, rfl, rfl, q1, q2, fun i i0 i1 => ?_, fun i i0 i1 => q4 i i0 (by omega)⟩
  show Function.update _ _ _ _ = _
  by_cases hk : i = s - 1
  · subst hk; rw [Function.update_self, if_pos rfl]; ring
  · rw [Function.update_of_ne hk, if_neg hk, sub_zero]; exact q3 i i0 (by omega)

omit [IsStrictOrderedRing K] in
theorem tearBot_eq {T : SymTri K} {s : Int} (hs : 1 ≤ s) (hn : s ≤ T.n - 1) (ha : T.a.size = T.n) (hb : T.b.size = T.n - 1) (rho : K) (j1 j2 : Int → K) :
    ∃ T2, tearBot T s rho j1 j2 = some T2 ∧ T2.n = T.n - s ∧ (T2.a.size : Int) = T.n - s ∧ (T2.b.size : Int) = T.n - s - 1 ∧
      (∀ i, 0 ≤ i → i < T.n - s → T2.a.val i = T.a.val (i + s) - if i = 0 then |rho| else 0) ∧ ∀ i, 0 ≤ i → i < T.n - s - 1 → T2.b.val i = T.b.val (i + s) := by
  unfold tearBot
  obtain ⟨st, e, q1, q2, q3, q4⟩ := forUp_spec (lo := s) (hi := T.n - 1) (s := ((⟨(T.n - s).toNat, j1⟩, ⟨(T.n - s - 1).toNat, j2⟩) : Buf K × Buf K))
    (body := fun i (st : Buf K × Buf K) => (T.a.rd (i + 1)).bind fun a => (T.b.rd i).bind fun b => (st.1.wr (i - s + 1) a).bind fun p => (st.2.wr (i - s) b).map fun q => (p, q))
    (fun i (st : Buf K × Buf K) => (st.1.size : Int) = T.n - s ∧ (st.2.size : Int) = T.n - s - 1 ∧ (∀ k, 1 ≤ k → k ≤ i - s → st.1.val k = T.a.val (k + s)) ∧ ∀ k, 0 ≤ k → k < i - s → st.2.val k = T.b.val (k + s))
    ⟨by show (((T.n - s).toNat : Nat) : Int) = T.n - s; omega, by show (((T.n - s - 1).toNat : Nat) : Int) = T.n - s - 1; omega, fun k _ _ => by omega, fun k _ _ => by omega⟩
    (fun i i0 i1 st q => by
      obtain ⟨q1, q2, q3, q4⟩ := q
      refine ⟨(⟨st.1.size, Function.update st.1.val (i - s + 1) (T.a.val (i + 1))⟩, ⟨st.2.size, Function.update st.2.val (i - s) (T.b.val i)⟩), ?_, q1, q2, fun k k0 k1 => ?_, fun k k0 k1 => ?_⟩
      · rw [Buf.rd_of (by omega) (by omega), Option.bind_some, Buf.rd_of (by omega) (by omega), Option.bind_some, Buf.wr_of (by omega) (by omega), Option.bind_some, Buf.wr_of (by omega) (by omega)]; rfl
      · show Function.update _ _ _ _ = _
        by_cases hk : k = i - s + 1
        · subst hk; rw [Function.update_self]; congr 1; ring
        · rw [Function.update_of_ne hk]; exact q3 k k0 (by omega)
      · show Function.update _ _ _ _ = _
        by_cases hk : k = i - s
        · subst hk; rw [Function.update_self]; congr 1; ring
        · rw [Function.update_of_ne hk]; exact q4 k k0 (by omega))
  rw [e, Option.bind_some, Buf.rd_of (by omega) (by omega), Option.bind_some, Buf.wr_of (by omega) (by omega)]
  refine ⟨_, rfl, rfl, q1, q2, fun i i0 i1 => ?_, fun i i0 i1 => q4 i i0 (by omega)⟩
  show Function.update _ _ _ _ = _
  by_cases hk : i = 0
  · subst hk; rw [Function.update_self, if_pos rfl, zero_add]; ring
  · rw [Function.update_of_ne hk, if_neg hk, sub_zero]; exact q3 i (by omega) (by omega)

omit [IsStrictOrderedRing K] in
theorem tearVec_eq {n : Int} (hn : 2 ≤ n) : ∃ y : Buf K, tearVec n = some y ∧ (y.size : Int) = n ∧ ∀ i, y.val i = if i = n / 2 then 1 else if i = n / 2 - 1 then -1 else 0 := by
  unfold tearVec
  rw [Buf.wr_of (b := ⟨n.toNat, fun _ => (0 : K)⟩) (by omega) (by show _ < ((n.toNat : Nat) : Int); omega), Option.bind_some,
    Buf.wr_of (b := ⟨n.toNat, Function.update (fun _ => (0 : K)) (n / 2 - 1) (-1)⟩) (by omega) (by show _ < ((n.toNat : Nat) : Int); omega)]
  refine ⟨_, rfl, by show ((n.toNat : Nat) : Int) = n; omega, fun i => ?_⟩
  show Function.update _ _ _ _ = _
  rw [Function.update_apply]
  show (if i = n / 2 then (1 : K) else Function.update (fun _ => (0 : K)) (n / 2 - 1) (-1) i) = _
  rw [Function.update_apply]

/-- **C52 (what tearing computes).** For every `n ≥ 2`: the halves and the correction `ρ y yᵀ` add up to the matrix in which the off-diagonal entry at the split is
replaced by minus its absolute value; every other entry is reproduced exactly. -/
theorem C52_tear_general {T : SymTri K} (hn : 2 ≤ T.n) (ha : T.a.size = T.n) (hb : T.b.size = T.n - 1) (j1 j2 j3 j4 : Int → K) :
    ∃ t y, tear T j1 j2 j3 j4 = some t ∧ tearVec T.n = some y ∧ t.T1.n = T.n / 2 ∧ t.T2.n = T.n - T.n / 2 ∧
      ∀ i j, 0 ≤ i → i < T.n → 0 ≤ j → j < T.n →
        blockDiag (T.n / 2) (triMat t.T1.a.val t.T1.b.val) (triMat t.T2.a.val t.T2.b.val) i j + t.rho * y.val i * y.val j =
          triMat T.a.val (fun k => if k = T.n / 2 - 1 then -|T.b.val k| else T.b.val k) i j := by
  unfold tear
  simp only
  obtain ⟨y, ey, _, hy⟩ := tearVec_eq (K := K) hn
  generalize hsd : T.n / 2 = s at *
  have hs1 : 1 ≤ s := by omega
  have hs2 : s ≤ T.n - 1 := by omega
  rw [Buf.rd_of (by omega) (by omega), Option.bind_some]
  obtain ⟨T1, e1, n1, _, _, a1, b1⟩ := tearTop_eq hs1 hs2 ha hb |T.b.val (s - 1)| j1 j2
  obtain ⟨T2, e2, n2, _, _, a2, b2⟩ := tearBot_eq hs1 hs2 ha hb |T.b.val (s - 1)| j3 j4
  rw [e1, Option.bind_some, e2]
  refine ⟨_, y, rfl, ey, n1, n2, fun i j i0 i1 j0 j1 => ?_⟩
  rw [abs_abs] at a1 a2
  simp only
  rw [hy i, hy j]
  unfold blockDiag
  by_cases h1 : i < s ∧ j < s
  · rw [if_pos h1, if_neg (show i ≠ s by omega), if_neg (show j ≠ s by omega)]
    rcases lt_trichotomy i j with h | h | h
    · rw [if_neg (show i ≠ s - 1 by omega)]
      by_cases hj : j = i + 1
      · rw [triMat_sup hj, triMat_sup hj, b1 i i0 (by omega), if_neg (show i ≠ s - 1 by omega)]; ring
      · rw [triMat_far (by omega), triMat_far (by omega)]; ring
    · subst h
      rw [triMat_diag, triMat_diag, a1 i i0 h1.1]
      split_ifs <;> ring
    · rw [if_neg (show j ≠ s - 1 by omega)]
      by_cases hj : i = j + 1
      · rw [triMat_sub hj, triMat_sub hj, b1 j j0 (by omega), if_neg (show j ≠ s - 1 by omega)]; ring
      · rw [triMat_far (by omega), triMat_far (by omega)]; ring
  rw [if_neg h1]
  by_cases h2 : s ≤ i ∧ s ≤ j
  · rw [if_pos h2, if_neg (show i ≠ s - 1 by omega), if_neg (show j ≠ s - 1 by omega)]
    rcases lt_trichotomy i j with h | h | h
    · rw [if_neg (show j ≠ s by omega)]
      by_cases hj : j = i + 1
      · rw [triMat_sup (show j - s = i - s + 1 by omega), triMat_sup hj, b2 (i - s) (by omega) (by omega), sub_add_cancel, if_neg (show i ≠ s - 1 by omega)]; ring
      · rw [triMat_far (by omega), triMat_far (by omega)]; ring
    · subst h
      rw [triMat_diag, triMat_diag, a2 (i - s) (by omega) (by omega), sub_add_cancel]
      by_cases hi : i = s
      · rw [if_pos (show i - s = 0 by omega), if_pos hi]; ring
      · rw [if_neg (show ¬ (i - s = 0) by omega), if_neg hi]; ring
    · rw [if_neg (show i ≠ s by omega)]
      by_cases hj : i = j + 1
      · rw [triMat_sub (show i - s = j - s + 1 by omega), triMat_sub hj, b2 (j - s) (by omega) (by omega), sub_add_cancel, if_neg (show j ≠ s - 1 by omega)]; ring
      · rw [triMat_far (by omega), triMat_far (by omega)]; ring
  rw [if_neg h2]
  by_cases hij : i < j
  · rw [if_neg (show i ≠ s by omega), if_neg (show j ≠ s - 1 by omega)]
    by_cases hj : j = i + 1
    · rw [triMat_sup hj, if_pos (show i = s - 1 by omega), if_pos (show i = s - 1 by omega), if_pos (show j = s by omega), show s - 1 = i by omega]; ring
    · rw [triMat_far (by omega)]; split_ifs <;> first | omega | ring
  · rw [if_neg (show j ≠ s by omega), if_neg (show i ≠ s - 1 by omega)]
    by_cases hj : i = j + 1
    · rw [triMat_sub hj, if_pos (show j = s - 1 by omega), if_pos (show j = s - 1 by omega), if_pos (show i = s by omega), show s - 1 = j by omega]; ring
    · rw [triMat_far (by omega)]; split_ifs <;> first | omega | ring

/-- **C52 (partial).** The halves and the correction add up to the given matrix when the off-diagonal entry at the split is not positive.
Missing: the claim for a positive entry, which is false (`C52_positive_defect`). -/
theorem C52_tear_partial {T : SymTri K} (hn : 2 ≤ T.n) (ha : T.a.size = T.n) (hb : T.b.size = T.n - 1) (hle : T.b.val (T.n / 2 - 1) ≤ 0) (j1 j2 j3 j4 : Int → K) :
    ∃ t y, tear T j1 j2 j3 j4 = some t ∧ tearVec T.n = some y ∧
      ∀ i j, 0 ≤ i → i < T.n → 0 ≤ j → j < T.n →
        blockDiag (T.n / 2) (triMat t.T1.a.val t.T1.b.val) (triMat t.T2.a.val t.T2.b.val) i j + t.rho * y.val i * y.val j = triMat T.a.val T.b.val i j := by
  obtain ⟨t, y, e, ey, _, _, h⟩ := C52_tear_general hn ha hb j1 j2 j3 j4
  refine ⟨t, y, e, ey, fun i j i0 i1 j0 j1 => ?_⟩
  rw [h i j i0 i1 j0 j1]
  congr 1
  funext k
  split_ifs with hk
  · rw [hk, abs_of_nonpos hle, neg_neg]
  · rfl

/-- **C52 (defect).** With a positive off-diagonal entry at the split, whatever the size, the torn pieces add up to a different matrix. -/
theorem C52_positive_defect {T : SymTri K} (hn : 2 ≤ T.n) (ha : T.a.size = T.n) (hb : T.b.size = T.n - 1) (hgt : 0 < T.b.val (T.n / 2 - 1)) (j1 j2 j3 j4 : Int → K) :
    ∃ t y, tear T j1 j2 j3 j4 = some t ∧ tearVec T.n = some y ∧ ∃ i j, 0 ≤ i ∧ i < T.n ∧ 0 ≤ j ∧ j < T.n ∧
      blockDiag (T.n / 2) (triMat t.T1.a.val t.T1.b.val) (triMat t.T2.a.val t.T2.b.val) i j + t.rho * y.val i * y.val j ≠ triMat T.a.val T.b.val i j := by
  obtain ⟨t, y, e, ey, _, _, h⟩ := C52_tear_general hn ha hb j1 j2 j3 j4
  refine ⟨t, y, e, ey, T.n / 2 - 1, T.n / 2, by omega, by omega, by omega, by omega, ?_⟩
  rw [h _ _ (by omega) (by omega) (by omega) (by omega), triMat_sup (by ring), triMat_sup (by ring), if_pos rfl, abs_of_pos hgt]
  intro hh; linarith

end Field

/-! ## Concrete instances -/

/-- A matrix of order 4 with off-diagonal entries `-1` meets the hypotheses of `C52_tear_partial`. -/
example : ∃ t y, tear (K := Rat) ⟨4, .ofList [2, 3, 4, 5], .ofList [-1, -1, -1]⟩ (fun _ => 7) (fun _ => 7) (fun _ => 7) (fun _ => 7) = some t ∧ tearVec 4 = some y ∧
    ∀ i j, 0 ≤ i → i < 4 → 0 ≤ j → j < 4 → blockDiag 2 (triMat t.T1.a.val t.T1.b.val) (triMat t.T2.a.val t.T2.b.val) i j + t.rho * y.val i * y.val j =
      triMat (Buf.ofList [(2 : Rat), 3, 4, 5]).val (Buf.ofList [(-1 : Rat), -1, -1]).val i j :=
  C52_tear_partial (T := ⟨4, .ofList [2, 3, 4, 5], .ofList [-1, -1, -1]⟩) (by decide) (by decide) (by decide) (by decide) _ _ _ _

/-- The same with a positive entry at the split meets the hypotheses of the defect. -/
example : (0 : Rat) < (Buf.ofList [-1, (1 : Rat), -1]).val ((4 : Int) / 2 - 1) := by decide

/-- Positive pivots: `a = (4, 10)`, `b = (2)`. -/
example : ∃ p : Int → Rat, p 0 = 4 ∧ (∀ i, 0 ≤ i → i < (2 : Int) - 1 → p (i + 1) = (Buf.ofList [(4 : Rat), 10]).val (i + 1) - (Buf.ofList [(2 : Rat)]).val i ^ 2 / p i) ∧ ∀ i, 0 ≤ i → i < (2 : Int) → 0 < p i := by
  refine ⟨fun i => if i = 0 then 4 else 9, rfl, fun i i0 i1 => ?_, fun i _ _ => ?_⟩
  · have : i = 0 := by omega
    subst this
    simp [Buf.ofList]; norm_num
  · dsimp only; split_ifs <;> norm_num

/-- A product: `(2·1 + 3·2, 3·1 + 5·2)`. -/
example : (stmv 'N' 1 (⟨2, .ofList [2, 5], .ofList [3]⟩ : SymTri Int) (.ofList [1, 2]) 0 (.ofList [9, 9])).map Buf.toList = some [8, 13] := by decide

example : (ktmv 'T' 2 (.ofList [3]) 1 (.ofList [1, 2]) 1 (.ofList [10, 10]) : Option (Buf Int)).map Buf.toList = some [4, 13] := by decide

end FT.Props
