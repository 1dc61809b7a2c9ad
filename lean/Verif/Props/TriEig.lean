import Verif.Lemmas.TriEigAll
import Verif.Lemmas.Tdc
import Mathlib.Analysis.Real.Sqrt

/-! # C68: the eigendecomposition of a symmetric tridiagonal matrix -/

namespace FT.Props
open FT
variable {K : Type*} [Field K] [LinearOrder K] [IsStrictOrderedRing K]

/-- **C68**.  For every symmetric tridiagonal `A` of size `n ≥ 1` and every `V` the routine stays within its arrays, divides by no zero, and multiplies `V` from the right by an orthogonal matrix
`U`, with the signs of the columns chosen so that the diagonal of the product is not negative.  Unless it gave up, `U` and `lambda` are the eigendecomposition, in ascending order, of `A + E`
with `E` symmetric of norm at most `2 n η tst`, where `tst` is the largest `|d| + |e|` met and `η` bounds what the rounding test neglects; with `η = 0` this is `A` itself.

Missing: that it never gives up (60 iterations for one eigenvalue), and a bound of `tst` by the norm of `A`. -/
theorem C68_tridiagonal_eig_partial {negl : K → K → Bool} {eta : K} (hN : NeglOk negl eta) {sqrt : K → K} (hsq : IsSqrt sqrt) {A : SymTri K} (n1 : 1 ≤ A.n) (ha : A.n ≤ A.a.size)
    (hb : A.n - 1 ≤ A.b.size) {V lambda : Buf K} (hV : (V.size : Int) = A.n * A.n) (hl : A.n ≤ lambda.size) (j1 j2 : Int → K) :
    ∃ out U E, symTriEig negl sqrt j1 j2 A V lambda = some out ∧ out.V.size = V.size ∧ out.lambda.size = lambda.size ∧ (∀ i, ¬ (0 ≤ i ∧ i < A.n) → out.lambda.val i = lambda.val i) ∧
      OrthoCols A.n U ∧ (∀ k j, 0 ≤ k → k < A.n → 0 ≤ j → j < A.n → out.V.val (k + A.n * j) = ∑ r ∈ Finset.Ico 0 A.n, V.val (k + A.n * r) * U r j) ∧
      (∀ j, 0 ≤ j → j < A.n → 0 ≤ out.V.val (j + A.n * j)) ∧
      (out.ok = true → SmallSym A.n E (2 * A.n * eta * out.tst) ∧ Decomposes A.n (fun i j => triMat A.a.val A.b.val i j + E i j) eyeM U out.lambda.val) := by
  obtain ⟨out, U, E, tau, h1, h2, h3, h4, h5, h6, h7⟩ := symTri_core hN hsq n1 ha hb hV hl j1 j2
  refine ⟨out, U, E, h1, h2, h3, h4, h5.orth, h5.vu, h6, fun h => ?_⟩
  obtain ⟨c1, c2, rfl⟩ := h7 h
  have hI : ∀ (x : Int → K) i, 0 ≤ i → i < A.n → rowMul A.n eyeM x i = x i := fun x i i0 i1 => by
    unfold rowMul eyeM
    rw [Finset.sum_eq_single i]
    · rw [if_pos rfl, one_mul]
    · intro b _ hb; rw [if_neg hb.symm, zero_mul]
    · intro h; exact absurd (Finset.mem_Ico.2 ⟨i0, i1⟩) h
  refine ⟨⟨h5.sym, h5.bd⟩, fun i j i0 ij j1 => c2 i j i0 (le_of_lt ij) j1, fun j j0 j1 i i0 i1 => ?_, fun j k j0 j1 k0 k1 => ?_⟩
  · rw [hI _ i i0 i1]
    exact c1 i j i0 i1 j0 j1
  · rw [← h5.orth j k j0 j1 k0 k1]
    refine Finset.sum_congr rfl fun r hr => ?_
    rw [Finset.mem_Ico] at hr
    rw [hI _ r hr.1 hr.2]

/-- The last eigenvalue takes no iteration. -/
theorem tqlOuter_last {negl : K → K → Bool} {eta : K} (hN : NeglOk negl eta) {sqrt : K → K} {n : Int} (n1 : 1 ≤ n) {tst : K} {st : TqlSt K} (hd : (st.d.size : Int) = n) (he : (st.e.size : Int) = n)
    (h0 : st.e.val (n - 1) = 0) : ∃ t st', tqlOuter negl sqrt n 1 (n - 1) tst st = some (true, t, st') := by
  unfold tqlOuter
  rw [Buf.rd_of (by omega) (by omega), Option.bind_some, Buf.rd_of (by omega) (by omega), Option.bind_some]
  simp only
  rw [show (n - (n - 1)).toNat = 0 + 1 by omega]
  unfold tqlSearch
  rw [Buf.rd_of (by omega) (by omega), Option.bind_some, h0, abs_zero, if_pos (hN.zero _), Option.bind_some, if_pos rfl, Option.bind_some]
  simp only [if_true]
  rw [Buf.rd_of (by omega) (by omega), Option.bind_some, Buf.wr_of (by omega) (by omega), Option.bind_some]
  exact ⟨_, _, rfl⟩

/-- **C68**, size two: it does not give up, whatever the rounding test: one iteration makes the off-diagonal entry exactly zero. -/
theorem C68_two_by_two {negl : K → K → Bool} {eta : K} (hN : NeglOk negl eta) {sqrt : K → K} (hsq : IsSqrt sqrt) {A : SymTri K} (n2 : A.n = 2) (ha : 2 ≤ A.a.size)
    (hb : 1 ≤ A.b.size) {V lambda : Buf K} (hV : (V.size : Int) = 4) (hl : 2 ≤ lambda.size) (j1 j2 : Int → K) : ∃ out, symTriEig negl sqrt j1 j2 A V lambda = some out ∧ out.ok = true := by
  obtain ⟨out, U, E, tau, h1, h2, h3, h4, h5, h6, h7⟩ := symTri_core hN hsq (A := A) (V := V) (lambda := lambda) (by omega) (by omega) (by omega) (by rw [hV, n2]; rfl) (by omega) j1 j2
  refine ⟨out, h1, ?_⟩
  obtain ⟨d, e, ed, ee, sd, se, vd, ve, he⟩ := tql_copy (A := A) (by omega) (by omega) (by omega) j1 j2
  have key : ∃ t st', tqlOuter negl sqrt 2 2 0 0 ⟨d, e, V, 0⟩ = some (true, t, st') := by
    rw [n2] at sd se he
    have he : e.val 1 = 0 := he
    rw [show (2 : Nat) = 1 + 1 from rfl]
    unfold tqlOuter
    rw [Buf.rd_of (le_refl _) (by show (0 : Int) < d.size; omega), Option.bind_some, Buf.rd_of (le_refl _) (by show (0 : Int) < e.size; omega), Option.bind_some]
    simp only
    generalize (if (0 : K) < |d.val 0| + |e.val 0| then |d.val 0| + |e.val 0| else 0) = t1
    obtain ⟨m, em, m0, m1, m2, m3⟩ := tqlSearch_spec (negl := negl) (tst := t1) se (by rw [show (2 : Int) - 1 = 1 from rfl, he, abs_zero]; exact hN.zero _) 2 0 (le_refl _) (by norm_num) (by norm_num)
    rw [show (2 - 0 : Int).toNat = 2 from rfl, em, Option.bind_some]
    by_cases hm : m = 0
    · rw [if_pos hm, Option.bind_some]
      simp only [if_true]
      rw [Buf.rd_of (le_refl _) (by omega), Option.bind_some, Buf.wr_of (le_refl _) (by omega), Option.bind_some]
      exact tqlOuter_last hN (n := 2) (by norm_num) sd se he
    · rw [if_neg hm, show m = 1 by omega]
      have hz : ∀ j, 0 ≤ j → j < 1 → e.val j ≠ 0 := fun j j0 j1 e0 => by have := m3 j j0 (by omega); rw [e0, abs_zero, hN.zero] at this; cases this
      have hu : Function.update e.val 1 0 = e.val := by rw [← he, Function.update_eq_self]
      obtain ⟨st', es, hq, _, hm1, _, hl0⟩ := tqlStep_spec hsq (n := 2) (l := 0) (m := 1) (le_refl _) (by norm_num) (by norm_num) (A := triMat d.val e.val) (V0 := fun k r => V.val (k + 2 * r))
        (E := fun _ _ => 0) (tau := 0) (st := ⟨d, e, V, 0⟩) ⟨sd, se, by rw [hV]; rfl, eyeM, gh_init V, fun k k0 _ => by dsimp only; rw [hu]; exact r0_init k0⟩ hz
      rw [show (60 : Nat) = 59 + 1 from rfl]
      unfold tqlIter
      have q1 := hq.se
      have q2 := hq.sd
      rw [es, Option.bind_some, Buf.rd_of (le_refl _) (by omega), Option.bind_some, hl0 rfl, abs_zero, if_pos (hN.zero _), Option.bind_some]
      simp only [if_true]
      rw [Buf.rd_of (le_refl _) (by omega), Option.bind_some, Buf.wr_of (le_refl _) (by omega), Option.bind_some]
      exact tqlOuter_last hN (n := 2) (by norm_num) q2 q1 hm1
  obtain ⟨t, st', ek⟩ := key
  unfold symTriEig at h1
  simp only at h1
  rw [ed, Option.bind_some, ← Option.bind_assoc, ee, Option.bind_some, n2, if_neg (by norm_num), show (2 : Int).toNat = 2 from rfl, ek, Option.bind_some] at h1
  simp only [if_true] at h1
  obtain ⟨x, hx, h1⟩ := Option.bind_eq_some_iff.1 h1
  obtain ⟨y, hy, rfl⟩ := Option.map_eq_some_iff.1 hx
  simp only at h1
  obtain ⟨w, _, h1⟩ := Option.bind_eq_some_iff.1 h1
  obtain ⟨v, _, rfl⟩ := Option.map_eq_some_iff.1 h1
  rfl

omit [IsStrictOrderedRing K] in
/-- The exact test meets the contract with `η = 0`. -/
theorem neglOk_exact : NeglOk (fun (_ a : K) => decide (a = 0)) 0 :=
  ⟨le_refl _, fun _ => by simp, fun t a _ _ h => by rw [of_decide_eq_true h, zero_mul]⟩

/-- A relative test meets the contract. -/
theorem neglOk_rel {eta : K} (h : 0 ≤ eta) : NeglOk (fun (t a : K) => decide (a ≤ eta * t) || decide (a = 0)) eta :=
  ⟨h, fun _ => by simp, fun t a ht _ hh => by
    rcases Bool.or_eq_true _ _ ▸ hh with h1 | h1
    · exact of_decide_eq_true h1
    · rw [of_decide_eq_true h1]; exact mul_nonneg h ht⟩

/-- The case is not vacuous: `[[1, 3], [3, 2]]` with the exact test is decomposed exactly. -/
example : ∃ out U, symTriEig (fun (_ a : ℝ) => decide (a = 0)) Real.sqrt (fun _ => 7) (fun _ => 9) ⟨2, ⟨2, fun i => i + 1⟩, ⟨1, fun _ => 3⟩⟩ ⟨4, fun i => if i = 0 ∨ i = 3 then 1 else 0⟩ ⟨2, fun _ => 5⟩ = some out ∧
    out.ok = true ∧ Decomposes 2 (triMat (fun i => (i : ℝ) + 1) fun _ => 3) eyeM U out.lambda.val := by
  have hs : IsSqrt Real.sqrt := fun x hx => ⟨Real.sqrt_nonneg x, Real.mul_self_sqrt hx⟩
  obtain ⟨out, h1, h2⟩ := C68_two_by_two neglOk_exact hs (A := ⟨2, ⟨2, fun i => i + 1⟩, ⟨1, fun _ => 3⟩⟩) rfl (by norm_num) (by norm_num)
    (V := ⟨4, fun i => if i = 0 ∨ i = 3 then 1 else 0⟩) (lambda := ⟨2, fun _ => 5⟩) rfl (by norm_num) (fun _ => 7) (fun _ => 9)
  obtain ⟨out', U, E, q1, _, _, _, _, _, _, q8⟩ := C68_tridiagonal_eig_partial neglOk_exact hs (A := ⟨2, ⟨2, fun i => i + 1⟩, ⟨1, fun _ => 3⟩⟩) (by norm_num) (by norm_num) (by norm_num)
    (V := ⟨4, fun i => if i = 0 ∨ i = 3 then 1 else 0⟩) (lambda := ⟨2, fun _ => 5⟩) rfl (by norm_num) (fun _ => 7) (fun _ => 9)
  rw [h1] at q1
  cases q1
  obtain ⟨q, r⟩ := q8 h2
  refine ⟨out, U, h1, h2, ?_⟩
  have hE : ∀ x : Int → ℝ, ∑ i ∈ Finset.Ico (0 : Int) 2, x i * rowMul 2 E x i = 0 := fun x => by
    have := q.bd x
    simp only [mul_zero, zero_mul] at this
    exact abs_eq_zero.1 (le_antisymm this (abs_nonneg _))
  have hE0 : ∀ i j, 0 ≤ i → i < 2 → 0 ≤ j → j < 2 → E i j = 0 := by
    have h00 := hE fun i => if i = 0 then 1 else 0
    have h11 := hE fun i => if i = 1 then 1 else 0
    have h01 := hE fun _ => 1
    have s := q.sym 0 1
    have I : Finset.Ico (0 : Int) 2 = {0, 1} := rfl
    simp [rowMul, I] at h00 h11 h01
    have e01 : E 0 1 = 0 := by rw [h00, h11, ← s] at h01; linarith
    intro i j i0 i1 j0 j1
    rcases (show i = 0 ∨ i = 1 by omega) with rfl | rfl <;> rcases (show j = 0 ∨ j = 1 by omega) with rfl | rfl
    · exact h00
    · exact e01
    · rw [← s]; exact e01
    · exact h11
  refine r.congr (fun i j i0 i1 j0 j1 => ?_) (fun i j _ _ _ _ => rfl)
  rw [hE0 i j i0 i1 j0 j1, add_zero]

/-! ## What goes wrong -/

omit [IsStrictOrderedRing K] in
theorem tqlSearch_never {tst : K} {e : Buf K} : ∀ (k : Nat) (l : Int), 0 ≤ l → l + k ≤ e.size → tqlSearch (fun _ _ => false) tst e k l = some (l + k)
  | 0, l, _, _ => by unfold tqlSearch; simp
  | k + 1, l, l0, h => by
    push_cast at h
    unfold tqlSearch
    rw [Buf.rd_of l0 (by omega), Option.bind_some]
    simp only [Bool.false_eq_true, if_false]
    rw [tqlSearch_never k (l + 1) (by omega) (by omega)]
    push_cast
    congr 1
    ring

omit [IsStrictOrderedRing K] in
/-- **C68**, defect: when the rounding test never succeeds, which is what a not-a-number on the diagonal or off the diagonal does to it, the search for a negligible entry runs to the end
and the routine then reads the entry `d[n]` past the end of its array, for every matrix of size at least two. -/
theorem C68_nan_defect (sqrt : K → K) {A : SymTri K} (n2 : 2 ≤ A.n) (ha : A.n ≤ A.a.size) (hb : A.n - 1 ≤ A.b.size) (V lambda : Buf K) (j1 j2 : Int → K) :
    (∀ tst (e : Buf K), A.n ≤ e.size → tqlSearch (fun _ _ => false) tst e A.n.toNat 0 = some A.n) ∧ symTriEig (fun _ _ => false) sqrt j1 j2 A V lambda = none := by
  have hs : ∀ tst (e : Buf K), A.n ≤ e.size → tqlSearch (fun _ _ => false) tst e A.n.toNat 0 = some A.n := fun tst e he => by
    rw [tqlSearch_never A.n.toNat 0 (le_refl _) (by omega)]
    congr 1
    omega
  refine ⟨hs, ?_⟩
  obtain ⟨d, e, ed, ee, sd, se, _, _, _⟩ := tql_copy (A := A) (by omega) ha hb j1 j2
  have hstep : ∀ st : TqlSt K, (st.d.size : Int) = A.n → tqlStep sqrt A.n 0 A.n st = none := fun st hd => by
    unfold tqlStep
    rw [Buf.rd_of (le_refl _) (by omega), Option.bind_some, Buf.rd_of (by omega) (by omega), Option.bind_some]
    refine Option.bind_eq_none_iff.2 fun el _ => Option.bind_eq_none_iff.2 fun p _ => ?_
    simp only
    refine Option.bind_eq_none_iff.2 fun dl _ => ?_
    rw [Buf.wr_of (le_refl _) (by omega), Option.bind_some, Buf.wr_of (by omega) (by show _ < (st.d.size : Int); omega), Option.bind_some]
    rw [sweepUp_eq (lo := 0 + 2) (hi := A.n) (y := fun i => Function.update (Function.update st.d.val 0 dl) (0 + 1) (el * (p + copysignS (hypotS sqrt p 1) p)) i - (st.d.val 0 - dl)) (by omega)
      (by show A.n ≤ (st.d.size : Int); omega) (fun i i0 i1 => by rw [Buf.rd_of (by omega) (by rw [mix_size]; show i < (st.d.size : Int); omega), Option.map_some, mix_val_out (by omega)]), Option.bind_some,
      Buf.rd_oob (by rw [mix_size]; show ¬ (0 ≤ A.n ∧ A.n < (st.d.size : Int)); omega), Option.bind_none]
  unfold symTriEig
  simp only
  rw [ed, Option.bind_some, ← Option.bind_assoc, ee, Option.bind_some, if_neg (by omega), show A.n.toNat = (A.n.toNat - 1) + 1 by omega]
  unfold tqlOuter
  rw [Buf.rd_of (le_refl _) (by show (0 : Int) < d.size; omega), Option.bind_some, Buf.rd_of (le_refl _) (by show (0 : Int) < e.size; omega), Option.bind_some]
  simp only
  rw [show (A.n - 0).toNat = A.n.toNat by omega, hs _ _ (by omega), Option.bind_some, if_neg (by omega), show (60 : Nat) = 59 + 1 from rfl]
  unfold tqlIter
  rw [hstep _ sd]
  rfl

omit [IsStrictOrderedRing K] in
/-- **C68**, defect: for the empty matrix the routine writes the entry `e[-1]` before the start of its array. -/
theorem C68_empty_defect (negl : K → K → Bool) (sqrt : K → K) {A : SymTri K} (n0 : A.n = 0) (V lambda : Buf K) (j1 j2 : Int → K) : symTriEig negl sqrt j1 j2 A V lambda = none := by
  unfold symTriEig
  simp only
  rw [n0]
  refine Option.bind_eq_none_iff.2 fun d _ => Option.bind_eq_none_iff.2 fun e _ => ?_
  rw [Buf.wr_oob (by omega), Option.bind_none]

example : symTriEig (fun (_ _ : Rat) => false) id (fun _ => 0) (fun _ => 0) ⟨2, ⟨2, fun _ => 1⟩, ⟨1, fun _ => 1⟩⟩ ⟨4, fun _ => 0⟩ ⟨2, fun _ => 0⟩ = none :=
  (C68_nan_defect id (A := ⟨2, ⟨2, fun _ => 1⟩, ⟨1, fun _ => 1⟩⟩) (by norm_num) (by norm_num) (by norm_num) _ _ _ _).2

end FT.Props
