import Verif.Lemmas.RecClenshaw
import Verif.Lemmas.RecEigen
import Mathlib.RingTheory.Polynomial.Chebyshev
import Mathlib.Algebra.BigOperators.Field
import Mathlib.Analysis.Real.Sqrt

/-!
# C29-C33: evaluation of series

The results are described by `Outputs f f' m F`: the first `m` entries of the output array are `F`, the others are as before.
The sums are over all `k < n`; for `n < 1` they are empty, which is the "zero coefficients give zero" case.
-/

namespace FT.Props
open FT
variable {K : Type*}

/-- `f'` is `f` with the entries `0 ≤ j < m` replaced by `F j`. -/
def Outputs (f f' : Buf K) (m : Int) (F : Int → K) : Prop :=
  f'.size = f.size ∧ (∀ j, 0 ≤ j → j < m → f'.val j = F j) ∧ ∀ j, ¬ (0 ≤ j ∧ j < m) → f'.val j = f.val j

/-- The coefficients `c[k*incc]`, `0 ≤ k < n`, exist. -/
def Coeffs (c : Buf K) (n incc : Int) : Prop := ∀ k, 0 ≤ k → k < n → 0 ≤ k * incc ∧ k * incc < c.size

theorem outputs_mix {f : Buf K} {m : Int} {F G : Int → K} (h : ∀ j, 0 ≤ j → j < m → F j = G j) : Outputs f (mix f 0 m F) m G :=
  ⟨rfl, fun j h0 h1 => (mix_val_in h0 h1).trans (h j h0 h1), fun _ h => mix_val_out h⟩

section ring
variable [CommRing K]

/-- **C29** Horner evaluation returns `Σ_k c[k*incc] x^k` at every point. -/
theorem C29_horner {n incc m : Int} {c x f : Buf K} (hc : Coeffs c n incc) (hx : m ≤ x.size) (hf : m ≤ f.size) :
    ∃ f', horner n c incc m x f = some f' ∧ Outputs f f' m fun j => ∑ k ∈ Finset.range n.toNat, c.val (k * incc) * x.val j ^ k := by
  rcases lt_or_ge n 1 with hn | hn
  · refine ⟨_, by unfold horner; rw [if_pos hn]; exact zeroOut_eq hf, outputs_mix fun j _ _ => ?_⟩
    rw [show n.toNat = 0 by omega, Finset.sum_range_zero]
  · exact ⟨_, horner_eq hn hc hx hf, outputs_mix fun j _ _ => hor_eq _ _ _⟩

/-- **C29, C32** The vector kernels for every lane count and unroll. -/
theorem C29_horner_simd {S L : Nat} (hS : 0 < S) (hL : 0 < L) {n incc m : Int} {c x f : Buf K} (hm : 0 ≤ m) (hc : Coeffs c n incc) (hx : m ≤ x.size) (hf : m ≤ f.size) :
    ∃ f', hornerV S L n c incc m x f = some f' ∧ Outputs f f' m fun j => ∑ k ∈ Finset.range n.toNat, c.val (k * incc) * x.val j ^ k := by
  rcases lt_or_ge n 1 with hn | hn
  · refine ⟨_, by unfold hornerV; rw [if_pos hn]; exact zeroOut_eq hf, outputs_mix fun j _ _ => ?_⟩
    rw [show n.toNat = 0 by omega, Finset.sum_range_zero]
  · exact ⟨_, hornerV_eq hS hL hn hm hc hx hf, outputs_mix fun j _ _ => hor_eq _ _ _⟩

/-- **C31** Clenshaw evaluation of a series of orthogonal polynomials given by their recurrence coefficients.  `p` is any sequence of functions
with `p_0 = 1`, `p_1 = A_0 x + B_0`, `p_{k+2} = (A_{k+1} x + B_{k+1}) p_{k+1} - C_{k+1} p_k`. -/
theorem C31_opclenshaw {n incc m : Int} {c A B C x phi0 f : Buf K} (hc : Coeffs c n incc) (hA : n ≤ A.size) (hB : n ≤ B.size) (hC : n + 1 ≤ C.size) (hx : m ≤ x.size)
    (hp : m ≤ phi0.size) (hf : m ≤ f.size) {p : Nat → K → K} (p0 : ∀ t, p 0 t = 1) (p1 : ∀ t, p 1 t = A.val 0 * t + B.val 0)
    (p2 : ∀ (k : Nat) t, p (k + 2) t = (A.val (k + 1) * t + B.val (k + 1)) * p (k + 1) t - C.val (k + 1) * p k t) :
    ∃ f', opClenshawEval n c incc A B C m x phi0 f = some f' ∧
      Outputs f f' m fun j => phi0.val j * ∑ k ∈ Finset.range n.toNat, c.val (k * incc) * p k (x.val j) := by
  rcases lt_or_ge n 1 with hn | hn
  · refine ⟨_, by unfold opClenshawEval; rw [if_pos hn]; exact zeroOut_eq hf, outputs_mix fun j _ _ => ?_⟩
    rw [show n.toNat = 0 by omega, Finset.sum_range_zero, mul_zero]
  · refine ⟨_, opClenshawEval_eq hn hc hA hB (by omega) hx hp hf, outputs_mix fun j _ _ => ?_⟩
    unfold opVal
    rw [clen_eq]
    congr 1
    refine Finset.sum_congr rfl fun k _ => ?_
    have key : ∀ k : Nat, opSeq (sq A) (sq B) (sq C) (x.val j) k = p k (x.val j) ∧ opSeq (sq A) (sq B) (sq C) (x.val j) (k + 1) = p (k + 1) (x.val j) := by
      intro k
      induction k with
      | zero => exact ⟨by rw [p0]; rfl, by rw [p1, opSeq]; simp [sq]⟩
      | succ k ih => exact ⟨ih.2, by rw [opSeq, ih.1, ih.2, p2]; simp [sq]⟩
    rw [(key k).1]; rfl

/-- **C31, C32** The vector kernels of the same evaluation return the same array. -/
theorem C32_opclenshaw {S L : Nat} (hS : 0 < S) (hL : 0 < L) {n incc m : Int} {c A B C x phi0 f : Buf K} (hm : 0 ≤ m) (hc : Coeffs c n incc) (hA : n ≤ A.size) (hB : n ≤ B.size)
    (hC : n + 1 ≤ C.size) (hx : m ≤ x.size) (hp : m ≤ phi0.size) (hf : m ≤ f.size) :
    ∃ f', opClenshawEvalV S L n c incc A B C m x phi0 f = some f' ∧ opClenshawEval n c incc A B C m x phi0 f = some f' := by
  rcases lt_or_ge n 1 with hn | hn
  · exact ⟨_, by unfold opClenshawEvalV; rw [if_pos hn]; exact zeroOut_eq hf, by unfold opClenshawEval; rw [if_pos hn]; exact zeroOut_eq hf⟩
  · exact ⟨_, opClenshawEvalV_eq hS hL hn hm hc hA hB (by omega) hx hp hf, opClenshawEval_eq hn hc hA hB (by omega) hx hp hf⟩

/-- **C31** The evaluation reads `C[n]`: with only `n` entries in `C` it leaves the allocation. -/
theorem C31_reads_C_n {n incc m : Int} {c A B C x phi0 f : Buf K} (hn : 1 ≤ n) (hm : 1 ≤ m) (hC : (C.size : Int) = n) : opClenshawEval n c incc A B C m x phi0 f = none := by
  have hl : ∀ X, opLoop n c incc A B C X = none := by
    intro X
    unfold opLoop forDown
    refine loop_none 0 (by omega) fun s _ => ?_
    simp only [Nat.cast_zero, sub_zero]
    cases A.rd (n - 1) with
    | none => rfl
    | some a => cases B.rd (n - 1) with
      | none => rfl
      | some b => simp only [Option.bind_some]; rw [Buf.rd_oob (by omega)]; rfl
  unfold opClenshawEval
  rw [if_neg (by omega)]
  unfold sweepUp forUp
  refine loop_none 0 (by omega) fun s _ => ?_
  simp only [hl]
  cases x.rd (0 + ((0 : Nat) : Int)) <;> rfl

/-- **C32** The vector Horner kernels return what the scalar kernel returns. -/
theorem C32_horner {S L : Nat} (hS : 0 < S) (hL : 0 < L) {n incc m : Int} {c x f : Buf K} (hm : 0 ≤ m) (hc : Coeffs c n incc) (hx : m ≤ x.size) (hf : m ≤ f.size) :
    ∃ f', hornerV S L n c incc m x f = some f' ∧ horner n c incc m x f = some f' := by
  rcases lt_or_ge n 1 with hn | hn
  · exact ⟨_, by unfold hornerV; rw [if_pos hn]; exact zeroOut_eq hf, by unfold horner; rw [if_pos hn]; exact zeroOut_eq hf⟩
  · exact ⟨_, hornerV_eq hS hL hn hm hc hx hf, horner_eq hn hc hx hf⟩

end ring

section field
variable [Field K] [DecidableEq K]

theorem chenT {c : Buf K} {incc : Int} {X : K} {n : Nat} : (chen c incc X n n).1 = ∑ k ∈ Finset.range n, c.val (k * incc) * (Polynomial.Chebyshev.T K k).eval X := by
  unfold chen
  rw [clen_eq]
  refine Finset.sum_congr rfl fun k _ => ?_
  have key : ∀ k : Nat, opSeq (K := K) chA (fun _ => 0) (fun _ => 1) X k = (Polynomial.Chebyshev.T K k).eval X ∧
      opSeq (K := K) chA (fun _ => 0) (fun _ => 1) X (k + 1) = (Polynomial.Chebyshev.T K (k + 1 : Nat)).eval X := by
    intro k
    induction k with
    | zero => exact ⟨by simp [opSeq], by simp [opSeq, chA]⟩
    | succ k ih =>
      refine ⟨ih.2, ?_⟩
      rw [opSeq, ih.1, ih.2]
      have : ((k + 1 + 1 : Nat) : Int) = (k : Int) + 2 := by push_cast; ring
      rw [this, Polynomial.Chebyshev.T_add_two]
      simp [chA]
  rw [(key k).1]; rfl

/-- **C30** Clenshaw evaluation returns `Σ_k c[k*incc] T_k(x)`, with the Chebyshev polynomials of the library, and leaves the points unchanged
although it doubles and halves them in place. -/
theorem C30_clenshaw (two : (2 : K) ≠ 0) {n incc m : Int} {c x f : Buf K} (hc : Coeffs c n incc) (hx : m ≤ x.size) (hf : m ≤ f.size) :
    ∃ f', clenshaw n c incc m x f = some (x, f') ∧
      Outputs f f' m fun j => ∑ k ∈ Finset.range n.toNat, c.val (k * incc) * (Polynomial.Chebyshev.T K k).eval (x.val j) := by
  rcases lt_or_ge n 1 with hn | hn
  · refine ⟨_, by unfold clenshaw; rw [if_pos hn, zeroOut_eq hf]; rfl, outputs_mix fun j _ _ => ?_⟩
    rw [show n.toNat = 0 by omega, Finset.sum_range_zero]
  · exact ⟨_, clenshaw_eq two hn hc hx hf, outputs_mix fun j _ _ => chenT⟩

/-- **C32** The vector Clenshaw kernels return what the scalar kernel returns. -/
theorem C32_clenshaw (two : (2 : K) ≠ 0) {S L : Nat} (hS : 0 < S) (hL : 0 < L) {n incc m : Int} {c x f : Buf K} (hm : 0 ≤ m) (hc : Coeffs c n incc) (hx : m ≤ x.size) (hf : m ≤ f.size) :
    ∃ f', clenshawV S L n c incc m x f = some f' ∧ clenshaw n c incc m x f = some (x, f') := by
  rcases lt_or_ge n 1 with hn | hn
  · exact ⟨_, by unfold clenshawV; rw [if_pos hn]; exact zeroOut_eq hf, by unfold clenshaw; rw [if_pos hn, zeroOut_eq hf]; rfl⟩
  · exact ⟨_, clenshawV_eq two hS hL hn hm hc hx hf, clenshaw_eq two hn hc hx hf⟩

end field

section ordered
variable [Field K] [LinearOrder K] [IsStrictOrderedRing K]

omit [IsStrictOrderedRing K] in
/-- The unit-norm solution `w_0, …, w_{n-1}` of the recurrence `w_{k-1} = A_k ((X + B_k) w_k + C_k w_{k+1})`, `w_n = 0`, with the requested sign:
`sign * w_0 ≥ 0`, and if that product is zero then `w_{n-1} > 0`. -/
structure UnitEigenvector (A B C : Int → K) (X sign : K) (n : Int) (w : Int → K) : Prop where
  norm : ∑ k ∈ Finset.Ico 0 n, w k * w k = 1
  stop : w n = 0
  recur : ∀ k, 1 ≤ k → k < n → w (k - 1) = A k * ((X + B k) * w k + C k * w (k + 1))
  oriented : 0 ≤ sign * w 0
  tie : sign * w 0 = 0 → 0 < w (n - 1)

omit [LinearOrder K] [IsStrictOrderedRing K] in
theorem sum_flip (g : Int → K) (n : Nat) : ∑ i ∈ Finset.range n, g (n - 1 - i) = ∑ k ∈ Finset.Ico (0 : Int) n, g k := by
  refine Finset.sum_bij' (fun i _ => (n : Int) - 1 - i) (fun k _ => ((n : Int) - 1 - k).toNat) ?_ ?_ ?_ ?_ ?_
  · intro i hi; rw [Finset.mem_range] at hi; rw [Finset.mem_Ico]; omega
  · intro k hk; rw [Finset.mem_Ico] at hk; rw [Finset.mem_range]; omega
  · intro i hi; rw [Finset.mem_range] at hi; omega
  · intro k hk; rw [Finset.mem_Ico] at hk; omega
  · intro i hi; rfl

/-- The value computed is the inner product with a unit eigenvector. -/
theorem evExact_spec {A B C c : Int → K} {sqrt : K → K} (hs : IsSqrt sqrt) {X sign : K} {n : Int} (hn : 1 ≤ n) :
    ∃ w, UnitEigenvector A B C X sign n w ∧ evExact A B C c sqrt X n sign (n.toNat - 1) = ∑ k ∈ Finset.Ico 0 n, w k * c k := by
  obtain ⟨m, rfl⟩ : ∃ m : Nat, n = m + 1 := ⟨n.toNat - 1, by omega⟩
  have hm : (((m : Int) + 1).toNat - 1) = m := by omega
  have hm' : (((m + 1 : Nat) : Int)) = (m : Int) + 1 := by push_cast; rfl
  set v := evC A B C X ((m : Int) + 1) with hv
  set N := ∑ i ∈ Finset.range (m + 1), v i * v i with hN
  have v0 : v 0 = 1 := rfl
  have Npos : 0 < N := by
    rw [hN, Finset.sum_range_succ', v0]
    have : 0 ≤ ∑ k ∈ Finset.range m, v (k + 1) * v (k + 1) := Finset.sum_nonneg fun i _ => mul_self_nonneg _
    linarith
  have qpos := sqrt_pos hs Npos
  have q2 := (hs N (le_of_lt Npos)).2
  set s : K := if sign * v m < 0 then -1 else 1 with hsn
  have s2 : s * s = 1 := by rw [hsn]; split_ifs <;> ring
  let w : Int → K := fun k => if k < (m : Int) + 1 then s * v ((m : Int) - k).toNat / sqrt N else 0
  have wk : ∀ i : Nat, i ≤ m → w ((m + 1 : Nat) - 1 - i) = s * v i / sqrt N := by
    intro i hi
    show (if _ then _ else _) = _
    rw [if_pos (by push_cast; omega), show ((m : Int) - (((m + 1 : Nat) : Int) - 1 - i)).toNat = i by push_cast; omega]
  have w0 : w 0 = s * v m / sqrt N := by rw [← wk m (le_refl m)]; congr 1; push_cast; ring
  have wl : w ((m : Int) + 1 - 1) = s / sqrt N := by
    have := wk 0 (Nat.zero_le m)
    rw [v0, mul_one] at this
    rw [← this]; congr 1; push_cast; ring
  refine ⟨w, ⟨?_, ?_, ?_, ?_, ?_⟩, ?_⟩
  · rw [← hm', ← sum_flip (fun k => w k * w k)]
    have : ∀ i ∈ Finset.range (m + 1), w ((m + 1 : Nat) - 1 - i) * w ((m + 1 : Nat) - 1 - i) = (v i * v i) / N := by
      intro i hi
      rw [Finset.mem_range] at hi
      rw [wk i (by omega), div_mul_div_comm, q2, show s * v i * (s * v i) = s * s * (v i * v i) by ring, s2, one_mul]
    rw [Finset.sum_congr rfl this, ← Finset.sum_div, ← hN, div_self (ne_of_gt Npos)]
  · show (if _ then _ else _) = _
    rw [if_neg (by omega)]
  · intro k k0 k1
    obtain ⟨t, rfl⟩ : ∃ t : Nat, k = m - t := ⟨((m : Int) - k).toNat, by omega⟩
    have e1 : w ((m : Int) - t - 1) = s * v (t + 1) / sqrt N := by
      rw [← wk (t + 1) (by omega)]; congr 1; push_cast; ring
    have e2 : w ((m : Int) - t) = s * v t / sqrt N := by
      rw [← wk t (by omega)]; congr 1; push_cast; ring
    have e3 : w ((m : Int) - t + 1) = s * (evPair A B C X ((m : Int) + 1) t).2 / sqrt N := by
      cases t with
      | zero =>
        show (if _ then _ else _) = _
        rw [if_neg (by push_cast; omega)]
        simp [evPair]
      | succ t =>
        have : w ((m : Int) - (t + 1 : Nat) + 1) = s * v t / sqrt N := by
          rw [← wk t (by omega)]; congr 1; push_cast; ring
        rw [this]; rfl
    rw [e1, e2, e3]
    have hvs : v (t + 1) = A ((m : Int) - t) * ((X + B ((m : Int) - t)) * v t + C ((m : Int) - t) * (evPair A B C X ((m : Int) + 1) t).2) := by
      rw [hv]; unfold evC; rw [evPair]; simp only [add_sub_cancel_right]
    rw [hvs]; ring
  · rw [w0, show sign * (s * v m / sqrt N) = (s * (sign * v m)) / sqrt N by ring]
    apply div_nonneg _ (le_of_lt qpos)
    rw [hsn]; split_ifs with h <;> linarith
  · intro h
    rw [w0, show sign * (s * v m / sqrt N) = (s * (sign * v m)) / sqrt N by ring, div_eq_zero_iff] at h
    rcases h with h | h
    · have hz : sign * v m = 0 := by
        have : s * (s * (sign * v m)) = 0 := by rw [h, mul_zero]
        rwa [← mul_assoc, s2, one_mul] at this
      rw [wl, hsn, if_neg (by rw [hz]; exact lt_irrefl 0)]
      positivity
    · exact absurd h (ne_of_gt qpos)
  · unfold evExact
    rw [hm, ← hm', ← sum_flip (fun k => w k * c k), hm']
    have : ∀ i ∈ Finset.range (m + 1), w ((m : Int) + 1 - 1 - i) * c ((m : Int) + 1 - 1 - i) = s * (v i * c ((m : Int) + 1 - 1 - i)) / sqrt N := by
      intro i hi
      rw [Finset.mem_range] at hi
      have := wk i (by omega)
      rw [hm'] at this
      rw [this]; ring
    rw [Finset.sum_congr rfl this, ← Finset.sum_div, ← Finset.mul_sum, mul_div_assoc]

/-- **C33** The evaluation returns, at every point, the inner product of the coefficients with the unit eigenvector of the requested sign, whatever
the rescaling threshold `huge` is. -/
theorem C33_eigen_eval {sqrt : K → K} (hs : IsSqrt sqrt) {huge : K} {n incc m : Int} (hn : 1 ≤ n) {c A B C x f : Buf K} {sign : K} (hc : Coeffs c n incc) (hA : n ≤ A.size)
    (hB : n ≤ B.size) (hC : n ≤ C.size) (hx : m ≤ x.size) (hf : m ≤ f.size) :
    ∃ f' F, eigenEval sqrt huge n c incc A B C m x sign f = some f' ∧ Outputs f f' m F ∧
      ∀ j, 0 ≤ j → j < m → ∃ w, UnitEigenvector A.val B.val C.val (x.val j) sign n w ∧ F j = ∑ k ∈ Finset.Ico 0 n, w k * c.val (k * incc) :=
  ⟨_, _, eigenEval_eq hs hn hc hA hB hC hx hf, outputs_mix fun _ _ _ => rfl, fun _ _ _ => evExact_spec hs hn⟩

/-- **C33** There is only one such eigenvector, so the value is determined. -/
theorem C33_unique {A B C : Int → K} {X sign : K} {n : Int} (hn : 1 ≤ n) {w w' : Int → K} (h : UnitEigenvector A B C X sign n w) (h' : UnitEigenvector A B C X sign n w') :
    ∀ k, 0 ≤ k → k < n → w k = w' k := by
  -- both are multiples of the solution that starts with one
  have mult : ∀ {w}, UnitEigenvector A B C X sign n w → ∀ t : Nat, (t : Int) < n →
      w (n - 1 - t) = w (n - 1) * (evPair A B C X n t).1 ∧ w (n - t) = w (n - 1) * (evPair A B C X n t).2 := by
    intro w h t
    induction t with
    | zero => intro _; simp [evPair, h.stop]
    | succ t ih =>
      intro ht
      obtain ⟨a, b⟩ := ih (by push_cast at ht; omega)
      have r := h.recur (n - 1 - t) (by push_cast at ht; omega) (by omega)
      have e1 : n - 1 - ((t + 1 : Nat) : Int) = n - 1 - t - 1 := by push_cast; ring
      have e2 : n - ((t + 1 : Nat) : Int) = n - 1 - t := by push_cast; ring
      have e3 : n - 1 - (t : Int) + 1 = n - t := by ring
      rw [e1, e2, r, e3, a, b, evPair]
      exact ⟨by ring, rfl⟩
  have nrm : ∀ {w}, UnitEigenvector A B C X sign n w → w (n - 1) * w (n - 1) * ∑ i ∈ Finset.range n.toNat, (evPair A B C X n i).1 * (evPair A B C X n i).1 = 1 := by
    intro w h
    have e := h.norm
    have hnn : ((n.toNat : Nat) : Int) = n := by omega
    rw [← hnn, ← sum_flip (fun k => w k * w k), hnn] at e
    rw [← e, Finset.mul_sum]
    refine Finset.sum_congr rfl fun i hi => ?_
    rw [Finset.mem_range] at hi
    rw [(mult h i (by omega)).1]; ring
  have sqeq : w (n - 1) * w (n - 1) = w' (n - 1) * w' (n - 1) := by
    have a := nrm h
    have b := nrm h'
    have hz : ∑ i ∈ Finset.range n.toNat, (evPair A B C X n i).1 * (evPair A B C X n i).1 ≠ 0 := fun hz => by rw [hz, mul_zero] at a; exact zero_ne_one a
    exact mul_right_cancel₀ hz (a.trans b.symm)
  have top : ∀ {w}, UnitEigenvector A B C X sign n w → w 0 = w (n - 1) * (evPair A B C X n (n.toNat - 1)).1 := by
    intro w h
    have := (mult h (n.toNat - 1) (by omega)).1
    rwa [show n - 1 - ((n.toNat - 1 : Nat) : Int) = 0 by omega] at this
  have same : w (n - 1) = w' (n - 1) := by
    rcases mul_self_eq_mul_self_iff.1 sqeq with h1 | h1
    · exact h1
    · exfalso
      have t1 := top h
      have t2 := top h'
      have neg : sign * w 0 = -(sign * w' 0) := by rw [t1, t2, h1]; ring
      have z : sign * w 0 = 0 := le_antisymm (by rw [neg]; linarith [h'.oriented]) h.oriented
      have z' : sign * w' 0 = 0 := by linarith
      have p1 := h.tie z
      have p2 := h'.tie z'
      linarith
  intro k k0 k1
  have a := (mult h (n - 1 - k).toNat (by omega)).1
  have b := (mult h' (n - 1 - k).toNat (by omega)).1
  rw [show n - 1 - ((n - 1 - k).toNat : Int) = k by omega] at a b
  rw [a, b, same]

/-- **C33** The result does not depend on when rescaling happens. -/
theorem C33_rescaling {sqrt : K → K} (hs : IsSqrt sqrt) {huge huge' : K} {n incc m : Int} (hn : 1 ≤ n) {c A B C x f : Buf K} {sign : K} (hc : Coeffs c n incc) (hA : n ≤ A.size)
    (hB : n ≤ B.size) (hC : n ≤ C.size) (hx : m ≤ x.size) (hf : m ≤ f.size) :
    ∃ f', eigenEval sqrt huge n c incc A B C m x sign f = some f' ∧ eigenEval sqrt huge' n c incc A B C m x sign f = some f' :=
  ⟨_, eigenEval_eq hs hn hc hA hB hC hx hf, eigenEval_eq hs hn hc hA hB hC hx hf⟩

/-- **C32, C33** The vector kernels, which rescale all lanes of all registers when one lane asks for it, return what the scalar kernel returns. -/
theorem C32_eigen_eval {S L : Nat} (hS : 0 < S) (hL : 0 < L) {sqrt : K → K} (hs : IsSqrt sqrt) {huge : K} {n incc m : Int} (hm : 0 ≤ m) {c A B C x f : Buf K} {sign : K}
    (hc : Coeffs c n incc) (hA : n ≤ A.size) (hB : n ≤ B.size) (hC : n ≤ C.size) (hx : m ≤ x.size) (hf : m ≤ f.size) :
    ∃ f', eigenEvalV sqrt huge S L n c incc A B C m x sign f = some f' ∧ eigenEval sqrt huge n c incc A B C m x sign f = some f' := by
  rcases lt_or_ge n 1 with hn | hn
  · exact ⟨_, by unfold eigenEvalV; rw [if_pos hn]; exact zeroOut_eq hf, by unfold eigenEval; rw [if_pos hn]; exact zeroOut_eq hf⟩
  · exact ⟨_, eigenEvalV_eq hS hL hs hn hm hc hA hB hC hx hf, eigenEval_eq hs hn hc hA hB hC hx hf⟩

end ordered

/-! ## Concrete cases -/

/-- `C29_horner`, `C29_horner_simd`, `C32_horner`: `1 + 2x + 3x²` with stride 2 at five points; two lanes and two registers give one block and one tail point. -/
example : Coeffs (Buf.ofList [1, 0, 2, 0, (3 : Int)]) 3 2 := by intro k h0 h1; constructor <;> simp [Buf.ofList] <;> omega
example : (horner 3 (Buf.ofList [1, 0, 2, 0, (3 : Int)]) 2 5 (Buf.ofList [0, 1, 2, 3, 4]) (Buf.ofList [9, 9, 9, 9, 9, 9])).map Buf.toList = some [1, 6, 17, 34, 57, 9] := by decide
example : (hornerV 2 2 3 (Buf.ofList [1, 0, 2, 0, (3 : Int)]) 2 5 (Buf.ofList [0, 1, 2, 3, 4]) (Buf.ofList [9, 9, 9, 9, 9, 9])).map Buf.toList = some [1, 6, 17, 34, 57, 9] := by decide
/-- `C31_opclenshaw`, `C32_opclenshaw`: `p_1 = x + 1`, `p_2 = 2x p_1 - 3 p_0`. -/
example : (opClenshawEval 3 (Buf.ofList [1, 10, (100 : Int)]) 1 (Buf.ofList [1, 2, 0]) (Buf.ofList [1, 0, 0]) (Buf.ofList [0, 3, 0, 0]) 1 (Buf.ofList [2]) (Buf.ofList [5])
    (Buf.ofList [0])).map Buf.toList = some [5 * (1 + 10 * 3 + 100 * (4 * 3 - 3))] := by decide
example : (opClenshawEvalV 2 1 3 (Buf.ofList [1, 10, (100 : Int)]) 1 (Buf.ofList [1, 2, 0]) (Buf.ofList [1, 0, 0]) (Buf.ofList [0, 3, 0, 0]) 3 (Buf.ofList [2, 2, 2]) (Buf.ofList [5, 1, 2])
    (Buf.ofList [0, 0, 0])).map Buf.toList = some [4655, 931, 1862] := by decide
/-- `C31_reads_C_n`: `C` with three entries only. -/
example : opClenshawEval 3 (Buf.ofList [1, 10, (100 : Int)]) 1 (Buf.ofList [1, 2, 0]) (Buf.ofList [1, 0, 0]) (Buf.ofList [0, 3, 0]) 1 (Buf.ofList [2]) (Buf.ofList [5]) (Buf.ofList [0]) = none := by
  apply C31_reads_C_n <;> decide
/-- `C30_clenshaw`, `C32_clenshaw`, `C33_*`, `C32_eigen_eval`: rational data meet the hypotheses; the real square root is an `IsSqrt`. -/
example : Coeffs (Buf.ofList [(1 : Rat), 2, 3]) 3 1 := by intro k h0 h1; constructor <;> simp [Buf.ofList] <;> omega
example : (2 : Rat) ≠ 0 := by decide
example : IsSqrt Real.sqrt := fun a ha => ⟨Real.sqrt_nonneg a, Real.mul_self_sqrt ha⟩
/-- A unit eigenvector: `n = 2`, `A_1 = 4/3`, `X + B_1 = 1`, `C_1 = 0`, so `w = (4/5, 3/5)`. -/
example : UnitEigenvector (K := Rat) (fun _ => 4 / 3) (fun _ => 0) (fun _ => 0) 1 1 2 (fun k => if k = 0 then 4 / 5 else if k = 1 then 3 / 5 else 0) := by
  refine ⟨?_, by norm_num, ?_, by norm_num, by norm_num⟩
  · rw [show Finset.Ico (0 : Int) 2 = {0, 1} by decide]; norm_num
  · intro k h0 h1
    have : k = 1 := by omega
    subst this; norm_num

end FT.Props
