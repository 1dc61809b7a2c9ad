import Verif.Lemmas.BandedTri
import Verif.Lemmas.BandedTB
import Verif.Lemmas.Clenshaw
import Mathlib.Data.Matrix.Mul
import Mathlib.Data.Matrix.Basic
import Mathlib.Algebra.BigOperators.Fin

/-! # The operator version of Clenshaw's algorithm -/

namespace FT
variable {K : Type*} [CommRing K]
open Banded

/-- The leading `m × m` block as a matrix. -/
def toM (m : Nat) (A : Banded K) : Matrix (Fin m) (Fin m) K := fun i j => A.ent (i : Nat) (j : Nat)

theorem sum_fin (m : Nat) (f : Int → K) : ∑ k : Fin m, f ((k : Nat) : Int) = ∑ k ∈ Finset.Ico 0 (m : Int), f k := by
  induction m with
  | zero => simp
  | succ m ih =>
    rw [Fin.sum_univ_castSucc, Nat.cast_add, Nat.cast_one, sum_Ico_succ (by omega), ← ih]
    rfl

theorem wf_calloc (m n l u : Int) : (callocBanded m n l u : Banded K).WF := by
  unfold WF callocBanded callocB
  simp only
  omega

theorem ent_calloc (m n l u i j : Int) : (callocBanded m n l u : Banded K).ent i j = 0 := by
  unfold ent callocBanded callocB
  simp

/-- Zero outside the band `|j - i| ≤ w`. -/
def Narrow (A : Banded K) (w : Int) : Prop := ∀ i j, (j - i < -w ∨ w < j - i) → A.ent i j = 0

theorem ent_congr {A B : Banded K} (hd : SameDim A B) (h : ∀ p, 0 ≤ p → p < B.n * (B.l + B.u + 1) → A.D.val p = B.D.val p) (i j : Int) : A.ent i j = B.ent i j := by
  unfold ent
  by_cases hb : B.InBand i j
  · rw [if_pos hb, if_pos (hd.inBand.2 hb), hd.2.2.1, hd.2.2.2]
    have : 0 ≤ B.u + i + j * (B.l + B.u) ∧ B.u + i + j * (B.l + B.u) < B.n * (B.l + B.u + 1) := by
      unfold InBand at hb
      rw [slot_eq]
      exact slot_lt (by omega) (by omega) (by omega) (by omega)
    exact h _ this.1 this.2
  · rw [if_neg hb, if_neg (mt hd.inBand.1 hb)]

theorem copyData {S D : Buf K} {N : Int} (h1 : N ≤ S.size) (h2 : N ≤ D.size) :
    ∃ D', forUp 0 N (fun i D => (S.rd i).bind fun v => D.wr i v) D = some D' ∧ D'.size = D.size ∧ ∀ p, 0 ≤ p → p < N → D'.val p = S.val p := by
  refine ⟨mix D 0 N S.val, sweepUp_eq (f := fun i _ => S.rd i) S.val (le_refl _) h2 fun i i0 i1 => Buf.rd_of i0 (by omega), rfl, fun p p0 p1 => mix_val_in p0 p1⟩

theorem toM_tri {m : Nat} {a b : K} {X A B : Banded K} (h : ∀ i j, 0 ≤ i → i < (m : Int) → 0 ≤ j → j < (m : Int) → B.ent i j = a * (∑ k ∈ Finset.Ico 0 (m : Int), X.ent i k * A.ent k j) + b * A.ent i j) :
    toM m B = (a • toM m X + b • 1) * toM m A := by
  ext i j
  rw [Matrix.mul_apply]
  show B.ent _ _ = _
  rw [h _ _ (by omega) (by have := i.2; omega) (by omega) (by have := j.2; omega), ← sum_fin, add_comm (a • toM m X)]
  simp only [Matrix.add_apply, Matrix.smul_apply, smul_eq_mul, add_mul, Finset.sum_add_distrib, Matrix.one_apply, mul_ite, mul_one, mul_zero, ite_mul, zero_mul,
    Finset.sum_ite_eq, Finset.mem_univ, if_true]
  rw [add_comm, Finset.mul_sum]
  congr 1
  exact Finset.sum_congr rfl fun k _ => by rw [mul_assoc]; rfl

theorem toM_scal {m : Nat} {a b : K} {A B : Banded K} (h : ∀ i j, 0 ≤ i → i < (m : Int) → 0 ≤ j → j < (m : Int) → B.ent i j = a * A.ent i j + if i = j then b else 0) :
    toM m B = a • toM m A + b • 1 := by
  ext i j
  show B.ent _ _ = _
  rw [h _ _ (by omega) (by have := i.2; omega) (by omega) (by have := j.2; omega)]
  simp only [Matrix.add_apply, Matrix.smul_apply, smul_eq_mul, Matrix.one_apply, mul_ite, mul_one, mul_zero]
  congr 1
  by_cases hij : i = j
  · subst hij; simp
  · rw [if_neg hij, if_neg]; intro h; apply hij; ext; omega

/-- State of the loop before pass `k = n-1-t`. -/
structure ClenInv (n m : Nat) (A B C c : Nat → K) (X : Matrix (Fin m) (Fin m) K) (t : Nat) (s : Banded K × Banded K × Banded K) : Prop where
  d1 : SameDim s.1 (callocBanded m m (n - 1) (n - 1) : Banded K)
  d2 : SameDim s.2.1 (callocBanded m m (n - 1) (n - 1) : Banded K)
  d3 : SameDim s.2.2 (callocBanded m m (n - 1) (n - 1) : Banded K)
  w1 : s.1.WF
  w2 : s.2.1.WF
  w3 : s.2.2.WF
  e1 : toM m s.1 = (clen A B C c X n t).1
  e2 : toM m s.2.1 = (clen A B C c X n t).1
  e3 : toM m s.2.2 = (clen A B C c X n t).2
  n1 : Narrow s.1 (t - 1)
  n2 : Narrow s.2.1 (t - 1)
  n3 : Narrow s.2.2 (t - 1)

theorem step_toM {m : Nat} {a b c1 ck : K} {X Bk B2 T S P : Banded K}
    (vT : ∀ i j, 0 ≤ i → i < (m : Int) → 0 ≤ j → j < (m : Int) → T.ent i j = a * (∑ k ∈ Finset.Ico 0 (m : Int), X.ent i k * Bk.ent k j) + b * Bk.ent i j)
    (vS : ∀ i j, 0 ≤ i → i < (m : Int) → 0 ≤ j → j < (m : Int) → S.ent i j = -c1 * B2.ent i j + if i = j then ck else 0)
    (vP : ∀ i j, 0 ≤ i → i < (m : Int) → 0 ≤ j → j < (m : Int) → P.ent i j = 1 * T.ent i j + 1 * S.ent i j) :
    toM m P = (a • toM m X + b • 1) * toM m Bk - c1 • toM m B2 + ck • 1 := by
  have x3 : toM m P = toM m T + toM m S := by
    ext i j
    show P.ent _ _ = T.ent _ _ + S.ent _ _
    rw [vP _ _ (by omega) (by have := i.2; omega) (by omega) (by have := j.2; omega), one_mul, one_mul]
  rw [x3, toM_tri vT, toM_scal vS, neg_smul]
  abel

theorem step_narrow {m t : Nat} {a b c1 ck : K} {X Bk B2 T S P : Banded K} (hXl : X.l = 1) (hXu : X.u = 1) (hPm : P.m = m) (hPn : P.n = m)
    (vT : ∀ i j, 0 ≤ i → i < (m : Int) → 0 ≤ j → j < (m : Int) → T.ent i j = a * (∑ k ∈ Finset.Ico 0 (m : Int), X.ent i k * Bk.ent k j) + b * Bk.ent i j)
    (vS : ∀ i j, 0 ≤ i → i < (m : Int) → 0 ≤ j → j < (m : Int) → S.ent i j = -c1 * B2.ent i j + if i = j then ck else 0)
    (vP : ∀ i j, 0 ≤ i → i < (m : Int) → 0 ≤ j → j < (m : Int) → P.ent i j = 1 * T.ent i j + 1 * S.ent i j)
    (n1 : Narrow Bk (t - 1)) (n3 : Narrow B2 (t - 1)) : Narrow P ((t + 1 : Nat) - 1) := by
  intro i j hij
  by_cases hb : P.InBand i j
  · unfold InBand at hb
    rw [vP i j (by omega) (by omega) (by omega) (by omega), vT i j (by omega) (by omega) (by omega) (by omega), vS i j (by omega) (by omega) (by omega) (by omega),
      n3 i j (by omega), n1 i j (by omega), if_neg (by omega), Finset.sum_eq_zero]
    · ring
    · intro k _
      by_cases hb' : X.InBand i k
      · unfold InBand at hb'
        rw [n1 k j (by omega), mul_zero]
      · rw [ent_zero hb', zero_mul]
  · exact ent_zero hb

set_option maxHeartbeats 1000000 in
theorem opClenshaw_step {n m t : Nat} (ht : t < n) {c A B C : Buf K} {incc : Int} {X : Banded K} {s : Banded K × Banded K × Banded K} (hX : X.WF) (hXm : X.m = m) (hXn : X.n = m)
    (hXl : X.l = 1) (hXu : X.u = 1) (hA : (n : Int) ≤ A.size) (hB : (n : Int) ≤ B.size) (hC : (n : Int) + 1 ≤ C.size)
    (hc : ∀ k : Int, 0 ≤ k → k < n → 0 ≤ k * incc ∧ k * incc < c.size)
    (h : ClenInv n m (fun k => A.val k) (fun k => B.val k) (fun k => C.val k) (fun k => c.val (k * incc)) (toM m X) t s) :
    ∃ s', opClenshawStep n c incc A B C X (n - 1 - t) s = some s' ∧
      ClenInv n m (fun k => A.val k) (fun k => B.val k) (fun k => C.val k) (fun k => c.val (k * incc)) (toM m X) (t + 1) s' := by
  obtain ⟨⟨a1, a2, a3, a4⟩, ⟨b1, b2, b3, b4⟩, ⟨c1, c2, c3, c4⟩, w1, w2, w3, e1, e2, e3, n1, n2, n3⟩ := h
  unfold callocBanded at a1 a2 a3 a4 b1 b2 b3 b4 c1 c2 c3 c4
  simp only at a1 a2 a3 a4 b1 b2 b3 b4 c1 c2 c3 c4
  have hk : (n : Int) - 1 - t = ((n - 1 - t : Nat) : Int) := by omega
  have hk2 : ((n - 1 - t : Nat) : Int) + 1 = ((n - t : Nat) : Int) := by omega
  unfold opClenshawStep
  have ic := hc (n - 1 - t) (by omega) (by omega)
  rw [Buf.rd_of (by omega) (by omega), Option.bind_some, Buf.rd_of (b := B) (by omega) (by omega), Option.bind_some]
  obtain ⟨T, eT, wT, dT, vT⟩ := tridiagMul_eq (alpha := A.val (n - 1 - t)) (beta := B.val (n - 1 - t)) (A := X) (B := s.1) (l := n - (n - 1 - t) - 2) (u := n - (n - 1 - t) - 2)
    hX w1 (by omega) (by omega) (by omega) hXl hXu (by omega) (by omega) (by omega) (by omega) (fun i j hij => n1 i j (by omega))
  obtain ⟨S, eS, wS, dS, vS⟩ := scalingAdd_eq (alpha := -C.val (n - 1 - t + 1)) (beta := c.val ((n - 1 - t) * incc)) (A := s.2.2) w3 (by omega) (by omega) (by omega)
  obtain ⟨d1, d2, d3, d4⟩ := dT
  obtain ⟨f1, f2, f3, f4⟩ := dS
  obtain ⟨P, eP, wP, dP, vP⟩ := bandedAddIn_eq (alpha := 1) (beta := 1) (B := S) (C := T) wS wT (by omega) (by omega) (by omega) (by omega)
  obtain ⟨g1, g2, g3, g4⟩ := dP
  rw [eT, Option.bind_some, Buf.rd_of (b := C) (by omega) (by omega), Option.bind_some, Buf.rd_of (b := c) ic.1 ic.2, Option.bind_some, eS, Option.bind_some, eP, Option.bind_some]
  have q1 : P.n * (P.l + P.u + 1) = X.m * (2 * n - 1) := by
    rw [g2, g3, g4, d2, d3, d4, a2, a3, a4, hXm]; ring
  have q2 : S.n * (S.l + S.u + 1) = X.m * (2 * n - 1) := by
    rw [f2, f3, f4, c2, c3, c4, hXm]; ring
  obtain ⟨D', eD, hD, vD⟩ := copyData (S := P.D) (D := S.D) (N := X.m * (2 * n - 1)) (by rw [← q1]; exact wP) (by rw [← q2]; exact wS)
  rw [eD]
  have s1 : S.m = P.m := by rw [f1, c1, g1, d1, a1]
  have s2 : S.n = P.n := by rw [f2, c2, g2, d2, a2]
  have s3 : S.l = P.l := by rw [f3, c3, g3, d3, a3]
  have s4 : S.u = P.u := by rw [f4, c4, g4, d4, a4]
  have ee : ∀ i j, (⟨S.m, S.n, S.l, S.u, D'⟩ : Banded K).ent i j = P.ent i j := ent_congr ⟨s1, s2, s3, s4⟩ fun p p0 p1 => vD p p0 (by rw [← q1]; exact p1)
  rw [a2] at vT
  rw [c2] at vS
  rw [d1, d2, a1, a2] at vP
  have hP : toM m P = (clen (fun k => A.val k) (fun k => B.val k) (fun k => C.val k) (fun k => c.val (k * incc)) (toM m X) n (t + 1)).1 := by
    rw [step_toM vT vS vP, e1, e3]
    simp only [clen, hk]
    rw [hk2]
  have nP : Narrow P ((t + 1 : Nat) - 1) := step_narrow hXl hXu (by rw [g1, d1, a1]) (by rw [g2, d2, a2]) vT vS vP n1 n3
  exact ⟨_, rfl,
    { d1 := ⟨by rw [← a1, ← d1, ← g1, ← s1]; rfl, by rw [← a2, ← d2, ← g2, ← s2]; rfl, by rw [← a3, ← d3, ← g3, ← s3]; rfl, by rw [← a4, ← d4, ← g4, ← s4]; rfl⟩
      d2 := ⟨g1.trans (d1.trans a1), g2.trans (d2.trans a2), g3.trans (d3.trans a3), g4.trans (d4.trans a4)⟩
      d3 := ⟨b1, b2, b3, b4⟩
      w1 := by unfold WF; simp only; rw [hD]; exact wS
      w2 := wP
      w3 := w2
      e1 := by rw [← hP]; ext i j; exact ee _ _
      e2 := hP
      e3 := by rw [e2]; rfl
      n1 := fun i j hij => (ee i j).trans (nP i j hij)
      n2 := nP
      n3 := fun i j hij => n2 i j (by omega) }⟩

theorem opClenshaw_eq {n m : Nat} (hn : 1 ≤ n) {c A B C : Buf K} {incc : Int} {X : Banded K} {phi0 : K} (hX : X.WF) (hXm : X.m = m) (hXn : X.n = m)
    (hXl : X.l = 1) (hXu : X.u = 1) (hA : (n : Int) ≤ A.size) (hB : (n : Int) ≤ B.size) (hC : (n : Int) + 1 ≤ C.size)
    (hc : ∀ k : Int, 0 ≤ k → k < n → 0 ≤ k * incc ∧ k * incc < c.size) :
    ∃ R, opClenshaw n c incc A B C X phi0 = some R ∧ R.WF ∧ R.m = m ∧ R.n = m ∧
      toM m R = phi0 • ∑ k ∈ Finset.range n, c.val (k * incc) • opSeq (fun k => A.val k) (fun k => B.val k) (fun k => C.val k) (toM m X) k := by
  unfold opClenshaw
  obtain ⟨s, e, p⟩ := loop_spec (body := fun k => opClenshawStep n c incc A B C X ((n : Int) - 1 - k)) (n := n)
    (s := (callocBanded X.m X.m (n - 1) (n - 1), callocBanded X.m X.m (n - 1) (n - 1), callocBanded X.m X.m (n - 1) (n - 1)))
    (ClenInv n m (fun k => A.val k) (fun k => B.val k) (fun k => C.val k) (fun k => c.val (k * incc)) (toM m X))
    (by
      have z : toM m (callocBanded X.m X.m (n - 1) (n - 1) : Banded K) = 0 := by ext i j; exact ent_calloc ..
      rw [hXm] at *
      exact ⟨⟨rfl, rfl, rfl, rfl⟩, ⟨rfl, rfl, rfl, rfl⟩, ⟨rfl, rfl, rfl, rfl⟩, wf_calloc .., wf_calloc .., wf_calloc .., z, z, z,
        fun i j _ => ent_calloc .., fun i j _ => ent_calloc .., fun i j _ => ent_calloc ..⟩)
    (fun k hk s p => opClenshaw_step hk hX hXm hXn hXl hXu hA hB hC hc p)
  unfold forDown
  rw [show ((n : Int) - 1 - 0 + 1).toNat = n by omega, e, Option.bind_some]
  obtain ⟨⟨a1, a2, a3, a4⟩, -, -, w1, -, -, e1, -⟩ := p
  unfold callocBanded at a1 a2 a3 a4
  simp only at a1 a2 a3 a4
  obtain ⟨R, eR, wR, dR, vR⟩ := scalingAdd_eq (alpha := phi0) (beta := 0) (A := s.1) w1 (by omega) (by omega) (by omega)
  refine ⟨R, eR, wR, by rw [dR.1, a1], by rw [dR.2.1, a2], ?_⟩
  rw [toM_scal (a := phi0) (b := 0) (A := s.1) fun i j i0 i1 j0 j1 => vR i j i0 (by omega) j0 (by omega), e1, clen_eq, zero_smul, add_zero]

end FT
