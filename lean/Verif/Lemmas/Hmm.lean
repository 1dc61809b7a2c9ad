import Verif.Lemmas.Hmv
import Verif.Lemmas.Share

/-! # The product of a hierarchical matrix and a matrix -/

namespace FT.Props.Hier
open FT FT.Model FT.Prog
variable {K : Type*} [CommRing K] [DecidableEq K]

/-- From `M` to `M'`: `C` becomes `z`, nothing else changes outside `S`. -/
def SetsM (M M' : Buf K) (C : Ptr) (LD n p : Int) (S : Int → Prop) (z : Int → Int → K) : Prop :=
  M'.size = M.size ∧ (∀ k i, 0 ≤ k → k < p → 0 ≤ i → i < n → M'.val ((C.add (k * LD)).at i) = z i k) ∧ ∀ a, ¬ CIn C LD n p a → ¬ S a → M'.val a = M.val a

theorem col_at (C : Ptr) (LD e c k i : Int) : ((C.add (e + c * LD)).add (k * LD)).at i = (C.add ((c + k) * LD)).at (e + i) := by
  unfold Ptr.add Ptr.at; simp only; rw [Int.add_mul]; omega

theorem col_ok {C : Ptr} {LD n p e w c q : Int} {s : Nat} (h : ∀ k, 0 ≤ k → k < p → (C.add (k * LD)).Ok n s) (e0 : 0 ≤ e) (e1 : e + w ≤ n) (c0 : 0 ≤ c) (c1 : c + q ≤ p) :
    ∀ k, 0 ≤ k → k < q → ((C.add (e + c * LD)).add (k * LD)).Ok w s := by
  intro k k0 k1
  have := h (c + k) (by omega) (by omega)
  unfold Ptr.Ok Ptr.add at *
  simp only at *
  rw [Int.add_mul] at this
  omega

theorem col_inj {LD i i' k k' : Int} (h0 : 0 ≤ i) (h1 : i < LD) (h0' : 0 ≤ i') (h1' : i' < LD) (h : i + k * LD = i' + k' * LD) : k = k' ∧ i = i' := by
  have : k = k' := by
    rcases lt_trichotomy k k' with c | c | c
    · have := Int.mul_le_mul_of_nonneg_right (c := LD) (show k + 1 ≤ k' by omega) (by omega)
      rw [Int.add_mul, Int.one_mul] at this; omega
    · exact c
    · have := Int.mul_le_mul_of_nonneg_right (c := LD) (show k' + 1 ≤ k by omega) (by omega)
      rw [Int.add_mul, Int.one_mul] at this; omega
  subst this
  exact ⟨rfl, by omega⟩

theorem cin_iff {C : Ptr} {LD n p a : Int} : CIn C LD n p a ↔ ∃ k i, 0 ≤ k ∧ k < p ∧ 0 ≤ i ∧ i < n ∧ a = (C.add (k * LD)).at i := by
  constructor
  · rintro ⟨k, k0, k1, h⟩
    obtain ⟨i, i0, i1, e⟩ := Ptr.in_iff.1 h
    exact ⟨k, i, k0, k1, i0, i1, e⟩
  · rintro ⟨k, i, k0, k1, i0, i1, e⟩
    exact ⟨k, k0, k1, Ptr.in_iff.2 ⟨i, i0, i1, e⟩⟩

/-- Which entries of a matrix belong to a submatrix. -/
theorem cin_sub {C : Ptr} {LD n e w c q k i : Int} (hLD : n ≤ LD) (e0 : 0 ≤ e) (e1 : e + w ≤ n) (i0 : 0 ≤ i) (i1 : i < n) :
    CIn (C.add (e + c * LD)) LD w q ((C.add (k * LD)).at i) ↔ (e ≤ i ∧ i < e + w) ∧ c ≤ k ∧ k < c + q := by
  rw [cin_iff]
  constructor
  · rintro ⟨k', i', a0, a1, b0, b1, h⟩
    rw [col_at] at h
    have := col_inj (LD := LD) (i := i) (i' := e + i') (k := k) (k' := c + k') i0 (by omega) (by omega) (by omega) (by unfold Ptr.add Ptr.at at h; simp only at h; omega)
    omega
  · rintro ⟨⟨h1, h2⟩, h3, h4⟩
    exact ⟨k - c, i - e, by omega, by omega, by omega, by omega, by rw [col_at, show c + (k - c) = k by omega, show e + (i - e) = i by omega]⟩

theorem cin_le {C : Ptr} {LD n p e w c q a : Int} (e0 : 0 ≤ e) (e1 : e + w ≤ n) (c0 : 0 ≤ c) (c1 : c + q ≤ p) (h : CIn (C.add (e + c * LD)) LD w q a) : CIn C LD n p a := by
  rw [cin_iff] at *
  obtain ⟨k, i, a0, a1, b0, b1, rfl⟩ := h
  exact ⟨c + k, e + i, by omega, by omega, by omega, by omega, by rw [col_at]⟩

theorem SetsM.trans {M0 M M' : Buf K} {C : Ptr} {LD n p e w c q : Int} {S : Int → Prop} {z g : Int → Int → K} (h : SetsM M0 M C LD n p S z) (hLD : n ≤ LD)
    (e0 : 0 ≤ e) (e1 : e + w ≤ n) (c0 : 0 ≤ c) (c1 : c + q ≤ p) (hS : ∀ k i, 0 ≤ k → k < p → 0 ≤ i → i < n → ¬ S ((C.add (k * LD)).at i))
    (h' : SetsM M M' (C.add (e + c * LD)) LD w q S fun i k => M.val (((C.add (e + c * LD)).add (k * LD)).at i) + g i k) :
    SetsM M0 M' C LD n p S fun i k => z i k + if (e ≤ i ∧ i < e + w) ∧ c ≤ k ∧ k < c + q then g (i - e) (k - c) else 0 := by
  obtain ⟨a1, a2, a3⟩ := h
  obtain ⟨b1, b2, b3⟩ := h'
  refine ⟨b1.trans a1, fun k i k0 k1 i0 i1 => ?_, fun a ha hs => ?_⟩
  · dsimp only
    split_ifs with d
    · have := b2 (k - c) (i - e) (by omega) (by omega) (by omega) (by omega)
      dsimp only at this
      rw [col_at, show c + (k - c) = k by omega, show e + (i - e) = i by omega, a2 k i k0 k1 i0 i1] at this
      exact this
    · rw [b3 _ (fun h => d ((cin_sub hLD e0 e1 i0 i1).1 h)) (hS k i k0 k1 i0 i1), a2 k i k0 k1 i0 i1, add_zero]
  · rw [b3 a (fun h => ha (cin_le e0 e1 c0 c1 h)) hs, a3 a ha hs]

/-! ## Dense matrices -/

/-- Rows of `op(A)`. -/
def gr (tr : Char) (m n : Int) : Int := if tr = 'N' then m else n
/-- Entries of `op(A)`. -/
def gA (tr : Char) (A : Buf K) (LDA i j : Int) : K := if tr = 'N' then A.val (i + j * LDA) else A.val (j + i * LDA)

theorem gemv_run {tr : Char} (htr : tr = 'N' ∨ tr = 'T') {m n LDA : Int} {alpha beta : K} {A : Buf K} {x y : Ptr} {M : Buf K} (hx : x.Ok (gr tr n m) M.size)
    (hy : y.Ok (gr tr m n) M.size) (hA : ∀ i j, 0 ≤ i → i < m → 0 ≤ j → j < n → A.rd (i + j * LDA) = some (A.val (i + j * LDA)))
    (hxy : ∀ j, 0 ≤ j → j < gr tr n m → ¬ y.In (gr tr m n) (x.at j)) :
    (gemvP tr m n alpha A LDA x beta y).run M =
      some ((), updP M y (gr tr m n) fun i => beta * M.val (y.at i) + alpha * ∑ j ∈ Finset.Ico 0 (gr tr n m), gA tr A LDA i j * M.val (x.at j)) := by
  rcases htr with rfl | rfl
  · unfold gr gA at *
    simp only [if_true] at *
    exact gemvN_run hx hy hA hxy
  · unfold gr gA at *
    simp only [show ('T' = 'N') = False by decide, if_false] at *
    exact gemvT_run hx hy hA hxy

theorem gemm_run {tr : Char} (htr : tr = 'N' ∨ tr = 'T') {m n p LDA LDB LDC : Int} {alpha beta : K} {A : Buf K} {B C : Ptr} {M : Buf K} (p0 : 0 ≤ p)
    (hB : ∀ k, 0 ≤ k → k < p → (B.add (k * LDB)).Ok (gr tr n m) M.size) (hC : ∀ k, 0 ≤ k → k < p → (C.add (k * LDC)).Ok (gr tr m n) M.size) (hLD : gr tr m n ≤ LDC)
    (hA : ∀ i j, 0 ≤ i → i < m → 0 ≤ j → j < n → A.rd (i + j * LDA) = some (A.val (i + j * LDA)))
    (hBC : ∀ k j, 0 ≤ k → k < p → 0 ≤ j → j < gr tr n m → ¬ CIn C LDC (gr tr m n) p ((B.add (k * LDB)).at j)) (S : Int → Prop) :
    ∃ M', (gemmP tr m n p alpha A LDA B LDB beta C LDC).run M = some ((), M') ∧ SetsM M M' C LDC (gr tr m n) p S fun i k =>
      beta * M.val ((C.add (k * LDC)).at i) + alpha * ∑ j ∈ Finset.Ico 0 (gr tr n m), gA tr A LDA i j * M.val ((B.add (k * LDB)).at j) := by
  set g : Int → Int → K := fun i k => beta * M.val ((C.add (k * LDC)).at i) + alpha * ∑ j ∈ Finset.Ico 0 (gr tr n m), gA tr A LDA i j * M.val ((B.add (k * LDB)).at j) with hg
  obtain ⟨⟨⟩, M', e, h1, h2, h3⟩ := each_upS (K := K) (lo := 0) (hi := p) (s := ()) (A := M)
    (body := fun k _ => gemvP tr m n alpha A LDA (B.add (k * LDB)) beta (C.add (k * LDC)))
    (fun q _ X => X.size = M.size ∧ (∀ k i, 0 ≤ k → k < p → 0 ≤ i → i < gr tr m n → X.val ((C.add (k * LDC)).at i) = if k < q then g i k else M.val ((C.add (k * LDC)).at i)) ∧
      ∀ a, ¬ CIn C LDC (gr tr m n) p a → X.val a = M.val a)
    ⟨rfl, fun k i k0 _ _ _ => by rw [if_neg (by omega)], fun _ _ => rfl⟩ (by
      rintro q q0 q1 _ X ⟨s1, s2, s3⟩
      refine ⟨(), _, gemv_run htr (by rw [s1]; exact hB q q0 q1) (by rw [s1]; exact hC q q0 q1) hA (fun j j0 j1 h => hBC q j q0 q1 j0 j1 ⟨q, q0, q1, h⟩), s1, ?_, ?_⟩
      · intro k i k0 k1 i0 i1
        by_cases hk : k = q
        · subst hk
          rw [updP_in i0 i1, if_pos (by omega), s2 k i k0 k1 i0 i1, if_neg (by omega), hg]
          dsimp only
          congr 2
          exact sum_Ico_congr fun j j0 j1 => by rw [s3 _ (hBC k j k0 k1 j0 j1)]
        · rw [updP_out, s2 k i k0 k1 i0 i1]
          · split_ifs <;> first | rfl | omega
          · rw [Ptr.in_iff]
            rintro ⟨i', a0, a1, e⟩
            exact hk (col_inj (LD := LDC) i0 (by omega) a0 (by omega) (by unfold Ptr.add Ptr.at at e; simp only at e; omega)).1
      · intro a ha
        rw [updP_out (fun h => ha ⟨q, q0, q1, h⟩), s3 a ha])
  refine ⟨M', e, h1, fun k i k0 k1 i0 i1 => ?_, fun a ha _ => h3 a ha⟩
  rw [h2 k i k0 k1 i0 i1, if_pos (by omega)]

theorem col_scr {P : Ptr} {r q : Int} {s : Nat} (h : P.Ok (r * q) s) (r0 : 0 ≤ r) : ∀ k, 0 ≤ k → k < q → (P.add (k * r)).Ok r s := by
  intro k k0 k1
  have h1 := Int.mul_nonneg k0 r0
  have h2 := Int.mul_le_mul_of_nonneg_left (show k + 1 ≤ q by omega) r0
  rw [Int.mul_add, Int.mul_one, Int.mul_comm r k] at h2
  exact h.add h1 (by omega)

theorem cin_scr {P : Ptr} {r q a : Int} (r0 : 0 ≤ r) (h : CIn P r r q a) : P.In (r * q) a := by
  obtain ⟨k, k0, k1, h⟩ := h
  have h1 := Int.mul_nonneg k0 r0
  have h2 := Int.mul_le_mul_of_nonneg_left (show k + 1 ≤ q by omega) r0
  rw [Int.mul_add, Int.mul_one, Int.mul_comm r k] at h2
  rw [Ptr.add_in] at h
  unfold Ptr.In Ptr.at at *
  omega

theorem at_cin {C : Ptr} {LD n p k i : Int} (k0 : 0 ≤ k) (k1 : k < p) (i0 : 0 ≤ i) (i1 : i < n) : CIn C LD n p ((C.add (k * LD)).at i) :=
  cin_iff.2 ⟨k, i, k0, k1, i0, i1, rfl⟩

/-- What the product routine does for the matrix `H`. -/
def MmSpec (tr : Char) (alpha : K) (LDB LDC : Int) (H : HMat K) : Prop := ∀ (p : Int) (B C : Ptr) (beta : K) (M : Buf K), 0 ≤ p → (H = .nil → beta = 1) →
  ScrMOk p M.size H → (∀ k, 0 ≤ k → k < p → (B.add (k * LDB)).Ok (opCols tr H) M.size) → (∀ k, 0 ≤ k → k < p → (C.add (k * LDC)).Ok (opRows tr H) M.size) → opRows tr H ≤ LDC →
  (∀ k j, 0 ≤ k → k < p → 0 ≤ j → j < opCols tr H → ¬ CIn C LDC (opRows tr H) p ((B.add (k * LDB)).at j)) →
  (∀ k j, 0 ≤ k → k < p → 0 ≤ j → j < opCols tr H → ¬ ScrM p H ((B.add (k * LDB)).at j)) →
  (∀ k i, 0 ≤ k → k < p → 0 ≤ i → i < opRows tr H → ¬ ScrM p H ((C.add (k * LDC)).at i)) →
  ∃ M', (hmmP tr alpha LDB LDC H p B beta C).run M = some ((), M') ∧ SetsM M M' C LDC (opRows tr H) p (ScrM p H) fun i k =>
    beta * M.val ((C.add (k * LDC)).at i) + alpha * ∑ j ∈ Finset.Ico 0 (opCols tr H), op tr H i j * M.val ((B.add (k * LDB)).at j)

theorem dense_mm {tr : Char} (htr : tr = 'N' ∨ tr = 'T') (alpha : K) (LDB LDC : Int) {D : Dense K} (hS : Sized (.dense D)) : MmSpec tr alpha LDB LDC (.dense D) := by
  obtain ⟨h0, h1, h2⟩ := hS
  intro p B C beta M p0 _ _ hB hC hLD hBC _ _
  have er : opRows tr (.dense D) = gr tr D.m D.n := rfl
  have ec : opCols tr (.dense D) = gr tr D.n D.m := rfl
  rw [er] at *
  rw [ec] at *
  obtain ⟨M', e, s1, s2, s3⟩ := gemm_run htr (alpha := alpha) (beta := beta) (m := D.m) (n := D.n) (A := D.A) (LDA := D.m) p0 hB hC hLD
    (fun i j a b c d => col_rd h2 a b c d) hBC (ScrM p (.dense D))
  refine ⟨M', e, s1, fun k i k0 k1 i0 i1 => ?_, s3⟩
  rw [s2 k i k0 k1 i0 i1]
  dsimp only
  congr 2
  refine sum_Ico_congr fun j j0 j1 => ?_
  congr 1
  unfold gA op
  rcases htr with rfl | rfl
  · rw [if_pos rfl, if_pos rfl, ent, if_pos ⟨i0, i1, j0, j1⟩]
  · rw [if_neg (by decide), if_neg (by decide), ent, if_pos ⟨j0, j1, i0, i1⟩]

/-- The product with `U Vᵀ` through scratch `t`. -/
theorem two_mm {m n r p LDB LDC : Int} {alpha beta : K} {U V : Buf K} {B C t : Ptr} {M : Buf K} {S : Int → Prop} (p0 : 0 ≤ p) (r0 : 0 ≤ r)
    (hU : m * r ≤ U.size) (hV : n * r ≤ V.size) (ht : t.Ok (r * p) M.size)
    (hB : ∀ k, 0 ≤ k → k < p → (B.add (k * LDB)).Ok n M.size) (hC : ∀ k, 0 ≤ k → k < p → (C.add (k * LDC)).Ok m M.size) (hLD : m ≤ LDC)
    (hSt : ∀ a, t.In (r * p) a → S a) (sB : ∀ k j, 0 ≤ k → k < p → 0 ≤ j → j < n → ¬ S ((B.add (k * LDB)).at j))
    (sC : ∀ k j, 0 ≤ k → k < p → 0 ≤ j → j < m → ¬ S ((C.add (k * LDC)).at j)) :
    ∃ M', ((gemmP 'T' n r p 1 V n B LDB 0 t r).bind fun _ => gemmP 'N' m r p alpha U m t r beta C LDC).run M = some ((), M') ∧
      SetsM M M' C LDC m p S fun i k => beta * M.val ((C.add (k * LDC)).at i) +
        alpha * ∑ j ∈ Finset.Ico 0 n, (∑ l ∈ Finset.Ico 0 r, U.val (i + l * m) * V.val (j + l * n)) * M.val ((B.add (k * LDB)).at j) := by
  obtain ⟨M1, e1, a1, a2, a3⟩ := gemm_run (tr := 'T') (Or.inr rfl) (m := n) (n := r) (alpha := 1) (beta := 0) (A := V) (LDA := n) (B := B) (LDB := LDB) (C := t) (LDC := r) (M := M)
    p0 hB (col_scr ht r0) (le_refl r) (fun i j a b c d => col_rd hV a b c d) (fun k j k0 k1 j0 j1 h => sB k j k0 k1 j0 j1 (hSt _ (cin_scr r0 h))) (fun _ => False)
  obtain ⟨M2, e2, b1, b2, b3⟩ := gemm_run (tr := 'N') (Or.inl rfl) (m := m) (n := r) (alpha := alpha) (beta := beta) (A := U) (LDA := m) (B := t) (LDB := r) (C := C) (LDC := LDC) (M := M1)
    p0 (by rw [a1]; exact col_scr ht r0) (by rw [a1]; exact hC) hLD (fun i j a b c d => col_rd hU a b c d) (fun k j k0 k1 j0 j1 h => by
      obtain ⟨k', i, c0, c1, d0, d1, e⟩ := cin_iff.1 h
      exact sC k' i c0 c1 d0 d1 (hSt _ (cin_scr r0 (e ▸ at_cin k0 k1 j0 j1)))) (fun _ => False)
  refine ⟨M2, by rw [run_then e1, e2], b1.trans a1, fun k i k0 k1 i0 i1 => ?_, fun a ha hs => ?_⟩
  · rw [b2 k i k0 k1 i0 i1]
    dsimp only
    rw [a3 _ (fun h => sC k i k0 k1 i0 i1 (hSt _ (cin_scr r0 h))) (fun h => h), ← two_sum]
    congr 2
    refine sum_Ico_congr (hi := r) fun l l0 l1 => ?_
    rw [a2 k l k0 k1 l0 l1]
    dsimp only
    rw [zero_mul, zero_add, one_mul]
    rfl
  · rw [b3 a ha (fun h => h), a3 a (fun h => hs (hSt _ (cin_scr r0 h))) (fun h => h)]

/-- The product with `U op(S) Vᵀ` through scratch `t` and `u`. -/
theorem three_mm {tr : Char} (htr : tr = 'N' ∨ tr = 'T') {m n r p LDB LDC : Int} {alpha beta : K} {U V Z : Buf K} {B C t u : Ptr} {M : Buf K} {S : Int → Prop} (p0 : 0 ≤ p) (r0 : 0 ≤ r)
    (hU : m * r ≤ U.size) (hV : n * r ≤ V.size) (hZ : r * r ≤ Z.size) (ht : t.Ok (r * p) M.size) (hu : u.Ok (r * p) M.size) (htu : ∀ a, t.In (r * p) a → ¬ u.In (r * p) a)
    (hB : ∀ k, 0 ≤ k → k < p → (B.add (k * LDB)).Ok n M.size) (hC : ∀ k, 0 ≤ k → k < p → (C.add (k * LDC)).Ok m M.size) (hLD : m ≤ LDC)
    (hSt : ∀ a, t.In (r * p) a → S a) (hSu : ∀ a, u.In (r * p) a → S a) (sB : ∀ k j, 0 ≤ k → k < p → 0 ≤ j → j < n → ¬ S ((B.add (k * LDB)).at j))
    (sC : ∀ k j, 0 ≤ k → k < p → 0 ≤ j → j < m → ¬ S ((C.add (k * LDC)).at j)) :
    ∃ M', ((gemmP 'T' n r p 1 V n B LDB 0 t r).bind fun _ => (gemmP tr r r p 1 Z r t r 0 u r).bind fun _ => gemmP 'N' m r p alpha U m u r beta C LDC).run M = some ((), M') ∧
      SetsM M M' C LDC m p S fun i k => beta * M.val ((C.add (k * LDC)).at i) +
        alpha * ∑ j ∈ Finset.Ico 0 n, (∑ l ∈ Finset.Ico 0 r, U.val (i + l * m) * ∑ h ∈ Finset.Ico 0 r, gA tr Z r l h * V.val (j + h * n)) * M.val ((B.add (k * LDB)).at j) := by
  have grr : gr tr r r = r := by unfold gr; split_ifs <;> rfl
  obtain ⟨M1, e1, a1, a2, a3⟩ := gemm_run (tr := 'T') (Or.inr rfl) (m := n) (n := r) (alpha := 1) (beta := 0) (A := V) (LDA := n) (B := B) (LDB := LDB) (C := t) (LDC := r) (M := M)
    p0 hB (col_scr ht r0) (le_refl r) (fun i j a b c d => col_rd hV a b c d) (fun k j k0 k1 j0 j1 h => sB k j k0 k1 j0 j1 (hSt _ (cin_scr r0 h))) (fun _ => False)
  obtain ⟨M2, e2, b1, b2, b3⟩ := gemm_run htr (m := r) (n := r) (alpha := 1) (beta := 0) (A := Z) (LDA := r) (B := t) (LDB := r) (C := u) (LDC := r) (M := M1)
    p0 (by rw [a1, grr]; exact col_scr ht r0) (by rw [a1, grr]; exact col_scr hu r0) (by rw [grr]) (fun i j a b c d => col_rd hZ a b c d) (fun k j k0 k1 j0 j1 h => by
      rw [grr] at h j1
      exact htu _ (cin_scr r0 (at_cin k0 k1 j0 j1)) (cin_scr r0 h)) (fun _ => False)
  rw [grr] at b2 b3
  obtain ⟨M3, e3, c1, c2, c3⟩ := gemm_run (tr := 'N') (Or.inl rfl) (m := m) (n := r) (alpha := alpha) (beta := beta) (A := U) (LDA := m) (B := u) (LDB := r) (C := C) (LDC := LDC) (M := M2)
    p0 (by rw [b1, a1]; exact col_scr hu r0) (by rw [b1, a1]; exact hC) hLD (fun i j a b c d => col_rd hU a b c d) (fun k j k0 k1 j0 j1 h => by
      obtain ⟨k', i, c0, c1, d0, d1, e⟩ := cin_iff.1 h
      exact sC k' i c0 c1 d0 d1 (hSu _ (cin_scr r0 (e ▸ at_cin k0 k1 j0 j1)))) (fun _ => False)
  refine ⟨M3, by rw [run_then e1, run_then e2, e3], c1.trans (b1.trans a1), fun k i k0 k1 i0 i1 => ?_, fun a ha hs => ?_⟩
  · rw [c2 k i k0 k1 i0 i1]
    dsimp only
    rw [b3 _ (fun h => sC k i k0 k1 i0 i1 (hSu _ (cin_scr r0 h))) (fun h => h), a3 _ (fun h => sC k i k0 k1 i0 i1 (hSt _ (cin_scr r0 h))) (fun h => h), ← two_sum]
    congr 2
    refine sum_Ico_congr (hi := r) fun l l0 l1 => ?_
    rw [b2 k l k0 k1 l0 l1]
    dsimp only
    rw [zero_mul, zero_add, one_mul, ← two_sum]
    congr 1
    refine sum_Ico_congr fun h h0 h1 => ?_
    rw [a2 k h k0 k1 h0 h1]
    dsimp only
    rw [zero_mul, zero_add, one_mul]
    rfl
  · rw [c3 a ha (fun h => h), b3 a (fun h => hs (hSu _ (cin_scr r0 h))) (fun h => h), a3 a (fun h => hs (hSt _ (cin_scr r0 h))) (fun h => h)]

theorem low_mm {tr : Char} (htr : tr = 'N' ∨ tr = 'T') (alpha : K) (LDB LDC : Int) {L : Low K} (hS : Sized (.low L)) : MmSpec tr alpha LDB LDC (.low L) := by
  obtain ⟨hN, m0, n0, r0, hU, hV, hS3⟩ := hS
  intro p B C beta M p0 _ hO hB hC hLD _ sB sC
  obtain ⟨o1, o2, o3⟩ := hO p p0 (le_refl _)
  have q1 : ∀ a, (L.s1 p).In (L.r * p) a → ScrM p (.low L) a := fun a h => ⟨p, p0, le_refl _, Or.inl h⟩
  have q2 : ∀ a, (L.s2 p).In (L.r * p) a → ScrM p (.low L) a := fun a h => ⟨p, p0, le_refl _, Or.inr h⟩
  unfold hmmP lrmmP
  dsimp only
  rcases htr with rfl | rfl
  · simp only [opRows, opCols, if_true, HMat.rows, HMat.cols, op] at *
    rcases hN with hN | hN
    · simp only [hN, if_true]
      obtain ⟨M', e, s1, s2, s3⟩ := two_mm (alpha := alpha) (beta := beta) p0 r0 hU hV o1 hB hC hLD q1 sB sC
      refine ⟨M', e, s1, fun k i k0 k1 i0 i1 => ?_, s3⟩
      rw [s2 k i k0 k1 i0 i1]
      dsimp only
      congr 2
      exact sum_Ico_congr fun j j0 j1 => by rw [ent, if_pos ⟨i0, i1, j0, j1⟩, if_pos hN]
    · simp only [hN, show ('3' = '2') = False by decide, if_false, if_true]
      obtain ⟨M', e, s1, s2, s3⟩ := three_mm (tr := 'N') (Or.inl rfl) (alpha := alpha) (beta := beta) p0 r0 hU hV (hS3 hN) o1 o2 o3 hB hC hLD q1 q2 sB sC
      refine ⟨M', e, s1, fun k i k0 k1 i0 i1 => ?_, s3⟩
      rw [s2 k i k0 k1 i0 i1]
      dsimp only
      congr 2
      refine sum_Ico_congr fun j j0 j1 => ?_
      rw [ent, if_pos ⟨i0, i1, j0, j1⟩, if_neg (by rw [hN]; decide)]
      congr 1
      refine sum_Ico_congr fun l _ _ => ?_
      rw [Finset.mul_sum]
      exact sum_Ico_congr fun h _ _ => by rw [gA, if_pos rfl]; ring
  · simp only [opRows, opCols, show ('T' = 'N') = False by decide, if_false, if_true, HMat.rows, HMat.cols, op] at *
    rcases hN with hN | hN
    · simp only [hN, if_true]
      obtain ⟨M', e, s1, s2, s3⟩ := two_mm (alpha := alpha) (beta := beta) p0 r0 hV hU o1 hB hC hLD q1 sB sC
      refine ⟨M', e, s1, fun k i k0 k1 i0 i1 => ?_, s3⟩
      rw [s2 k i k0 k1 i0 i1]
      dsimp only
      congr 2
      refine sum_Ico_congr fun j j0 j1 => ?_
      rw [ent, if_pos ⟨j0, j1, i0, i1⟩, if_pos hN]
      congr 1
      exact sum_Ico_congr fun l _ _ => by ring
    · simp only [hN, show ('3' = '2') = False by decide, if_false, if_true]
      obtain ⟨M', e, s1, s2, s3⟩ := three_mm (tr := 'T') (Or.inr rfl) (alpha := alpha) (beta := beta) p0 r0 hV hU (hS3 hN) o1 o2 o3 hB hC hLD q1 q2 sB sC
      refine ⟨M', e, s1, fun k i k0 k1 i0 i1 => ?_, s3⟩
      rw [s2 k i k0 k1 i0 i1]
      dsimp only
      congr 2
      refine sum_Ico_congr fun j j0 j1 => ?_
      rw [ent, if_pos ⟨j0, j1, i0, i1⟩, if_neg (by rw [hN]; decide)]
      congr 1
      rw [Finset.sum_comm]
      refine sum_Ico_congr fun l _ _ => ?_
      rw [Finset.mul_sum]
      exact sum_Ico_congr fun h _ _ => by rw [gA, if_neg (by decide)]; ring

/-! ## Blocks -/

theorem offsets_run {cnt : Int} {bs : Int → Option Int} {w : Int → Int} (hb : ∀ i, 0 ≤ i → i < cnt → bs i = some (w i)) :
    ∃ Z : Buf Int, offsets cnt bs = some Z ∧ ∀ k, 0 ≤ k → k < cnt → Z.rd k = some (pre w k) := by
  unfold offsets
  obtain ⟨Z, e, h1, h2⟩ := forUp_spec (lo := 1) (hi := cnt) (s := (⟨cnt.toNat, fun _ => 0⟩ : Buf Int))
    (body := fun m (B : Buf Int) => do let a ← B.rd (m - 1); let w ← bs (m - 1); B.wr m (a + w))
    (fun m (B : Buf Int) => B.size = cnt.toNat ∧ ∀ k, 0 ≤ k → k < m → B.val k = pre w k)
    ⟨rfl, fun k k0 k1 => by rw [show k = 0 by omega, pre_zero]⟩ (by
      rintro m m0 m1 B ⟨b1, b2⟩
      refine ⟨⟨B.size, Function.update B.val m (pre w m)⟩, ?_, b1, ?_⟩
      · rw [Buf.rd_of (by omega) (by omega)]
        simp only [Option.bind_eq_bind, Option.bind_some]
        rw [hb (m - 1) (by omega) (by omega)]
        simp only [Option.bind_some]
        rw [Buf.wr_of (by omega) (by omega), b2 (m - 1) (by omega) (by omega), ← pre_succ (by omega : 0 ≤ m - 1), show m - 1 + 1 = m by omega]
      · intro k k0 k1
        dsimp only
        rw [Function.update_apply]
        split_ifs with c
        · rw [c]
        · exact b2 k k0 (by omega))
  refine ⟨Z, e, fun k k0 k1 => ?_⟩
  rw [Buf.rd_of (by omega) (by omega), h2 k k0 (by omega)]

section Blocks
variable {O I p LDB LDC : Int} {bo co : Buf Int} {bs cs : Int → Int} {B C : Ptr} {call : Int → Int → Int → Ptr → Ptr → Prog K Unit} {S : Int → Prop}
  {G : Int → Int → Int → Int → K} {M0 : Buf K}

/-- What is needed of the product with block `i` of group `o` for the `q` columns from `c`. -/
def CallSpec (O I p LDB LDC : Int) (bs cs : Int → Int) (B C : Ptr) (call : Int → Int → Int → Ptr → Ptr → Prog K Unit) (S : Int → Prop)
    (G : Int → Int → Int → Int → K) (M0 : Buf K) : Prop :=
  ∀ o i c q, 0 ≤ o → o < O → 0 ≤ i → i < I → 0 ≤ c → 0 ≤ q → c + q ≤ p → ∀ M : Buf K, M.size = M0.size →
    (∀ a, ¬ CIn C LDC (pre cs O) p a → ¬ S a → M.val a = M0.val a) →
    ∃ M', (call o i q (B.add (pre bs i + c * LDB)) (C.add (pre cs o + c * LDC))).run M = some ((), M') ∧
      SetsM M M' (C.add (pre cs o + c * LDC)) LDC (cs o) q S fun r k => M.val (((C.add (pre cs o + c * LDC)).add (k * LDC)).at r) + G o i r (c + k)

theorem iter_run (hI : 0 ≤ I) (hbo : ∀ i, 0 ≤ i → i < I → bo.rd i = some (pre bs i)) (hco : ∀ o, 0 ≤ o → o < O → co.rd o = some (pre cs o))
    (cs0 : ∀ o, 0 ≤ o → o < O → 0 ≤ cs o) (hLD : pre cs O ≤ LDC) (hcall : CallSpec O I p LDB LDC bs cs B C call S G M0)
    (hS : ∀ k i, 0 ≤ k → k < p → 0 ≤ i → i < pre cs O → ¬ S ((C.add (k * LDC)).at i)) {o c q : Int} (o0 : 0 ≤ o) (o1 : o < O) (c0 : 0 ≤ c) (q0 : 0 ≤ q) (c1 : c + q ≤ p)
    {M : Buf K} (hM : M.size = M0.size) (hM' : ∀ a, ¬ CIn C LDC (pre cs O) p a → ¬ S a → M.val a = M0.val a) :
    ∃ M', (hmmIter I bo co call q c B LDB C LDC o).run M = some ((), M') ∧
      SetsM M M' (C.add (pre cs o + c * LDC)) LDC (cs o) q S fun r k => M.val (((C.add (pre cs o + c * LDC)).add (k * LDC)).at r) + ∑ i ∈ Finset.Ico 0 I, G o i r (c + k) := by
  obtain ⟨f0, f1⟩ := pre_fits cs0 o0 o1
  unfold hmmIter
  obtain ⟨⟨⟩, M', e, s1, s2, s3⟩ := each_upS (K := K) (lo := 0) (hi := I) (s := ()) (A := M)
    (body := fun i _ => (ofOption (bo.rd i)).bind fun d => (ofOption (co.rd o)).bind fun e => call o i q (B.add (d + c * LDB)) (C.add (e + c * LDC)))
    (fun i _ X => SetsM M X (C.add (pre cs o + c * LDC)) LDC (cs o) q S fun r k => M.val (((C.add (pre cs o + c * LDC)).add (k * LDC)).at r) + ∑ i' ∈ Finset.Ico 0 i, G o i' r (c + k))
    ⟨rfl, fun k r _ _ _ _ => by dsimp only; rw [Finset.Ico_self, Finset.sum_empty, add_zero], fun _ _ _ => rfl⟩ (by
      rintro i i0 i1 _ X ⟨x1, x2, x3⟩
      obtain ⟨X', e, y1, y2, y3⟩ := hcall o i c q o0 o1 i0 i1 c0 q0 c1 X (x1.trans hM) (fun a ha hs => by
        rw [x3 a (fun h => ha (cin_le f0 f1 c0 c1 h)) hs, hM' a ha hs])
      refine ⟨(), X', ?_, y1.trans x1, fun k r k0 k1 r0 r1 => ?_, fun a ha hs => by rw [y3 a ha hs, x3 a ha hs]⟩
      · rw [run_ofOption_bind (hbo i i0 i1), run_ofOption_bind (hco o o0 o1), e]
      · rw [y2 k r k0 k1 r0 r1]
        dsimp only
        rw [x2 k r k0 k1 r0 r1]
        dsimp only
        rw [sum_Ico_succ i0, add_assoc])
  refine ⟨M', e, s1, fun k r k0 k1 r0 r1 => ?_, s3⟩
  rw [s2 k r k0 k1 r0 r1]
  dsimp only
  rw [max_eq_right hI]

/-- All iterations, for the `q` columns from `c`, one after the other. -/
theorem region_run (hO : 0 ≤ O) (hI : 0 ≤ I) (hbo : ∀ i, 0 ≤ i → i < I → bo.rd i = some (pre bs i)) (hco : ∀ o, 0 ≤ o → o < O → co.rd o = some (pre cs o))
    (cs0 : ∀ o, 0 ≤ o → o < O → 0 ≤ cs o) (hLD : pre cs O ≤ LDC) (hcall : CallSpec O I p LDB LDC bs cs B C call S G M0)
    (hS : ∀ k i, 0 ≤ k → k < p → 0 ≤ i → i < pre cs O → ¬ S ((C.add (k * LDC)).at i)) {c q : Int} (c0 : 0 ≤ c) (q0 : 0 ≤ q) (c1 : c + q ≤ p)
    {M : Buf K} {z : Int → Int → K} (hM : SetsM M0 M C LDC (pre cs O) p S z) :
    ∃ M', (each (fun o _ => hmmIter I bo co call q c B LDB C LDC o) (rUp 0 O) ()).run M = some ((), M') ∧
      SetsM M0 M' C LDC (pre cs O) p S fun r k => z r k + if c ≤ k ∧ k < c + q then
        ∑ o ∈ Finset.Ico 0 O, (if pre cs o ≤ r ∧ r < pre cs o + cs o then ∑ i ∈ Finset.Ico 0 I, G o i (r - pre cs o) k else 0) else 0 := by
  obtain ⟨⟨⟩, M', e, s1, s2, s3⟩ := each_upS (K := K) (lo := 0) (hi := O) (s := ()) (A := M)
    (body := fun o _ => hmmIter I bo co call q c B LDB C LDC o)
    (fun o _ X => SetsM M0 X C LDC (pre cs O) p S fun r k => z r k + if c ≤ k ∧ k < c + q then
        ∑ o' ∈ Finset.Ico 0 o, (if pre cs o' ≤ r ∧ r < pre cs o' + cs o' then ∑ i ∈ Finset.Ico 0 I, G o' i (r - pre cs o') k else 0) else 0)
    ⟨hM.1, fun k r k0 k1 r0 r1 => by rw [hM.2.1 k r k0 k1 r0 r1]; simp, hM.2.2⟩ (by
      rintro o o0 o1 _ X hX
      obtain ⟨f0, f1⟩ := pre_fits cs0 o0 o1
      obtain ⟨X', e, hX'⟩ := iter_run hI hbo hco cs0 hLD hcall hS o0 o1 c0 q0 c1 hX.1 hX.2.2
      refine ⟨(), X', e, ?_⟩
      have := SetsM.trans hX hLD f0 f1 c0 c1 hS hX'
      refine ⟨this.1, fun k r k0 k1 r0 r1 => ?_, this.2.2⟩
      rw [this.2.1 k r k0 k1 r0 r1]
      dsimp only
      rw [sum_Ico_succ o0, add_assoc]
      congr 1
      rw [show c + (k - c) = k by omega]
      by_cases h1 : c ≤ k ∧ k < c + q
      · rw [if_pos h1, if_pos h1]
        congr 1
        exact if_congr (by tauto) rfl rfl
      · rw [if_neg h1, if_neg h1, if_neg (by tauto), add_zero])
  refine ⟨M', e, s1, fun k r k0 k1 r0 r1 => ?_, s3⟩
  rw [s2 k r k0 k1 r0 r1]
  dsimp only
  rw [max_eq_right hO]

/-- Scaling the columns of `C`. -/
theorem betaCol_run {n : Int} {beta : K} (p0 : 0 ≤ p) (hC : ∀ k, 0 ≤ k → k < p → (C.add (k * LDC)).Ok n M0.size) (hLD : n ≤ LDC) (S : Int → Prop) :
    ∃ M', (if beta ≠ 1 then each (fun j _ => betaColP beta n C LDC j) (rUp 0 p) () else (.ret () : Prog K Unit)).run M0 = some ((), M') ∧
      SetsM M0 M' C LDC n p S fun r k => beta * M0.val ((C.add (k * LDC)).at r) := by
  split_ifs with hb
  · obtain ⟨⟨⟩, M', e, s1, s2, s3⟩ := each_upS (K := K) (lo := 0) (hi := p) (s := ()) (A := M0)
      (body := fun j _ => betaColP beta n C LDC j)
      (fun q _ X => X.size = M0.size ∧ (∀ k i, 0 ≤ k → k < p → 0 ≤ i → i < n → X.val ((C.add (k * LDC)).at i) =
        if k < q then beta * M0.val ((C.add (k * LDC)).at i) else M0.val ((C.add (k * LDC)).at i)) ∧ ∀ a, ¬ CIn C LDC n p a → X.val a = M0.val a)
      ⟨rfl, fun k i k0 _ _ _ => by rw [if_neg (by omega)], fun _ _ => rfl⟩ (by
        rintro q q0 q1 _ X ⟨x1, x2, x3⟩
        refine ⟨(), _, betaP_run (by rw [x1]; exact hC q q0 q1), x1, ?_, ?_⟩
        · intro k i k0 k1 i0 i1
          by_cases hk : k = q
          · subst hk
            rw [updP_in i0 i1, if_pos (by omega), x2 k i k0 k1 i0 i1, if_neg (by omega)]
          · rw [updP_out, x2 k i k0 k1 i0 i1]
            · split_ifs <;> first | rfl | omega
            · rw [Ptr.in_iff]
              rintro ⟨i', a0, a1, e⟩
              exact hk (col_inj (LD := LDC) i0 (by omega) a0 (by omega) (by unfold Ptr.add Ptr.at at e; simp only at e; omega)).1
        · intro a ha
          rw [updP_out (fun h => ha ⟨q, q0, q1, h⟩), x3 a ha])
    refine ⟨M', e, s1, fun k i k0 k1 i0 i1 => ?_, fun a ha _ => s3 a ha⟩
    rw [s2 k i k0 k1 i0 i1, if_pos (by omega)]
  · have h1 : beta = 1 := by simpa using hb
    exact ⟨M0, rfl, rfl, fun k i _ _ _ _ => by dsimp only; rw [h1, one_mul], fun _ _ _ => rfl⟩

/-- The two halves of the columns together. -/
theorem halves {p : Int} {k : Int} (k0 : 0 ≤ k) (k1 : k < p) (v : K) :
    ((if 0 ≤ k ∧ k < 0 + (p / 2 - 0) then v else 0) + if p / 2 ≤ k ∧ k < p / 2 + (p - p / 2) then v else 0) = v := by
  by_cases h : k < p / 2
  · rw [if_pos (by omega), if_neg (by omega), add_zero]
  · rw [if_neg (by omega), if_pos (by omega), zero_add]

theorem seq_run (hO : 0 ≤ O) (hI : 0 ≤ I) (p0 : 0 ≤ p) (hbo : ∀ i, 0 ≤ i → i < I → bo.rd i = some (pre bs i)) (hco : ∀ o, 0 ≤ o → o < O → co.rd o = some (pre cs o))
    (cs0 : ∀ o, 0 ≤ o → o < O → 0 ≤ cs o) (hLD : pre cs O ≤ LDC) (hC : ∀ k, 0 ≤ k → k < p → (C.add (k * LDC)).Ok (pre cs O) M0.size)
    (hS : ∀ k i, 0 ≤ k → k < p → 0 ≤ i → i < pre cs O → ¬ S ((C.add (k * LDC)).at i)) {beta : K} {l : Int}
    (hcall : CallSpec O I p LDB LDC bs cs B C call S G M0) :
    ∃ M', (hmmSeq O I (pre cs O) l bo co call p B LDB beta C LDC).run M0 = some ((), M') ∧
      SetsM M0 M' C LDC (pre cs O) p S fun r k => beta * M0.val ((C.add (k * LDC)).at r) +
        ∑ o ∈ Finset.Ico 0 O, (if pre cs o ≤ r ∧ r < pre cs o + cs o then ∑ i ∈ Finset.Ico 0 I, G o i (r - pre cs o) k else 0) := by
  unfold hmmSeq
  obtain ⟨M1, e1, h1⟩ := betaCol_run (beta := beta) p0 hC hLD S
  rw [run_then e1]
  split_ifs with hp
  · obtain ⟨M2, e2, h2⟩ := region_run hO hI hbo hco cs0 hLD hcall hS (c := 0) (q := p / 2 - 0) (le_refl _) (by omega) (by omega) h1
    obtain ⟨M3, e3, h3⟩ := region_run hO hI hbo hco cs0 hLD hcall hS (c := p / 2) (q := p - p / 2) (by omega) (by omega) (by omega) h2
    refine ⟨M3, by rw [run_then e2, e3], h3.1, fun k r k0 k1 r0 r1 => ?_, h3.2.2⟩
    rw [h3.2.1 k r k0 k1 r0 r1]
    dsimp only
    rw [add_assoc, halves k0 k1]
  · obtain ⟨M2, e2, h2⟩ := region_run hO hI hbo hco cs0 hLD hcall hS (c := 0) (q := p) (le_refl _) (by omega) (by omega) h1
    refine ⟨M2, e2, h2.1, fun k r k0 k1 r0 r1 => ?_, h2.2.2⟩
    rw [h2.2.1 k r k0 k1 r0 r1]
    dsimp only
    rw [if_pos (by omega)]

end Blocks

theorem ScrM.mono {q p : Int} (h : q ≤ p) : ∀ {H : HMat K} {a : Int}, ScrM q H a → ScrM p H a
  | .nil, _, hs => hs
  | .dense _, _, hs => hs
  | .low _, _, ⟨r, h0, h1, hs⟩ => ⟨r, h0, by omega, hs⟩
  | .hier _ _ _ _ _, _, ⟨i, j, i0, i1, j0, j1, hs⟩ => ⟨i, j, i0, i1, j0, j1, ScrM.mono h hs⟩

theorem ScrMOk.mono {q p : Int} (h : q ≤ p) {s : Nat} : ∀ {H : HMat K}, ScrMOk p s H → ScrMOk q s H
  | .nil, hs => hs
  | .dense _, hs => hs
  | .low _, hs => fun r r0 r1 => hs r r0 (by omega)
  | .hier _ _ _ _ _, hs => fun i j i0 i1 j0 j1 => ScrMOk.mono h (hs i j i0 i1 j0 j1)

theorem mm_block_call {tr : Char} {alpha : K} {LDB LDC : Int} {H : HMat K} (hsp : MmSpec tr alpha LDB LDC H) {B C : Ptr} {n l p db wb dc wc c q : Int}
    (hH : H = .nil ∨ opRows tr H = wc ∧ opCols tr H = wb) (db0 : 0 ≤ db) (db1 : db + wb ≤ l) (dc0 : 0 ≤ dc) (dc1 : dc + wc ≤ n) (c0 : 0 ≤ c) (q0 : 0 ≤ q) (c1 : c + q ≤ p) {M0 : Buf K}
    (hO : ScrMOk p M0.size H) (hB : ∀ k, 0 ≤ k → k < p → (B.add (k * LDB)).Ok l M0.size) (hC : ∀ k, 0 ≤ k → k < p → (C.add (k * LDC)).Ok n M0.size) (hLD : n ≤ LDC)
    (hBC : ∀ k j, 0 ≤ k → k < p → 0 ≤ j → j < l → ¬ CIn C LDC n p ((B.add (k * LDB)).at j)) {S : Int → Prop} (hS : ∀ a, ScrM p H a → S a)
    (sB : ∀ k j, 0 ≤ k → k < p → 0 ≤ j → j < l → ¬ S ((B.add (k * LDB)).at j)) (sC : ∀ k j, 0 ≤ k → k < p → 0 ≤ j → j < n → ¬ S ((C.add (k * LDC)).at j))
    (M : Buf K) (hM : M.size = M0.size) (hM' : ∀ a, ¬ CIn C LDC n p a → ¬ S a → M.val a = M0.val a) :
    ∃ M', (hmmP tr alpha LDB LDC H q (B.add (db + c * LDB)) 1 (C.add (dc + c * LDC))).run M = some ((), M') ∧
      SetsM M M' (C.add (dc + c * LDC)) LDC wc q S fun r k => M.val (((C.add (dc + c * LDC)).add (k * LDC)).at r) +
        alpha * ∑ j ∈ Finset.Ico 0 wb, op tr H r j * M0.val ((B.add ((c + k) * LDB)).at (db + j)) := by
  rcases hH with rfl | ⟨rfl, rfl⟩
  · refine ⟨M, rfl, rfl, fun k r _ _ _ _ => ?_, fun _ _ _ => rfl⟩
    dsimp only
    rw [Finset.sum_eq_zero (fun j _ => by simp [op, ent]), mul_zero, add_zero]
  · obtain ⟨M', e, h1, h2, h3⟩ := hsp q (B.add (db + c * LDB)) (C.add (dc + c * LDC)) 1 M q0 (fun _ => rfl) (by rw [hM]; exact hO.mono (by omega))
      (by rw [hM]; exact col_ok hB db0 db1 c0 c1) (by rw [hM]; exact col_ok hC dc0 dc1 c0 c1) (by omega) (fun k j k0 k1 j0 j1 h => by
        rw [col_at] at h
        exact hBC (c + k) (db + j) (by omega) (by omega) (by omega) (by omega) (cin_le dc0 dc1 c0 c1 h))
      (fun k j k0 k1 j0 j1 h => by rw [col_at] at h; exact sB _ _ (by omega) (by omega) (by omega) (by omega) (hS _ (h.mono (by omega))))
      (fun k j k0 k1 j0 j1 h => by rw [col_at] at h; exact sC _ _ (by omega) (by omega) (by omega) (by omega) (hS _ (h.mono (by omega))))
    refine ⟨M', e, h1, fun k r k0 k1 r0 r1 => ?_, fun a ha hs => h3 a ha (fun h => hs (hS a (h.mono (by omega))))⟩
    rw [h2 k r k0 k1 r0 r1]
    dsimp only
    rw [one_mul]
    congr 2
    refine sum_Ico_congr fun j j0 j1 => ?_
    rw [col_at, hM' _ (hBC _ _ (by omega) (by omega) (by omega) (by omega)) (sB _ _ (by omega) (by omega) (by omega) (by omega))]

/-- The product with the assembled matrix from the products with the blocks. -/
theorem assemble' {O I : Int} {bs cs : Int → Int} (hbs : ∀ o, 0 ≤ o → o < I → 0 ≤ bs o) {e : Int → Int → Int → Int → K}
    (he : ∀ o i, 0 ≤ o → o < O → 0 ≤ i → i < I → ∀ k j, ¬ ((0 ≤ k ∧ k < cs o) ∧ 0 ≤ j ∧ j < bs i) → e o i k j = 0) (X : Int → K) (alpha : K) (r : Int) :
    ∑ o ∈ Finset.Ico 0 O, (if pre cs o ≤ r ∧ r < pre cs o + cs o then ∑ i ∈ Finset.Ico 0 I, alpha * ∑ j ∈ Finset.Ico 0 (bs i), e o i (r - pre cs o) j * X (pre bs i + j) else 0) =
    alpha * ∑ j ∈ Finset.Ico 0 (pre bs I), (∑ o ∈ Finset.Ico 0 O, ∑ i ∈ Finset.Ico 0 I, e o i (r - pre cs o) (j - pre bs i)) * X j := by
  have := assemble (O := I) (I := O) (xs := bs) (ys := cs) hbs (e := fun i o k j => e o i k j) (fun i o i0 i1 o0 o1 k j h => he o i o0 o1 i0 i1 k j h) X r
  rw [sum_Ico_congr (hi := pre bs I) (g := fun j => (∑ i ∈ Finset.Ico 0 I, ∑ o ∈ Finset.Ico 0 O, e o i (r - pre cs o) (j - pre bs i)) * X j)
    (fun j _ _ => by rw [Finset.sum_comm]), this, Finset.sum_comm, Finset.mul_sum]
  refine sum_Ico_congr fun o _ _ => ?_
  split_ifs with h
  · rw [Finset.mul_sum]
  · rw [Finset.sum_const_zero, mul_zero]

/-- What the calls on the blocks of a hierarchical matrix do. -/
theorem hier_call {tr : Char} (htr : tr = 'N' ∨ tr = 'T') {alpha : K} {P Q m n : Int} {b : Int → Int → HMat K} (hS : Sized (.hier P Q m n b)) {LDB LDC : Int}
    (ih : ∀ a c, 0 ≤ a → a < P → 0 ≤ c → c < Q → MmSpec tr alpha LDB LDC (b a c))
    {p : Int} {B C : Ptr} {M0 : Buf K} (hO : ScrMOk p M0.size (.hier P Q m n b)) (hB : ∀ k, 0 ≤ k → k < p → (B.add (k * LDB)).Ok (opCols tr (.hier P Q m n b)) M0.size)
    (hC : ∀ k, 0 ≤ k → k < p → (C.add (k * LDC)).Ok (opRows tr (.hier P Q m n b)) M0.size) (hLD : opRows tr (.hier P Q m n b) ≤ LDC)
    (hBC : ∀ k j, 0 ≤ k → k < p → 0 ≤ j → j < opCols tr (.hier P Q m n b) → ¬ CIn C LDC (opRows tr (.hier P Q m n b)) p ((B.add (k * LDB)).at j))
    (sB : ∀ k j, 0 ≤ k → k < p → 0 ≤ j → j < opCols tr (.hier P Q m n b) → ¬ ScrM p (.hier P Q m n b) ((B.add (k * LDB)).at j))
    (sC : ∀ k j, 0 ≤ k → k < p → 0 ≤ j → j < opRows tr (.hier P Q m n b) → ¬ ScrM p (.hier P Q m n b) ((C.add (k * LDC)).at j)) :
    (tr = 'N' → CallSpec P Q p LDB LDC (fun k => (b 0 k).cols) (fun k => (b k (Q - 1)).rows) B C
      (fun i j q B C => if 0 ≤ i ∧ i < P ∧ 0 ≤ j ∧ j < Q then hmmP tr alpha LDB LDC (b i j) q B 1 C else .fail) (ScrM p (.hier P Q m n b))
      (fun o i r k => alpha * ∑ j ∈ Finset.Ico 0 (b 0 i).cols, op tr (b o i) r j * M0.val ((B.add (k * LDB)).at (pre (fun k => (b 0 k).cols) i + j))) M0) ∧
    (tr = 'T' → CallSpec Q P p LDB LDC (fun k => (b k (Q - 1)).rows) (fun k => (b 0 k).cols) B C
      (fun j i q B C => if 0 ≤ i ∧ i < P ∧ 0 ≤ j ∧ j < Q then hmmP tr alpha LDB LDC (b i j) q B 1 C else .fail) (ScrM p (.hier P Q m n b))
      (fun o i r k => alpha * ∑ j ∈ Finset.Ico 0 (b i (Q - 1)).rows, op tr (b i o) r j * M0.val ((B.add (k * LDB)).at (pre (fun k => (b k (Q - 1)).rows) i + j))) M0) := by
  obtain ⟨h1, h2, h3, h4, h5⟩ := hS
  have nr := fun i i0 i1 => (sized_nonneg (h3 i (Q - 1) i0 i1 (by omega) (by omega)).1).1
  have nc := fun j j0 j1 => (sized_nonneg (h3 0 j (by omega) (by omega) j0 j1).1).2
  have fr := fun a a0 a1 => pre_fits (w := fun k => (b k (Q - 1)).rows) (n := P) (k := a) nr a0 a1
  have fc := fun c c0 c1 => pre_fits (w := fun k => (b 0 k).cols) (n := Q) (k := c) nc c0 c1
  change m = pre (fun k => (b k (Q - 1)).rows) P at h4
  change n = pre (fun k => (b 0 k).cols) Q at h5
  constructor
  · rintro rfl
    simp only [opRows, opCols, if_true, HMat.rows, HMat.cols] at hB hC hLD hBC sB sC
    rw [h4] at hC hLD hBC sC
    rw [h5] at hB hBC sB
    intro o i c q o0 o1 i0 i1 c0 q0 c1 M hM hM'
    dsimp only
    rw [if_pos ⟨o0, o1, i0, i1⟩]
    exact mm_block_call (ih o i o0 o1 i0 i1) (wb := (b 0 i).cols) (wc := (b o (Q - 1)).rows) (by simpa [opRows, opCols] using (h3 o i o0 o1 i0 i1).2)
      (fc i i0 i1).1 (fc i i0 i1).2 (fr o o0 o1).1 (fr o o0 o1).2 c0 q0 c1 (hO o i o0 o1 i0 i1) hB hC hLD hBC (fun z hz => ⟨o, i, o0, o1, i0, i1, hz⟩) sB sC M hM hM'
  · rintro rfl
    simp only [opRows, opCols, show ('T' = 'N') = False by decide, if_false, HMat.rows, HMat.cols] at hB hC hLD hBC sB sC
    rw [h5] at hC hLD hBC sC
    rw [h4] at hB hBC sB
    intro o i c q o0 o1 i0 i1 c0 q0 c1 M hM hM'
    dsimp only
    rw [if_pos ⟨i0, i1, o0, o1⟩]
    exact mm_block_call (ih i o i0 i1 o0 o1) (wb := (b i (Q - 1)).rows) (wc := (b 0 o).cols) (by
        have := (h3 i o i0 i1 o0 o1).2
        simp only [opRows, opCols, show ('T' = 'N') = False by decide, if_false]
        tauto)
      (fr i i0 i1).1 (fr i i0 i1).2 (fc o o0 o1).1 (fc o o0 o1).2 c0 q0 c1 (hO i o i0 i1 o0 o1) hB hC hLD hBC (fun z hz => ⟨i, o, i0, i1, o0, o1, hz⟩) sB sC M hM hM'

/-- Entries of a hierarchical matrix from those of its blocks, as sums over products. -/
theorem hier_sum {tr : Char} {P Q m n : Int} {b : Int → Int → HMat K} (hS : Sized (.hier P Q m n b)) (X : Int → K) (alpha : K) (r : Int) :
    (tr = 'N' → ∑ o ∈ Finset.Ico 0 P, (if pre (fun k => (b k (Q - 1)).rows) o ≤ r ∧ r < pre (fun k => (b k (Q - 1)).rows) o + (b o (Q - 1)).rows then
        ∑ i ∈ Finset.Ico 0 Q, alpha * ∑ j ∈ Finset.Ico 0 (b 0 i).cols, op tr (b o i) (r - pre (fun k => (b k (Q - 1)).rows) o) j * X (pre (fun k => (b 0 k).cols) i + j) else 0) =
      alpha * ∑ j ∈ Finset.Ico 0 (opCols tr (.hier P Q m n b)), op tr (.hier P Q m n b) r j * X j) ∧
    (tr = 'T' → ∑ o ∈ Finset.Ico 0 Q, (if pre (fun k => (b 0 k).cols) o ≤ r ∧ r < pre (fun k => (b 0 k).cols) o + (b 0 o).cols then
        ∑ i ∈ Finset.Ico 0 P, alpha * ∑ j ∈ Finset.Ico 0 (b i (Q - 1)).rows, op tr (b i o) (r - pre (fun k => (b 0 k).cols) o) j * X (pre (fun k => (b k (Q - 1)).rows) i + j) else 0) =
      alpha * ∑ j ∈ Finset.Ico 0 (opCols tr (.hier P Q m n b)), op tr (.hier P Q m n b) r j * X j) := by
  obtain ⟨h1, h2, h3, h4, h5⟩ := hS
  have nr := fun i i0 i1 => (sized_nonneg (h3 i (Q - 1) i0 i1 (by omega) (by omega)).1).1
  have nc := fun j j0 j1 => (sized_nonneg (h3 0 j (by omega) (by omega) j0 j1).1).2
  change m = pre (fun k => (b k (Q - 1)).rows) P at h4
  change n = pre (fun k => (b 0 k).cols) Q at h5
  have eo : ∀ a c, 0 ≤ a → a < P → 0 ≤ c → c < Q → ∀ i j, ¬ ((0 ≤ i ∧ i < (b a (Q - 1)).rows) ∧ 0 ≤ j ∧ j < (b 0 c).cols) → ent (b a c) i j = 0 := by
    intro a c a0 a1 c0 c1 i j hij
    obtain ⟨hs, hb⟩ := h3 a c a0 a1 c0 c1
    rcases hb with hb | ⟨hr, hl⟩
    · rw [hb]; rfl
    · exact ent_out hs (by rw [hr, hl]; exact hij)
  constructor
  · rintro rfl
    have ec : opCols 'N' (.hier P Q m n b) = n := rfl
    rw [ec]
    simp only [if_true, op]
    rw [assemble' (O := P) (I := Q) (bs := fun k => (b 0 k).cols) (cs := fun k => (b k (Q - 1)).rows) nc (e := fun o i k j => ent (b o i) k j)
      (fun o i o0 o1 i0 i1 k j h => eo o i o0 o1 i0 i1 k j h), ← h5]
    rfl
  · rintro rfl
    have ec : opCols 'T' (.hier P Q m n b) = m := rfl
    rw [ec]
    simp only [show ('T' = 'N') = False by decide, if_false, op]
    rw [assemble' (O := Q) (I := P) (bs := fun k => (b k (Q - 1)).rows) (cs := fun k => (b 0 k).cols) nr (e := fun o i k j => ent (b i o) j k)
      (fun o i o0 o1 i0 i1 k j h => eo i o i0 i1 o0 o1 j k (fun hh => h ⟨hh.2, hh.1⟩)), ← h4]
    congr 1
    refine sum_Ico_congr fun j _ _ => ?_
    rw [ent, Finset.sum_comm]
    rfl

theorem hmmP_spec {tr : Char} (htr : tr = 'N' ∨ tr = 'T') (alpha : K) (LDB LDC : Int) : ∀ {H : HMat K}, Sized H → MmSpec tr alpha LDB LDC H
  | .nil, _ => by
    intro p B C beta M _ hb _ _ _ _ _ _ _
    refine ⟨M, rfl, rfl, fun k i _ _ _ _ => ?_, fun _ _ _ => rfl⟩
    dsimp only
    rw [hb rfl, one_mul, Finset.sum_eq_zero (fun j _ => by simp [op, ent]), mul_zero, add_zero]
  | .dense D, hS => dense_mm htr alpha LDB LDC hS
  | .low L, hS => low_mm htr alpha LDB LDC hS
  | .hier P Q m n b, hS => by
    have ih : ∀ a c, 0 ≤ a → a < P → 0 ≤ c → c < Q → MmSpec tr alpha LDB LDC (b a c) := fun a c a0 a1 c0 c1 => hmmP_spec htr alpha LDB LDC (hS.2.2.1 a c a0 a1 c0 c1).1
    intro p B C beta M p0 _ hO hB hC hLD hBC sB sC
    obtain ⟨cN, cT⟩ := hier_call htr hS ih hO hB hC hLD hBC sB sC
    have hsum := fun r k => hier_sum (tr := tr) hS (fun j => M.val ((B.add (k * LDB)).at j)) alpha r
    obtain ⟨h1, h2, h3, h4, h5⟩ := hS
    have nr := fun i i0 i1 => (sized_nonneg (h3 i (Q - 1) i0 i1 (by omega) (by omega)).1).1
    have nc := fun j j0 j1 => (sized_nonneg (h3 0 j (by omega) (by omega) j0 j1).1).2
    change m = pre (fun k => (b k (Q - 1)).rows) P at h4
    change n = pre (fun k => (b 0 k).cols) Q at h5
    obtain ⟨R, eR, hR⟩ := offsets_run (cnt := P) (bs := fun i => blockRows P Q b i (Q - 1)) (w := fun k => (b k (Q - 1)).rows) (fun i i0 i1 => if_pos ⟨i0, i1, by omega, by omega⟩)
    obtain ⟨L, eL, hL⟩ := offsets_run (cnt := Q) (bs := fun j => blockCols P Q b 0 j) (w := fun k => (b 0 k).cols) (fun j j0 j1 => if_pos ⟨by omega, by omega, j0, j1⟩)
    unfold hmmP
    rw [run_ofOption_bind eR, run_ofOption_bind eL]
    rcases htr with rfl | rfl
    · rw [if_pos rfl]
      have cN := cN rfl
      have hsum := fun r k => (hsum r k).1 rfl
      have er : opRows 'N' (.hier P Q m n b) = pre (fun k => (b k (Q - 1)).rows) P := h4
      rw [er] at hC hLD sC ⊢
      conv in hmmSeq _ _ m _ _ _ _ _ _ _ _ _ => rw [h4]
      obtain ⟨M', e, s1, s2, s3⟩ := seq_run (beta := beta) (l := n) (by omega) (by omega) p0 hL hR nr hLD hC sC cN
      refine ⟨M', e, s1, fun k r k0 k1 r0 r1 => ?_, s3⟩
      rw [s2 k r k0 k1 r0 r1]
      dsimp only
      rw [← hsum r k]
    · rw [if_neg (by decide), if_pos rfl]
      have cT := cT rfl
      have hsum := fun r k => (hsum r k).2 rfl
      have er : opRows 'T' (.hier P Q m n b) = pre (fun k => (b 0 k).cols) Q := h5
      rw [er] at hC hLD sC ⊢
      conv in hmmSeq _ _ n _ _ _ _ _ _ _ _ _ => rw [h5]
      obtain ⟨M', e, s1, s2, s3⟩ := seq_run (beta := beta) (l := m) (by omega) (by omega) p0 hR hL nc hLD hC sC cT
      refine ⟨M', e, s1, fun k r k0 k1 r0 r1 => ?_, s3⟩
      rw [s2 k r k0 k1 r0 r1]
      dsimp only
      rw [← hsum r k]

end FT.Props.Hier
