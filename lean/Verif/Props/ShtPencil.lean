import Verif.Lemmas.ShtPencil
import Verif.Props.Tdc
import Verif.Props.TriCong

/-! # C71: the tridiagonal pencils of the spherical harmonic transform -/

namespace FT.Props
open FT
variable {K : Type*} [Field K] [LinearOrder K] [IsStrictOrderedRing K]

/-- The offset of the degrees of a parity. -/
def parOf (p : Char) : Int := if p = 'E' then 0 else 1

theorem parityShift_of {p : Char} (hp : p = 'E' ∨ p = 'O') : parityShift p = some (parOf p) ∧ (parOf p = 0 ∨ parOf p = 1) := by
  rcases hp with rfl | rfl
  · exact ⟨rfl, Or.inl rfl⟩
  · exact ⟨rfl, Or.inr rfl⟩

/-- What the three routines return. -/
theorem sht_entries {sqrt : K → K} (hs : IsSqrt sqrt) {n mu m : Int} (hm : 0 ≤ m) {p : Char} (hp : p = 'E' ∨ p = 'O') :
    (∃ A, createA sqrt n mu m p = some A ∧ A.n = n ∧ A.a.size = n.toNat ∧ A.b.size = (n - 1).toNat ∧
      (∀ t, 0 ≤ t → t < n → A.a.val t = Cv (m : K) ((1 + parOf p + 2 * t : Int) : K) * ((((1 + parOf p + 2 * t : Int) : K) + m - 1) * (((1 + parOf p + 2 * t : Int) : K) + m)) +
        Dv (m : K) ((1 + parOf p + 2 * t : Int) : K) * ((((1 + parOf p + 2 * t : Int) : K) + m + 1) * (((1 + parOf p + 2 * t : Int) : K) + m + 2)) + (mu * mu - m * m)) ∧
      ∀ t, 0 ≤ t → t < n - 1 → A.b.val t = -(sqrt (Dv (m : K) ((1 + parOf p + 2 * t : Int) : K)) * sqrt (Cv (m : K) (((1 + parOf p + 2 * t : Int) : K) + 2)) *
        ((((1 + parOf p + 2 * t : Int) : K) + m + 1) * (((1 + parOf p + 2 * t : Int) : K) + m + 2)))) ∧
    (∃ B, createB sqrt n m p = some B ∧ B.n = n ∧ B.a.size = n.toNat ∧ B.b.size = (n - 1).toNat ∧
      (∀ t, 0 ≤ t → t < n → B.a.val t = Cv (m : K) ((1 + parOf p + 2 * t : Int) : K) + Dv (m : K) ((1 + parOf p + 2 * t : Int) : K)) ∧
      ∀ t, 0 ≤ t → t < n - 1 → B.b.val t = -(sqrt (Dv (m : K) ((1 + parOf p + 2 * t : Int) : K)) * sqrt (Cv (m : K) (((1 + parOf p + 2 * t : Int) : K) + 2)))) ∧
    ∃ c d, createR sqrt n m p = some (c, d) ∧ c.size = n.toNat ∧ d.size = (n - 1).toNat ∧ (∀ t, 0 ≤ t → t < n → c.val t = sqrt (Cv (m : K) ((1 + parOf p + 2 * t : Int) : K))) ∧
      ∀ t, 0 ≤ t → t < n - 1 → d.val t = -sqrt (Dv (m : K) ((1 + parOf p + 2 * t : Int) : K)) := by
  obtain ⟨h1, h2⟩ := parityShift_of hp
  have hm' : (0 : K) ≤ m := by exact_mod_cast hm
  have hl : ∀ t : Int, 0 ≤ t → (1 : K) ≤ ((1 + parOf p + 2 * t : Int) : K) := fun t t0 => by
    have : (1 : Int) ≤ 1 + parOf p + 2 * t := by omega
    exact_mod_cast this
  refine ⟨?_, ?_, ?_⟩
  · refine ⟨_, by
      unfold createA
      rw [h1, Option.bind_some, shtFill_eq h2 _ (Int.self_le_toNat n) (fun t t0 t1 => shtDiagA_eq hm' (hl t t0) _), Option.bind_some,
        shtFill_eq h2 _ (Int.self_le_toNat (n - 1)) (fun t t0 t1 => shtOffA_eq hs hm' (hl t t0)), Option.map_some], rfl, rfl, rfl, fun t t0 t1 => mix_val_in t0 t1, fun t t0 t1 => mix_val_in t0 t1⟩
  · refine ⟨_, by
      unfold createB
      rw [h1, Option.bind_some, shtFill_eq h2 _ (Int.self_le_toNat n) (fun t t0 t1 => shtDiagB_eq hm' (hl t t0)), Option.bind_some,
        shtFill_eq h2 _ (Int.self_le_toNat (n - 1)) (fun t t0 t1 => shtOffB_eq hs hm' (hl t t0)), Option.map_some], rfl, rfl, rfl, fun t t0 t1 => mix_val_in t0 t1, fun t t0 t1 => mix_val_in t0 t1⟩
  · refine ⟨_, _, by
      unfold createR
      rw [h1, Option.bind_some, shtFill_eq h2 _ (Int.self_le_toNat n) (fun t t0 t1 => shtC_eq hm' (hl t t0)), Option.bind_some,
        shtFill_eq h2 _ (Int.self_le_toNat (n - 1)) (fun t t0 t1 => shtD_eq hm' (hl t t0)), Option.map_some], rfl, rfl, fun t t0 t1 => mix_val_in t0 t1, fun t t0 t1 => mix_val_in t0 t1⟩

/-- **C71.** For all sizes `n`, orders `m ≥ 0` and `μ`, and both parities: the three routines stay within their arrays, and with the bidiagonal matrix `R` of size `n + 1` and its first `n` rows,
`B = R Rᵀ` and `A = R Λ Rᵀ + (μ² - m²) I` where `Λ` holds the eigenvalues `ℓ (ℓ + 1)`, `ℓ = m + 2 r` (or `m + 2 r + 1`), of the spherical Laplacian: the pencil is that of the Laplacian of order `μ` on the
functions of order `m`. -/
theorem C71_pencil {sqrt : K → K} (hs : IsSqrt sqrt) {n mu m : Int} (hm : 0 ≤ m) {p : Char} (hp : p = 'E' ∨ p = 'O') :
    ∃ A B c d, createA sqrt n mu m p = some A ∧ createB sqrt n m p = some B ∧ createR sqrt (n + 1) m p = some (c, d) ∧ A.n = n ∧ B.n = n ∧
      A.a.size = n.toNat ∧ A.b.size = (n - 1).toNat ∧ B.a.size = n.toNat ∧ B.b.size = (n - 1).toNat ∧ c.size = (n + 1).toNat ∧ d.size = n.toNat ∧
      (∀ i j, 0 ≤ i → i < n → 0 ≤ j → j < n → triMat B.a.val B.b.val i j = ∑ r ∈ Finset.Ico 0 (n + 1), bidMat c.val d.val i r * bidMat c.val d.val j r) ∧
      ∀ i j, 0 ≤ i → i < n → 0 ≤ j → j < n → triMat A.a.val A.b.val i j = ∑ r ∈ Finset.Ico 0 (n + 1), bidMat c.val d.val i r * (((m + 2 * r + parOf p : Int) : K) * (((m + 2 * r + parOf p : Int) : K) + 1)) *
        bidMat c.val d.val j r + if i = j then (mu : K) ^ 2 - (m : K) ^ 2 else 0 := by
  obtain ⟨⟨A, a1, a2, a3, a4, a5, a6⟩, ⟨B, b1, b2, b3, b4, b5, b6⟩, -⟩ := sht_entries hs (n := n) (mu := mu) hm hp
  obtain ⟨-, -, c, d, r1, r2, r3, r4, r5⟩ := sht_entries hs (n := n + 1) (mu := mu) hm hp
  have hm' : (0 : K) ≤ m := by exact_mod_cast hm
  have hl : ∀ t : Int, 0 ≤ t → (1 : K) ≤ ((1 + parOf p + 2 * t : Int) : K) := fun t t0 => by
    have := (parityShift_of hp).2
    have : (1 : Int) ≤ 1 + parOf p + 2 * t := by omega
    exact_mod_cast this
  have hc2 : ∀ t, 0 ≤ t → t < n + 1 → c.val t * c.val t = Cv (m : K) ((1 + parOf p + 2 * t : Int) : K) := fun t t0 t1 => by
    rw [r4 t t0 t1]
    exact (hs _ (le_of_lt (Cv_pos hm' (hl t t0)))).2
  have hd2 : ∀ t, 0 ≤ t → t < n → d.val t * d.val t = Dv (m : K) ((1 + parOf p + 2 * t : Int) : K) := fun t t0 t1 => by
    rw [r5 t t0 (by omega), neg_mul_neg]
    exact (hs _ (le_of_lt (Dv_pos hm' (hl t t0)))).2
  have hdc : ∀ t, 0 ≤ t → t < n → d.val t * c.val (t + 1) = -(sqrt (Dv (m : K) ((1 + parOf p + 2 * t : Int) : K)) * sqrt (Cv (m : K) (((1 + parOf p + 2 * t : Int) : K) + 2))) := fun t t0 t1 => by
    rw [r5 t t0 (by omega), r4 (t + 1) (by omega) (by omega)]
    push_cast
    rw [show (1 + (parOf p : K) + 2 * ((t : K) + 1)) = 1 + (parOf p : K) + 2 * t + 2 by ring]
    ring
  refine ⟨A, B, c, d, a1, b1, r1, a2, b2, a3, a4, b3, b4, r2, by rw [r3]; congr 1; omega, fun i j i0 i1 j0 j1 => ?_, fun i j i0 i1 j0 j1 => ?_⟩
  · have := bid_weighted (n := n) c.val d.val (fun _ => 1) i0 i1 j0 j1
    simp only [mul_one] at this
    rw [this]
    by_cases h : i = j
    · subst h
      rw [triMat_diag, triMat_diag, b5 i i0 i1, hc2 i i0 (by omega), hd2 i i0 i1]
    by_cases h2 : j = i + 1
    · rw [triMat_sup h2, triMat_sup h2, b6 i i0 (by omega), hdc i i0 i1]
    by_cases h3 : i = j + 1
    · rw [triMat_sub h3, triMat_sub h3, b6 j j0 (by omega), hdc j j0 j1]
    · rw [triMat_far (by omega), triMat_far (by omega)]
  · rw [bid_weighted c.val d.val _ i0 i1 j0 j1]
    by_cases h : i = j
    · subst h
      rw [triMat_diag, triMat_diag, a5 i i0 i1, hc2 i i0 (by omega), hd2 i i0 i1, if_pos rfl]
      push_cast
      ring
    rw [if_neg h, add_zero]
    by_cases h2 : j = i + 1
    · rw [triMat_sup h2, triMat_sup h2, a6 i i0 (by omega), hdc i i0 i1]
      push_cast
      ring
    by_cases h3 : i = j + 1
    · rw [triMat_sub h3, triMat_sub h3, a6 j j0 (by omega), hdc j j0 j1]
      push_cast
      ring
    · rw [triMat_far (by omega), triMat_far (by omega)]

/-- **C71**, definiteness: the off-diagonal entries of both matrices are negative and the diagonal of `B` dominates, so `B` is positive definite, and the solvers of C69 apply. -/
theorem C71_definite {sqrt : K → K} (hs : IsSqrt sqrt) {n mu m : Int} (n1 : 1 ≤ n) (hm : 0 ≤ m) {p : Char} (hp : p = 'E' ∨ p = 'O') :
    ∃ A B, createA sqrt n mu m p = some A ∧ createB sqrt n m p = some B ∧ (∀ i, 0 ≤ i → i < n - 1 → A.b.val i < 0 ∧ B.b.val i < 0) ∧ Dominant n B.a.val B.b.val ∧
      PosForm n (triMat B.a.val B.b.val) := by
  obtain ⟨⟨A, a1, a2, a3, a4, a5, a6⟩, ⟨B, b1, b2, b3, b4, b5, b6⟩, -⟩ := sht_entries hs (n := n) (mu := mu) hm hp
  have hm' : (0 : K) ≤ m := by exact_mod_cast hm
  have hl : ∀ t : Int, 0 ≤ t → (1 : K) ≤ ((1 + parOf p + 2 * t : Int) : K) := fun t t0 => by
    have := (parityShift_of hp).2
    have : (1 : Int) ≤ 1 + parOf p + 2 * t := by omega
    exact_mod_cast this
  have hneg : ∀ t, 0 ≤ t → 0 < sqrt (Dv (m : K) ((1 + parOf p + 2 * t : Int) : K)) * sqrt (Cv (m : K) (((1 + parOf p + 2 * t : Int) : K) + 2)) := fun t t0 =>
    mul_pos (sqrt_pos hs (Dv_pos hm' (hl t t0))) (sqrt_pos hs (Cv_pos hm' (by linarith [hl t t0])))
  have hb : ∀ t, 0 ≤ t → t < n - 1 → |B.b.val t| ≤ (Dv (m : K) ((1 + parOf p + 2 * t : Int) : K) + Cv (m : K) (((1 + parOf p + 2 * t : Int) : K) + 2)) / 2 := fun t t0 t1 => by
    rw [b6 t t0 t1, abs_neg, abs_of_pos (hneg t t0)]
    have h1 := (hs _ (le_of_lt (Dv_pos hm' (hl t t0)))).2
    have h2 := (hs (Cv (m : K) (((1 + parOf p + 2 * t : Int) : K) + 2)) (le_of_lt (Cv_pos hm' (by linarith [hl t t0])))).2
    nlinarith [mul_self_nonneg (sqrt (Dv (m : K) ((1 + parOf p + 2 * t : Int) : K)) - sqrt (Cv (m : K) (((1 + parOf p + 2 * t : Int) : K) + 2)))]
  have dom : Dominant n B.a.val B.b.val := fun i i0 i1 => by
    rw [b5 i i0 i1]
    have c0 := Cv_pos hm' (hl i i0)
    have d0 := Dv_pos hm' (hl i i0)
    have c1 := Cv_lt hm' (hl i i0)
    have h1 : (if i + 1 < n then |B.b.val i| else 0) ≤ (Dv (m : K) ((1 + parOf p + 2 * i : Int) : K) + Cv (m : K) ((1 + parOf p + 2 * i : Int) : K)) / 2 := by
      by_cases h : i + 1 < n
      · rw [if_pos h]
        linarith [hb i i0 (by omega)]
      · rw [if_neg h]
        linarith
    have h2 : (if 0 < i then |B.b.val (i - 1)| else 0) < (Dv (m : K) ((1 + parOf p + 2 * i : Int) : K) + Cv (m : K) ((1 + parOf p + 2 * i : Int) : K)) / 2 := by
      by_cases h : 0 < i
      · rw [if_pos h]
        have := hb (i - 1) (by omega) (by omega)
        have e : (((1 + parOf p + 2 * (i - 1) : Int) : K) + 2) = ((1 + parOf p + 2 * i : Int) : K) := by push_cast; ring
        have dl := Dv_lt hm' (hl (i - 1) (by omega))
        rw [e] at this dl
        linarith
      · rw [if_neg h]
        linarith
    linarith
  refine ⟨A, B, a1, b1, fun i i0 i1 => ⟨?_, ?_⟩, dom, posForm_of_dominant n1 dom⟩
  · rw [a6 i i0 i1]
    have := hl i i0
    exact neg_neg_of_pos (mul_pos (hneg i i0) (mul_pos (by linarith) (by linarith)))
  · rw [b6 i i0 i1]
    exact neg_neg_of_pos (hneg i i0)

/-! ## Divide and conquer applies -/

/-- At every split down to the block size, the rank-one problem left by the halves is separated at the tolerances. -/
inductive SeparatedSplits (bs : Int) (sqrt : ℝ → ℝ) (eps fmin : ℝ) : Int → (Int → ℝ) → (Int → ℝ) → (Int → ℝ) → (Int → ℝ) → Prop
  | leaf (n : Int) (ta tb sa sb : Int → ℝ) : n < bs → SeparatedSplits bs sqrt eps fmin n ta tb sa sb
  | node (n s : Int) (ta tb sa sb : Int → ℝ) : bs ≤ n → s = n / 2 →
      SeparatedSplits bs sqrt eps fmin s (topA s ta tb) tb (topA s sa sb) sb →
      SeparatedSplits bs sqrt eps fmin (n - s) (botA s ta tb) (fun i => tb (i + s)) (botA s sa sb) (fun i => sb (i + s)) →
      (∀ M1 l1 M2 l2, Decomposes s (triMat (topA s ta tb) tb) (triMat (topA s sa sb) sb) M1 l1 →
        Decomposes (n - s) (triMat (botA s ta tb) fun i => tb (i + s)) (triMat (botA s sa sb) fun i => sb (i + s)) M2 l2 →
        let d := glue s l1 l2
        let z := glue s (fun k => -M1 (s - 1) k) (fun k => M2 0 k)
        Separated n d z |tb (s - 1)| |sb (s - 1)| (sqrt (|tb (s - 1)| + |sb (s - 1)|) * sqrt (∑ i ∈ Finset.Ico 0 n, z i * z i) * eps) (sqrt fmin)) →
      SeparatedSplits bs sqrt eps fmin n ta tb sa sb

/-- Tearing keeps the diagonal dominant. -/
theorem dominant_top {n s : Int} (h1 : s < n) {a b : Int → ℝ} (h : Dominant n a b) : Dominant s (topA s a b) b := fun i i0 i1 => by
  have := h i i0 (by omega)
  rw [if_pos (show i + 1 < n by omega)] at this
  unfold topA
  by_cases hi : i = s - 1
  · rw [if_pos hi, if_neg (show ¬ i + 1 < s by omega), ← hi]
    linarith
  · rw [if_neg hi, if_pos (show i + 1 < s by omega)]
    linarith

theorem dominant_bot {n s : Int} (h0 : 0 < s) {a b : Int → ℝ} (h : Dominant n a b) : Dominant (n - s) (botA s a b) fun i => b (i + s) := fun i i0 i1 => by
  have := h (i + s) (by omega) (by omega)
  rw [if_pos (show 0 < i + s by omega)] at this
  unfold botA
  have e : (if i + 1 < n - s then |b (i + s)| else 0) = if i + s + 1 < n then |b (i + s)| else 0 := by
    by_cases hi : i + 1 < n - s
    · rw [if_pos hi, if_pos (by omega)]
    · rw [if_neg hi, if_neg (by omega)]
  dsimp only
  rw [e]
  by_cases hi : i = 0
  · subst hi
    rw [show 0 + s - 1 = s - 1 by omega] at this
    rw [if_pos rfl, if_neg (show ¬ (0 : Int) < 0 by omega)]
    linarith
  · rw [if_neg hi, if_pos (show 0 < i by omega), show i - 1 + s = i + s - 1 by omega]
    linarith

theorem tears_of_dominant {bs : Int} (hbs : 2 ≤ bs) {sqrt : ℝ → ℝ} {eps fmin : ℝ} {n : Int} {ta tb sa sb : Int → ℝ} (h : SeparatedSplits bs sqrt eps fmin n ta tb sa sb) :
    1 ≤ n → (∀ i, 0 ≤ i → i < n - 1 → tb i < 0 ∧ sb i < 0) → Dominant n sa sb → Tears bs sqrt eps fmin n ta tb sa sb := by
  induction h with
  | leaf n ta tb sa sb h => exact fun n1 _ hd => .leaf _ _ _ _ _ n1 h (posForm_of_dominant n1 hd)
  | node n s ta tb sa sb hb hs _ _ hsep ih1 ih2 =>
    intro n1 ho hd
    have hs0 := ho (s - 1) (by omega) (by omega)
    refine .node _ s _ _ _ _ hb hs (le_of_lt hs0.1) (le_of_lt hs0.2) (ih1 (by omega) (fun i i0 i1 => ho i i0 (by omega)) (dominant_top (by omega) hd))
      (ih2 (by omega) (fun i i0 i1 => ho (i + s) (by omega) (by omega)) (dominant_bot (by omega) hd)) fun M1 l1 M2 l2 d1 d2 => ⟨hsep M1 l1 M2 l2 d1 d2, fun h0 => absurd h0 (ne_of_lt hs0.2)⟩

/-- **C67**, the pencils of C71: for the pencils of the spherical harmonic transform the signs and the definiteness that C67 asks for hold at every split.  Only the separation of the rank-one problems
and the contracts of the leaf solver and of the root finder remain as hypotheses. -/
theorem C67_sht_partial {bs : Int} (hbs : 2 ≤ bs) {leaf : SymTri ℝ → SymTri ℝ → Option (Buf ℝ × Buf ℝ)} (hl : LeafOk bs leaf) {sqrt : ℝ → ℝ} (hsq : IsSqrt sqrt) {eps fmin : ℝ} (he : 0 ≤ eps)
    (hf : 0 ≤ fmin) {R : RootFinder ℝ} (hR : Finds R) (jk : Nat → Nat → Int → ℝ) (ji : Nat → Int → Int) {n mu m : Int} (n1 : 1 ≤ n) (hm : 0 ≤ m) {p : Char} (hp : p = 'E' ∨ p = 'O')
    (hsep : ∀ A B, createA sqrt n mu m p = some A → createB sqrt n m p = some B → SeparatedSplits bs sqrt eps fmin n A.a.val A.b.val B.a.val B.b.val) {fuel : Nat} (hfu : n ≤ fuel) :
    ∃ A B F M, createA sqrt n mu m p = some A ∧ createB sqrt n m p = some B ∧ sdtdcEig bs leaf sqrt eps fmin R jk ji fuel A B = some F ∧ F.n = n ∧ TActs n F M ∧
      Decomposes n (triMat A.a.val A.b.val) (triMat B.a.val B.b.val) M F.lambda.val := by
  obtain ⟨A, B, a1, b1, h3, h4, -⟩ := C71_definite hsq (mu := mu) n1 hm hp
  obtain ⟨⟨A', a1', a2, a3, a4, -, -⟩, ⟨B', b1', b2, b3, b4, -, -⟩, -⟩ := sht_entries hsq (n := n) (mu := mu) hm hp
  obtain rfl : A = A' := Option.some.inj (a1.symm.trans a1')
  obtain rfl : B = B' := Option.some.inj (b1.symm.trans b1')
  have ht := tears_of_dominant hbs (hsep A B a1 b1) n1 h3 h4
  rw [← a2] at ht
  obtain ⟨F, M, f1, f2, _, f4, f5⟩ := C67_tdc_partial hbs hl hsq he hf hR jk ji (T := A) (S := B) (by rw [a2, b2]) (by rw [a3, a2]; omega) (by rw [a4, a2]; omega) (by rw [b3, a2]; omega)
    (by rw [b4, a2]; omega) ht (fuel := fuel) (by rw [a2]; exact hfu)
  rw [a2] at f2 f4 f5
  exact ⟨A, B, F, M, a1, b1, f1, f2, f4, f5⟩

/-! ## Examples -/

example : ∃ A B, createA Real.sqrt 40 9 3 'O' = some A ∧ createB Real.sqrt 40 3 'O' = some B ∧ PosForm 40 (triMat B.a.val B.b.val) := by
  have hs : IsSqrt Real.sqrt := fun x hx => ⟨Real.sqrt_nonneg x, Real.mul_self_sqrt hx⟩
  obtain ⟨A, B, h1, h2, _, _, h5⟩ := C71_definite hs (n := 40) (mu := 9) (m := 3) (by norm_num) (by norm_num) (p := 'O') (Or.inr rfl)
  exact ⟨A, B, h1, h2, h5⟩

/-- The pencil of size two with `m = μ = 0`: the rank-one problem at its split is separated for exact tolerances. -/
theorem sht_two_separated (A B : SymTri ℝ) (hA : createA Real.sqrt 2 0 0 'E' = some A) (hB : createB Real.sqrt 2 0 'E' = some B) : SeparatedSplits 2 Real.sqrt 0 0 2 A.a.val A.b.val B.a.val B.b.val := by
  have hs : IsSqrt Real.sqrt := fun x hx => ⟨Real.sqrt_nonneg x, Real.mul_self_sqrt hx⟩
  obtain ⟨⟨A', a1, a2, a3, a4, a5, a6⟩, ⟨B', b1, b2, b3, b4, b5, b6⟩, -⟩ := sht_entries hs (n := 2) (mu := 0) (m := 0) (le_refl _) (p := 'E') (Or.inl rfl)
  obtain rfl : A' = A := Option.some.inj (a1.symm.trans hA)
  obtain rfl : B' = B := Option.some.inj (b1.symm.trans hB)
  obtain ⟨g, hg⟩ : ∃ g, g = Real.sqrt (Dv (0 : ℝ) 1) * Real.sqrt (Cv (0 : ℝ) 3) := ⟨_, rfl⟩
  have g0 : 0 ≤ g := by rw [hg]; exact mul_nonneg (Real.sqrt_nonneg _) (Real.sqrt_nonneg _)
  have g2 : g * g = 24 / 525 := by
    rw [hg, mul_mul_mul_comm, Real.mul_self_sqrt (by unfold Dv; norm_num), Real.mul_self_sqrt (by unfold Cv; norm_num)]
    unfold Dv Cv
    norm_num
  have eb : B'.b.val 0 = -g := by
    rw [b6 0 (le_refl _) (by norm_num), hg]
    norm_num [parOf]
  have ea : A'.b.val 0 = -(6 * g) := by
    rw [a6 0 (le_refl _) (by norm_num), hg]
    norm_num [parOf]
    ring
  have eB0 : B'.a.val 0 = 4 / 5 := by rw [b5 0 (le_refl _) (by norm_num)]; norm_num [parOf, Cv, Dv]
  have eB1 : B'.a.val 1 = 8 / 15 := by rw [b5 1 (by norm_num) (by norm_num)]; norm_num [parOf, Cv, Dv]
  have eA0 : A'.a.val 0 = 4 / 5 := by rw [a5 0 (le_refl _) (by norm_num)]; norm_num [parOf, Cv, Dv]
  have eA1 : A'.a.val 1 = 88 / 15 := by rw [a5 1 (by norm_num) (by norm_num)]; norm_num [parOf, Cv, Dv]
  have ab1 : |A'.b.val (1 - 1)| = 6 * g := by rw [sub_self, ea, abs_neg, abs_of_nonneg (by linarith)]
  have ab2 : |B'.b.val (1 - 1)| = g := by rw [sub_self, eb, abs_neg, abs_of_nonneg g0]
  have gl : g < 1 / 4 := by nlinarith
  have gp : 1 / 5 < g := by nlinarith
  refine .node 2 1 _ _ _ _ (le_refl _) (by decide) (.leaf _ _ _ _ _ (by decide)) (.leaf _ _ _ _ _ (by decide)) ?_
  intro M1 l1 M2 l2 D1 D2
  rw [show (2 : Int) - 1 = 1 by decide] at D2
  have p1 := (one_decomposes D1).2
  have p2 := (one_decomposes D2).2
  rw [triMat_diag, triMat_diag] at p1 p2
  unfold topA at p1
  unfold botA at p2
  rw [if_pos (by decide), if_pos (by decide), ab1, ab2, eA0, eB0] at p1
  rw [if_pos rfl, if_pos rfl, ab1, ab2, zero_add, eA1, eB1] at p2
  intro d z
  have d0 : d 0 = l1 0 := if_pos (by decide)
  have d1 : d 1 = l2 0 := if_neg (by decide)
  have two : ∀ i : Int, 0 ≤ i → i < 2 → i = 0 ∨ i = 1 := fun i a b => by omega
  have hd : l1 0 ≠ l2 0 := fun e => by
    rw [e] at p1
    have h1 : (4 / 5 - 6 * g) * (8 / 15 - g) = (88 / 15 - 6 * g) * (4 / 5 - g) := by rw [p1, p2]; ring
    nlinarith
  have t1 : l1 0 ≠ 6 := fun e => by rw [e] at p1; linarith
  have t2 : l2 0 ≠ 6 := fun e => by rw [e] at p2; linarith
  rw [ab1, ab2]
  have q6 : 6 * g / g = 6 := by field_simp
  refine ⟨fun i i0 i1 => ?_, fun i j i0 i1 j0 j1 hij _ _ => ?_, fun _ i i0 i1 _ => ?_, fun t ht hp h => ⟨fun i i0 i1 hz => ?_, fun hg => ?_⟩⟩
  · rw [mul_zero]
    by_cases h : z i = 0
    · exact Or.inl h
    · exact Or.inr (abs_pos.2 h)
  · rcases two i i0 i1 with rfl | rfl <;> rcases two j j0 j1 with rfl | rfl
    · exact absurd rfl hij
    · rw [d0, d1]; exact hd
    · rw [d0, d1]; exact hd.symm
    · exact absurd rfl hij
  · rw [q6]
    rcases two i i0 i1 with rfl | rfl
    · rw [d0]; exact t1
    · rw [d1]; exact t2
  · rw [Real.sqrt_zero]
    exact abs_pos.2 (sub_ne_zero.2 (ht i i0 i1 hz).symm)
  · rw [Real.sqrt_zero]
    refine abs_pos.2 (sub_ne_zero.2 fun e => hp ?_)
    rw [e]
    field_simp
    ring

example : ∃ A B F M, createA Real.sqrt 2 0 0 'E' = some A ∧ createB Real.sqrt 2 0 'E' = some B ∧ sdtdcEig 2 wLeaf Real.sqrt 0 0 wFinder (fun _ _ _ => 7) (fun _ _ => 9) 2 A B = some F ∧ F.n = 2 ∧ TActs 2 F M ∧
    Decomposes 2 (triMat A.a.val A.b.val) (triMat B.a.val B.b.val) M F.lambda.val :=
  C67_sht_partial (le_refl _) wLeaf_ok wSqrt (le_refl _) (le_refl _) wFinder_finds _ _ (by norm_num) (le_refl _) (Or.inl rfl) sht_two_separated (le_refl (2 : Int))

end FT.Props
