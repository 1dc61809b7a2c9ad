import Verif.Lemmas.EigVec

/-! # Back-substitution with 2 by 2 blocks -/

set_option linter.unusedSectionVars false

namespace FT
variable {K : Type*} [Field K] [LinearOrder K]

/-- `D` is a right inverse of `A`. -/
theorem M2.inv_right {A : M2 K} (h : A.det ≠ 0) : ∃ D, A.inv = some D ∧ ∀ u v, A.app (D.app u v).1 (D.app u v).2 = (u, v) := by
  refine ⟨_, M2.inv_of h, fun u v => ?_⟩
  have h' := mul_inv_cancel₀ h
  simp only [M2.app, Prod.mk.injEq, div_eq_mul_inv]
  generalize A.det⁻¹ = e at h'
  unfold M2.det at h'
  constructor
  · linear_combination u * h'
  · linear_combination v * h'

/-- Block row `i` of `c z = 0`, for `c` block upper triangular, `z` column `J` of `X`. -/
def Eqn (n N : Int) (c : Int → Int → K) (J i : Int) (X : Buf K) : Prop :=
  ∑ k ∈ Finset.Ico i n, trm c (fun r => X.val (r + J * N)) (2 * i) k = 0 ∧ ∑ k ∈ Finset.Ico i n, trm c (fun r => X.val (r + J * N)) (2 * i + 1) k = 0

theorem Eqn.congr {n N : Int} {c : Int → Int → K} {J i : Int} {X Y : Buf K} (h : Eqn n N c J i X) (hXY : ∀ r, 2 * i ≤ r → r < 2 * n → Y.val (r + J * N) = X.val (r + J * N)) : Eqn n N c J i Y := by
  have e : ∀ r, ∑ k ∈ Finset.Ico i n, trm c (fun r => Y.val (r + J * N)) r k = ∑ k ∈ Finset.Ico i n, trm c (fun r => X.val (r + J * N)) r k := fun r =>
    sum_Ico_congr fun k k0 k1 => trm_congr (hXY _ (by omega) (by omega)) (hXY _ (by omega) (by omega)) r
  exact ⟨by rw [e]; exact h.1, by rw [e]; exact h.2⟩

/-- `A - lam B`. -/
def pencil (a b : Int → Int → K) (lam : K) (r k : Int) : K := a r k - lam * b r k

theorem wrBoth_of {X : Buf K} {i o : Int} {v : K × K} (h0 : 0 ≤ 2 * i + o) (h1 : 2 * i + 1 + o < X.size) :
    wrBoth X i o v = some ⟨X.size, Function.update (Function.update X.val (2 * i + o) v.1) (2 * i + 1 + o) v.2⟩ := by
  unfold wrBoth
  rw [Buf.wr_of h0 (by omega), Option.bind_some, Buf.wr_of (b := ⟨X.size, Function.update X.val (2 * i + o) v.1⟩) (by omega) h1]

variable {A B : BTB K} {n bA bB : Int} {a b : Int → Int → K}

/-- One entry pair of one column. -/
theorem btbStep (hn : A.n = n) (hAB : max A.b B.b = max bA bB) (hA : ∀ i k, A.blk i k = some (blkOf a i k)) (hB : ∀ i k, B.blk i k = some (blkOf b i k))
    (hz : ∀ i k, 0 ≤ i → i < n → i + max bA bB < k → k < n → BZ a i k ∧ BZ b i k) {lam : K} {i J : Int} (i0 : 0 ≤ i) (i1 : i < n) (J0 : 0 ≤ J) (J1 : J < 2 * n)
    (hd : (blkOf (pencil a b lam) i i).det ≠ 0) {X : Buf K} (hX : 2 * n * (2 * n) ≤ X.size) :
    ∃ X', (btbEigRow A B lam i (J * (2 * n)) X).bind (wrBoth X i (J * (2 * n))) = some X' ∧ X'.size = X.size ∧
      (∀ q, q ≠ 2 * i + J * (2 * n) → q ≠ 2 * i + 1 + J * (2 * n) → X'.val q = X.val q) ∧ Eqn n (2 * n) (pencil a b lam) J i X' := by
  set c := pencil a b lam with hc
  have hdiff : ∀ i k, (blkOf a i k).diff lam (blkOf b i k) = blkOf c i k := fun _ _ => rfl
  have pos : ∀ r, 0 ≤ r → r < 2 * n → 0 ≤ r + J * (2 * n) ∧ r + J * (2 * n) < X.size := fun r r0 r1 => ij_lt r0 r1 J0 J1 hX
  obtain ⟨D, eD, hD⟩ := M2.inv_right hd
  set z : Int → K := fun r => X.val (r + J * (2 * n)) with hz'
  have hrow : btbEigRow A B lam i (J * (2 * n)) X = some (-(D.app (∑ k ∈ Finset.Ico (i + 1) n, trm c z (2 * i) k) (∑ k ∈ Finset.Ico (i + 1) n, trm c z (2 * i + 1) k)).1,
      -(D.app (∑ k ∈ Finset.Ico (i + 1) n, trm c z (2 * i) k) (∑ k ∈ Finset.Ico (i + 1) n, trm c z (2 * i + 1) k)).2) := by
    unfold btbEigRow
    rw [hn, hAB, accPair_eq (g := trm c z (2 * i)) (h := trm c z (2 * i + 1)) fun k k0 k1 => by
      rw [hA, Option.bind_some, hB, Option.bind_some, Buf.rd_of (pos _ (by omega) (by omega)).1 (pos _ (by omega) (by omega)).2, Option.bind_some,
        Buf.rd_of (pos _ (by omega) (by omega)).1 (pos _ (by omega) (by omega)).2, Option.map_some, hdiff]; rfl]
    have sh : ∀ k, i + 1 ≤ k → k < n → ¬ (i + 1 ≤ k ∧ k < min (i + max bA bB + 1) n) → BZ c i k := fun k k0 k1 hk => by
      obtain ⟨⟨h1, h2, h3, h4⟩, g1, g2, g3, g4⟩ := hz i k i0 i1 (by omega) k1
      unfold BZ; rw [hc]; unfold pencil; rw [h1, h2, h3, h4, g1, g2, g3, g4]; simp
    rw [← sum_Ico_shrink (hi := n) (fun k k0 k1 hk => (trm_zero (sh k k0 k1 hk)).1) le_rfl (min_le_right _ _),
      ← sum_Ico_shrink (hi := n) (f := trm c z (2 * i + 1)) (fun k k0 k1 hk => (trm_zero (sh k k0 k1 hk)).2) le_rfl (min_le_right _ _),
      Option.bind_some, hA, Option.bind_some, hB, Option.bind_some, hdiff, eD]
    rfl
  rw [hrow, Option.bind_some, wrBoth_of (pos _ (by omega) (by omega)).1 (pos _ (by omega) (by omega)).2]
  refine ⟨_, rfl, rfl, fun q h1 h2 => ?_, ?_⟩
  · dsimp only; rw [Function.update_of_ne h2, Function.update_of_ne h1]
  · set t0 := ∑ k ∈ Finset.Ico (i + 1) n, trm c z (2 * i) k
    set t1 := ∑ k ∈ Finset.Ico (i + 1) n, trm c z (2 * i + 1) k
    have hD' := hD t0 t1
    unfold Eqn
    dsimp only
    rw [sum_Ico_pred i1, sum_Ico_pred i1]
    have same : ∀ u v r, ∑ k ∈ Finset.Ico (i + 1) n, trm c (fun r => Function.update (Function.update X.val (2 * i + J * (2 * n)) u) (2 * i + 1 + J * (2 * n)) v (r + J * (2 * n))) r k =
        ∑ k ∈ Finset.Ico (i + 1) n, trm c z r k := fun u v r => sum_Ico_congr fun k k0 k1 => trm_congr
      (by rw [Function.update_of_ne (by omega), Function.update_of_ne (by omega)]) (by rw [Function.update_of_ne (by omega), Function.update_of_ne (by omega)]) r
    rw [same, same]
    change _ + t0 = 0 ∧ _ + t1 = 0
    clear_value t0 t1
    unfold trm
    dsimp only
    rw [Function.update_of_ne (show 2 * i + J * (2 * n) ≠ 2 * i + 1 + J * (2 * n) by omega), Function.update_self, Function.update_self]
    unfold M2.app blkOf at hD'
    simp only [Prod.mk.injEq] at hD'
    unfold M2.app
    dsimp only
    constructor
    · linear_combination -hD'.1
    · linear_combination -hD'.2

/-- All block rows above block `j`, in the two columns `2 j` and `2 j + 1`. -/
theorem btbInner (hn : A.n = n) (hAB : max A.b B.b = max bA bB) (hA : ∀ i k, A.blk i k = some (blkOf a i k)) (hB : ∀ i k, B.blk i k = some (blkOf b i k))
    (hz : ∀ i k, 0 ≤ i → i < n → i + max bA bB < k → k < n → BZ a i k ∧ BZ b i k) {lam : K × K} {j : Int} (j0 : 0 ≤ j) (j1 : j < n)
    (hd0 : ∀ i, 0 ≤ i → i < j → (blkOf (pencil a b lam.1) i i).det ≠ 0) (hd1 : ∀ i, 0 ≤ i → i < j → (blkOf (pencil a b lam.2) i i).det ≠ 0) {W : Buf K} (hW : 2 * n * (2 * n) ≤ W.size) :
    ∃ X, forDown (j - 1) 0 (fun i V =>
        ((btbEigRow A B lam.1 i (2 * j * (2 * n)) V).bind (wrBoth V i (2 * j * (2 * n)))).bind fun V =>
        (btbEigRow A B lam.2 i ((2 * j + 1) * (2 * n)) V).bind (wrBoth V i ((2 * j + 1) * (2 * n)))) W = some X ∧ X.size = W.size ∧
      (∀ q, (∀ r J, 0 ≤ r → r < 2 * j → (J = 2 * j ∨ J = 2 * j + 1) → q ≠ r + J * (2 * n)) → X.val q = W.val q) ∧
      ∀ i, 0 ≤ i → i < j → Eqn n (2 * n) (pencil a b lam.1) (2 * j) i X ∧ Eqn n (2 * n) (pencil a b lam.2) (2 * j + 1) i X := by
  obtain ⟨X, e, p1, p2, p3⟩ := forDown_spec (lo := 0) (hi := j - 1) (s := W) (body := fun i V =>
        ((btbEigRow A B lam.1 i (2 * j * (2 * n)) V).bind (wrBoth V i (2 * j * (2 * n)))).bind fun V =>
        (btbEigRow A B lam.2 i ((2 * j + 1) * (2 * n)) V).bind (wrBoth V i ((2 * j + 1) * (2 * n))))
    (fun I X => X.size = W.size ∧ (∀ q, (∀ r J, 2 * (I + 1) ≤ r → r < 2 * j → (J = 2 * j ∨ J = 2 * j + 1) → q ≠ r + J * (2 * n)) → X.val q = W.val q) ∧
      ∀ i, I < i → i < j → Eqn n (2 * n) (pencil a b lam.1) (2 * j) i X ∧ Eqn n (2 * n) (pencil a b lam.2) (2 * j + 1) i X)
    ⟨rfl, fun _ _ => rfl, fun i h1 h2 => by omega⟩
    (fun i i0 i1 X hX => by
      obtain ⟨q1, q2, q3⟩ := hX
      obtain ⟨Y, eY, y1, y2, y3⟩ := btbStep hn hAB hA hB hz i0 (show i < n by omega) (show 0 ≤ 2 * j by omega) (by omega) (hd0 i i0 (by omega)) (X := X) (by omega)
      obtain ⟨Z, eZ, z1, z2, z3⟩ := btbStep hn hAB hA hB hz i0 (show i < n by omega) (show 0 ≤ 2 * j + 1 by omega) (by omega) (hd1 i i0 (by omega)) (X := Y) (by omega)
      refine ⟨Z, by rw [eY, Option.bind_some]; exact eZ, by omega, fun q hq => ?_, fun i' h1 h2 => ?_⟩
      · rw [z2 q (hq _ _ (by omega) (by omega) (.inr rfl)) (hq _ _ (by omega) (by omega) (.inr rfl)), y2 q (hq _ _ (by omega) (by omega) (.inl rfl)) (hq _ _ (by omega) (by omega) (.inl rfl))]
        exact q2 q fun r J a1 a2 a3 => hq r J (by omega) a2 a3
      · have ne : ∀ r r' J J', 0 ≤ r → r < 2 * n → 0 ≤ r' → r' < 2 * n → (r ≠ r' ∨ J ≠ J') → r + J * (2 * n) ≠ r' + J' * (2 * n) := fun r r' J J' h1 h2 h3 h4 h5 h6 => by
          obtain ⟨b1, b2⟩ := ij_inj h1 h2 h3 h4 h6; omega
        by_cases hi : i' = i
        · subst hi
          exact ⟨y3.congr fun r r0 r1 => z2 _ (ne _ _ _ _ (by omega) r1 (by omega) (by omega) (by omega)) (ne _ _ _ _ (by omega) r1 (by omega) (by omega) (by omega)), z3⟩
        · obtain ⟨f1, f2⟩ := q3 i' (by omega) h2
          exact ⟨f1.congr fun r r0 r1 => by
              rw [z2 _ (ne _ _ _ _ (by omega) r1 (by omega) (by omega) (by omega)) (ne _ _ _ _ (by omega) r1 (by omega) (by omega) (by omega)),
                y2 _ (ne _ _ _ _ (by omega) r1 (by omega) (by omega) (by omega)) (ne _ _ _ _ (by omega) r1 (by omega) (by omega) (by omega))],
            f2.congr fun r r0 r1 => by
              rw [z2 _ (ne _ _ _ _ (by omega) r1 (by omega) (by omega) (by omega)) (ne _ _ _ _ (by omega) r1 (by omega) (by omega) (by omega)),
                y2 _ (ne _ _ _ _ (by omega) r1 (by omega) (by omega) (by omega)) (ne _ _ _ _ (by omega) r1 (by omega) (by omega) (by omega))]⟩)
  exact ⟨X, e, p1, fun q hq => p2 q fun r J a1 a2 a3 => hq r J (by omega) a2 a3, fun i i0 i1 => p3 i (by omega) i1⟩

/-- The diagonal block. -/
theorem btbDiag {lam : K} {j J : Int} (j0 : 0 ≤ j) (j1 : j < n) (J0 : 0 ≤ J) (J1 : J < 2 * n) (hne : a (2 * j + 1) (2 * j + 1) - lam * b (2 * j + 1) (2 * j + 1) ≠ 0)
    (hdet : (blkOf (pencil a b lam) j j).det = 0) {X : Buf K} (hX : 2 * n * (2 * n) ≤ X.size) (hlow : ∀ r, 2 * j + 1 < r → r < 2 * n → X.val (r + J * (2 * n)) = 0) :
    ∃ X', btbEigDiag (blkOf a j j) (blkOf b j j) lam j (J * (2 * n)) X = some X' ∧ X'.size = X.size ∧ (∀ q, q ≠ 2 * j + 1 + J * (2 * n) → X'.val q = X.val q) ∧
      Eqn n (2 * n) (pencil a b lam) J j X' := by
  have pos : ∀ r, 0 ≤ r → r < 2 * n → 0 ≤ r + J * (2 * n) ∧ r + J * (2 * n) < X.size := fun r r0 r1 => ij_lt r0 r1 J0 J1 hX
  have hne' : (blkOf a j j).d - (blkOf b j j).d * lam ≠ 0 := by rw [mul_comm]; exact hne
  unfold btbEigDiag
  rw [Buf.rd_of (pos _ (by omega) (by omega)).1 (pos _ (by omega) (by omega)).2, Option.bind_some, divC_of hne', Option.bind_some, Buf.wr_of (pos _ (by omega) (by omega)).1 (pos _ (by omega) (by omega)).2]
  refine ⟨_, rfl, rfl, fun q h => ?_, ?_⟩
  · dsimp only; rw [Function.update_of_ne h]
  · unfold Eqn
    dsimp only
    rw [sum_Ico_pred j1, sum_Ico_pred j1]
    have hzero : ∀ w r, ∑ k ∈ Finset.Ico (j + 1) n, trm (pencil a b lam) (fun r => Function.update X.val (2 * j + 1 + J * (2 * n)) w (r + J * (2 * n))) r k = 0 := fun w r => by
      rw [sum_Ico_congr (g := fun _ => (0 : K)) fun k k0 k1 => by
        unfold trm
        dsimp only
        rw [Function.update_of_ne (by omega), Function.update_of_ne (by omega), hlow _ (by omega) (by omega), hlow _ (by omega) (by omega), mul_zero, mul_zero, add_zero], Finset.sum_const_zero]
    rw [hzero, hzero]
    unfold trm
    dsimp only
    rw [Function.update_self, Function.update_of_ne (show 2 * j + J * (2 * n) ≠ 2 * j + 1 + J * (2 * n) by omega)]
    unfold M2.det blkOf pencil at hdet
    dsimp only at hdet
    unfold blkOf at *
    unfold pencil
    dsimp only at *
    generalize X.val (2 * j + J * (2 * n)) = v
    set p := a (2 * j + 1) (2 * j + 1) - b (2 * j + 1) (2 * j + 1) * lam with hp
    have hw : (b (2 * j + 1) (2 * j) * lam - a (2 * j + 1) (2 * j)) * v / p * p = (b (2 * j + 1) (2 * j) * lam - a (2 * j + 1) (2 * j)) * v := div_mul_cancel₀ _ hne'
    generalize (b (2 * j + 1) (2 * j) * lam - a (2 * j + 1) (2 * j)) * v / p = w at hw
    constructor
    · have : p * ((a (2 * j) (2 * j) - lam * b (2 * j) (2 * j)) * v + (a (2 * j) (2 * j + 1) - lam * b (2 * j) (2 * j + 1)) * w) = 0 := by
        rw [hp] at *
        linear_combination v * hdet + (a (2 * j) (2 * j + 1) - lam * b (2 * j) (2 * j + 1)) * hw
      rw [add_zero]
      exact (mul_eq_zero.1 this).resolve_left hne'
    · rw [hp] at hw
      linear_combination hw

/-- The whole computation. -/
theorem btbEig_spec {sqrt : K → K} (hn : A.n = n) (hAB : max A.b B.b = max bA bB) (hA : ∀ i k, A.blk i k = some (blkOf a i k)) (hB : ∀ i k, B.blk i k = some (blkOf b i k))
    (hz : ∀ i k, 0 ≤ i → i < n → i + max bA bB < k → k < n → BZ a i k ∧ BZ b i k) {lam : Int → K × K}
    (hlam : ∀ j, 0 ≤ j → j < n → genEig sqrt (blkOf a j j) (blkOf b j j) = some (lam j))
    (hdet : ∀ j, 0 ≤ j → j < n → (blkOf (pencil a b (lam j).1) j j).det = 0 ∧ (blkOf (pencil a b (lam j).2) j j).det = 0)
    (hne : ∀ j, 0 ≤ j → j < n → a (2 * j + 1) (2 * j + 1) - (lam j).1 * b (2 * j + 1) (2 * j + 1) ≠ 0 ∧ a (2 * j + 1) (2 * j + 1) - (lam j).2 * b (2 * j + 1) (2 * j + 1) ≠ 0)
    (hd : ∀ i j, 0 ≤ i → i < j → j < n → (blkOf (pencil a b (lam j).1) i i).det ≠ 0 ∧ (blkOf (pencil a b (lam j).2) i i).det ≠ 0) {V : Buf K} (hV : 2 * n * (2 * n) ≤ V.size)
    (hlow : ∀ r J, 0 ≤ J → J < 2 * n → 2 * (J / 2) + 1 < r → r < 2 * n → V.val (r + J * (2 * n)) = 0) :
    ∃ V', btbEigenvectors sqrt A B V = some V' ∧ V'.size = V.size ∧
      (∀ q, (∀ r J, 0 ≤ r → r < 2 * n → 0 ≤ J → J < 2 * n → (r / 2 < J / 2 ∨ r = 2 * (J / 2) + 1) → q ≠ r + J * (2 * n)) → V'.val q = V.val q) ∧
      ∀ i j, 0 ≤ i → i ≤ j → j < n → Eqn n (2 * n) (pencil a b (lam j).1) (2 * j) i V' ∧ Eqn n (2 * n) (pencil a b (lam j).2) (2 * j + 1) i V' := by
  unfold btbEigenvectors
  rw [hn]
  have ne : ∀ r r' J J', 0 ≤ r → r < 2 * n → 0 ≤ r' → r' < 2 * n → (r ≠ r' ∨ J ≠ J') → r + J * (2 * n) ≠ r' + J' * (2 * n) := fun r r' J J' h1 h2 h3 h4 h5 h6 => by
    obtain ⟨b1, b2⟩ := ij_inj h1 h2 h3 h4 h6; omega
  obtain ⟨V', e, p1, p2, p3⟩ := forUp_spec (lo := 0) (hi := n) (s := V) (body := fun j V =>
      (A.blk j j).bind fun a => (B.blk j j).bind fun b => (genEig sqrt a b).bind fun lam =>
      (btbEigDiag a b lam.1 j (2 * j * (2 * n)) V).bind fun V => (btbEigDiag a b lam.2 j ((2 * j + 1) * (2 * n)) V).bind fun V =>
      forDown (j - 1) 0 (fun i V =>
        ((btbEigRow A B lam.1 i (2 * j * (2 * n)) V).bind (wrBoth V i (2 * j * (2 * n)))).bind fun V =>
        (btbEigRow A B lam.2 i ((2 * j + 1) * (2 * n)) V).bind (wrBoth V i ((2 * j + 1) * (2 * n)))) V)
    (fun M X => X.size = V.size ∧
      (∀ q, (∀ r J, 0 ≤ r → r < 2 * n → 0 ≤ J → J < 2 * n → J / 2 < M → (r / 2 < J / 2 ∨ r = 2 * (J / 2) + 1) → q ≠ r + J * (2 * n)) → X.val q = V.val q) ∧
      ∀ i j, 0 ≤ i → i ≤ j → j < n → j < M → Eqn n (2 * n) (pencil a b (lam j).1) (2 * j) i X ∧ Eqn n (2 * n) (pencil a b (lam j).2) (2 * j + 1) i X)
    ⟨rfl, fun _ _ => rfl, fun i j h1 h2 _ h3 => by omega⟩
    (fun j j0 j1 W hW => by
      obtain ⟨q1, q2, q3⟩ := hW
      have lowW : ∀ r J, (J = 2 * j ∨ J = 2 * j + 1) → 2 * j + 1 < r → r < 2 * n → W.val (r + J * (2 * n)) = 0 := fun r J hJ h1 h2 => by
        rw [q2 _ fun r' J' a1 a2 a3 a4 a5 a6 => ne _ _ _ _ (by omega) h2 a1 a2 (by omega)]
        exact hlow r J (by omega) (by omega) (by omega) h2
      obtain ⟨X, eX, x1, x2, x3⟩ := btbDiag (J := 2 * j) j0 j1 (by omega) (by omega) (hne j j0 j1).1 (hdet j j0 j1).1 (X := W) (by omega) fun r h1 h2 => lowW r _ (.inl rfl) h1 h2
      obtain ⟨Y, eY, y1, y2, y3⟩ := btbDiag (J := 2 * j + 1) j0 j1 (by omega) (by omega) (hne j j0 j1).2 (hdet j j0 j1).2 (X := X) (by omega) fun r h1 h2 => by
        rw [x2 _ (ne _ _ _ _ (by omega) h2 (by omega) (by omega) (by omega))]; exact lowW r _ (.inr rfl) h1 h2
      obtain ⟨Z, eZ, z1, z2, z3⟩ := btbInner hn hAB hA hB hz j0 j1 (fun i i0 i1 => (hd i j i0 i1 j1).1) (fun i i0 i1 => (hd i j i0 i1 j1).2) (W := Y) (by omega)
      refine ⟨Z, by rw [hA, Option.bind_some, hB, Option.bind_some, hlam j j0 j1, Option.bind_some, eX, Option.bind_some, eY, Option.bind_some]; exact eZ, by omega, fun q hq => ?_, fun i j' i0 h1 h2 h3 => ?_⟩
      · rw [z2 q fun r J a1 a2 a3 => hq r J (by omega) (by omega) (by omega) (by omega) (by omega) (by omega),
          y2 q (hq _ _ (by omega) (by omega) (by omega) (by omega) (by omega) (by omega)), x2 q (hq _ _ (by omega) (by omega) (by omega) (by omega) (by omega) (by omega))]
        exact q2 q fun r J a1 a2 a3 a4 a5 a6 => hq r J a1 a2 a3 a4 (by omega) a6
      · by_cases hj : j' = j
        · subst hj
          by_cases hi : i = j'
          · subst hi
            exact ⟨x3.congr fun r r0 r1 => by rw [z2 _ fun r' J' a1 a2 a3 => ne _ _ _ _ (by omega) r1 a1 (by omega) (by omega), y2 _ (ne _ _ _ _ (by omega) r1 (by omega) (by omega) (by omega))],
              y3.congr fun r r0 r1 => by rw [z2 _ fun r' J' a1 a2 a3 => ne _ _ _ _ (by omega) r1 a1 (by omega) (by omega)]⟩
          · exact z3 i i0 (by omega)
        · obtain ⟨f1, f2⟩ := q3 i j' i0 h1 h2 (by omega)
          exact ⟨f1.congr fun r r0 r1 => by
              rw [z2 _ fun r' J' a1 a2 a3 => ne _ _ _ _ (by omega) r1 a1 (by omega) (by omega), y2 _ (ne _ _ _ _ (by omega) r1 (by omega) (by omega) (by omega)), x2 _ (ne _ _ _ _ (by omega) r1 (by omega) (by omega) (by omega))],
            f2.congr fun r r0 r1 => by
              rw [z2 _ fun r' J' a1 a2 a3 => ne _ _ _ _ (by omega) r1 a1 (by omega) (by omega), y2 _ (ne _ _ _ _ (by omega) r1 (by omega) (by omega) (by omega)), x2 _ (ne _ _ _ _ (by omega) r1 (by omega) (by omega) (by omega))]⟩)
  exact ⟨V', e, p1, fun q hq => p2 q fun r J a1 a2 a3 a4 _ a6 => hq r J a1 a2 a3 a4 a6, fun i j i0 h1 h2 => p3 i j i0 h1 h2 (by omega)⟩

end FT
