import Verif.Model.Mpfr
import Verif.Props.PlansScale

/-!
# Plans in multiple precision: eigenvectors and scales
-/

set_option linter.unusedSectionVars false

namespace FT.Poly
open Polynomial FT FT.Model FT.Fmm FT.Props FT.Props.Hier FT.Props.TbEig FT.Props.Eig FT.Props.Ops FT.Props.Plan
variable {K : Type*} [Field K] [LinearOrder K] [IsStrictOrderedRing K] {F : Libm K} {n : Int} {junk : Int → K}

section
variable {A B : TB K} {bA bB : Int} {a b : Int → Int → K}

theorem mpfrEigRow_of (hA : StoresT A n bA a) (hB : StoresT B n bB b) {lam : K} {i j : Int} (i0 : 0 ≤ i) (ij : i < j) (j1 : j < n) {W : Buf K} (hW : n * n ≤ W.size) (hd : lam * b i i - a i i ≠ 0) :
    mpfrEigRow A B lam i j W = some (-((∑ k ∈ Finset.Ico (i + 1) n, (lam * b i k - a i k) * Eig.col W n k j) / (lam * b i i - a i i))) := by
  unfold mpfrEigRow
  obtain ⟨dA1, dA2⟩ := hA.dims
  obtain ⟨dB1, dB2⟩ := hB.dims
  rw [dA1, dA2, dB2, accUp_eq (g := fun k => (lam * b i k - a i k) * Eig.col W n k j) fun k k0 k1 => by
    obtain ⟨b1, b2⟩ := ij_lt (show 0 ≤ k by omega) (show k < n by omega) (show 0 ≤ j by omega) j1 hW
    rw [Buf.rd_of b1 b2, Option.bind_some, hA.get, Option.bind_some, hB.get]; rfl]
  have hz : ∀ k, i + 1 ≤ k → k < n → ¬ (i + 1 ≤ k ∧ k < min (i + max bA bB + 1) n) → a i k = 0 ∧ b i k = 0 := fun k k0 k1 hk =>
    ⟨C14_zero_outside_tri hA (by unfold band; omega), C14_zero_outside_tri hB (by unfold band; omega)⟩
  rw [Option.bind_some, hA.get, Option.bind_some, hB.get, Option.bind_some, divC_of hd, zero_add,
    ← sum_Ico_shrink (hi := n) (fun k k0 k1 hk => by obtain ⟨h1, h2⟩ := hz k k0 k1 hk; rw [h1, h2]; simp) le_rfl (min_le_right _ _)]
  rfl

theorem mpfrEig_run (hA : StoresT A n bA a) (hB : StoresT B n bB b) (hb : ∀ j, 0 ≤ j → j < n → b j j ≠ 0) {V : Buf K} (hV : n * n ≤ V.size)
    (hlow : ∀ i j, 0 ≤ j → j < i → i < n → Eig.col V n i j = 0) (hdist : ∀ i j, 0 ≤ i → i < j → j < n → a j j / b j j ≠ a i i / b i i) :
    ∃ V', mpfrEigenvectors A B V = some V' ∧ OnlyAbove n V V' ∧ ∀ i j, 0 ≤ i → i < n → 0 ≤ j → j < n →
      ∑ k ∈ Finset.Ico 0 n, a i k * Eig.col V' n k j = a j j / b j j * ∑ k ∈ Finset.Ico 0 n, b i k * Eig.col V' n k j := by
  have haz : ∀ i k, k < i → a i k = 0 := fun i k h => C14_zero_outside_tri hA (by unfold band; omega)
  have hbz : ∀ i k, k < i → b i k = 0 := fun i k h => C14_zero_outside_tri hB (by unfold band; omega)
  have hd : ∀ i j, 0 ≤ i → i < j → j < n → a j j / b j j * b i i - a i i ≠ 0 := fun i j i0 ij j1 h =>
    hdist i j i0 ij j1 ((eq_div_iff (hb i i0 (by omega))).2 (sub_eq_zero.1 h))
  unfold mpfrEigenvectors
  rw [hA.dims.1]
  obtain ⟨V', e, p1, p2, p3⟩ := backSub_spec (n := n) (lam := pencilLam A B) (row := mpfrEigRow A B) (l := fun j => a j j / b j j)
    (g := fun i j v => -((∑ k ∈ Finset.Ico (i + 1) n, (a j j / b j j * b i k - a i k) * v k) / (a j j / b j j * b i i - a i i))) hV
    (fun j j0 j1 => pencilLam_of hA hB (hb j j0 j1)) (fun i j W i0 ij j1 hW _ _ => mpfrEigRow_of hA hB i0 ij j1 (by omega) (hd i j i0 ij j1))
    (fun i j v w h => by
      rw [sum_Ico_congr (lo := i + 1) (f := fun k => (a j j / b j j * b i k - a i k) * v k) fun k k0 k1 => by rw [h k (by omega) k1]])
  refine ⟨V', e, ⟨p1, p2⟩, fun i j i0 i1 j0 j1 => ?_⟩
  have keep : ∀ i', j ≤ i' → i' < n → Eig.col V' n i' j = Eig.col V n i' j := fun i' h1 h2 => OnlyAbove.keep ⟨p1, p2⟩ h1 (by omega) h2
  have low : ∀ i', j < i' → i' < n → Eig.col V' n i' j = 0 := fun i' h1 h2 => by rw [keep i' (by omega) h2, hlow i' j j0 h1 h2]
  rw [← sub_eq_zero, tri_rows haz hbz i0 i1]
  rcases lt_trichotomy i j with h | h | h
  · have q := p3 i j i0 h j1
    change Eig.col V' n i j = -((∑ k ∈ Finset.Ico (i + 1) n, (a j j / b j j * b i k - a i k) * Eig.col V' n k j) / _) at q
    have hq : (a j j / b j j * b i i - a i i) * Eig.col V' n i j = -∑ k ∈ Finset.Ico (i + 1) n, (a j j / b j j * b i k - a i k) * Eig.col V' n k j := by
      rw [q, mul_neg, mul_div_cancel₀ _ (hd i j i0 h j1)]
    have hs : ∑ k ∈ Finset.Ico (i + 1) n, (a i k - a j j / b j j * b i k) * Eig.col V' n k j = -∑ k ∈ Finset.Ico (i + 1) n, (a j j / b j j * b i k - a i k) * Eig.col V' n k j := by
      rw [← Finset.sum_neg_distrib]
      exact sum_Ico_congr fun k _ _ => by ring
    rw [hs]
    linear_combination -hq
  · subst h
    rw [sum_Ico_congr (g := fun _ => (0 : K)) fun k k0 k1 => by rw [low k (by omega) k1, mul_zero], Finset.sum_const_zero, div_mul_cancel₀ _ (hb i i0 i1)]
    ring
  · rw [sum_Ico_congr (g := fun _ => (0 : K)) fun k k0 k1 => by rw [low k (by omega) k1, mul_zero], Finset.sum_const_zero, low i h i1]
    ring

end

omit [LinearOrder K] [IsStrictOrderedRing K] in
theorem unitMatrix_run : ∃ V, unitMatrix junk n = some V ∧ V.size = (n * n).toNat ∧ ∀ i j, 0 ≤ i → i < n → 0 ≤ j → j < n → V.val (i + j * n) = if i = j then 1 else 0 := by
  obtain ⟨V, e, s, v⟩ := forUp_spec (lo := 0) (hi := n) (s := (⟨(n * n).toNat, junk⟩ : Buf K))
    (body := fun j V => (forUp 0 n (fun i V => V.wr (i + j * n) 0) V).bind fun V => V.wr (j + j * n) 1)
    (fun k V => V.size = (n * n).toNat ∧ ∀ i j, 0 ≤ i → i < n → 0 ≤ j → j < n → j < k → V.val (i + j * n) = if i = j then 1 else 0) ⟨rfl, fun i j _ _ _ _ _ => by omega⟩ (by
      intro l l0 l1 A ⟨h1, h2⟩
      obtain ⟨B, e, s, v⟩ := forUp_spec (lo := 0) (hi := n) (s := A) (body := fun i V => V.wr (i + l * n) 0)
        (fun k V => V.size = (n * n).toNat ∧ ∀ i j, 0 ≤ i → i < n → 0 ≤ j → j < n → (j < l → V.val (i + j * n) = if i = j then 1 else 0) ∧ (j = l → i < k → V.val (i + j * n) = 0))
        ⟨h1, fun i j i0 i1 j0 j1 => ⟨fun h => h2 i j i0 i1 j0 j1 h, fun _ _ => by omega⟩⟩ (by
          intro k k0 k1 B ⟨q1, q2⟩
          obtain ⟨b0, b1⟩ := ij_lt2 k0 k1 l0 l1
          refine ⟨⟨B.size, Function.update B.val (k + l * n) 0⟩, Buf.wr_of (b := B) b0 (by rw [q1]; omega), q1, fun i j i0 i1 j0 j1 => ⟨fun h => ?_, fun h h' => ?_⟩⟩
          · dsimp only
            rw [Function.update_of_ne (fun h' => by have := rc_inj' i0 i1 k0 k1 h'; omega)]
            exact (q2 i j i0 i1 j0 j1).1 h
          · dsimp only
            by_cases hik : i = k
            · rw [hik, h, Function.update_self]
            · rw [Function.update_of_ne (fun h' => hik (rc_inj' i0 i1 k0 k1 h').1)]
              exact (q2 i j i0 i1 j0 j1).2 h (by omega))
      obtain ⟨b0, b1⟩ := ij_lt2 l0 l1 l0 l1
      refine ⟨⟨B.size, Function.update B.val (l + l * n) 1⟩, by rw [e, Option.bind_some]; exact Buf.wr_of (b := B) b0 (by rw [s]; omega), s, fun i j i0 i1 j0 j1 hjk => ?_⟩
      dsimp only
      by_cases hij : i = l ∧ j = l
      · rw [hij.1, hij.2, Function.update_self, if_pos rfl]
      · rw [Function.update_of_ne (fun h' => hij (rc_inj' i0 i1 l0 l1 h'))]
        rcases lt_or_eq_of_le (show j ≤ l by omega) with h | h
        · exact (v i j i0 i1 j0 j1).1 h
        · rw [(v i j i0 i1 j0 j1).2 h (by omega), if_neg (by omega)])
  exact ⟨V, e, s, fun i j i0 i1 j0 j1 => v i j i0 i1 j0 j1 (by omega)⟩

/-- The plan before it is scaled holds the connection coefficients of the polynomials whose leading coefficients are those of the family converted to. -/
theorem basic_run {P : Conv K} {b : Int} {L : K[X] → K[X]} {p q u : Int → K[X]} {sp sq su lam : Int → K} (h : PlanOk P n b L p q u sp sq su lam) (h1 : ∀ i, 0 ≤ i → sp i = sq i) (hn : 0 ≤ n) :
    ∃ V, mpfrBasic junk n P.A P.B = some V ∧ Dense n V p q := by
  obtain ⟨A, B, a, b', eA, eB, sA, sB, nb, lj, con⟩ := h.pencil
  have nn : 0 ≤ n * n := mul_nonneg hn hn
  obtain ⟨D, eD, D1, D2⟩ := unitMatrix_run (junk := junk) (n := n)
  have low : ∀ i j, 0 ≤ j → j < i → i < n → Eig.col D n i j = 0 := fun i j j0 ji i1 => by
    unfold Eig.col
    rw [D2 i j (by omega) i1 j0 (by omega), if_neg (by omega)]
  obtain ⟨V, eV, o, he⟩ := mpfrEig_run sA sB nb (by rw [D1]; omega) low (fun i j i0 ij j1 => by rw [lj i i0 (by omega), lj j (by omega) j1]; exact (h.dist i j i0 ij).symm)
  have up : ∀ i j, 0 ≤ j → j < i → i < n → V.val (i + j * n) = 0 := fun i j j0 ji i1 => by
    have : Eig.col V n i j = Eig.col D n i j := o.keep (by omega) (by omega) i1
    rw [low i j j0 ji i1] at this
    exact this
  refine ⟨V, ?_, by rw [← D1]; exact o.1, up, con _ up (fun j j0 j1 => ?_) he⟩
  · unfold mpfrBasic
    rw [eA, eB, eD]
    exact eV
  · have : Eig.col V n j j = Eig.col D n j j := o.keep le_rfl j0 j1
    unfold Eig.col at this
    rw [this, D2 j j j0 j1 j0 j1, if_pos rfl, h1 j j0, div_self (h.gq j j0).1]

/-! ## Scaling -/

omit [LinearOrder K] [IsStrictOrderedRing K] in
theorem scaleEntry_run {r c V : Buf K} (hV : V.size = (n * n).toNat) (hr : r.size = n.toNat) (hc : c.size = n.toNat) {i j : Int} (i0 : 0 ≤ i) (i1 : i < n) (j0 : 0 ≤ j) (j1 : j < n) :
    scaleEntry n r c i j V = some ⟨V.size, Function.update V.val (i + j * n) (r.val i * V.val (i + j * n) * c.val j)⟩ := by
  obtain ⟨b0, b1⟩ := ij_lt2 i0 i1 j0 j1
  unfold scaleEntry
  rw [Buf.rd_of i0 (by rw [hr]; omega), Option.bind_some, Buf.rd_of b0 (by rw [hV]; omega), Option.bind_some, Buf.wr_of b0 (by rw [hV]; omega), Option.bind_some,
    Buf.rd_of b0 (by show _ < (V.size : Int); rw [hV]; omega), Option.bind_some, Buf.rd_of j0 (by rw [hc]; omega), Option.bind_some, Buf.wr_of b0 (by show _ < (V.size : Int); rw [hV]; omega)]
  dsimp only
  rw [Function.update_self, Function.update_idem]

omit [LinearOrder K] [IsStrictOrderedRing K] in
theorem scaleBoth_run [DecidableEq K] {r c V : Buf K} (hV : V.size = (n * n).toNat) (hr : r.size = n.toNat) (hc : c.size = n.toNat) : ∃ V', scaleBoth n r c V = some V' ∧ V'.size = V.size ∧
    ∀ i j, 0 ≤ i → i < n → 0 ≤ j → j < n → V'.val (i + j * n) = if i ≤ j then r.val i * V.val (i + j * n) * c.val j else V.val (i + j * n) := by
  obtain ⟨V', e, s, v⟩ := grid_run (m := n) (n := n) (w := fun j => j + 1) (A := V) (step := fun i j V => scaleEntry n r c i j V)
    (g := fun i j a => r.val i * a * c.val j) (fun j _ _ => by omega) (by
      intro i j i0 i1 j0 j1 B hB
      exact scaleEntry_run (hB.trans hV) hr hc i0 (by omega) j0 j1)
  refine ⟨V', e, s, fun i j i0 i1 j0 j1 => ?_⟩
  rw [v i j i0 i1 j0 j1]
  exact if_congr (by omega) rfl rfl

omit [LinearOrder K] [IsStrictOrderedRing K] in
theorem scaleBoth2_run {r c V : Buf K} (hV : V.size = (n * n).toNat) (hr : r.size = n.toNat) (hc : c.size = n.toNat) : ∃ V', scaleBoth2 n r c V = some V' ∧ V'.size = V.size ∧
    ∀ i j, 0 ≤ i → i < n → 0 ≤ j → j < n → V'.val (i + j * n) = if i ≤ j ∧ (i + j) % 2 = 0 then r.val i * V.val (i + j * n) * c.val j else V.val (i + j * n) := by
  obtain ⟨V', e, s, v⟩ := forUp_spec (lo := 0) (hi := n) (s := V)
    (body := fun j V => forUp 0 (j / 2 + 1) (fun k V => scaleEntry n r c (j - 2 * k) j V) V)
    (fun k V' => V'.size = V.size ∧ ∀ i j, 0 ≤ i → i < n → 0 ≤ j → j < n → V'.val (i + j * n) = if j < k ∧ i ≤ j ∧ (i + j) % 2 = 0 then r.val i * V.val (i + j * n) * c.val j else V.val (i + j * n))
    ⟨rfl, fun i j _ _ _ _ => by rw [if_neg (by omega)]⟩ (by
      intro l l0 l1 A ⟨h1, h2⟩
      obtain ⟨A', e, s, v⟩ := forUp_spec (lo := 0) (hi := l / 2 + 1) (s := A)
        (body := fun k V => scaleEntry n r c (l - 2 * k) l V)
        (fun k V' => V'.size = V.size ∧ ∀ i j, 0 ≤ i → i < n → 0 ≤ j → j < n → V'.val (i + j * n) = if (j < l ∧ i ≤ j ∧ (i + j) % 2 = 0) ∨ (j = l ∧ i ≤ j ∧ l < i + 2 * k ∧ (i + j) % 2 = 0) then r.val i * V.val (i + j * n) * c.val j else V.val (i + j * n))
        ⟨h1, fun i j i0 i1 j0 j1 => by rw [h2 i j i0 i1 j0 j1]; exact if_congr (by omega) rfl rfl⟩ (by
          intro k k0 k1 B ⟨q1, q2⟩
          refine ⟨_, scaleEntry_run (q1.trans hV) hr hc (show 0 ≤ l - 2 * k by omega) (show l - 2 * k < n by omega) l0 l1, q1, ?_⟩
          intro i j i0 i1 j0 j1
          dsimp only
          rw [q2 _ l (by omega) (by omega) l0 l1, if_neg (by omega)]
          by_cases hik : i = l - 2 * k ∧ j = l
          · obtain ⟨rfl, rfl⟩ := hik
            rw [Function.update_self, if_pos (by omega)]
          · rw [Function.update_of_ne (fun h => hik (rc_inj' i0 i1 (by omega) (by omega) h)), q2 i j i0 i1 j0 j1]
            exact if_congr (by omega) rfl rfl)
      refine ⟨A', e, s, fun i j i0 i1 j0 j1 => ?_⟩
      rw [v i j i0 i1 j0 j1]
      exact if_congr (by omega) rfl rfl)
  refine ⟨V', e, s, fun i j i0 i1 j0 j1 => ?_⟩
  rw [v i j i0 i1 j0 j1]
  exact if_congr (by omega) rfl rfl

section
variable {p q p' q' : Int → K[X]} {V x y : Buf K} {c d : Int → K}

theorem both_conn {N : Int → Int → K} (h : Dense n V p q) (hq : ∀ i, 0 ≤ i → i < n → q i = C (c i) * q' i) (hp : ∀ i, 0 ≤ i → i < n → p' i = C (d i) * p i)
    (hN : ∀ i j, 0 ≤ i → i < n → 0 ≤ j → j < n → N i j = c i * V.val (i + j * n) * d j) : Connects n N p' q' :=
  connects_cols (connects_rows (N := fun i j => c i * V.val (i + j * n)) h.conn hq fun _ _ _ _ _ _ => rfl) hp fun i j i0 i1 j0 j1 => by rw [hN i j i0 i1 j0 j1]; ring

theorem dense_both (h : Dense n V p q) (hx : x.size = n.toNat) (hy : y.size = n.toNat) (hc : ∀ i, 0 ≤ i → i < n → x.val i = c i) (hd : ∀ i, 0 ≤ i → i < n → y.val i = d i)
    (hq : ∀ i, 0 ≤ i → i < n → q i = C (c i) * q' i) (hp : ∀ i, 0 ≤ i → i < n → p' i = C (d i) * p i) : ∃ V', scaleBoth n x y V = some V' ∧ Dense n V' p' q' := by
  obtain ⟨V', e, s, v⟩ := scaleBoth_run h.size hx hy
  refine ⟨V', e, s.trans h.size, fun i j j0 ij i1 => by rw [v i j (by omega) i1 j0 (by omega), if_neg (by omega), h.upper i j j0 ij i1], both_conn h hq hp fun i j i0 i1 j0 j1 => ?_⟩
  rw [v i j i0 i1 j0 j1]
  split_ifs with hij
  · rw [hc i i0 i1, hd j j0 j1]
  · rw [h.upper i j j0 (by omega) i1, mul_zero, zero_mul]

theorem dense_both2 (h : Dense n V p q) (ev : FT.Poly.Even n V) (hx : x.size = n.toNat) (hy : y.size = n.toNat) (hc : ∀ i, 0 ≤ i → i < n → x.val i = c i) (hd : ∀ i, 0 ≤ i → i < n → y.val i = d i)
    (hq : ∀ i, 0 ≤ i → i < n → q i = C (c i) * q' i) (hp : ∀ i, 0 ≤ i → i < n → p' i = C (d i) * p i) : ∃ V', scaleBoth2 n x y V = some V' ∧ Dense n V' p' q' := by
  obtain ⟨V', e, s, v⟩ := scaleBoth2_run h.size hx hy
  refine ⟨V', e, s.trans h.size, fun i j j0 ij i1 => by rw [v i j (by omega) i1 j0 (by omega), if_neg (by omega), h.upper i j j0 ij i1], both_conn h hq hp fun i j i0 i1 j0 j1 => ?_⟩
  rw [v i j i0 i1 j0 j1]
  split_ifs with hij
  · rw [hc i i0 i1, hd j j0 j1]
  · have : V.val (i + j * n) = 0 := by
      rcases lt_or_ge j i with g | g
      · exact h.upper i j j0 g i1
      · exact ev i j i0 i1 j0 j1 (by omega)
    rw [this, mul_zero, zero_mul]

end

end FT.Poly
