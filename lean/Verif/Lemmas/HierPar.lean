import Verif.Lemmas.HierAcc

/-! # The parallel product of a hierarchical matrix and a matrix -/

namespace FT.Props.Hier
open FT FT.Model FT.Prog
set_option linter.unusedSectionVars false
variable {K : Type*} [CommRing K] [DecidableEq K]
variable {O I p l LDB LDC : Int} {bo co : Buf Int} {bs cs : Int → Int} {B C : Ptr} {call : Int → Int → Int → Ptr → Ptr → Prog K Unit} {So : Int → Int → Prop}
  {G : Int → Int → Int → Int → K} {M0 : Buf K} {T : Nat} {owner : Int → Nat}

theorem groups_disjoint (cs0 : ∀ o, 0 ≤ o → o < O → 0 ≤ cs o) {o o' : Int} (o0 : 0 ≤ o) (o1 : o < O) (o0' : 0 ≤ o') (o1' : o' < O) (h : o ≠ o') {r : Int}
    (h1 : pre cs o ≤ r ∧ r < pre cs o + cs o) : ¬ (pre cs o' ≤ r ∧ r < pre cs o' + cs o') := by
  rcases lt_or_gt_of_ne h with c | c
  · have := pre_mono (j := o + 1) (k := o') cs0 (by omega) (by omega)
    rw [pre_succ o0] at this; omega
  · have := pre_mono (j := o' + 1) (k := o) cs0 (by omega) (by omega)
    rw [pre_succ o0'] at this; omega

/-- One parallel region of the product: the iterations for the `q` columns from `c`, by any number of threads and on any schedule. -/
theorem region_par (hI : 0 ≤ I) (hbo : ∀ i, 0 ≤ i → i < I → bo.rd i = some (pre bs i)) (hco : ∀ o, 0 ≤ o → o < O → co.rd o = some (pre cs o))
    (cs0 : ∀ o, 0 ≤ o → o < O → 0 ≤ cs o) (hLD : pre cs O ≤ LDC) (hcall : CallSpec O I p LDB LDC bs cs B C call (fun z => ∃ o, 0 ≤ o ∧ o < O ∧ So o z) G M0)
    (hS : ∀ k i, 0 ≤ k → k < p → 0 ≤ i → i < pre cs O → ∀ o, 0 ≤ o → o < O → ¬ So o ((C.add (k * LDC)).at i))
    (sB : ∀ k j, 0 ≤ k → k < p → 0 ≤ j → j < l → ∀ o, 0 ≤ o → o < O → ¬ So o ((B.add (k * LDB)).at j))
    (hBC : ∀ k j, 0 ≤ k → k < p → 0 ≤ j → j < l → ¬ CIn C LDC (pre cs O) p ((B.add (k * LDB)).at j))
    (hSS : ∀ o o', 0 ≤ o → o < O → 0 ≤ o' → o' < O → o ≠ o' → ∀ z, So o z → ¬ So o' z)
    {c q : Int} (c0 : 0 ≤ c) (q0 : 0 ≤ q) (c1 : c + q ≤ p)
    (hacc : ∀ (R W : Int → Prop), (∀ k j, 0 ≤ k → k < p → 0 ≤ j → j < l → R ((B.add (k * LDB)).at j)) → ∀ o, 0 ≤ o → o < O →
      (∀ z, CIn (C.add (pre cs o + c * LDC)) LDC (cs o) q z → R z ∧ W z) → (∀ z, So o z → R z ∧ W z) → (hmmIter I bo co call q c B LDB C LDC o).Acc R W)
    (hown : ∀ m, owner m < T) {M : Buf K} {z : Int → Int → K} (hM : SetsM M0 M C LDC (pre cs O) p (fun z => ∃ o, 0 ≤ o ∧ o < O ∧ So o z) z) :
    ParPost T (forThread 0 O owner fun o => hmmIter I bo co call q c B LDB C LDC o) M fun M' =>
      SetsM M0 M' C LDC (pre cs O) p (fun z => ∃ o, 0 ≤ o ∧ o < O ∧ So o z) fun r k => z r k + if c ≤ k ∧ k < c + q then
        ∑ o ∈ Finset.Ico 0 O, (if pre cs o ≤ r ∧ r < pre cs o + cs o then ∑ i ∈ Finset.Ico 0 I, G o i (r - pre cs o) k else 0) else 0 := by
  have hS' : ∀ k i, 0 ≤ k → k < p → 0 ≤ i → i < pre cs O → ¬ ∃ o, 0 ≤ o ∧ o < O ∧ So o ((C.add (k * LDC)).at i) := by
    rintro k i k0 k1 i0 i1 ⟨o, o0, o1, h⟩; exact hS k i k0 k1 i0 i1 o o0 o1 h
  have it : ∀ o, ∃ M', 0 ≤ o → o < O → (hmmIter I bo co call q c B LDB C LDC o).run M = some ((), M') ∧
      SetsM M M' (C.add (pre cs o + c * LDC)) LDC (cs o) q (fun z => ∃ o, 0 ≤ o ∧ o < O ∧ So o z) fun r k => M.val (((C.add (pre cs o + c * LDC)).add (k * LDC)).at r) + ∑ i ∈ Finset.Ico 0 I, G o i r (c + k) := by
    intro o
    by_cases h : 0 ≤ o ∧ o < O
    · obtain ⟨M', h'⟩ := iter_run hI hbo hco cs0 hLD hcall hS' h.1 h.2 c0 q0 c1 hM.1 hM.2.2
      exact ⟨M', fun _ _ => h'⟩
    · exact ⟨M, fun a b => (h ⟨a, b⟩).elim⟩
  choose F hF using it
  have sub : ∀ o, 0 ≤ o → o < O → ∀ {z}, CIn (C.add (pre cs o + c * LDC)) LDC (cs o) q z → CIn C LDC (pre cs O) p z := fun o o0 o1 z hz =>
    cin_le (pre_fits cs0 o0 o1).1 (pre_fits cs0 o0 o1).2 c0 c1 hz
  have noS : ∀ o, 0 ≤ o → o < O → ∀ {z}, CIn C LDC (pre cs O) p z → ¬ So o z := by
    intro o o0 o1 z hz
    obtain ⟨k, i, k0, k1, i0, i1, rfl⟩ := cin_iff.1 hz
    exact hS k i k0 k1 i0 i1 o o0 o1
  refine for_share (fun m _ _ => hown m) (R := fun o z => (∃ k j, 0 ≤ k ∧ k < p ∧ 0 ≤ j ∧ j < l ∧ z = (B.add (k * LDB)).at j) ∨ CIn (C.add (pre cs o + c * LDC)) LDC (cs o) q z ∨ So o z)
    (W := fun o z => CIn (C.add (pre cs o + c * LDC)) LDC (cs o) q z ∨ So o z) (fun _ _ h => Or.inr h) ?_ ?_ (F := F) (fun o o0 o1 => (hF o o0 o1).1) ?_
  · rintro o o' o0 o1 o0' o1' z hne hW hR
    rcases hW with hW | hW
    · rcases hR with ⟨k, j, k0, k1, j0, j1, rfl⟩ | hR | hR
      · exact hBC k j k0 k1 j0 j1 (sub o o0 o1 hW)
      · obtain ⟨k, i, k0, k1, i0, i1, rfl⟩ := cin_iff.1 (sub o o0 o1 hW)
        rw [cin_sub hLD (pre_fits cs0 o0 o1).1 (pre_fits cs0 o0 o1).2 i0 i1] at hW
        rw [cin_sub hLD (pre_fits cs0 o0' o1').1 (pre_fits cs0 o0' o1').2 i0 i1] at hR
        exact groups_disjoint cs0 o0 o1 o0' o1' hne hW.1 hR.1
      · exact noS o' o0' o1' (sub o o0 o1 hW) hR
    · rcases hR with ⟨k, j, k0, k1, j0, j1, rfl⟩ | hR | hR
      · exact sB k j k0 k1 j0 j1 o o0 o1 hW
      · exact noS o o0 o1 (sub o' o0' o1' hR) hW
      · exact hSS o o' o0 o1 o0' o1' hne z hW hR
  · intro o o0 o1
    exact hacc _ _ (fun k j k0 k1 j0 j1 => Or.inl ⟨k, j, k0, k1, j0, j1, rfl⟩) o o0 o1 (fun z hz => ⟨Or.inr (Or.inl hz), Or.inl hz⟩) (fun z hz => ⟨Or.inr (Or.inr hz), Or.inr hz⟩)
  · intro X hX h1 h2
    refine ⟨hX.trans hM.1, fun k r k0 k1 r0 r1 => ?_, fun a ha hs => ?_⟩
    · dsimp only
      by_cases hk : c ≤ k ∧ k < c + q
      · rw [if_pos hk]
        by_cases ho : ∃ o, 0 ≤ o ∧ o < O ∧ pre cs o ≤ r ∧ r < pre cs o + cs o
        · obtain ⟨o, o0, o1, hr⟩ := ho
          obtain ⟨-, f1, f2, f3⟩ := hF o o0 o1
          rw [h1 o o0 o1 _ (Or.inr (Or.inl ((cin_sub hLD (pre_fits cs0 o0 o1).1 (pre_fits cs0 o0 o1).2 r0 r1).2 ⟨hr, hk⟩))),
            Finset.sum_eq_single o (fun o' ho' hne => by
              rw [Finset.mem_Ico] at ho'
              exact if_neg (groups_disjoint cs0 o0 o1 ho'.1 ho'.2 (Ne.symm hne) hr)) (fun h => (h (Finset.mem_Ico.2 ⟨o0, o1⟩)).elim), if_pos hr]
          have := f2 (k - c) (r - pre cs o) (by omega) (by omega) (by omega) (by omega)
          dsimp only at this
          rw [col_at, show c + (k - c) = k by omega, show pre cs o + (r - pre cs o) = r by omega] at this
          rw [this, hM.2.1 k r k0 k1 r0 r1]
        · rw [h2, Finset.sum_eq_zero, add_zero, hM.2.1 k r k0 k1 r0 r1]
          · intro o ho'
            rw [Finset.mem_Ico] at ho'
            exact if_neg fun h => ho ⟨o, ho'.1, ho'.2, h⟩
          · intro o o0 o1 hW
            rcases hW with hW | hW
            · rw [cin_sub hLD (pre_fits cs0 o0 o1).1 (pre_fits cs0 o0 o1).2 r0 r1] at hW
              exact ho ⟨o, o0, o1, hW.1⟩
            · exact hS k r k0 k1 r0 r1 o o0 o1 hW
      · rw [if_neg hk, add_zero, h2, hM.2.1 k r k0 k1 r0 r1]
        intro o o0 o1 hW
        rcases hW with hW | hW
        · rw [cin_sub hLD (pre_fits cs0 o0 o1).1 (pre_fits cs0 o0 o1).2 r0 r1] at hW
          exact hk hW.2
        · exact hS k r k0 k1 r0 r1 o o0 o1 hW
    · rw [h2, hM.2.2 a ha hs]
      intro o o0 o1 hW
      rcases hW with hW | hW
      · exact ha (sub o o0 o1 hW)
      · exact hs ⟨o, o0, o1, hW⟩

/-- The parallel scaling of the columns of `C`. -/
theorem beta_par {n : Int} {beta : K} {S : Int → Prop} (hC : ∀ k, 0 ≤ k → k < p → (C.add (k * LDC)).Ok n M0.size) (hLD : n ≤ LDC) (hown : ∀ m, owner m < T) :
    ParPost T (forThread 0 p owner fun j => betaColP beta n C LDC j) M0 fun M' => SetsM M0 M' C LDC n p S fun r k => beta * M0.val ((C.add (k * LDC)).at r) := by
  refine for_share (fun m _ _ => hown m) (R := fun k z => (C.add (k * LDC)).In n z) (W := fun k z => (C.add (k * LDC)).In n z) (fun _ _ h => h) ?_ ?_
    (F := fun k => updP M0 (C.add (k * LDC)) n fun i => beta * M0.val ((C.add (k * LDC)).at i)) (fun k k0 k1 => betaP_run (hC k k0 k1)) ?_
  · intro k k' _ _ _ _ z hne h h'
    obtain ⟨i, i0, i1, rfl⟩ := Ptr.in_iff.1 h
    obtain ⟨i', i0', i1', e⟩ := Ptr.in_iff.1 h'
    exact hne (col_inj (LD := LDC) i0 (by omega) i0' (by omega) (by unfold Ptr.add Ptr.at at e; simp only at e; omega)).1
  · intro k _ _
    exact betaP_acc (fun i i0 i1 => Ptr.in_at i0 i1) (fun i i0 i1 => Ptr.in_at i0 i1)
  · intro X hX h1 h2
    refine ⟨hX, fun k i k0 k1 i0 i1 => ?_, fun a ha _ => ?_⟩
    · rw [h1 k k0 k1 _ (Ptr.in_at i0 i1), updP_in i0 i1]
    · exact h2 a fun k k0 k1 h => ha ⟨k, k0, k1, h⟩

theorem regions_par {Owner : Nat → Int → Nat} {beta : K} {d : Int} (hI : 0 ≤ I) (p0 : 0 ≤ p) (hbo : ∀ i, 0 ≤ i → i < I → bo.rd i = some (pre bs i)) (hco : ∀ o, 0 ≤ o → o < O → co.rd o = some (pre cs o))
    (cs0 : ∀ o, 0 ≤ o → o < O → 0 ≤ cs o) (hLD : pre cs O ≤ LDC) (hC : ∀ k, 0 ≤ k → k < p → (C.add (k * LDC)).Ok (pre cs O) M0.size)
    (hcall : CallSpec O I p LDB LDC bs cs B C call (fun z => ∃ o, 0 ≤ o ∧ o < O ∧ So o z) G M0)
    (hS : ∀ k i, 0 ≤ k → k < p → 0 ≤ i → i < pre cs O → ∀ o, 0 ≤ o → o < O → ¬ So o ((C.add (k * LDC)).at i))
    (sB : ∀ k j, 0 ≤ k → k < p → 0 ≤ j → j < l → ∀ o, 0 ≤ o → o < O → ¬ So o ((B.add (k * LDB)).at j))
    (hBC : ∀ k j, 0 ≤ k → k < p → 0 ≤ j → j < l → ¬ CIn C LDC (pre cs O) p ((B.add (k * LDB)).at j))
    (hSS : ∀ o o', 0 ≤ o → o < O → 0 ≤ o' → o' < O → o ≠ o' → ∀ z, So o z → ¬ So o' z)
    (hacc : ∀ c q, 0 ≤ c → 0 ≤ q → c + q ≤ p → ∀ (R W : Int → Prop), (∀ k j, 0 ≤ k → k < p → 0 ≤ j → j < l → R ((B.add (k * LDB)).at j)) → ∀ o, 0 ≤ o → o < O →
      (∀ z, CIn (C.add (pre cs o + c * LDC)) LDC (cs o) q z → R z ∧ W z) → (∀ z, So o z → R z ∧ W z) → (hmmIter I bo co call q c B LDB C LDC o).Acc R W)
    (hown : ∀ r m, Owner r m < T) :
    Regions T (hmmRegions O I (pre cs O) d bo co call p B LDB beta C LDC Owner) M0 fun M' =>
      SetsM M0 M' C LDC (pre cs O) p (fun z => ∃ o, 0 ≤ o ∧ o < O ∧ So o z) fun r k => beta * M0.val ((C.add (k * LDC)).at r) +
        ∑ o ∈ Finset.Ico 0 O, (if pre cs o ≤ r ∧ r < pre cs o + cs o then ∑ i ∈ Finset.Ico 0 I, G o i (r - pre cs o) k else 0) := by
  unfold hmmRegions
  have rest : ∀ M1, SetsM M0 M1 C LDC (pre cs O) p (fun z => ∃ o, 0 ≤ o ∧ o < O ∧ So o z) (fun r k => beta * M0.val ((C.add (k * LDC)).at r)) →
      Regions T (if p ≥ d then
        [forThread 0 O (Owner 1) fun o => hmmIter I bo co call (p / 2 - 0) 0 B LDB C LDC o,
          forThread 0 O (Owner 2) fun o => hmmIter I bo co call (p - p / 2) (p / 2) B LDB C LDC o]
        else [forThread 0 O (Owner 1) fun o => hmmIter I bo co call p 0 B LDB C LDC o]) M1 fun M' =>
      SetsM M0 M' C LDC (pre cs O) p (fun z => ∃ o, 0 ≤ o ∧ o < O ∧ So o z) fun r k => beta * M0.val ((C.add (k * LDC)).at r) +
        ∑ o ∈ Finset.Ico 0 O, (if pre cs o ≤ r ∧ r < pre cs o + cs o then ∑ i ∈ Finset.Ico 0 I, G o i (r - pre cs o) k else 0) := by
    intro M1 h1
    split_ifs with hp
    · refine (region_par hI hbo hco cs0 hLD hcall hS sB hBC hSS (c := 0) (q := p / 2 - 0) (le_refl _) (by omega) (by omega) (hacc _ _ (by omega) (by omega) (by omega)) (hown 1) h1).mono fun M2 h2 => ?_
      refine (region_par hI hbo hco cs0 hLD hcall hS sB hBC hSS (c := p / 2) (q := p - p / 2) (by omega) (by omega) (by omega) (hacc _ _ (by omega) (by omega) (by omega)) (hown 2) h2).mono fun M3 h3 => ?_
      refine ⟨h3.1, fun k r k0 k1 r0 r1 => ?_, h3.2.2⟩
      rw [h3.2.1 k r k0 k1 r0 r1]
      dsimp only
      rw [add_assoc, halves k0 k1]
    · refine (region_par hI hbo hco cs0 hLD hcall hS sB hBC hSS (c := 0) (q := p) (le_refl _) (by omega) (by omega) (hacc _ _ (by omega) (by omega) (by omega)) (hown 1) h1).mono fun M2 h2 => ?_
      refine ⟨h2.1, fun k r k0 k1 r0 r1 => ?_, h2.2.2⟩
      rw [h2.2.1 k r k0 k1 r0 r1]
      dsimp only
      rw [if_pos (by omega)]
  by_cases hb : beta ≠ 1
  · rw [if_pos hb]
    exact (beta_par (beta := beta) hC hLD (hown 0)).mono rest
  · rw [if_neg hb]
    have h1 : beta = 1 := by simpa using hb
    exact rest M0 ⟨rfl, fun k i _ _ _ _ => by dsimp only; rw [h1, one_mul], fun _ _ _ => rfl⟩

/-- `X(ghmm)` with any number of threads. -/
theorem ghmm_par {tr : Char} (htr : tr = 'N' ∨ tr = 'T') {alpha beta : K} {P Q m n : Int} {b : Int → Int → HMat K} (hSz : Sized (.hier P Q m n b)) (p0 : 0 ≤ p)
    (hO : ScrMOk p M0.size (.hier P Q m n b)) (hB : ∀ k, 0 ≤ k → k < p → (B.add (k * LDB)).Ok (opCols tr (.hier P Q m n b)) M0.size)
    (hC : ∀ k, 0 ≤ k → k < p → (C.add (k * LDC)).Ok (opRows tr (.hier P Q m n b)) M0.size) (hLD : opRows tr (.hier P Q m n b) ≤ LDC)
    (hBC : ∀ k j, 0 ≤ k → k < p → 0 ≤ j → j < opCols tr (.hier P Q m n b) → ¬ CIn C LDC (opRows tr (.hier P Q m n b)) p ((B.add (k * LDB)).at j))
    (sB : ∀ k j, 0 ≤ k → k < p → 0 ≤ j → j < opCols tr (.hier P Q m n b) → ¬ ScrM p (.hier P Q m n b) ((B.add (k * LDB)).at j))
    (sC : ∀ k i, 0 ≤ k → k < p → 0 ≤ i → i < opRows tr (.hier P Q m n b) → ¬ ScrM p (.hier P Q m n b) ((C.add (k * LDC)).at i))
    (hSS : ∀ i j i' j', 0 ≤ i → i < P → 0 ≤ j → j < Q → 0 ≤ i' → i' < P → 0 ≤ j' → j' < Q → ¬ (i = i' ∧ j = j') → ∀ z, ScrM p (b i j) z → ¬ ScrM p (b i' j') z)
    {Owner : Nat → Int → Nat} (hown : ∀ r m, Owner r m < T) :
    ∃ rs, ghmm tr alpha P Q m n b p B LDB beta C LDC Owner = some rs ∧ Regions T rs M0 fun M' => SetsM M0 M' C LDC (opRows tr (.hier P Q m n b)) p (ScrM p (.hier P Q m n b)) fun i k =>
      beta * M0.val ((C.add (k * LDC)).at i) + alpha * ∑ j ∈ Finset.Ico 0 (opCols tr (.hier P Q m n b)), op tr (.hier P Q m n b) i j * M0.val ((B.add (k * LDB)).at j) := by
  have ih : ∀ a c, 0 ≤ a → a < P → 0 ≤ c → c < Q → MmSpec tr alpha LDB LDC (b a c) := fun a c a0 a1 c0 c1 => hmmP_spec htr alpha LDB LDC (hSz.2.2.1 a c a0 a1 c0 c1).1
  have ia : ∀ a c, 0 ≤ a → a < P → 0 ≤ c → c < Q → MmAcc tr alpha LDB LDC (b a c) := fun a c a0 a1 c0 c1 => hmmP_acc (hSz.2.2.1 a c a0 a1 c0 c1).1
  obtain ⟨cN, cT⟩ := hier_call htr hSz ih hO hB hC hLD hBC sB sC
  have hsum := fun r k => hier_sum (tr := tr) hSz (fun j => M0.val ((B.add (k * LDB)).at j)) alpha r
  have hS' := hSz
  obtain ⟨h1, h2, h3, h4, h5⟩ := hSz
  have nr := fun i i0 i1 => (sized_nonneg (h3 i (Q - 1) i0 i1 (by omega) (by omega)).1).1
  have nc := fun j j0 j1 => (sized_nonneg (h3 0 j (by omega) (by omega) j0 j1).1).2
  change m = pre (fun k => (b k (Q - 1)).rows) P at h4
  change n = pre (fun k => (b 0 k).cols) Q at h5
  obtain ⟨X, eX, hX⟩ := offsets_run (cnt := P) (bs := fun i => blockRows P Q b i (Q - 1)) (w := fun k => (b k (Q - 1)).rows) (fun i i0 i1 => if_pos ⟨i0, i1, by omega, by omega⟩)
  obtain ⟨L, eL, hL⟩ := offsets_run (cnt := Q) (bs := fun j => blockCols P Q b 0 j) (w := fun k => (b 0 k).cols) (fun j j0 j1 => if_pos ⟨by omega, by omega, j0, j1⟩)
  unfold ghmm
  rw [eX, Option.bind_some, eL, Option.bind_some]
  rcases htr with rfl | rfl
  · rw [if_pos rfl]
    refine ⟨_, rfl, ?_⟩
    have cN := cN rfl
    have hsum := fun r k => (hsum r k).1 rfl
    have eS : ScrM p (.hier P Q m n b) = fun z => ∃ o, 0 ≤ o ∧ o < P ∧ (fun o z => ∃ i, 0 ≤ i ∧ i < Q ∧ ScrM p (b o i) z) o z := by
      funext z
      refine propext ⟨?_, ?_⟩
      · rintro ⟨o, i, o0, o1, i0, i1, h⟩; exact ⟨o, o0, o1, i, i0, i1, h⟩
      · rintro ⟨o, o0, o1, i, i0, i1, h⟩; exact ⟨o, i, o0, o1, i0, i1, h⟩
    have er : opRows 'N' (.hier P Q m n b) = pre (fun k => (b k (Q - 1)).rows) P := h4
    have it := fun c q (c0 : 0 ≤ c) (q0 : 0 ≤ q) (c1 : c + q ≤ p) R W hB' o o0 o1 hc hs =>
      (hier_iter_acc (R := R) (W := W) hS' ia hX hL c0 q0 c1 (B := B) (C := C) hB').1 rfl o o0 o1 hc hs
    rw [er] at hC hLD sC hBC ⊢
    conv in hmmRegions _ _ m _ _ _ _ _ _ _ _ _ _ => rw [h4]
    rw [eS] at sB sC cN ⊢
    refine Regions.mono (fun M' s => ?_) (regions_par (Owner := Owner) (beta := beta) (d := n) (by omega) p0 hL hX nr hLD hC cN (fun k i k0 k1 i0 i1 o o0 o1 h => sC k i k0 k1 i0 i1 ⟨o, o0, o1, h⟩)
      (fun k i k0 k1 i0 i1 o o0 o1 h => sB k i k0 k1 i0 i1 ⟨o, o0, o1, h⟩) hBC (by
        rintro o o' o0 o1 o0' o1' hne z ⟨i, i0, i1, h⟩ ⟨i', i0', i1', h'⟩
        exact hSS o i o' i' o0 o1 i0 i1 o0' o1' i0' i1' (fun hh => hne hh.1) z h h')
      (fun c q c0 q0 c1 R W hB' o o0 o1 hc hs => it c q c0 q0 c1 R W hB' o o0 o1 hc (fun z i i0 i1 h => hs z ⟨i, i0, i1, h⟩)) hown)
    refine ⟨s.1, fun k r k0 k1 r0 r1 => ?_, s.2.2⟩
    rw [s.2.1 k r k0 k1 r0 r1]
    dsimp only
    rw [← hsum r k]
  · rw [if_neg (by decide), if_pos rfl]
    refine ⟨_, rfl, ?_⟩
    have cT := cT rfl
    have hsum := fun r k => (hsum r k).2 rfl
    have eS : ScrM p (.hier P Q m n b) = fun z => ∃ o, 0 ≤ o ∧ o < Q ∧ (fun o z => ∃ i, 0 ≤ i ∧ i < P ∧ ScrM p (b i o) z) o z := by
      funext z
      refine propext ⟨?_, ?_⟩
      · rintro ⟨i, o, i0, i1, o0, o1, h⟩; exact ⟨o, o0, o1, i, i0, i1, h⟩
      · rintro ⟨o, o0, o1, i, i0, i1, h⟩; exact ⟨i, o, i0, i1, o0, o1, h⟩
    have er : opRows 'T' (.hier P Q m n b) = pre (fun k => (b 0 k).cols) Q := h5
    have it := fun c q (c0 : 0 ≤ c) (q0 : 0 ≤ q) (c1 : c + q ≤ p) R W hB' o o0 o1 hc hs =>
      (hier_iter_acc (R := R) (W := W) hS' ia hX hL c0 q0 c1 (B := B) (C := C) hB').2 rfl o o0 o1 hc hs
    rw [er] at hC hLD sC hBC ⊢
    conv in hmmRegions _ _ n _ _ _ _ _ _ _ _ _ _ => rw [h5]
    rw [eS] at sB sC cT ⊢
    refine Regions.mono (fun M' s => ?_) (regions_par (Owner := Owner) (beta := beta) (d := m) (by omega) p0 hX hL nc hLD hC cT (fun k i k0 k1 i0 i1 o o0 o1 h => sC k i k0 k1 i0 i1 ⟨o, o0, o1, h⟩)
      (fun k i k0 k1 i0 i1 o o0 o1 h => sB k i k0 k1 i0 i1 ⟨o, o0, o1, h⟩) hBC (by
        rintro o o' o0 o1 o0' o1' hne z ⟨i, i0, i1, h⟩ ⟨i', i0', i1', h'⟩
        exact hSS i o i' o' i0 i1 o0 o1 i0' i1' o0' o1' (fun hh => hne hh.2) z h h')
      (fun c q c0 q0 c1 R W hB' o o0 o1 hc hs => it c q c0 q0 c1 R W hB' o o0 o1 hc (fun z i i0 i1 h => hs z ⟨i, i0, i1, h⟩)) hown)
    refine ⟨s.1, fun k r k0 k1 r0 r1 => ?_, s.2.2⟩
    rw [s.2.1 k r k0 k1 r0 r1]
    dsimp only
    rw [← hsum r k]

end FT.Props.Hier
