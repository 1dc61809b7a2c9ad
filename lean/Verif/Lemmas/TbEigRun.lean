import Verif.Lemmas.TbEig

/-! # Products with and solves of divide-and-conquer eigenvector factorisations, continued -/

namespace FT.Props.TbEig
open FT FT.Model FT.Prog FT.Props.Hier
set_option linter.unusedSectionVars false
variable {K : Type*}

theorem sum_halves [AddCommMonoid K] {n s : Int} (h0 : 0 ≤ s) (h1 : s ≤ n) (f : Int → K) :
    ∑ j ∈ Finset.Ico 0 n, f j = ∑ j ∈ Finset.Ico 0 s, f j + ∑ j ∈ Finset.Ico 0 (n - s), f (s + j) := by
  rw [← Finset.Ico_union_Ico_eq_Ico h0 h1, Finset.sum_union (Finset.Ico_disjoint_Ico_consecutive 0 s n)]
  congr 1
  symm
  refine Finset.sum_bij (fun j _ => s + j) ?_ ?_ ?_ ?_
  · intro j hj; rw [Finset.mem_Ico] at *; omega
  · intro j _ k _ h; omega
  · intro j hj; rw [Finset.mem_Ico] at hj; exact ⟨j - s, by rw [Finset.mem_Ico]; omega, by omega⟩
  · intro j _; rfl

section Mul
variable [CommRing K] [DecidableEq K]

theorem opmN_11 {n : Int} {c : Couple K} {F1 F2 : TbEig K} {i j : Int} (hi : i < n / 2) (hj : j < n / 2) : opm 'N' (.node n c F1 F2) i j = opm 'N' F1 i j := by
  unfold opm; rw [if_pos rfl, if_pos rfl, mat, if_pos hi, if_pos hj]
theorem opmN_12 {n : Int} {c : Couple K} {F1 F2 : TbEig K} {i j : Int} (hi : i < n / 2) (hj : 0 ≤ j) :
    opm 'N' (.node n c F1 F2) i (n / 2 + j) = ∑ k ∈ Finset.Ico 0 (n / 2), opm 'N' F1 i k * opc 'N' n c k j := by
  unfold opm opc; simp only [if_true]; rw [mat, if_pos hi, if_neg (by omega), show n / 2 + j - n / 2 = j by omega]
theorem opmN_21 {n : Int} {c : Couple K} {F1 F2 : TbEig K} {i j : Int} (hi : 0 ≤ i) (hj : j < n / 2) : opm 'N' (.node n c F1 F2) (n / 2 + i) j = 0 := by
  unfold opm; rw [if_pos rfl, mat, if_neg (by omega), if_pos hj]
theorem opmN_22 {n : Int} {c : Couple K} {F1 F2 : TbEig K} {i j : Int} (hi : 0 ≤ i) (hj : 0 ≤ j) : opm 'N' (.node n c F1 F2) (n / 2 + i) (n / 2 + j) = opm 'N' F2 i j := by
  unfold opm; rw [if_pos rfl, if_pos rfl, mat, if_neg (by omega), if_neg (by omega)]; congr 1 <;> omega
theorem opmT_11 {n : Int} {c : Couple K} {F1 F2 : TbEig K} {i j : Int} (hi : i < n / 2) (hj : j < n / 2) : opm 'T' (.node n c F1 F2) i j = opm 'T' F1 i j := by
  unfold opm; rw [if_neg (by decide), if_neg (by decide), mat, if_pos hj, if_pos hi]
theorem opmT_21 {n : Int} {c : Couple K} {F1 F2 : TbEig K} {i j : Int} (hi : 0 ≤ i) (hj : j < n / 2) :
    opm 'T' (.node n c F1 F2) (n / 2 + i) j = ∑ k ∈ Finset.Ico 0 (n / 2), opc 'T' n c i k * opm 'T' F1 k j := by
  unfold opm opc; simp only [show ('T' = 'N') = False by decide, if_false]; rw [mat, if_pos hj, if_neg (by omega), show n / 2 + i - n / 2 = i by omega]
  exact Finset.sum_congr rfl fun k _ => mul_comm _ _
theorem opmT_12 {n : Int} {c : Couple K} {F1 F2 : TbEig K} {i j : Int} (hi : i < n / 2) (hj : 0 ≤ j) : opm 'T' (.node n c F1 F2) i (n / 2 + j) = 0 := by
  unfold opm; rw [if_neg (by decide), mat, if_neg (by omega), if_pos hi]
theorem opmT_22 {n : Int} {c : Couple K} {F1 F2 : TbEig K} {i j : Int} (hi : 0 ≤ i) (hj : 0 ≤ j) : opm 'T' (.node n c F1 F2) (n / 2 + i) (n / 2 + j) = opm 'T' F2 i j := by
  unfold opm; rw [if_neg (by decide), if_neg (by decide), mat, if_neg (by omega), if_neg (by omega)]; congr 1 <;> omega

/-- The product with the matrix of a node in terms of its parts. -/
theorem nodeN {n : Int} (n0 : 0 ≤ n) {c : Couple K} {F1 F2 : TbEig K} (z : Int → K) :
    (∀ i, i < n / 2 → ∑ j ∈ Finset.Ico 0 n, opm 'N' (.node n c F1 F2) i j * z j =
      ∑ k ∈ Finset.Ico 0 (n / 2), opm 'N' F1 i k * (z k + ∑ j ∈ Finset.Ico 0 (n - n / 2), opc 'N' n c k j * z (n / 2 + j))) ∧
    ∀ i, 0 ≤ i → ∑ j ∈ Finset.Ico 0 n, opm 'N' (.node n c F1 F2) (n / 2 + i) j * z j = ∑ j ∈ Finset.Ico 0 (n - n / 2), opm 'N' F2 i j * z (n / 2 + j) := by
  refine ⟨fun i hi => ?_, fun i hi => ?_⟩
  · rw [sum_halves (s := n / 2) (by omega) (by omega)]
    simp only [mul_add, Finset.sum_add_distrib]
    congr 1
    · exact sum_Ico_congr fun j _ h => by rw [opmN_11 hi h]
    · rw [two_sum]
      exact sum_Ico_congr fun j h _ => by rw [opmN_12 hi h]
  · rw [sum_halves (s := n / 2) (by omega) (by omega), sum_Ico_congr (g := fun _ => (0 : K)) (fun j _ h => by rw [opmN_21 hi h, zero_mul]), Finset.sum_const_zero, zero_add]
    exact sum_Ico_congr fun j h _ => by rw [opmN_22 hi h]

theorem nodeT {n : Int} (n0 : 0 ≤ n) {c : Couple K} {F1 F2 : TbEig K} (z : Int → K) :
    (∀ i, i < n / 2 → ∑ j ∈ Finset.Ico 0 n, opm 'T' (.node n c F1 F2) i j * z j = ∑ j ∈ Finset.Ico 0 (n / 2), opm 'T' F1 i j * z j) ∧
    ∀ i, 0 ≤ i → ∑ j ∈ Finset.Ico 0 n, opm 'T' (.node n c F1 F2) (n / 2 + i) j * z j =
      ∑ j ∈ Finset.Ico 0 (n - n / 2), opm 'T' F2 i j * z (n / 2 + j) + ∑ k ∈ Finset.Ico 0 (n / 2), opc 'T' n c i k * ∑ j ∈ Finset.Ico 0 (n / 2), opm 'T' F1 k j * z j := by
  refine ⟨fun i hi => ?_, fun i hi => ?_⟩
  · rw [sum_halves (s := n / 2) (by omega) (by omega), sum_Ico_congr (hi := n - n / 2) (g := fun _ => (0 : K)) (fun j h _ => by rw [opmT_12 hi h, zero_mul]), Finset.sum_const_zero, add_zero]
    exact sum_Ico_congr fun j _ h => by rw [opmT_11 hi h]
  · rw [sum_halves (s := n / 2) (by omega) (by omega), add_comm]
    congr 1
    · exact sum_Ico_congr fun j h _ => by rw [opmT_22 hi h]
    · rw [two_sum]
      exact sum_Ico_congr fun j _ h => by rw [opmT_21 hi h]

theorem esized_nonneg {BS : Int} : ∀ {F : TbEig K}, ESized BS F → 0 ≤ F.n
  | .leaf _ _, h => h.1
  | .node _ _ _ _, h => h.1

/-- A step on one half leaves the other half alone. -/
theorem sets_off {M M' : Buf K} {x : Ptr} {n p w : Int} {S : Int → Prop} {z : Int → K} (h : Sets M M' (x.add p) w S z) (hS : ∀ j, 0 ≤ j → j < n → ¬ S (x.at j)) {j : Int} (j0 : 0 ≤ j) (j1 : j < n)
    (hj : j < p ∨ p + w ≤ j) : M'.val (x.at j) = M.val (x.at j) :=
  h.2.2 _ (by unfold Ptr.In Ptr.add Ptr.at; dsimp only; omega) (hS j j0 j1)

theorem Ptr.add_zero (x : Ptr) : x.add 0 = x := by unfold Ptr.add; simp

theorem Ptr.sub_in {x : Ptr} {n p w a : Int} (h0 : 0 ≤ p) (h1 : p + w ≤ n) (h : ¬ x.In n a) : ¬ (x.add p).In w a := by
  unfold Ptr.In Ptr.add Ptr.at at *; dsimp only; omega

theorem bfmvP_run {BS : Int} {tr : Char} (htr : tr = 'N' ∨ tr = 'T') {t : Int} : ∀ {F : TbEig K}, ESized BS F → ∀ {x : Ptr} {M : Buf K}, x.Ok F.n M.size → EScrOk t M.size F →
    (∀ j, 0 ≤ j → j < F.n → ¬ EScr t F (x.at j)) →
    ∃ M', (bfmvP BS tr t F x).run M = some ((), M') ∧ Sets M M' x F.n (EScr t F) fun i => ∑ j ∈ Finset.Ico 0 F.n, opm tr F i j * M.val (x.at j)
  | .leaf n V, hS, x, M, hx, _, _ => by
    obtain ⟨n0, n1, hV⟩ := hS
    rw [bfmvP, if_pos n1]
    exact trmvP_run htr n0 hV hx
  | .node n c F1 F2, hS, x, M, hx, hO, hd => by
    obtain ⟨n0, nB, hc, ⟨e1, s1⟩, e2, s2⟩ := hS
    obtain ⟨oc, o1, o2⟩ := hO
    have hx : x.Ok n M.size := hx
    have hd : ∀ j, 0 ≤ j → j < n → ¬ EScr t (.node n c F1 F2) (x.at j) := hd
    have dc := fun j j0 j1 h => hd j j0 j1 (Or.inl h)
    have d1 := fun j j0 j1 h => hd j j0 j1 (Or.inr (Or.inl h))
    have d2 := fun j j0 j1 h => hd j j0 j1 (Or.inr (Or.inr h))
    rw [bfmvP, if_neg (by omega)]
    show ∃ M', _ ∧ Sets M M' x n _ fun i => ∑ j ∈ Finset.Ico 0 n, opm tr (.node n c F1 F2) i j * M.val (x.at j)
    rcases htr with rfl | rfl
    · rw [if_pos rfl]
      obtain ⟨M1, r1, S1⟩ := couple_run (Or.inl rfl) (sub := false) (tid := t) n0 hc hx oc dc
      obtain ⟨M2, r2, S2⟩ := bfmvP_run (BS := BS) (Or.inl rfl) (t := t) s1 (x := x) (M := M1) (by rw [S1.1, e1]; unfold Ptr.Ok at *; omega) (by rw [S1.1]; exact o1)
        (fun j j0 j1 => d1 j j0 (by omega))
      have z2 := S2.1.trans S1.1
      obtain ⟨M3, r3, S3⟩ := bfmvP_run (BS := BS) (Or.inl rfl) (t := t) s2 (x := x.add (n / 2)) (M := M2) (by rw [z2, e2]; exact hx.add (by omega) (by omega)) (by rw [z2]; exact o2)
        (fun j j0 j1 => by rw [Ptr.add_at]; exact d2 _ (by omega) (by omega))
      rw [e1] at S2
      rw [e2] at S3
      have S1 : Sets M M1 (x.add 0) (n / 2) (CplScr t n c) fun i => M.val (x.at (0 + i)) + 1 * ∑ j ∈ Finset.Ico 0 (n - n / 2), opc 'N' n c i j * M.val (x.at (n / 2 + j)) := S1
      rw [← Ptr.add_zero x] at S2
      refine ⟨M3, by rw [run_then r1, run_then r2]; exact r3, S3.1.trans z2, fun i i0 i1 => ?_, fun a ha hs => ?_⟩
      · dsimp only
        by_cases hi : i < n / 2
        · rw [sets_off S3 d2 i0 i1 (by omega)]
          have := S2.2.1 i i0 hi
          try dsimp only at this
          rw [Ptr.add_zero] at this
          rw [this, (nodeN n0 _).1 i hi]
          refine sum_Ico_congr fun j j0 j1 => ?_
          have := S1.2.1 j j0 j1
          try dsimp only at this
          rw [Ptr.add_zero] at this
          rw [this, zero_add, one_mul]
        · obtain ⟨i, rfl⟩ : ∃ k, i = n / 2 + k := ⟨i - n / 2, by omega⟩
          have := S3.2.1 i (by omega) (by omega)
          try dsimp only at this
          rw [Ptr.add_at] at this
          rw [this, (nodeN n0 _).2 i (by omega)]
          refine sum_Ico_congr fun j j0 j1 => ?_
          rw [Ptr.add_at, sets_off S2 d1 (by omega) (by omega) (by omega), sets_off S1 dc (by omega) (by omega) (by omega)]
      · rw [S3.2.2 a (Ptr.sub_in (n := n) (by omega) (by omega) ha) (fun h => hs (Or.inr (Or.inr h))), S2.2.2 a (Ptr.sub_in (n := n) (by omega) (by omega) ha) (fun h => hs (Or.inr (Or.inl h))),
          S1.2.2 a (Ptr.sub_in (n := n) (by omega) (by omega) ha) (fun h => hs (Or.inl h))]
    · rw [if_neg (by decide), if_pos rfl]
      obtain ⟨M1, r1, S1⟩ := bfmvP_run (BS := BS) (Or.inr rfl) (t := t) s1 (x := x) (M := M) (by rw [e1]; unfold Ptr.Ok at *; omega) o1 (fun j j0 j1 => d1 j j0 (by omega))
      obtain ⟨M2, r2, S2⟩ := bfmvP_run (BS := BS) (Or.inr rfl) (t := t) s2 (x := x.add (n / 2)) (M := M1) (by rw [S1.1, e2]; exact hx.add (by omega) (by omega)) (by rw [S1.1]; exact o2)
        (fun j j0 j1 => by rw [Ptr.add_at]; exact d2 _ (by omega) (by omega))
      have z2 := S2.1.trans S1.1
      obtain ⟨M3, r3, S3⟩ := couple_run (Or.inr rfl) (sub := false) (tid := t) n0 hc (M := M2) (by rw [z2]; exact hx) (by rw [z2]; exact oc) dc
      rw [e1] at S1
      rw [e2] at S2
      have S3 : Sets M2 M3 (x.add (n / 2)) (n - n / 2) (CplScr t n c) fun i => M2.val (x.at (n / 2 + i)) + 1 * ∑ j ∈ Finset.Ico 0 (n / 2), opc 'T' n c i j * M2.val (x.at (0 + j)) := S3
      rw [← Ptr.add_zero x] at S1
      have v1 : ∀ i, 0 ≤ i → i < n / 2 → M2.val (x.at i) = ∑ j ∈ Finset.Ico 0 (n / 2), opm 'T' F1 i j * M.val (x.at j) := fun i i0 i1 => by
        rw [sets_off S2 d2 i0 (by omega) (by omega)]
        have := S1.2.1 i i0 i1
        try dsimp only at this
        rw [Ptr.add_zero] at this
        rw [this]
      refine ⟨M3, by rw [run_then r1, run_then r2]; exact r3, S3.1.trans z2, fun i i0 i1 => ?_, fun a ha hs => ?_⟩
      · dsimp only
        by_cases hi : i < n / 2
        · rw [sets_off S3 dc i0 i1 (by omega), v1 i i0 hi, (nodeT n0 _).1 i hi]
        · obtain ⟨i, rfl⟩ : ∃ k, i = n / 2 + k := ⟨i - n / 2, by omega⟩
          have := S3.2.1 i (by omega) (by omega)
          try dsimp only at this
          rw [Ptr.add_at] at this
          rw [this, (nodeT n0 _).2 i (by omega)]
          have h2 := S2.2.1 i (by omega) (by omega)
          try dsimp only at h2
          rw [Ptr.add_at] at h2
          rw [h2, one_mul]
          congr 1
          · refine sum_Ico_congr fun j j0 j1 => ?_
            rw [Ptr.add_at, sets_off S1 d1 (by omega) (by omega) (by omega)]
          · refine sum_Ico_congr fun j j0 j1 => ?_
            rw [zero_add, v1 j j0 j1]
      · rw [S3.2.2 a (Ptr.sub_in (n := n) (by omega) (by omega) ha) (fun h => hs (Or.inl h)), S2.2.2 a (Ptr.sub_in (n := n) (by omega) (by omega) ha) (fun h => hs (Or.inr (Or.inr h))),
          S1.2.2 a (Ptr.sub_in (n := n) (by omega) (by omega) ha) (fun h => hs (Or.inr (Or.inl h)))]

theorem addP_acc {R W : Int → Prop} {sub : Bool} {y : Ptr} {d : Int} {v : K} (hR : R (y.at d)) (hW : W (y.at d)) : (addP sub y d v).Acc R W :=
  Acc.bind (Acc.get fun _ _ => hR) fun _ => Acc.put fun _ _ => hW

theorem rd_val {α : Type*} {b : Buf α} {i : Int} {v : α} (h : b.rd i = some v) : v = b.val i := (Buf.rd_eq_some_iff.1 h).2.symm

theorem fmmP_acc {R W : Int → Prop} {tr : Char} {alpha : K} {sub : Bool} {tid b n ns nd so ds : Int} {F0 : HMat K} (hS : Sized F0) (hr : opRows tr F0 = nd) (hc : opCols tr F0 = ns)
    {ps pd : Buf Int} {Fs Fd : Buf K} {ts td x : Ptr} (vps : ∀ i, 0 ≤ i → i < ns → 0 ≤ ps.val i ∧ ps.val i < ns) (vpd : ∀ i, 0 ≤ i → i < nd → 0 ≤ pd.val i ∧ pd.val i < nd)
    {nnz : Int} {qs qd : Buf Int} {sv : Buf K} (h4 : ∀ l, 0 ≤ l → l < nnz → 0 ≤ qs.val l ∧ qs.val l < ns) (h5 : ∀ l, 0 ≤ l → l < nnz → 0 ≤ qd.val l ∧ qd.val l < nd)
    (so0 : 0 ≤ so) (so1 : so + ns ≤ n) (ds0 : 0 ≤ ds) (ds1 : ds + nd ≤ n) (hx : ∀ i, 0 ≤ i → i < n → R (x.at i) ∧ W (x.at i)) (hs : ∀ a, ts.In ns a ∨ td.In nd a ∨ Scr tid F0 a → R a ∧ W a) :
    (fmmP tr alpha sub tid b F0 ns nd so ds ps pd Fs Fd ts td nnz qs qd sv x).Acc R W := by
  have t1 := fun i (i0 : 0 ≤ i) (i1 : i < ns) => hs _ (Or.inl (Ptr.in_at (y := ts) i0 i1))
  have t2 := fun i (i0 : 0 ≤ i) (i1 : i < nd) => hs _ (Or.inr (Or.inl (Ptr.in_at (y := td) i0 i1)))
  unfold fmmP
  refine Acc.bind (Acc.each (fun k _ _ => Acc.bind (Acc.each (fun i hi _ => ?_) ()) fun _ => Acc.bind ?_ fun _ => Acc.each (fun i hi _ => ?_) ()) ()) fun _ => Acc.each (fun l hl _ => ?_) ()
  · rw [mem_rUp] at hi
    refine Acc.ofOption_bind fun p hp => Acc.ofOption_bind fun f _ => Acc.bind (Acc.get fun _ _ => ?_) fun _ => Acc.put fun _ _ => (t1 i hi.1 hi.2).2
    have := vps i hi.1 hi.2
    rw [← rd_val hp] at this
    exact (hx _ (by omega) (by omega)).1
  · exact hmvP_acc hS (fun j j0 j1 => (t1 j j0 (by omega)).1) (fun j j0 j1 => (t2 j j0 (by omega)).1) (fun j j0 j1 => (t2 j j0 (by omega)).2)
      (fun a h => (hs a (Or.inr (Or.inr h))).1) (fun a h => (hs a (Or.inr (Or.inr h))).2)
  · rw [mem_rUp] at hi
    refine Acc.ofOption_bind fun p hp => Acc.bind (Acc.get fun _ _ => (t2 i hi.1 hi.2).1) fun _ => Acc.ofOption_bind fun f _ => ?_
    have := vpd i hi.1 hi.2
    rw [← rd_val hp] at this
    have := hx (p + ds) (by omega) (by omega)
    exact addP_acc this.1 this.2
  · rw [mem_rUp] at hl
    refine Acc.ofOption_bind fun d hd => Acc.ofOption_bind fun q hq => Acc.ofOption_bind fun v _ => ?_
    have a := h4 l hl.1 hl.2
    have b := h5 l hl.1 hl.2
    rw [← rd_val hq] at a
    rw [← rd_val hd] at b
    have := hx (d + ds) (by omega) (by omega)
    exact Acc.bind (Acc.get fun _ _ => (hx _ (by omega) (by omega)).1) fun _ => addP_acc this.1 this.2

theorem couple_acc {R W : Int → Prop} {tr : Char} (htr : tr = 'N' ∨ tr = 'T') {sub : Bool} {tid n : Int} (n0 : 0 ≤ n) {c : Couple K} (hS : CplSized n c) {x : Ptr}
    (hx : ∀ i, 0 ≤ i → i < n → R (x.at i) ∧ W (x.at i)) (hs : ∀ a, CplScr tid n c a → R a ∧ W a) : (coupleP tr sub tid n c x).Acc R W := by
  cases c with
  | fmm c =>
    obtain ⟨b0, ⟨sF, nF, rF, cF⟩, hX, hY, ⟨hp1, vp1⟩, ⟨hp2, vp2⟩, hq1, hq2, hsv, hq⟩ := hS
    rcases htr with rfl | rfl
    · exact fmmP_acc (tr := 'N') (n := n) (so := n / 2) (ds := 0) sF rF cF vp2 vp1 (fun l l0 l1 => (hq l l0 l1).2) (fun l l0 l1 => (hq l l0 l1).1) (by omega) (by omega) (by omega) (by omega) hx
        (fun a h => hs a (by rcases h with h | h | h; exacts [Or.inr (Or.inl h), Or.inl h, Or.inr (Or.inr h)]))
    · exact fmmP_acc (tr := 'T') (n := n) (so := 0) (ds := n / 2) sF cF rF vp1 vp2 (fun l l0 l1 => (hq l l0 l1).1) (fun l l0 l1 => (hq l l0 l1).2) (by omega) (by omega) (by omega) (by omega) hx hs
  | adi L =>
    obtain ⟨sL, mL, nL⟩ := hS
    have hx2 : ∀ i, 0 ≤ i → i < n - n / 2 → R ((x.add (n / 2)).at i) ∧ W ((x.add (n / 2)).at i) := fun i i0 i1 => by rw [Ptr.add_at]; exact hx _ (by omega) (by omega)
    have r1 := fun i (i0 : 0 ≤ i) (i1 : i < L.m) => hx i i0 (by omega)
    have r2 := fun i (i0 : 0 ≤ i) (i1 : i < L.n) => hx2 i i0 (by omega)
    rcases htr with rfl | rfl
    · exact lrmv_acc (tr := 'N') (fun i i0 i1 => (r2 i i0 i1).1) (fun i i0 i1 => (r1 i i0 i1).1) (fun i i0 i1 => (r1 i i0 i1).2) (fun a h => (hs a h).1) (fun a h => (hs a h).2)
    · exact lrmv_acc (tr := 'T') (fun i i0 i1 => (r1 i i0 i1).1) (fun i i0 i1 => (r2 i i0 i1).1) (fun i i0 i1 => (r2 i i0 i1).2) (fun a h => (hs a h).1) (fun a h => (hs a h).2)

theorem bfmvP_acc {R W : Int → Prop} {BS : Int} {tr : Char} {t : Int} : ∀ {F : TbEig K}, ESized BS F → ∀ {x : Ptr}, (∀ i, 0 ≤ i → i < F.n → R (x.at i) ∧ W (x.at i)) →
    (∀ a, EScr t F a → R a ∧ W a) → (bfmvP BS tr t F x).Acc R W
  | .leaf n V, hS, x, hx, _ => by
    rw [bfmvP]
    split_ifs
    · exact trmvP_acc (fun i i0 i1 => (hx i i0 i1).1) (fun i i0 i1 => (hx i i0 i1).2)
    · trivial
  | .node n c F1 F2, hS, x, hx, hs => by
    obtain ⟨n0, nB, hc, ⟨e1, s1⟩, e2, s2⟩ := hS
    have hx : ∀ i, 0 ≤ i → i < n → R (x.at i) ∧ W (x.at i) := hx
    have a1 := bfmvP_acc (R := R) (W := W) (BS := BS) (tr := tr) (t := t) s1 (x := x) (fun i i0 i1 => hx i i0 (by omega)) (fun a h => hs a (Or.inr (Or.inl h)))
    have a2 := bfmvP_acc (R := R) (W := W) (BS := BS) (tr := tr) (t := t) s2 (x := x.add (n / 2)) (fun i i0 i1 => by rw [Ptr.add_at]; exact hx _ (by omega) (by omega))
      (fun a h => hs a (Or.inr (Or.inr h)))
    rw [bfmvP]
    split_ifs with h1 h2 h3
    · trivial
    · exact (couple_acc (Or.inl h2) n0 hc hx (fun a h => hs a (Or.inl h))).bind fun _ => a1.bind fun _ => a2
    · exact a1.bind fun _ => a2.bind fun _ => couple_acc (Or.inr h3) n0 hc hx (fun a h => hs a (Or.inl h))
    · trivial

end Mul

section Solve
variable [Field K] [DecidableEq K]

theorem bfsvP_run {BS : Int} {tr : Char} (htr : tr = 'N' ∨ tr = 'T') {t : Int} : ∀ {F : TbEig K}, ESized BS F → Regular F → ∀ {x : Ptr} {M : Buf K}, x.Ok F.n M.size → EScrOk t M.size F →
    (∀ j, 0 ≤ j → j < F.n → ¬ EScr t F (x.at j)) →
    ∃ M' z, (bfsvP BS tr t F x).run M = some ((), M') ∧ Sets M M' x F.n (EScr t F) z ∧ ∀ i, 0 ≤ i → i < F.n → ∑ j ∈ Finset.Ico 0 F.n, opm tr F i j * z j = M.val (x.at i)
  | .leaf n V, hS, hr, x, M, hx, _, _ => by
    obtain ⟨n0, n1, hV⟩ := hS
    rw [bfsvP, if_pos n1]
    exact trsvP_run htr n0 hV hr hx
  | .node n c F1 F2, hS, hr, x, M, hx, hO, hd => by
    obtain ⟨n0, nB, hc, ⟨e1, s1⟩, e2, s2⟩ := hS
    obtain ⟨oc, o1, o2⟩ := hO
    have hx : x.Ok n M.size := hx
    have hd : ∀ j, 0 ≤ j → j < n → ¬ EScr t (.node n c F1 F2) (x.at j) := hd
    have dc := fun j j0 j1 h => hd j j0 j1 (Or.inl h)
    have d1 := fun j j0 j1 h => hd j j0 j1 (Or.inr (Or.inl h))
    have d2 := fun j j0 j1 h => hd j j0 j1 (Or.inr (Or.inr h))
    rw [bfsvP, if_neg (by omega)]
    show ∃ M' z, _ ∧ Sets M M' x n _ z ∧ ∀ i, 0 ≤ i → i < n → ∑ j ∈ Finset.Ico 0 n, opm tr (.node n c F1 F2) i j * z j = M.val (x.at i)
    rcases htr with rfl | rfl
    · rw [if_pos rfl]
      obtain ⟨M1, z1, r1, S1, q1⟩ := bfsvP_run (BS := BS) (Or.inl rfl) (t := t) s1 hr.1 (x := x) (M := M) (by rw [e1]; unfold Ptr.Ok at *; omega) o1 (fun j j0 j1 => d1 j j0 (by omega))
      obtain ⟨M2, z2, r2, S2, q2⟩ := bfsvP_run (BS := BS) (Or.inl rfl) (t := t) s2 hr.2 (x := x.add (n / 2)) (M := M1) (by rw [S1.1, e2]; exact hx.add (by omega) (by omega)) (by rw [S1.1]; exact o2)
        (fun j j0 j1 => by rw [Ptr.add_at]; exact d2 _ (by omega) (by omega))
      have zz := S2.1.trans S1.1
      obtain ⟨M3, r3, S3⟩ := couple_run (Or.inl rfl) (sub := true) (tid := t) n0 hc (M := M2) (by rw [zz]; exact hx) (by rw [zz]; exact oc) dc
      rw [e1] at S1 q1
      rw [e2] at S2 q2
      have S3 : Sets M2 M3 (x.add 0) (n / 2) (CplScr t n c) fun i => M2.val (x.at (0 + i)) + (-1) * ∑ j ∈ Finset.Ico 0 (n - n / 2), opc 'N' n c i j * M2.val (x.at (n / 2 + j)) := S3
      rw [← Ptr.add_zero x] at S1
      have w1 : ∀ i, 0 ≤ i → i < n / 2 → M2.val (x.at i) = z1 i := fun i i0 i1 => by
        rw [sets_off S2 d2 i0 (by omega) (by omega)]
        have := S1.2.1 i i0 i1
        try dsimp only at this
        rwa [Ptr.add_zero] at this
      have w2 : ∀ i, 0 ≤ i → i < n - n / 2 → M2.val (x.at (n / 2 + i)) = z2 i := fun i i0 i1 => by
        have := S2.2.1 i i0 i1
        try dsimp only at this
        rwa [Ptr.add_at] at this
      have w3 : ∀ i, 0 ≤ i → i < n / 2 → M3.val (x.at i) + ∑ j ∈ Finset.Ico 0 (n - n / 2), opc 'N' n c i j * M3.val (x.at (n / 2 + j)) = z1 i := fun i i0 i1 => by
        have := S3.2.1 i i0 i1
        dsimp only at this
        rw [Ptr.add_zero] at this
        have e : ∑ j ∈ Finset.Ico 0 (n - n / 2), opc 'N' n c i j * M3.val (x.at (n / 2 + j)) = ∑ j ∈ Finset.Ico 0 (n - n / 2), opc 'N' n c i j * M2.val (x.at (n / 2 + j)) :=
          sum_Ico_congr (fun j j0 j1 => by rw [sets_off S3 dc (by omega) (by omega) (by omega)])
        rw [this, zero_add, w1 i i0 i1, e]
        ring
      refine ⟨M3, fun i => M3.val (x.at i), by rw [run_then r1, run_then r2]; exact r3, ⟨S3.1.trans zz, fun _ _ _ => rfl, fun a ha hs => ?_⟩, fun i i0 i1 => ?_⟩
      · rw [S3.2.2 a (Ptr.sub_in (n := n) (by omega) (by omega) ha) (fun h => hs (Or.inl h)), S2.2.2 a (Ptr.sub_in (n := n) (by omega) (by omega) ha) (fun h => hs (Or.inr (Or.inr h))),
          S1.2.2 a (Ptr.sub_in (n := n) (by omega) (by omega) ha) (fun h => hs (Or.inr (Or.inl h)))]
      · by_cases hi : i < n / 2
        · rw [(nodeN n0 _).1 i hi, sum_Ico_congr (hi := n / 2) (fun k k0 k1 => by rw [w3 k k0 k1]), q1 i i0 hi]
        · obtain ⟨i, rfl⟩ : ∃ k, i = n / 2 + k := ⟨i - n / 2, by omega⟩
          rw [(nodeN n0 _).2 i (by omega), sum_Ico_congr (hi := n - n / 2) (fun j j0 j1 => by rw [sets_off S3 dc (by omega) (by omega) (by omega), w2 j j0 j1]), q2 i (by omega) (by omega), Ptr.add_at,
            sets_off S1 d1 (by omega) (by omega) (by omega)]
    · rw [if_neg (by decide), if_pos rfl]
      obtain ⟨M1, r1, S1⟩ := couple_run (Or.inr rfl) (sub := true) (tid := t) n0 hc hx oc dc
      obtain ⟨M2, z1, r2, S2, q1⟩ := bfsvP_run (BS := BS) (Or.inr rfl) (t := t) s1 hr.1 (x := x) (M := M1) (by rw [S1.1, e1]; unfold Ptr.Ok at *; omega) (by rw [S1.1]; exact o1)
        (fun j j0 j1 => d1 j j0 (by omega))
      have zz := S2.1.trans S1.1
      obtain ⟨M3, z2, r3, S3, q2⟩ := bfsvP_run (BS := BS) (Or.inr rfl) (t := t) s2 hr.2 (x := x.add (n / 2)) (M := M2) (by rw [zz, e2]; exact hx.add (by omega) (by omega)) (by rw [zz]; exact o2)
        (fun j j0 j1 => by rw [Ptr.add_at]; exact d2 _ (by omega) (by omega))
      rw [e1] at S2 q1
      rw [e2] at S3 q2
      have S1 : Sets M M1 (x.add (n / 2)) (n - n / 2) (CplScr t n c) fun i => M.val (x.at (n / 2 + i)) + (-1) * ∑ j ∈ Finset.Ico 0 (n / 2), opc 'T' n c i j * M.val (x.at (0 + j)) := S1
      rw [← Ptr.add_zero x] at S2
      have w1 : ∀ i, 0 ≤ i → i < n / 2 → M3.val (x.at i) = z1 i := fun i i0 i1 => by
        rw [sets_off S3 d2 i0 (by omega) (by omega)]
        have := S2.2.1 i i0 i1
        try dsimp only at this
        rwa [Ptr.add_zero] at this
      have w2 : ∀ i, 0 ≤ i → i < n - n / 2 → M3.val (x.at (n / 2 + i)) = z2 i := fun i i0 i1 => by
        have := S3.2.1 i i0 i1
        try dsimp only at this
        rwa [Ptr.add_at] at this
      have h1 : ∀ i, 0 ≤ i → i < n / 2 → ∑ j ∈ Finset.Ico 0 (n / 2), opm 'T' F1 i j * M3.val (x.at j) = M.val (x.at i) := fun i i0 i1 => by
        rw [sum_Ico_congr (hi := n / 2) (fun k k0 k1 => by rw [w1 k k0 k1]), q1 i i0 i1, sets_off S1 dc i0 (by omega) (by omega)]
      refine ⟨M3, fun i => M3.val (x.at i), by rw [run_then r1, run_then r2]; exact r3, ⟨S3.1.trans zz, fun _ _ _ => rfl, fun a ha hs => ?_⟩, fun i i0 i1 => ?_⟩
      · rw [S3.2.2 a (Ptr.sub_in (n := n) (by omega) (by omega) ha) (fun h => hs (Or.inr (Or.inr h))), S2.2.2 a (Ptr.sub_in (n := n) (by omega) (by omega) ha) (fun h => hs (Or.inr (Or.inl h))),
          S1.2.2 a (Ptr.sub_in (n := n) (by omega) (by omega) ha) (fun h => hs (Or.inl h))]
      · by_cases hi : i < n / 2
        · rw [(nodeT n0 _).1 i hi, h1 i i0 hi]
        · obtain ⟨i, rfl⟩ : ∃ k, i = n / 2 + k := ⟨i - n / 2, by omega⟩
          have := S1.2.1 i (by omega) (by omega)
          try dsimp only at this
          rw [Ptr.add_at] at this
          have e : ∑ k ∈ Finset.Ico 0 (n / 2), opc 'T' n c i k * ∑ j ∈ Finset.Ico 0 (n / 2), opm 'T' F1 k j * M3.val (x.at j) =
              ∑ k ∈ Finset.Ico 0 (n / 2), opc 'T' n c i k * M.val (x.at (0 + k)) := sum_Ico_congr (fun k k0 k1 => by rw [h1 k k0 k1, zero_add])
          rw [(nodeT n0 _).2 i (by omega), sum_Ico_congr (hi := n - n / 2) (fun j j0 j1 => by rw [w2 j j0 j1]), q2 i (by omega) (by omega), Ptr.add_at,
            sets_off S2 d1 (by omega) (by omega) (by omega), this, e]
          ring

theorem bfsvP_acc {R W : Int → Prop} {BS : Int} {tr : Char} {t : Int} : ∀ {F : TbEig K}, ESized BS F → ∀ {x : Ptr}, (∀ i, 0 ≤ i → i < F.n → R (x.at i) ∧ W (x.at i)) →
    (∀ a, EScr t F a → R a ∧ W a) → (bfsvP BS tr t F x).Acc R W
  | .leaf n V, hS, x, hx, _ => by
    rw [bfsvP]
    split_ifs
    · exact trsvP_acc (fun i i0 i1 => (hx i i0 i1).1) (fun i i0 i1 => (hx i i0 i1).2)
    · trivial
  | .node n c F1 F2, hS, x, hx, hs => by
    obtain ⟨n0, nB, hc, ⟨e1, s1⟩, e2, s2⟩ := hS
    have hx : ∀ i, 0 ≤ i → i < n → R (x.at i) ∧ W (x.at i) := hx
    have a1 := bfsvP_acc (R := R) (W := W) (BS := BS) (tr := tr) (t := t) s1 (x := x) (fun i i0 i1 => hx i i0 (by omega)) (fun a h => hs a (Or.inr (Or.inl h)))
    have a2 := bfsvP_acc (R := R) (W := W) (BS := BS) (tr := tr) (t := t) s2 (x := x.add (n / 2)) (fun i i0 i1 => by rw [Ptr.add_at]; exact hx _ (by omega) (by omega))
      (fun a h => hs a (Or.inr (Or.inr h)))
    rw [bfsvP]
    split_ifs with h1 h2 h3
    · trivial
    · exact a1.bind fun _ => a2.bind fun _ => couple_acc (Or.inl h2) n0 hc hx (fun a h => hs a (Or.inl h))
    · exact (couple_acc (Or.inr h3) n0 hc hx (fun a h => hs a (Or.inl h))).bind fun _ => a1.bind fun _ => a2
    · trivial

/-- The matrix is upper triangular with nonzero diagonal. -/
theorem mat_upper {BS : Int} : ∀ {F : TbEig K}, ESized BS F → Regular F → ∀ {i j : Int}, 0 ≤ i → i < F.n → 0 ≤ j → (j < i → mat F i j = 0) ∧ (j = i → mat F i j ≠ 0)
  | .leaf n V, _, hr, i, j, i0, i1, _ => by
    refine ⟨fun h => if_neg (by omega), ?_⟩
    rintro rfl
    rw [mat, if_pos (le_refl _)]
    exact hr _ i0 i1
  | .node n c F1 F2, hS, hr, i, j, i0, i1, j0 => by
    obtain ⟨n0, nB, hc, ⟨e1, s1⟩, e2, s2⟩ := hS
    have i1 : i < n := i1
    rw [mat]
    by_cases h : i < n / 2
    · have := mat_upper s1 hr.1 (i := i) (j := j) i0 (by omega) j0
      rw [if_pos h]
      refine ⟨fun h' => ?_, fun h' => ?_⟩
      · rw [if_pos (by omega)]; exact this.1 h'
      · rw [if_pos (by omega)]; exact this.2 h'
    · rw [if_neg h]
      refine ⟨fun h' => ?_, fun h' => ?_⟩
      · split_ifs with g
        · rfl
        · exact (mat_upper s2 hr.2 (i := i - n / 2) (j := j - n / 2) (by omega) (by omega) (by omega)).1 (by omega)
      · rw [if_neg (by omega)]
        exact (mat_upper s2 hr.2 (i := i - n / 2) (j := j - n / 2) (by omega) (by omega) (by omega)).2 (by omega)

/-- The matrix is injective, and so is its transpose. -/
theorem mat_inj {BS : Int} {tr : Char} (htr : tr = 'N' ∨ tr = 'T') {F : TbEig K} (hS : ESized BS F) (hr : Regular F) {z w : Int → K}
    (h : ∀ i, 0 ≤ i → i < F.n → ∑ j ∈ Finset.Ico 0 F.n, opm tr F i j * z j = ∑ j ∈ Finset.Ico 0 F.n, opm tr F i j * w j) : ∀ i, 0 ≤ i → i < F.n → z i = w i := by
  have h' : ∀ i, 0 ≤ i → i < F.n → ∑ j ∈ Finset.Ico 0 F.n, opm tr F i j * (z j - w j) = 0 := fun i i0 i1 => by
    simp only [mul_sub, Finset.sum_sub_distrib]; rw [h i i0 i1, sub_self]
  suffices ∀ i, 0 ≤ i → i < F.n → z i - w i = 0 from fun i i0 i1 => sub_eq_zero.1 (this i i0 i1)
  have one : ∀ i, 0 ≤ i → i < F.n → (∀ j, 0 ≤ j → j < F.n → j ≠ i → opm tr F i j * (z j - w j) = 0) → z i - w i = 0 := by
    intro i i0 i1 hz
    have := h' i i0 i1
    rw [Finset.sum_eq_single i (fun j hj hne => hz j (Finset.mem_Ico.1 hj).1 (Finset.mem_Ico.1 hj).2 hne) (fun hn => (hn (Finset.mem_Ico.2 ⟨i0, i1⟩)).elim)] at this
    refine (mul_eq_zero.1 this).resolve_left ?_
    unfold opm
    rw [ite_self]
    exact (mat_upper hS hr i0 i1 i0).2 rfl
  rcases htr with rfl | rfl
  · have key : ∀ (m : Nat) (i : Int), 0 ≤ i → i < F.n → (F.n - i).toNat ≤ m → z i - w i = 0 := by
      intro m
      induction m with
      | zero => intro i i0 i1 hm; omega
      | succ m ih =>
        intro i i0 i1 hm
        refine one i i0 i1 fun j j0 j1 hne => ?_
        rcases lt_or_gt_of_ne hne with c | c
        · have := (mat_upper hS hr i0 i1 j0).1 c
          unfold opm; rw [if_pos rfl, this, zero_mul]
        · rw [ih j j0 j1 (by omega), mul_zero]
    exact fun i i0 i1 => key _ i i0 i1 (le_refl _)
  · have key : ∀ (m : Nat) (i : Int), 0 ≤ i → i < F.n → i.toNat < m → z i - w i = 0 := by
      intro m
      induction m with
      | zero => intro i i0 i1 hm; omega
      | succ m ih =>
        intro i i0 i1 hm
        refine one i i0 i1 fun j j0 j1 hne => ?_
        rcases lt_or_gt_of_ne hne with c | c
        · rw [ih j j0 j1 (by omega), mul_zero]
        · have := (mat_upper hS hr j0 j1 i0).1 c
          unfold opm; rw [if_neg (by decide), this, zero_mul]
    exact fun i i0 i1 => key _ i i0 i1 (Nat.lt_succ_self _)

end Solve

section Par
variable [CommRing K] [DecidableEq K]

/-- One thread's columns, one after the other. -/
theorem cols_run {S : Int → Prop} {n LDB : Int} {B : Ptr} {body : Int → Prog K Unit} {Rel : (Int → K) → (Int → K) → Prop} {M : Buf K}
    (hRel : ∀ u v u' v', Rel u v → (∀ i, 0 ≤ i → i < n → u i = u' i) → (∀ i, 0 ≤ i → i < n → v i = v' i) → Rel u' v') (hLD : n ≤ LDB) :
    ∀ {l : List Int} (_ : l.Nodup) (_ : ∀ j ∈ l, ∀ i, 0 ≤ i → i < n → ¬ S ((B.add (j * LDB)).at i))
    (_ : ∀ j ∈ l, ∀ A : Buf K, A.size = M.size → ∃ A', (body j).run A = some ((), A') ∧ A'.size = A.size ∧
      Rel (fun i => A.val ((B.add (j * LDB)).at i)) (fun i => A'.val ((B.add (j * LDB)).at i)) ∧ ∀ a, ¬ (B.add (j * LDB)).In n a → ¬ S a → A'.val a = A.val a)
    {A : Buf K}, A.size = M.size →
    ∃ A', (each (fun j _ => body j) l ()).run A = some ((), A') ∧ A'.size = A.size ∧
      (∀ j ∈ l, Rel (fun i => A.val ((B.add (j * LDB)).at i)) (fun i => A'.val ((B.add (j * LDB)).at i))) ∧ ∀ a, (∀ j ∈ l, ¬ (B.add (j * LDB)).In n a) → ¬ S a → A'.val a = A.val a
  | [], _, _, _, A, _ => ⟨A, rfl, rfl, fun j hj => by simp at hj, fun _ _ _ => rfl⟩
  | j :: l, hnd, hS, hb, A, hA => by
    rw [List.nodup_cons] at hnd
    obtain ⟨A1, e1, s1, r1, o1⟩ := hb j (by simp) A hA
    obtain ⟨A2, e2, s2, r2, o2⟩ := cols_run hRel hLD hnd.2 (fun k hk => hS k (by simp [hk])) (fun k hk => hb k (by simp [hk])) (A := A1) (s1.trans hA)
    have dis : ∀ k, k ≠ j → ∀ i, 0 ≤ i → i < n → ¬ (B.add (j * LDB)).In n ((B.add (k * LDB)).at i) := by
      intro k hne i i0 i1 h
      obtain ⟨i', i0', i1', e⟩ := Ptr.in_iff.1 h
      exact hne (col_inj (LD := LDB) i0 (by omega) i0' (by omega) (by unfold Ptr.add Ptr.at at e; simp only at e; omega)).1
    refine ⟨A2, by rw [each, run_then e1]; exact e2, s2.trans s1, fun k hk => ?_, fun a ha hs => ?_⟩
    · rcases List.mem_cons.1 hk with rfl | hk'
      · refine hRel _ _ _ _ r1 (fun _ _ _ => rfl) (fun i i0 i1 => ?_)
        refine (o2 _ (fun m hm => ?_) (hS k (by simp) i i0 i1)).symm
        intro h
        obtain ⟨i', i0', i1', e⟩ := Ptr.in_iff.1 h
        have hne : k ≠ m := by rintro rfl; exact hnd.1 hm
        exact hne (col_inj (LD := LDB) i0 (by omega) i0' (by omega) (by unfold Ptr.add Ptr.at at e; simp only at e; omega)).1
      · have hne : k ≠ j := by rintro rfl; exact hnd.1 hk'
        exact hRel _ _ _ _ (r2 k hk') (fun i i0 i1 => o1 _ (dis k hne i i0 i1) (hS k hk i i0 i1)) (fun _ _ _ => rfl)
    · rw [o2 a (fun k hk => ha k (by simp [hk])) hs, o1 a (ha j (by simp)) hs]

/-- A parallel loop over the columns, in which every thread uses scratch space of its own again and again. -/
theorem cols_par {S : Nat → Int → Prop} {n N LDB : Int} {T : Nat} {B : Ptr} {owner : Int → Nat} {body : Nat → Int → Prog K Unit} {Rel : (Int → K) → (Int → K) → Prop} {M : Buf K}
    (hRel : ∀ u v u' v', Rel u v → (∀ i, 0 ≤ i → i < n → u i = u' i) → (∀ i, 0 ≤ i → i < n → v i = v' i) → Rel u' v') (hLD : n ≤ LDB) (hown : ∀ j, 0 ≤ j → j < N → owner j < T)
    (hS : ∀ t, t < T → ∀ j i, 0 ≤ j → j < N → 0 ≤ i → i < n → ¬ S t ((B.add (j * LDB)).at i)) (hSS : ∀ t u, t < T → u < T → t ≠ u → ∀ a, S t a → ¬ S u a)
    (hb : ∀ t, t < T → ∀ j, 0 ≤ j → j < N → ∀ A : Buf K, A.size = M.size → ∃ A', (body t j).run A = some ((), A') ∧ A'.size = A.size ∧
      Rel (fun i => A.val ((B.add (j * LDB)).at i)) (fun i => A'.val ((B.add (j * LDB)).at i)) ∧ ∀ a, ¬ (B.add (j * LDB)).In n a → ¬ S t a → A'.val a = A.val a)
    (hacc : ∀ t, t < T → ∀ j, 0 ≤ j → j < N → ∀ R : Int → Prop, (∀ i, 0 ≤ i → i < n → R ((B.add (j * LDB)).at i)) → (∀ a, S t a → R a) → (body t j).Acc R R) :
    ParPost T (fun t => forThread 0 N owner (body t) t) M fun M' => M'.size = M.size ∧
      (∀ j, 0 ≤ j → j < N → Rel (fun i => M.val ((B.add (j * LDB)).at i)) (fun i => M'.val ((B.add (j * LDB)).at i))) ∧
      ∀ a, (∀ j, 0 ≤ j → j < N → ¬ (B.add (j * LDB)).In n a) → (∀ t, t < T → ¬ S t a) → M'.val a = M.val a := by
  have mem : ∀ t a, a ∈ (rUp 0 N).filter (fun m => owner m = t) ↔ (0 ≤ a ∧ a < N) ∧ owner a = t := by
    intro t a; rw [List.mem_filter, mem_rUp]; simp
  have nd : ∀ t, ((rUp 0 N).filter (fun m => owner m = t)).Nodup := fun t => List.Nodup.filter _ ((pairwise_rUp 0 N).imp (fun h => by omega))
  have run : ∀ t, ∃ A', t < T → (forThread 0 N owner (body t) t).run M = some ((), A') ∧ A'.size = M.size ∧
      (∀ j ∈ (rUp 0 N).filter (fun m => owner m = t), Rel (fun i => M.val ((B.add (j * LDB)).at i)) (fun i => A'.val ((B.add (j * LDB)).at i))) ∧
      ∀ a, (∀ j ∈ (rUp 0 N).filter (fun m => owner m = t), ¬ (B.add (j * LDB)).In n a) → ¬ S t a → A'.val a = M.val a := by
    intro t
    by_cases ht : t < T
    · obtain ⟨A', h⟩ := cols_run (S := S t) (body := body t) (M := M) hRel hLD (nd t) (fun j hj i i0 i1 => hS t ht j i ((mem t j).1 hj).1.1 ((mem t j).1 hj).1.2 i0 i1)
        (fun j hj => hb t ht j ((mem t j).1 hj).1.1 ((mem t j).1 hj).1.2) (A := M) rfl
      exact ⟨A', fun _ => h⟩
    · exact ⟨M, fun h => (ht h).elim⟩
  choose F hF using run
  refine parPost_share (T := T) (R := fun t a => (∃ j, 0 ≤ j ∧ j < N ∧ owner j = t ∧ (B.add (j * LDB)).In n a) ∨ (t < T ∧ S t a))
    (W := fun t a => (∃ j, 0 ≤ j ∧ j < N ∧ owner j = t ∧ (B.add (j * LDB)).In n a) ∨ (t < T ∧ S t a)) (F := F) (fun _ _ h => h) ?_ ?_ (fun t ht => (hF t ht).1) ?_
  · rintro t u a htu hW hR
    rcases hW with ⟨j, j0, j1, jt, hj⟩ | ⟨ht, hs⟩
    · rcases hR with ⟨k, k0, k1, kt, hk⟩ | ⟨hu, hs⟩
      · obtain ⟨i, i0, i1, e⟩ := Ptr.in_iff.1 hj
        obtain ⟨i', i0', i1', e'⟩ := Ptr.in_iff.1 hk
        have : j = k := (col_inj (LD := LDB) i0 (by omega) i0' (by omega) (by unfold Ptr.add Ptr.at at e e'; simp only at e e'; omega)).1
        exact htu (by rw [← jt, ← kt, this])
      · obtain ⟨i, i0, i1, e⟩ := Ptr.in_iff.1 hj
        exact hS u hu j i j0 j1 i0 i1 (e ▸ hs)
    · rcases hR with ⟨k, k0, k1, kt, hk⟩ | ⟨hu, hs'⟩
      · obtain ⟨i, i0, i1, e⟩ := Ptr.in_iff.1 hk
        exact hS t ht k i k0 k1 i0 i1 (e ▸ hs)
      · exact hSS t u ht hu htu a hs hs'
  · intro t ht
    refine Acc.each (fun j hj _ => ?_) ()
    obtain ⟨h1, h2⟩ := (mem t j).1 hj
    exact hacc t ht j h1.1 h1.2 _ (fun i i0 i1 => Or.inl ⟨j, h1.1, h1.2, h2, Ptr.in_at i0 i1⟩) (fun a h => Or.inr ⟨ht, h⟩)
  · intro X hX h1 h2
    refine ⟨hX, fun j j0 j1 => ?_, fun a ha hs => ?_⟩
    · have ht := hown j j0 j1
      refine hRel _ _ _ _ ((hF _ ht).2.2.1 j ((mem _ j).2 ⟨⟨j0, j1⟩, rfl⟩)) (fun _ _ _ => rfl) (fun i i0 i1 => ?_)
      exact (h1 _ ht _ (Or.inl ⟨j, j0, j1, rfl, Ptr.in_at i0 i1⟩)).symm
    · refine h2 a fun t ht h => ?_
      rcases h with ⟨j, j0, j1, -, hj⟩ | ⟨-, h⟩
      · exact ha j j0 j1 hj
      · exact hs t ht h

end Par

end FT.Props.TbEig
