import Verif.Lemmas.Sim
import Verif.Lemmas.Hmv
import Verif.Lemmas.HierAcc
import Verif.Lemmas.TriDense
import Verif.Props.TbEigSpec

/-! # Products with and solves of divide-and-conquer eigenvector factorisations -/

namespace FT.Props.TbEig
open FT FT.Model FT.Prog FT.Props.Hier
set_option linter.unusedSectionVars false
variable {K : Type*}

section Tri
variable [CommRing K] [DecidableEq K] {x : Ptr} {n : Int} {A : Buf K} {LDA : Int}

theorem trmvP_sim (tr : Char) : Sim x n (trmvP tr n A LDA x) (trmv tr n A LDA) := by
  unfold trmvP
  by_cases h1 : tr = 'N'
  · rw [if_pos h1]
    refine Sim.congr (f := forUp 0 n fun j B => ((forUp 0 j (fun i B => (B.rd i).bind fun xi => (A.rd (i + j * LDA)).bind fun a => (B.rd j).bind fun xj => B.wr i (xi + a * xj))) B).bind
      fun B => (B.rd j).bind fun xj => (A.rd (j + j * LDA)).bind fun a => B.wr j (xj * a)) (sim_up fun j _ _ => ?_) (fun B => ?_)
    · exact sim_bind (sim_up fun i _ _ => sim_get fun xi => sim_opt fun a _ => sim_get fun xj => sim_put) (sim_get fun xj => sim_opt fun a _ => sim_put)
    · unfold trmv
      rw [if_pos h1]
      unfold sweepUp
      congr 1
      funext j x
      congr 2
      funext i x
      rw [Option.bind_assoc]
      congr 1; funext xi
      rw [Option.bind_assoc]
      congr 1; funext a
      cases x.rd j <;> rfl
  · rw [if_neg h1]
    by_cases h2 : tr = 'T'
    · rw [if_pos h2]
      refine Sim.congr (f := forDown (n - 1) 0 fun i B => ((B.rd i).bind fun xi => (A.rd (i + i * LDA)).bind fun a => B.wr i (xi * a)).bind
        (forDown (i - 1) 0 fun j B => (B.rd i).bind fun xi => (A.rd (j + i * LDA)).bind fun a => (B.rd j).bind fun xj => B.wr i (xi + a * xj))) (sim_down fun i => ?_) (fun B => ?_)
      · exact sim_bind (sim_get fun xi => sim_opt fun a _ => sim_put) (sim_down fun j => sim_get fun xi => sim_opt fun a _ => sim_get fun xj => sim_put)
      · unfold trmv
        rw [if_neg h1, if_pos h2]
    · rw [if_neg h2]
      refine Sim.congr sim_ret fun B => ?_
      unfold trmv
      rw [if_neg h1, if_neg h2]

/-- The array a pointer points to. -/
def arr (x : Ptr) (n : Int) (M : Buf K) : Buf K := ⟨n.toNat, fun i => M.val (x.at i)⟩

theorem arr_view (n0 : 0 ≤ n) (M : Buf K) : View x n M (arr x n M) := ⟨by unfold arr; simp only; omega, fun _ _ _ => rfl⟩

theorem trmvP_run {tr : Char} (htr : tr = 'N' ∨ tr = 'T') (n0 : 0 ≤ n) {V : Buf K} (hV : n * n ≤ V.size) {M : Buf K} (hx : x.Ok n M.size) :
    ∃ M', (trmvP tr n V n x).run M = some ((), M') ∧ Sets M M' x n (fun _ => False) fun i => ∑ j ∈ Finset.Ico 0 n, opm tr (.leaf n V) i j * M.val (x.at j) := by
  have hA : TriOk n V n := ⟨le_refl _, hV⟩
  have hs : n ≤ (arr x n M).size := by unfold arr; simp only; omega
  have e : trmv tr n V n (arr x n M) = some (mix (arr x n M) 0 n fun i => ∑ j ∈ Finset.Ico 0 n, opm tr (.leaf n V) i j * M.val (x.at j)) := by
    rcases htr with rfl | rfl
    · rw [trmvN_eq hA hs]; rfl
    · rw [trmvT_eq hA hs]; rfl
  obtain ⟨M', e', s', v', o'⟩ := trmvP_sim tr M _ _ hx (arr_view n0 M) e
  refine ⟨M', e', s', fun i i0 i1 => ?_, fun a ha _ => o' a ha⟩
  rw [← v'.2 i i0 i1, mix_val_in i0 i1]

theorem trmvP_acc {tr : Char} {R W : Int → Prop} (hR : ∀ i, 0 ≤ i → i < n → R (x.at i)) (hW : ∀ i, 0 ≤ i → i < n → W (x.at i)) : (trmvP tr n A LDA x).Acc R W := by
  unfold trmvP
  split_ifs with h1 h2
  · refine Acc.each (fun j hj _ => Acc.bind (Acc.each (fun i hi _ => ?_) ()) fun _ => ?_) ()
    all_goals
      simp only [mem_rUp] at *
    · exact Acc.bind (Acc.get fun _ _ => hR i (by omega) (by omega)) fun _ => Acc.ofOption_bind fun _ _ => Acc.bind (Acc.get fun _ _ => hR j (by omega) (by omega)) fun _ =>
        Acc.put fun _ _ => hW i (by omega) (by omega)
    · exact Acc.bind (Acc.get fun _ _ => hR j (by omega) (by omega)) fun _ => Acc.ofOption_bind fun _ _ => Acc.put fun _ _ => hW j (by omega) (by omega)
  · refine Acc.each (fun i hi _ => Acc.bind ?_ fun _ => Acc.each (fun j hj _ => ?_) ()) ()
    all_goals
      simp only [mem_rDown] at *
    · exact Acc.bind (Acc.get fun _ _ => hR i (by omega) (by omega)) fun _ => Acc.ofOption_bind fun _ _ => Acc.put fun _ _ => hW i (by omega) (by omega)
    · exact Acc.bind (Acc.get fun _ _ => hR i (by omega) (by omega)) fun _ => Acc.ofOption_bind fun _ _ => Acc.bind (Acc.get fun _ _ => hR j (by omega) (by omega)) fun _ =>
        Acc.put fun _ _ => hW i (by omega) (by omega)
  · trivial

end Tri

section TriSolve
variable [Field K] [DecidableEq K] {x : Ptr} {n : Int} {A : Buf K} {LDA : Int}

theorem trsvP_sim (tr : Char) : Sim x n (trsvP tr n A LDA x) (trsv tr n A LDA) := by
  unfold trsvP
  by_cases h1 : tr = 'N'
  · rw [if_pos h1]
    refine Sim.congr (f := forDown (n - 1) 0 fun j B => ((B.rd j).bind fun xj => (A.rd (j + j * LDA)).bind fun a => (divC xj a).bind fun v => B.wr j v).bind
      (forUp 0 j (fun i B => (B.rd i).bind fun xi => (A.rd (i + j * LDA)).bind fun a => (B.rd j).bind fun xj => B.wr i (xi - a * xj)))) (sim_down fun j => ?_) (fun B => ?_)
    · exact sim_bind (sim_get fun xj => sim_opt fun a _ => sim_opt fun v _ => sim_put) (sim_up fun i _ _ => sim_get fun xi => sim_opt fun a _ => sim_get fun xj => sim_put)
    · unfold trsv
      rw [if_pos h1]
      unfold sweepUp
      congr 1
      funext j x
      congr 1
      funext x
      congr 1
      funext i x
      rw [Option.bind_assoc]
      congr 1; funext xi
      rw [Option.bind_assoc]
      congr 1; funext a
      cases x.rd j <;> rfl
  · rw [if_neg h1]
    by_cases h2 : tr = 'T'
    · rw [if_pos h2]
      refine Sim.congr (f := forUp 0 n fun i B => (forUp 0 i (fun j B => (B.rd i).bind fun xi => (A.rd (j + i * LDA)).bind fun a => (B.rd j).bind fun xj => B.wr i (xi - a * xj)) B).bind
        fun B => (B.rd i).bind fun xi => (A.rd (i + i * LDA)).bind fun a => (divC xi a).bind fun v => B.wr i v) (sim_up fun i _ _ => ?_) (fun B => ?_)
      · exact sim_bind (sim_up fun j _ _ => sim_get fun xi => sim_opt fun a _ => sim_get fun xj => sim_put) (sim_get fun xi => sim_opt fun a _ => sim_opt fun v _ => sim_put)
      · unfold trsv
        rw [if_neg h1, if_pos h2]
    · rw [if_neg h2]
      refine Sim.congr sim_ret fun B => ?_
      unfold trsv
      rw [if_neg h1, if_neg h2]

theorem trsvP_run {tr : Char} (htr : tr = 'N' ∨ tr = 'T') (n0 : 0 ≤ n) {V : Buf K} (hV : n * n ≤ V.size) (hd : Regular (.leaf n V)) {M : Buf K} (hx : x.Ok n M.size) :
    ∃ M' z, (trsvP tr n V n x).run M = some ((), M') ∧ Sets M M' x n (fun _ => False) z ∧ ∀ i, 0 ≤ i → i < n → ∑ j ∈ Finset.Ico 0 n, opm tr (.leaf n V) i j * z j = M.val (x.at i) := by
  have hA : TriOk n V n := ⟨le_refl _, hV⟩
  have hs : n ≤ (arr x n M).size := by unfold arr; simp only; omega
  have hd' : ∀ i, 0 ≤ i → i < n → triU V n i i ≠ 0 := fun i i0 i1 => by unfold triU; rw [if_pos (le_refl _)]; exact hd i i0 i1
  have e : ∃ z, trsv tr n V n (arr x n M) = some (mix (arr x n M) 0 n z) ∧ ∀ i, 0 ≤ i → i < n → ∑ j ∈ Finset.Ico 0 n, opm tr (.leaf n V) i j * z j = M.val (x.at i) := by
    rcases htr with rfl | rfl
    · obtain ⟨z, hz⟩ := tri_exists (c := triU V n) hs hd' (fun i k _ _ _ h => if_neg (by omega))
      exact ⟨z, trsvN_of hA hs hd' hz, hz⟩
    · obtain ⟨z, hz⟩ := tri_exists_lower (c := fun i k => triU V n k i) hs hd' (fun i k _ _ h _ => if_neg (by omega))
      exact ⟨z, trsvT_of hA hs hd' hz, hz⟩
  obtain ⟨z, e, hz⟩ := e
  obtain ⟨M', e', s', v', o'⟩ := trsvP_sim tr M _ _ hx (arr_view n0 M) e
  refine ⟨M', z, e', ⟨s', fun i i0 i1 => ?_, fun a ha _ => o' a ha⟩, hz⟩
  rw [← v'.2 i i0 i1, mix_val_in i0 i1]

theorem trsvP_acc {tr : Char} {R W : Int → Prop} (hR : ∀ i, 0 ≤ i → i < n → R (x.at i)) (hW : ∀ i, 0 ≤ i → i < n → W (x.at i)) : (trsvP tr n A LDA x).Acc R W := by
  unfold trsvP
  split_ifs with h1 h2
  · refine Acc.each (fun j hj _ => Acc.bind ?_ fun _ => Acc.each (fun i hi _ => ?_) ()) ()
    all_goals
      simp only [mem_rUp, mem_rDown] at *
    · exact Acc.bind (Acc.get fun _ _ => hR j (by omega) (by omega)) fun _ => Acc.ofOption_bind fun _ _ => Acc.ofOption_bind fun _ _ => Acc.put fun _ _ => hW j (by omega) (by omega)
    · exact Acc.bind (Acc.get fun _ _ => hR i (by omega) (by omega)) fun _ => Acc.ofOption_bind fun _ _ => Acc.bind (Acc.get fun _ _ => hR j (by omega) (by omega)) fun _ =>
        Acc.put fun _ _ => hW i (by omega) (by omega)
  · refine Acc.each (fun i hi _ => Acc.bind (Acc.each (fun j hj _ => ?_) ()) fun _ => ?_) ()
    all_goals
      simp only [mem_rUp] at *
    · exact Acc.bind (Acc.get fun _ _ => hR i (by omega) (by omega)) fun _ => Acc.ofOption_bind fun _ _ => Acc.bind (Acc.get fun _ _ => hR j (by omega) (by omega)) fun _ =>
        Acc.put fun _ _ => hW i (by omega) (by omega)
    · exact Acc.bind (Acc.get fun _ _ => hR i (by omega) (by omega)) fun _ => Acc.ofOption_bind fun _ _ => Acc.ofOption_bind fun _ _ => Acc.put fun _ _ => hW i (by omega) (by omega)
  · trivial

end TriSolve

section Couple
variable [CommRing K] [DecidableEq K]

/-- A loop that adds `v i` to entry `d i` of `y`. -/
theorem scatter_run {y : Ptr} {m nd : Int} {M : Buf K} {d : Int → Int} {v : Int → K} {body : Int → Prog K Unit} (hd : ∀ i, 0 ≤ i → i < m → 0 ≤ d i ∧ d i < nd)
    (hb : ∀ i, 0 ≤ i → i < m → ∀ A : Buf K, A.size = M.size → (∀ a, ¬ y.In nd a → A.val a = M.val a) →
      (body i).run A = some ((), ⟨A.size, Function.update A.val (y.at (d i)) (A.val (y.at (d i)) + v i)⟩)) :
    ∃ M', (each (fun i _ => body i) (rUp 0 m) ()).run M = some ((), M') ∧ Sets M M' y nd (fun _ => False) fun r =>
      M.val (y.at r) + ∑ i ∈ Finset.Ico 0 m, if d i = r then v i else 0 := by
  obtain ⟨⟨⟩, M', e, p⟩ := each_upS (body := fun i _ => body i) (lo := 0) (hi := m) (s := ()) (A := M) (fun i _ A => Sets M A y nd (fun _ => False) fun r =>
      M.val (y.at r) + ∑ i ∈ Finset.Ico 0 i, if d i = r then v i else 0)
    ⟨rfl, fun i _ _ => by dsimp only; rw [Finset.Ico_self, Finset.sum_empty, add_zero], fun _ _ _ => rfl⟩ (fun i i0 i1 _ A hA => by
      refine ⟨(), _, hb i i0 i1 A hA.1 (fun a ha => hA.2.2 a ha not_false), hA.1, fun r r0 r1 => ?_, fun a ha hf => ?_⟩
      · dsimp only
        rw [sum_Ico_succ i0]
        by_cases h : d i = r
        · rw [h, Function.update_self, if_pos rfl, hA.2.1 r r0 r1, add_assoc]
        · rw [if_neg h, add_zero, Function.update_of_ne (by unfold Ptr.at; omega)]
          exact hA.2.1 r r0 r1
      · dsimp only
        rw [Function.update_of_ne, hA.2.2 a ha hf]
        rintro rfl
        exact ha (Ptr.in_at (hd i i0 i1).1 (hd i i0 i1).2))
  refine ⟨M', e, p.1, fun r r0 r1 => ?_, p.2.2⟩
  rw [p.2.1 r r0 r1]
  rcases le_total 0 m with h | h
  · rw [max_eq_right h]
  · rw [max_eq_left h, Finset.Ico_self, Finset.Ico_eq_empty (by omega)]

theorem addP_run {sub : Bool} {y : Ptr} {n d : Int} {v : K} {A : Buf K} (hy : y.Ok n A.size) (d0 : 0 ≤ d) (d1 : d < n) :
    (addP sub y d v).run A = some ((), ⟨A.size, Function.update A.val (y.at d) (A.val (y.at d) + (if sub then -v else v))⟩) := by
  unfold addP
  rw [run_get_bind hy d0 d1, run_put hy d0 d1]
  cases sub
  · rfl
  · simp only [if_true]; rw [sub_eq_add_neg]

/-- The sparse part of the coupling. -/
theorem sparse_run {sub : Bool} {n so ds ns nd nnz : Int} {qs qd : Buf Int} {sv : Buf K} {x : Ptr} {M : Buf K} (hx : x.Ok n M.size) (so0 : 0 ≤ so) (so1 : so + ns ≤ n) (ds0 : 0 ≤ ds)
    (ds1 : ds + nd ≤ n) (hsd : so + ns ≤ ds ∨ ds + nd ≤ so) (h1 : nnz ≤ qs.size) (h2 : nnz ≤ qd.size) (h3 : nnz ≤ sv.size)
    (h4 : ∀ l, 0 ≤ l → l < nnz → 0 ≤ qs.val l ∧ qs.val l < ns) (h5 : ∀ l, 0 ≤ l → l < nnz → 0 ≤ qd.val l ∧ qd.val l < nd) :
    ∃ M', (each (fun l _ => (ofOption (qd.rd l)).bind fun d => (ofOption (qs.rd l)).bind fun q => (ofOption (sv.rd l)).bind fun v => (get x (q + so)).bind fun w =>
        addP sub x (d + ds) (v * w)) (rUp 0 nnz) ()).run M = some ((), M') ∧
      Sets M M' (x.add ds) nd (fun _ => False) fun r => M.val ((x.add ds).at r) + ∑ l ∈ Finset.Ico 0 nnz, if qd.val l = r then
        (if sub then -(sv.val l * M.val ((x.add so).at (qs.val l))) else sv.val l * M.val ((x.add so).at (qs.val l))) else 0 := by
  refine scatter_run (body := fun l => (ofOption (qd.rd l)).bind fun d => (ofOption (qs.rd l)).bind fun q => (ofOption (sv.rd l)).bind fun v => (get x (q + so)).bind fun w =>
        addP sub x (d + ds) (v * w)) (d := fun l => qd.val l)
    (v := fun l => if sub then -(sv.val l * M.val ((x.add so).at (qs.val l))) else sv.val l * M.val ((x.add so).at (qs.val l))) h5 ?_
  intro l l0 l1 A hA hAv
  have a4 := h4 l l0 l1
  have a5 := h5 l l0 l1
  rw [run_ofOption_bind (Buf.rd_of l0 (by omega)), run_ofOption_bind (Buf.rd_of l0 (by omega)), run_ofOption_bind (Buf.rd_of l0 (by omega)),
    run_get_bind (n := n) (by rw [hA]; exact hx) (by omega) (by omega), addP_run (n := n) (by rw [hA]; exact hx) (by omega) (by omega)]
  rw [hAv (x.at (qs.val l + so)) (by unfold Ptr.In Ptr.add Ptr.at; dsimp only; omega), Ptr.add_at, Ptr.add_at, add_comm ds, add_comm so]

/-- One term of the coupling: gather, multiply, scatter. -/
theorem term_run {tr : Char} (htr : tr = 'N' ∨ tr = 'T') {alpha : K} {tid k n ns nd so ds : Int} {F0 : HMat K} (hS : Sized F0) (hnil : F0 ≠ .nil) (hr : opRows tr F0 = nd) (hc : opCols tr F0 = ns)
    {ps pd : Buf Int} {Fs Fd : Buf K} {ts td x : Ptr} {M : Buf K} {b : Int} (k0 : 0 ≤ k) (k1 : k < b) (hps : ns ≤ ps.size) (vps : ∀ i, 0 ≤ i → i < ns → 0 ≤ ps.val i ∧ ps.val i < ns)
    (hpd : nd ≤ pd.size) (vpd : ∀ i, 0 ≤ i → i < nd → 0 ≤ pd.val i ∧ pd.val i < nd) (hFs : ns * b ≤ Fs.size) (hFd : nd * b ≤ Fd.size)
    (hx : x.Ok n M.size) (so0 : 0 ≤ so) (so1 : so + ns ≤ n) (ds0 : 0 ≤ ds) (ds1 : ds + nd ≤ n)
    (hts : ts.Ok ns M.size) (htd : td.Ok nd M.size) (hO : ScrOk tid M.size F0) (d1 : ∀ a, ts.In ns a → ¬ td.In nd a ∧ ¬ Scr tid F0 a) (d2 : ∀ a, td.In nd a → ¬ Scr tid F0 a)
    (dx : ∀ j, 0 ≤ j → j < n → ¬ (ts.In ns (x.at j) ∨ td.In nd (x.at j) ∨ Scr tid F0 (x.at j))) :
    ∃ M', ((each (fun i _ => (ofOption (ps.rd i)).bind fun pi => (ofOption (Fs.rd (pi + k * ns))).bind fun f => (get x (pi + so)).bind fun v => put ts i (f * v)) (rUp 0 ns) ()).bind fun _ =>
        (hmvP tr alpha tid F0 ts 0 td).bind fun _ =>
        each (fun i _ => (ofOption (pd.rd i)).bind fun pi => (get td i).bind fun t => (ofOption (Fd.rd (pi + k * nd))).bind fun f => addP false x (pi + ds) (t * f))
          (rUp 0 nd) ()).run M = some ((), M') ∧
      Sets M M' (x.add ds) nd (fun a => ts.In ns a ∨ td.In nd a ∨ Scr tid F0 a) fun r => M.val ((x.add ds).at r) + ∑ i ∈ Finset.Ico 0 nd, if pd.val i = r then
        (alpha * ∑ j ∈ Finset.Ico 0 ns, op tr F0 i j * (Fs.val (ps.val j + k * ns) * M.val ((x.add so).at (ps.val j)))) * Fd.val (pd.val i + k * nd) else 0 := by
  have xo : ∀ j, 0 ≤ j → j < n → ¬ ts.In ns (x.at j) ∧ ¬ td.In nd (x.at j) ∧ ¬ Scr tid F0 (x.at j) := fun j j0 j1 =>
    ⟨fun h => dx j j0 j1 (Or.inl h), fun h => dx j j0 j1 (Or.inr (Or.inl h)), fun h => dx j j0 j1 (Or.inr (Or.inr h))⟩
  have e1 : (each (fun i _ => (ofOption (ps.rd i)).bind fun pi => (ofOption (Fs.rd (pi + k * ns))).bind fun f => (get x (pi + so)).bind fun v => put ts i (f * v)) (rUp 0 ns) ()).run M =
      some ((), updP M ts ns fun j => Fs.val (ps.val j + k * ns) * M.val ((x.add so).at (ps.val j))) := by
    refine each_fill fun i i0 i1 => ?_
    have a := vps i i0 i1
    rw [run_ofOption_bind (Buf.rd_of i0 (by omega)), run_ofOption_bind (col_rd hFs a.1 a.2 k0 k1), run_get_bind (n := n) (by exact hx) (by omega) (by omega), run_put (n := ns) (by exact hts) i0 i1]
    rw [updP_out (fun h => (xo (ps.val i + so) (by omega) (by omega)).1 (by unfold Ptr.In Ptr.at at *; omega)), updP_succ i0]
    rw [Ptr.add_at, add_comm so]
  rw [run_then e1]
  set M1 := updP M ts ns fun j => Fs.val (ps.val j + k * ns) * M.val ((x.add so).at (ps.val j)) with hM1
  obtain ⟨M2, e2, s2, v2, o2⟩ := hmvP_spec htr alpha tid hS ts td 0 M1 (fun h => (hnil h).elim) hO (by rw [hc]; exact hts) (by rw [hr]; exact htd)
    (fun j j0 j1 => by rw [hr]; exact (d1 _ (Ptr.in_at j0 (by omega))).1) (fun j j0 j1 => (d1 _ (Ptr.in_at j0 (by omega))).2) (fun j j0 j1 => d2 _ (Ptr.in_at j0 (by omega)))
  rw [run_then e2]
  have v2' : ∀ i, 0 ≤ i → i < nd → M2.val (td.at i) = alpha * ∑ j ∈ Finset.Ico 0 ns, op tr F0 i j * (Fs.val (ps.val j + k * ns) * M.val ((x.add so).at (ps.val j))) := by
    intro i i0 i1
    rw [v2 i i0 (by omega)]
    dsimp only
    rw [zero_mul, zero_add, hc]
    congr 1
    exact sum_Ico_congr fun j j0 j1 => by rw [hM1, updP_in j0 j1]
  have x2 : ∀ j, 0 ≤ j → j < n → M2.val (x.at j) = M.val (x.at j) := fun j j0 j1 => by
    rw [o2 _ (by rw [hr]; exact (xo j j0 j1).2.1) (xo j j0 j1).2.2, hM1, updP_out (xo j j0 j1).1]
  have z2 : M2.size = M.size := by rw [s2]; rfl
  obtain ⟨M3, e3, s3, v3, o3⟩ := scatter_run (y := x.add ds) (m := nd) (nd := nd) (M := M2) (d := fun i => pd.val i) (v := fun i => M2.val (td.at i) * Fd.val (pd.val i + k * nd))
    (body := fun i => (ofOption (pd.rd i)).bind fun pi => (get td i).bind fun t => (ofOption (Fd.rd (pi + k * nd))).bind fun f => addP false x (pi + ds) (t * f)) vpd (by
      intro i i0 i1 A hA hAv
      have a := vpd i i0 i1
      rw [run_ofOption_bind (Buf.rd_of i0 (by omega)), run_get_bind (n := nd) (by rw [hA, z2]; exact htd) i0 i1, run_ofOption_bind (col_rd hFd a.1 a.2 k0 k1),
        addP_run (n := n) (by rw [hA, z2]; exact hx) (by omega) (by omega)]
      rw [hAv (td.at i) (fun h => ?_), Ptr.add_at, add_comm ds]
      · rfl
      · obtain ⟨j, j0, j1, e⟩ := Ptr.in_iff.1 h
        rw [Ptr.add_at] at e
        exact (xo (ds + j) (by omega) (by omega)).2.1 (e ▸ Ptr.in_at i0 i1))
  refine ⟨M3, e3, s3.trans z2, fun r r0 r1 => ?_, fun a ha hs => ?_⟩
  · rw [v3 r r0 r1]
    dsimp only
    rw [Ptr.add_at, x2 _ (by omega) (by omega)]
    congr 1
    refine sum_Ico_congr fun i i0 i1 => ?_
    rw [v2' i i0 i1]
  · rw [not_or, not_or] at hs
    rw [o3 a ha not_false, o2 a (by rw [hr]; exact hs.2.1) hs.2.2, hM1, updP_out hs.1]

theorem fmmP_run {tr : Char} (htr : tr = 'N' ∨ tr = 'T') {alpha : K} {sub : Bool} {tid b n ns nd so ds : Int} (b0 : 0 ≤ b) {F0 : HMat K} (hS : Sized F0) (hnil : F0 ≠ .nil)
    (hr : opRows tr F0 = nd) (hc : opCols tr F0 = ns)
    {ps pd : Buf Int} {Fs Fd : Buf K} {ts td x : Ptr} {M : Buf K} (hps : ns ≤ ps.size) (vps : ∀ i, 0 ≤ i → i < ns → 0 ≤ ps.val i ∧ ps.val i < ns)
    (hpd : nd ≤ pd.size) (vpd : ∀ i, 0 ≤ i → i < nd → 0 ≤ pd.val i ∧ pd.val i < nd) (hFs : ns * b ≤ Fs.size) (hFd : nd * b ≤ Fd.size)
    {nnz : Int} {qs qd : Buf Int} {sv : Buf K} (h1 : nnz ≤ qs.size) (h2 : nnz ≤ qd.size) (h3 : nnz ≤ sv.size)
    (h4 : ∀ l, 0 ≤ l → l < nnz → 0 ≤ qs.val l ∧ qs.val l < ns) (h5 : ∀ l, 0 ≤ l → l < nnz → 0 ≤ qd.val l ∧ qd.val l < nd)
    (hx : x.Ok n M.size) (so0 : 0 ≤ so) (so1 : so + ns ≤ n) (ds0 : 0 ≤ ds) (ds1 : ds + nd ≤ n) (hsd : so + ns ≤ ds ∨ ds + nd ≤ so)
    (hts : ts.Ok ns M.size) (htd : td.Ok nd M.size) (hO : ScrOk tid M.size F0) (d1 : ∀ a, ts.In ns a → ¬ td.In nd a ∧ ¬ Scr tid F0 a) (d2 : ∀ a, td.In nd a → ¬ Scr tid F0 a)
    (dx : ∀ j, 0 ≤ j → j < n → ¬ (ts.In ns (x.at j) ∨ td.In nd (x.at j) ∨ Scr tid F0 (x.at j))) :
    ∃ M', (fmmP tr alpha sub tid b F0 ns nd so ds ps pd Fs Fd ts td nnz qs qd sv x).run M = some ((), M') ∧
      Sets M M' (x.add ds) nd (fun a => ts.In ns a ∨ td.In nd a ∨ Scr tid F0 a) fun r => M.val ((x.add ds).at r) +
        ((∑ k ∈ Finset.Ico 0 b, ∑ i ∈ Finset.Ico 0 nd, if pd.val i = r then
          (alpha * ∑ j ∈ Finset.Ico 0 ns, op tr F0 i j * (Fs.val (ps.val j + k * ns) * M.val ((x.add so).at (ps.val j)))) * Fd.val (pd.val i + k * nd) else 0) +
        ∑ l ∈ Finset.Ico 0 nnz, if qd.val l = r then
          (if sub then -(sv.val l * M.val ((x.add so).at (qs.val l))) else sv.val l * M.val ((x.add so).at (qs.val l))) else 0) := by
  have src : ∀ {A : Buf K}, (∀ a, ¬ (x.add ds).In nd a → ¬ (ts.In ns a ∨ td.In nd a ∨ Scr tid F0 a) → A.val a = M.val a) → ∀ j, 0 ≤ j → j < ns →
      A.val ((x.add so).at j) = M.val ((x.add so).at j) := fun h j j0 j1 => by
    refine h _ ?_ ?_
    · unfold Ptr.In Ptr.add Ptr.at; dsimp only; omega
    · rw [Ptr.add_at]; exact dx _ (by omega) (by omega)
  unfold fmmP
  obtain ⟨⟨⟩, M1, e1, p1⟩ := each_upS (body := fun k _ => (each (fun i _ => (ofOption (ps.rd i)).bind fun pi => (ofOption (Fs.rd (pi + k * ns))).bind fun f => (get x (pi + so)).bind fun v => put ts i (f * v)) (rUp 0 ns) ()).bind fun _ =>
        (hmvP tr alpha tid F0 ts 0 td).bind fun _ =>
        each (fun i _ => (ofOption (pd.rd i)).bind fun pi => (get td i).bind fun t => (ofOption (Fd.rd (pi + k * nd))).bind fun f => addP false x (pi + ds) (t * f))
          (rUp 0 nd) ()) (lo := 0) (hi := b) (s := ()) (A := M)
    (fun k _ A => Sets M A (x.add ds) nd (fun a => ts.In ns a ∨ td.In nd a ∨ Scr tid F0 a) fun r => M.val ((x.add ds).at r) +
        ∑ k ∈ Finset.Ico 0 k, ∑ i ∈ Finset.Ico 0 nd, if pd.val i = r then
          (alpha * ∑ j ∈ Finset.Ico 0 ns, op tr F0 i j * (Fs.val (ps.val j + k * ns) * M.val ((x.add so).at (ps.val j)))) * Fd.val (pd.val i + k * nd) else 0)
    ⟨rfl, fun i _ _ => by dsimp only; rw [Finset.Ico_self, Finset.sum_empty, add_zero], fun _ _ _ => rfl⟩ (fun k k0 k1 _ A hA => by
      obtain ⟨A', e, s, v, o⟩ := term_run htr (alpha := alpha) (tid := tid) (k := k) (M := A) hS hnil hr hc k0 k1 hps vps hpd vpd hFs hFd (by rw [hA.1]; exact hx) so0 so1 ds0 ds1
        (by rw [hA.1]; exact hts) (by rw [hA.1]; exact htd) (by rw [hA.1]; exact hO) d1 d2 dx
      refine ⟨(), A', e, s.trans hA.1, fun r r0 r1 => ?_, fun a ha hs => by rw [o a ha hs, hA.2.2 a ha hs]⟩
      rw [v r r0 r1]
      dsimp only
      rw [hA.2.1 r r0 r1]
      dsimp only
      rw [sum_Ico_succ k0, add_assoc]
      congr 2
      refine sum_Ico_congr fun i i0 i1 => ?_
      congr 3
      refine sum_Ico_congr fun j j0 j1 => ?_
      rw [src hA.2.2 _ (vps j j0 j1).1 (vps j j0 j1).2])
  rw [run_then e1]
  rw [max_eq_right b0] at p1
  obtain ⟨M2, e2, s2, v2, o2⟩ := sparse_run (sub := sub) (M := M1) (by rw [p1.1]; exact hx) so0 so1 ds0 ds1 hsd h1 h2 h3 h4 h5
  refine ⟨M2, e2, s2.trans p1.1, fun r r0 r1 => ?_, fun a ha hs => by rw [o2 a ha not_false, p1.2.2 a ha hs]⟩
  rw [v2 r r0 r1]
  dsimp only
  rw [p1.2.1 r r0 r1]
  dsimp only
  rw [add_assoc]
  congr 2
  refine sum_Ico_congr fun l l0 l1 => ?_
  rw [src p1.2.2 _ (h4 l l0 l1).1 (h4 l l0 l1).2]

/-- The result of gather, multiply and scatter, rearranged by source. -/
theorem dense_sum {ns nd b : Int} {pd ps : Int → Int} (vps : ∀ i, 0 ≤ i → i < ns → 0 ≤ ps i ∧ ps i < ns) (alpha : K) (E : Int → Int → K) (Fs Fd : Int → Int → K) (u : Int → K) (r : Int) :
    (∑ k ∈ Finset.Ico 0 b, ∑ i ∈ Finset.Ico 0 nd, if pd i = r then (alpha * ∑ j ∈ Finset.Ico 0 ns, E i j * (Fs (ps j) k * u (ps j))) * Fd (pd i) k else 0) =
    ∑ q ∈ Finset.Ico 0 ns, (alpha * ∑ k ∈ Finset.Ico 0 b, Fd r k * (∑ i ∈ Finset.Ico 0 nd, ∑ j ∈ Finset.Ico 0 ns, if pd i = r ∧ ps j = q then E i j else 0) * Fs q k) * u q := by
  simp only [Finset.mul_sum, Finset.sum_mul]
  symm
  rw [Finset.sum_comm]
  refine Finset.sum_congr rfl fun k _ => ?_
  rw [Finset.sum_comm]
  refine Finset.sum_congr rfl fun i _ => ?_
  by_cases h : pd i = r
  · rw [if_pos h, Finset.sum_comm]
    refine sum_Ico_congr fun j j0 j1 => ?_
    rw [Finset.sum_eq_single (ps j)]
    · rw [if_pos ⟨h, rfl⟩, h]; ring
    · intro q _ hq
      rw [if_neg (fun e => hq e.2.symm)]; ring
    · intro hn
      exact (hn (Finset.mem_Ico.2 (vps j j0 j1))).elim
  · rw [if_neg h]
    refine Finset.sum_eq_zero fun q _ => Finset.sum_eq_zero fun j _ => ?_
    rw [if_neg (fun e => h e.1)]; ring

theorem sparse_sum {ns nnz : Int} {qd qs : Int → Int} (h4 : ∀ l, 0 ≤ l → l < nnz → 0 ≤ qs l ∧ qs l < ns) (s u : Int → K) (r : Int) :
    (∑ l ∈ Finset.Ico 0 nnz, if qd l = r then s l * u (qs l) else 0) = ∑ q ∈ Finset.Ico 0 ns, (∑ l ∈ Finset.Ico 0 nnz, if qd l = r ∧ qs l = q then s l else 0) * u q := by
  simp only [Finset.sum_mul]
  rw [Finset.sum_comm]
  refine sum_Ico_congr fun l l0 l1 => ?_
  by_cases h : qd l = r
  · rw [if_pos h, Finset.sum_eq_single (qs l)]
    · rw [if_pos ⟨h, rfl⟩]
    · intro q _ hq
      rw [if_neg (fun e => hq e.2.symm), zero_mul]
    · intro hn
      exact (hn (Finset.mem_Ico.2 (h4 l l0 l1))).elim
  · rw [if_neg h]
    refine (Finset.sum_eq_zero fun q _ => ?_).symm
    rw [if_neg (fun e => h e.1), zero_mul]

/-- Start and length of the half the coupling changes, and of the half it reads. -/
def dOff (tr : Char) (n : Int) : Int := if tr = 'N' then 0 else n / 2
def dLen (tr : Char) (n : Int) : Int := if tr = 'N' then n / 2 else n - n / 2
def sOff (tr : Char) (n : Int) : Int := if tr = 'N' then n / 2 else 0
def sLen (tr : Char) (n : Int) : Int := if tr = 'N' then n - n / 2 else n / 2
def opc (tr : Char) (n : Int) (c : Couple K) (i j : Int) : K := if tr = 'N' then coupling n c i j else coupling n c j i

theorem couple_run {tr : Char} (htr : tr = 'N' ∨ tr = 'T') {sub : Bool} {tid n : Int} (n0 : 0 ≤ n) {c : Couple K} (hS : CplSized n c) {x : Ptr} {M : Buf K} (hx : x.Ok n M.size)
    (hO : CplScrOk tid M.size n c) (dx : ∀ j, 0 ≤ j → j < n → ¬ CplScr tid n c (x.at j)) :
    ∃ M', (coupleP tr sub tid n c x).run M = some ((), M') ∧ Sets M M' (x.add (dOff tr n)) (dLen tr n) (CplScr tid n c) fun i =>
      M.val (x.at (dOff tr n + i)) + (if sub then -1 else 1) * ∑ j ∈ Finset.Ico 0 (sLen tr n), opc tr n c i j * M.val (x.at (sOff tr n + j)) := by
  cases c with
  | fmm c =>
    obtain ⟨b0, ⟨sF, nF, rF, cF⟩, hX, hY, ⟨hp1, vp1⟩, ⟨hp2, vp2⟩, hq1, hq2, hsv, hq⟩ := hS
    obtain ⟨o1, o2, o3, d1, d2⟩ := hO
    rcases htr with rfl | rfl
    · obtain ⟨M', e, s, v, o⟩ := fmmP_run (tr := 'N') (Or.inl rfl) (alpha := if sub then (1 : K) else -1) (sub := sub) (tid := tid) (n := n) (so := n / 2) (ds := 0) (M := M) b0 sF nF
        (show opRows 'N' c.F0 = n / 2 from rF) (show opCols 'N' c.F0 = n - n / 2 from cF) hp2 vp2 hp1 vp1 hY hX hq2 hq1 hsv (fun l l0 l1 => (hq l l0 l1).2) (fun l l0 l1 => (hq l l0 l1).1)
        hx (by omega) (by omega) (by omega) (by omega) (by omega) o2 o1 o3 (fun a h => ⟨fun h' => (d1 a h').1 h, d2 a h⟩) (fun a h => (d1 a h).2)
        (fun j j0 j1 h => dx j j0 j1 (by rcases h with h | h | h; exacts [Or.inr (Or.inl h), Or.inl h, Or.inr (Or.inr h)]))
      refine ⟨M', e, s, fun i i0 i1 => ?_, fun a ha hs => o a ha (fun h => hs (by rcases h with h | h | h; exacts [Or.inr (Or.inl h), Or.inl h, Or.inr (Or.inr h)]))⟩
      have v := v i i0 i1
      dsimp only at v
      refine Eq.trans v ?_
      dsimp only
      rw [Ptr.add_at]
      have es : ∀ l, (if sub = true then -(c.sv.val l * M.val ((x.add (n / 2)).at (c.sq.val l))) else c.sv.val l * M.val ((x.add (n / 2)).at (c.sq.val l))) =
          (if sub then -c.sv.val l else c.sv.val l) * M.val ((x.add (n / 2)).at (c.sq.val l)) := by intro l; split_ifs <;> ring
      simp only [es]
      rw [sparse_sum (qd := fun l => c.sp.val l) (qs := fun l => c.sq.val l) (fun l l0 l1 => (hq l l0 l1).2) (fun l => if sub then -c.sv.val l else c.sv.val l) (fun q => M.val ((x.add (n / 2)).at q)) i,
        dense_sum (ps := fun j => c.p2.val j) (pd := fun j => c.p1.val j) vp2 _ (fun i j => op 'N' c.F0 i j) (fun q k => c.Y.val (q + k * (n - n / 2))) (fun q k => c.X.val (q + k * (n / 2)))
          (fun q => M.val ((x.add (n / 2)).at q)) i, ← Finset.sum_add_distrib, Finset.mul_sum]
      congr 1
      refine sum_Ico_congr fun j j0 j1 => ?_
      rw [← add_mul, Ptr.add_at]
      show _ = _ * (coupling n (.fmm c) i j * M.val (x.at (n / 2 + j)))
      rw [← mul_assoc]
      congr 1
      unfold coupling op
      cases sub
      · simp [Finset.sum_ite]
      · simp [Finset.sum_neg_distrib, Finset.sum_ite, add_comm]
    · obtain ⟨M', e, s, v, o⟩ := fmmP_run (tr := 'T') (Or.inr rfl) (alpha := if sub then (1 : K) else -1) (sub := sub) (tid := tid) (n := n) (so := 0) (ds := n / 2) (M := M) b0 sF nF
        (show opRows 'T' c.F0 = n - n / 2 from cF) (show opCols 'T' c.F0 = n / 2 from rF) hp1 vp1 hp2 vp2 hX hY hq1 hq2 hsv (fun l l0 l1 => (hq l l0 l1).1) (fun l l0 l1 => (hq l l0 l1).2)
        hx (by omega) (by omega) (by omega) (by omega) (by omega) o1 o2 o3 (fun a h => d1 a h) (fun a h => d2 a h) dx
      refine ⟨M', e, s, fun i i0 i1 => ?_, fun a ha hs => o a ha hs⟩
      have v := v i i0 i1
      dsimp only at v
      refine Eq.trans v ?_
      dsimp only
      rw [Ptr.add_at]
      have es : ∀ l, (if sub = true then -(c.sv.val l * M.val ((x.add 0).at (c.sp.val l))) else c.sv.val l * M.val ((x.add 0).at (c.sp.val l))) =
          (if sub then -c.sv.val l else c.sv.val l) * M.val ((x.add 0).at (c.sp.val l)) := by intro l; split_ifs <;> ring
      simp only [es]
      rw [sparse_sum (qd := fun l => c.sq.val l) (qs := fun l => c.sp.val l) (fun l l0 l1 => (hq l l0 l1).1) (fun l => if sub then -c.sv.val l else c.sv.val l) (fun q => M.val ((x.add 0).at q)) i,
        dense_sum (ps := fun j => c.p1.val j) (pd := fun j => c.p2.val j) vp1 _ (fun i j => op 'T' c.F0 i j) (fun q k => c.X.val (q + k * (n / 2))) (fun q k => c.Y.val (q + k * (n - n / 2)))
          (fun q => M.val ((x.add 0).at q)) i, ← Finset.sum_add_distrib, Finset.mul_sum]
      congr 1
      refine sum_Ico_congr fun j j0 j1 => ?_
      rw [← add_mul, Ptr.add_at]
      show _ = _ * (coupling n (.fmm c) j i * M.val (x.at (0 + j)))
      rw [← mul_assoc]
      congr 1
      have ec : ∀ k, c.Y.val (i + k * (n - n / 2)) * (∑ a ∈ Finset.Ico 0 (n - n / 2), ∑ d ∈ Finset.Ico 0 (n / 2), if c.p2.val a = i ∧ c.p1.val d = j then op 'T' c.F0 a d else 0) * c.X.val (j + k * (n / 2)) =
          c.X.val (j + k * (n / 2)) * (∑ a ∈ Finset.Ico 0 (n / 2), ∑ d ∈ Finset.Ico 0 (n - n / 2), if c.p1.val a = j ∧ c.p2.val d = i then ent c.F0 a d else 0) * c.Y.val (i + k * (n - n / 2)) := by
        intro k
        rw [Finset.sum_comm]
        simp only [and_comm (a := c.p2.val _ = i)]
        unfold op
        simp only [show ('T' = 'N') = False by decide, if_false]
        ring
      simp only [ec, and_comm (a := c.sq.val _ = i)]
      unfold coupling
      cases sub
      · simp [Finset.sum_ite]
      · simp [Finset.sum_neg_distrib, Finset.sum_ite, add_comm]
  | adi L =>
    obtain ⟨sL, mL, nL⟩ := hS
    rcases htr with rfl | rfl
    · have er : opRows 'N' (.low L) = n / 2 := mL
      have ec : opCols 'N' (.low L) = n - n / 2 := nL
      obtain ⟨M', e, s, v, o⟩ := low_run (tr := 'N') (Or.inl rfl) (alpha := if sub then (-1 : K) else 1) (beta := 1) sL (t := tid) (x := x.add (n / 2)) (y := x) (M := M) hO
        (by rw [ec]; exact hx.add (by omega) (by omega)) (by rw [er]; unfold Ptr.Ok at *; omega) (fun j j0 j1 => by rw [Ptr.add_at]; exact dx _ (by omega) (by omega))
        (fun j j0 j1 => dx _ (by omega) (by omega))
      rw [er] at v o
      rw [ec] at v
      have e0 : x.add 0 = x := by unfold Ptr.add; simp
      refine ⟨M', e, s, fun i i0 i1 => ?_, fun a ha hs => o a (fun h => ha (by show (x.add 0).In (n / 2) a; rw [e0]; exact h)) hs⟩
      show M'.val ((x.add 0).at i) = _
      rw [e0, v i i0 i1]
      dsimp only
      rw [one_mul]
      congr 1
      · show _ = M.val (x.at (0 + i)); rw [zero_add]
      · congr 1
        refine sum_Ico_congr fun j j0 j1 => ?_
        rw [Ptr.add_at]; rfl
    · have er : opRows 'T' (.low L) = n - n / 2 := nL
      have ec : opCols 'T' (.low L) = n / 2 := mL
      obtain ⟨M', e, s, v, o⟩ := low_run (tr := 'T') (Or.inr rfl) (alpha := if sub then (-1 : K) else 1) (beta := 1) sL (t := tid) (x := x) (y := x.add (n / 2)) (M := M) hO
        (by rw [ec]; unfold Ptr.Ok at *; omega) (by rw [er]; exact hx.add (by omega) (by omega)) (fun j j0 j1 => dx _ (by omega) (by omega))
        (fun j j0 j1 => by rw [Ptr.add_at]; exact dx _ (by omega) (by omega))
      rw [er] at v o
      rw [ec] at v
      refine ⟨M', e, s, fun i i0 i1 => ?_, fun a ha hs => o a ha hs⟩
      show M'.val ((x.add (n / 2)).at i) = _
      rw [v i i0 i1]
      dsimp only
      rw [one_mul]
      congr 1
      · rw [Ptr.add_at]; rfl
      · congr 1
        refine sum_Ico_congr fun j j0 j1 => ?_
        show _ = _ * M.val (x.at (0 + j))
        rw [zero_add]; rfl

end Couple

end FT.Props.TbEig
