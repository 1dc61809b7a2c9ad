import Verif.Model.Modified
import Verif.Lemmas.TbEigRun
import Verif.Props.Tri

/-!
# Programs for modified plans do what the functions on arrays do
-/

set_option linter.unusedSectionVars false

namespace FT
open Prog
variable {K : Type*} [Field K] [DecidableEq K] {x : Ptr} {n : Int}

/-- Reading only: the program returns what the function returns and leaves the memory. -/
theorem accP_run {lo hi : Int} {co : Int → Option K} {M B : Buf K} (hx : x.Ok n M.size) (hv : View x n M B) {t : K}
    (e : (accUp lo hi 0 fun k => (co k).bind fun a => (B.rd k).map fun v => a * v) = some t) : (accP lo hi co x).run M = some (t, M) := by
  unfold accP
  unfold accUp at e
  rw [forUp_exec] at e
  generalize (0 : K) = t0 at e ⊢
  generalize rUp lo hi = l at e ⊢
  induction l generalizing t0 with
  | nil => cases e; rfl
  | cons k l ih =>
    rw [exec_cons] at e
    obtain ⟨s, e1, e2⟩ := Option.bind_eq_some_iff.1 e
    obtain ⟨w, e3, e4⟩ := Option.bind_eq_some_iff.1 e1
    obtain ⟨a, e5, e6⟩ := Option.bind_eq_some_iff.1 e3
    obtain ⟨v, e7, e8⟩ := Option.map_eq_some_iff.1 e6
    cases e4
    obtain ⟨⟨i0, i1⟩, hval⟩ := Buf.rd_eq_some_iff.1 e7
    rw [hv.1] at i1
    rw [each, run_bind, run_ofOption_bind e5, run_get_bind hx i0 i1, ← hv.2 k i0 i1, hval, e8]
    exact ih _ e2

theorem sim_acc {lo hi : Int} {co : Int → Option K} {p : K → Prog K Unit} {f : K → Buf K → Option (Buf K)} (h : ∀ t, Sim x n (p t) (f t)) :
    Sim x n ((accP lo hi co x).bind p) (fun B => (accUp lo hi 0 fun k => (co k).bind fun a => (B.rd k).map fun v => a * v).bind fun t => f t B) := by
  intro M B B' hx hv e
  obtain ⟨t, e1, e2⟩ := Option.bind_eq_some_iff.1 e
  obtain ⟨M', e', r⟩ := h t M B B' hx hv e2
  exact ⟨M', by rw [run_then (accP_run hx hv e1)]; exact e', r⟩

theorem accP_acc {R W : Int → Prop} {lo hi : Int} {co : Int → Option K} (h : ∀ k, lo ≤ k → k < hi → R (x.at k)) : (accP lo hi co x).Acc R W := by
  unfold accP
  refine Acc.each (fun k hk t => Acc.ofOption_bind fun a _ => Acc.bind (Acc.get fun _ _ => h k (mem_rUp.1 hk).1 (mem_rUp.1 hk).2) fun v => ?_) _
  exact trivial

theorem mulUpperP_sim {m : Int} {hi : Int → Int} {co : Int → Int → Option K} : Sim x n (mulUpperP m hi co x) (mulUpper m hi co) :=
  (sim_up fun _ _ _ => sim_acc fun _ => sim_put).congr fun _ => rfl

theorem mulLowerP_sim {m : Int} {lo : Int → Int} {co : Int → Int → Option K} : Sim x n (mulLowerP m lo co x) (mulLower m lo co) :=
  (sim_down fun _ => sim_acc fun _ => sim_put).congr fun _ => rfl

theorem solveBody_sim {i lo hi : Int} {co : Int → Option K} :
    Sim x n ((accP lo hi co x).bind fun t => (get x i).bind fun v => (ofOption (co i)).bind fun d => (ofOption (divC (v - t) d)).bind fun q => put x i q)
      fun B => ((accUp lo hi 0 fun k => (co k).bind fun a => (B.rd k).map fun v => a * v).bind fun t => (B.rd i).bind fun v => (co i).bind fun d => divC (v - t) d).bind (B.wr i) :=
  (sim_acc fun _ => sim_get fun _ => sim_opt fun _ _ => sim_opt fun _ _ => sim_put).congr fun B => by simp only [Option.bind_assoc]

theorem solveUpperP_sim {m : Int} {hi : Int → Int} {co : Int → Int → Option K} : Sim x n (solveUpperP m hi co x) (solveUpper m hi co) :=
  (sim_down fun _ => solveBody_sim).congr fun _ => rfl

theorem solveLowerP_sim {m : Int} {lo : Int → Int} {co : Int → Int → Option K} : Sim x n (solveLowerP m lo co x) (solveLower m lo co) :=
  (sim_up fun _ _ _ => solveBody_sim).congr fun _ => rfl

theorem tbmvP_sim (tr : Char) (A : TB K) : Sim x n (tbmvP tr A x) (tbmv tr A) := by
  unfold tbmvP tbmv
  split_ifs
  · exact mulUpperP_sim
  · exact mulLowerP_sim
  · exact sim_ret

theorem tbsvP_sim (tr : Char) (A : TB K) : Sim x n (tbsvP tr A x) (tbsv tr A) := by
  unfold tbsvP tbsv
  split_ifs
  · exact solveUpperP_sim
  · exact solveLowerP_sim
  · exact sim_ret

theorem mpmvP_sim (tr : Char) (P : ModPlan K) : Sim x n (mpmvP tr P x) (mpmv tr P) := by
  unfold mpmvP mpmv
  split_ifs
  · exact tbsvP_sim tr P.R
  · exact sim_bind (sim_opt fun A _ => tbsvP_sim 'N' A) (tbmvP_sim 'N' P.R)
  · exact sim_bind (tbmvP_sim 'T' P.R) (sim_opt fun A _ => tbsvP_sim 'T' A)
  · exact sim_ret

theorem mpsvP_sim (tr : Char) (P : ModPlan K) : Sim x n (mpsvP tr P x) (mpsv tr P) := by
  unfold mpsvP mpsv
  split_ifs
  · exact tbmvP_sim tr P.R
  · exact sim_bind (tbsvP_sim 'N' P.R) (sim_opt fun A _ => tbmvP_sim 'N' A)
  · exact sim_bind (sim_opt fun A _ => tbmvP_sim 'T' A) (tbsvP_sim 'T' P.R)
  · exact sim_ret

section acc
variable {R : Int → Prop}

theorem tbmvP_acc {tr : Char} {A : TB K} (h : ∀ i, 0 ≤ i → i < A.n → R (x.at i)) : (tbmvP tr A x).Acc R R := by
  unfold tbmvP
  split_ifs
  · refine Acc.each (fun i hi _ => ?_) ()
    rw [mem_rUp] at hi
    exact Acc.bind (accP_acc fun k k0 k1 => by beta_reduce at k0 k1; exact h k (by omega) (by omega)) fun _ => Acc.put fun _ _ => h i (by omega) (by omega)
  · refine Acc.each (fun i hi _ => ?_) ()
    rw [mem_rDown] at hi
    exact Acc.bind (accP_acc fun k k0 k1 => by beta_reduce at k0 k1; exact h k (by omega) (by omega)) fun _ => Acc.put fun _ _ => h i (by omega) (by omega)
  · trivial

theorem tbsvP_acc {tr : Char} {A : TB K} (h : ∀ i, 0 ≤ i → i < A.n → R (x.at i)) : (tbsvP tr A x).Acc R R := by
  unfold tbsvP
  split_ifs
  · refine Acc.each (fun i hi _ => ?_) ()
    rw [mem_rDown] at hi
    exact Acc.bind (accP_acc fun k k0 k1 => by beta_reduce at k0 k1; exact h k (by omega) (by omega)) fun _ => Acc.bind (Acc.get fun _ _ => h i (by omega) (by omega)) fun _ => Acc.ofOption_bind fun _ _ => Acc.ofOption_bind fun _ _ =>
      Acc.put fun _ _ => h i (by omega) (by omega)
  · refine Acc.each (fun i hi _ => ?_) ()
    rw [mem_rUp] at hi
    exact Acc.bind (accP_acc fun k k0 k1 => by beta_reduce at k0 k1; exact h k (by omega) (by omega)) fun _ => Acc.bind (Acc.get fun _ _ => h i (by omega) (by omega)) fun _ => Acc.ofOption_bind fun _ _ => Acc.ofOption_bind fun _ _ =>
      Acc.put fun _ _ => h i (by omega) (by omega)
  · trivial

theorem mpmvP_acc {tr : Char} {P : ModPlan K} (h : ∀ i, 0 ≤ i → i < P.R.n → R (x.at i)) (h' : ∀ A, P.K = some A → ∀ i, 0 ≤ i → i < A.n → R (x.at i)) : (mpmvP tr P x).Acc R R := by
  unfold mpmvP
  split_ifs
  · exact tbsvP_acc h
  · exact Acc.bind (Acc.ofOption_bind fun A e => tbsvP_acc (h' A e)) fun _ => tbmvP_acc h
  · exact Acc.bind (tbmvP_acc h) fun _ => Acc.ofOption_bind fun A e => tbsvP_acc (h' A e)
  · trivial

theorem mpsvP_acc {tr : Char} {P : ModPlan K} (h : ∀ i, 0 ≤ i → i < P.R.n → R (x.at i)) (h' : ∀ A, P.K = some A → ∀ i, 0 ≤ i → i < A.n → R (x.at i)) : (mpsvP tr P x).Acc R R := by
  unfold mpsvP
  split_ifs
  · exact tbmvP_acc h
  · exact Acc.bind (tbsvP_acc h) fun _ => Acc.ofOption_bind fun A e => tbmvP_acc (h' A e)
  · exact Acc.bind (Acc.ofOption_bind fun A e => tbmvP_acc (h' A e)) fun _ => tbsvP_acc h
  · trivial

end acc

end FT
