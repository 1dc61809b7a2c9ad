import Verif.Lemmas.Hier
import Verif.Model.Accum

/-!
# Programs on a pointer that do what a function on arrays does
-/

namespace FT
open Prog
variable {K : Type*} [CommRing K] {ι : Type*}

/-- The array `B` has the contents of the `n` positions from `x`. -/
def View (x : Ptr) (n : Int) (M B : Buf K) : Prop := (B.size : Int) = n ∧ ∀ i, 0 ≤ i → i < n → B.val i = M.val (x.at i)

/-- When `f` succeeds on the array, `p` succeeds on the memory with the same result, and changes nothing else. -/
def Sim (x : Ptr) (n : Int) (p : Prog K Unit) (f : Buf K → Option (Buf K)) : Prop :=
  ∀ M B B', x.Ok n M.size → View x n M B → f B = some B' → ∃ M', p.run M = some ((), M') ∧ M'.size = M.size ∧ View x n M' B' ∧ ∀ a, ¬ x.In n a → M'.val a = M.val a

variable {x : Ptr} {n : Int}

theorem Sim.congr {p : Prog K Unit} {f g : Buf K → Option (Buf K)} (h : Sim x n p f) (e : ∀ B, g B = f B) : Sim x n p g :=
  fun M B B' h1 h2 h3 => h M B B' h1 h2 (by rw [← e]; exact h3)

theorem sim_ret : Sim x n (Prog.ret ()) (fun B : Buf K => some B) := by
  intro M B B' _ hv e
  cases e
  exact ⟨M, rfl, rfl, hv, fun _ _ => rfl⟩

theorem sim_opt {α : Type*} {o : Option α} {p : α → Prog K Unit} {f : α → Buf K → Option (Buf K)} (h : ∀ v, o = some v → Sim x n (p v) (f v)) :
    Sim x n ((ofOption o).bind p) (fun B => o.bind fun v => f v B) := by
  intro M B B' hx hv e
  cases ho : o with
  | none => rw [ho] at e; simp at e
  | some v =>
    rw [ho] at e
    obtain ⟨M', e', r⟩ := h v ho M B B' hx hv e
    exact ⟨M', by rw [run_ofOption_bind (a := v) rfl]; exact e', r⟩

theorem sim_get {i : Int} {p : K → Prog K Unit} {f : K → Buf K → Option (Buf K)} (h : ∀ v, Sim x n (p v) (f v)) :
    Sim x n ((get x i).bind p) (fun B => (B.rd i).bind fun v => f v B) := by
  intro M B B' hx hv e
  dsimp only at e
  cases hr : B.rd i with
  | none => rw [hr] at e; simp at e
  | some v =>
    rw [hr] at e
    obtain ⟨⟨i0, i1⟩, hval⟩ := Buf.rd_eq_some_iff.1 hr
    obtain ⟨M', e', r⟩ := h v M B B' hx hv e
    refine ⟨M', ?_, r⟩
    rw [run_get_bind hx i0 (by rw [← hv.1]; exact i1), ← hv.2 i i0 (by rw [← hv.1]; exact i1), hval]
    exact e'

theorem sim_put {i : Int} {v : K} : Sim x n (put x i v) (fun B => B.wr i v) := by
  intro M B B' hx hv e
  obtain ⟨⟨i0, i1⟩, rfl⟩ := Buf.wr_eq_some_iff.1 e
  rw [hv.1] at i1
  refine ⟨_, run_put hx i0 i1, rfl, ⟨hv.1, ?_⟩, ?_⟩
  · intro j j0 j1
    dsimp only
    by_cases h : j = i
    · subst h; rw [Function.update_self, Function.update_self]
    · rw [Function.update_of_ne h, Function.update_of_ne (by unfold Ptr.at; omega)]
      exact hv.2 j j0 j1
  · intro a ha
    dsimp only
    rw [Function.update_of_ne]
    rintro rfl
    exact ha (Ptr.in_at i0 i1)

theorem sim_bind {p : Prog K Unit} {q : Prog K Unit} {f g : Buf K → Option (Buf K)} (hp : Sim x n p f) (hq : Sim x n q g) :
    Sim x n (p.bind fun _ => q) (fun B => (f B).bind g) := by
  intro M B B' hx hv e
  dsimp only at e
  cases hf : f B with
  | none => rw [hf] at e; simp at e
  | some C =>
    rw [hf] at e
    obtain ⟨M1, e1, s1, v1, o1⟩ := hp M B C hx hv hf
    obtain ⟨M2, e2, s2, v2, o2⟩ := hq M1 C B' (by rw [s1]; exact hx) v1 e
    exact ⟨M2, by rw [run_then e1]; exact e2, by rw [s2, s1], v2, fun a ha => by rw [o2 a ha, o1 a ha]⟩

theorem sim_each {body : ι → Prog K Unit} {f : ι → Buf K → Option (Buf K)} {l : List ι} (h : ∀ i ∈ l, Sim x n (body i) (f i)) :
    Sim x n (each (fun i _ => body i) l ()) (exec f l) := by
  induction l with
  | nil => exact sim_ret
  | cons i l ih =>
    have := sim_bind (h i (by simp)) (ih fun j hj => h j (by simp [hj]))
    refine Sim.congr (p := each (fun i _ => body i) (i :: l) ()) ?_ (fun B => exec_cons f i l B)
    exact this

theorem sim_up {body : Int → Prog K Unit} {f : Int → Buf K → Option (Buf K)} {lo hi : Int} (h : ∀ i, lo ≤ i → i < hi → Sim x n (body i) (f i)) :
    Sim x n (each (fun i _ => body i) (rUp lo hi) ()) (forUp lo hi f) :=
  (sim_each fun i hi => h i (mem_rUp.1 hi).1 (mem_rUp.1 hi).2).congr fun B => forUp_exec _ _ _ B

theorem sim_down {body : Int → Prog K Unit} {f : Int → Buf K → Option (Buf K)} {hi lo : Int} (h : ∀ i, Sim x n (body i) (f i)) :
    Sim x n (each (fun i _ => body i) (rDown hi lo) ()) (forDown hi lo f) :=
  (sim_each fun i _ => h i).congr fun B => forDown_exec _ _ _ B

end FT
