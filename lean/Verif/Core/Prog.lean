import Verif.Core.Exec
import Verif.Lemmas.Ranges

/-!
# Threads: programs that access shared memory one access at a time, and their interleavings

A thread is a tree of memory accesses; registers and loop counters live in the continuation.  `run` executes a thread
without interruption.  `runSched` executes several threads in the order given by a schedule, one access at a time (an access
to `W` consecutive entries by one vector instruction is one step).  `none` is undefined behaviour.
-/

namespace FT
variable {K : Type*} {α β σ ι : Type*} {T : Nat}

/-- A program that accesses the shared memory and returns an `α`. -/
inductive Prog (K : Type*) (α : Type*) where
  | ret (a : α)
  | fail
  | rd (p : Int) (k : K → Prog K α)
  | wr (p : Int) (v : K) (k : Prog K α)
  | ld (p : Int) (W : Nat) (k : (Int → K) → Prog K α)
  | st (p : Int) (W : Nat) (v : Int → K) (k : Prog K α)

/-- Vector load: lanes `0 … W-1`, the other lanes of the function are zero. -/
def vld [Zero K] (A : Buf K) (p : Int) (W : Nat) : Option (Int → K) :=
  if 0 ≤ p ∧ p + W ≤ A.size then some (fun e => if 0 ≤ e ∧ e < W then A.val (p + e) else 0) else none

/-- Vector store. -/
def vst (A : Buf K) (p : Int) (W : Nat) (v : Int → K) : Option (Buf K) :=
  if 0 ≤ p ∧ p + W ≤ A.size then some ⟨A.size, fun i => if p ≤ i ∧ i < p + W then v (i - p) else A.val i⟩ else none

namespace Prog

def bind : Prog K α → (α → Prog K β) → Prog K β
  | ret a, f => f a
  | fail, _ => fail
  | rd p k, f => rd p (fun x => (k x).bind f)
  | wr p v k, f => wr p v (k.bind f)
  | ld p W k, f => ld p W (fun x => (k x).bind f)
  | st p W v k, f => st p W v (k.bind f)

/-- A value that exists only sometimes (a table or register access). -/
def ofOption : Option α → Prog K α
  | some a => ret a
  | none => fail

/-- A loop over the list of its counter values. -/
def each (body : ι → σ → Prog K σ) : List ι → σ → Prog K σ
  | [], s => ret s
  | i :: l, s => (body i s).bind (each body l)

variable [Zero K]

/-- Uninterrupted execution. -/
def run : Prog K α → Buf K → Option (α × Buf K)
  | ret a, A => some (a, A)
  | fail, _ => none
  | rd p k, A => (A.rd p).bind fun x => (k x).run A
  | wr p v k, A => (A.wr p v).bind fun A => k.run A
  | ld p W k, A => (vld A p W).bind fun x => (k x).run A
  | st p W v k, A => (vst A p W v).bind fun A => k.run A

/-- One access.  A finished thread stays finished. -/
def step : Prog K α → Buf K → Option (Prog K α × Buf K)
  | ret a, A => some (ret a, A)
  | fail, _ => none
  | rd p k, A => (A.rd p).map fun x => (k x, A)
  | wr p v k, A => (A.wr p v).map fun A => (k, A)
  | ld p W k, A => (vld A p W).map fun x => (k x, A)
  | st p W v k, A => (vst A p W v).map fun A => (k, A)

def Done : Prog K α → Prop
  | ret _ => True
  | _ => False

/-- All accesses, whatever the values read, are to positions in `R`. -/
def Within (R : Int → Prop) : Prog K α → Prop
  | ret _ => True
  | fail => True
  | rd p k => R p ∧ ∀ x, (k x).Within R
  | wr p _ k => R p ∧ k.Within R
  | ld p W k => (∀ e : Int, 0 ≤ e → e < W → R (p + e)) ∧ ∀ x, (k x).Within R
  | st p W _ k => (∀ e : Int, 0 ≤ e → e < W → R (p + e)) ∧ k.Within R

theorem run_bind (p : Prog K α) (f : α → Prog K β) (A : Buf K) :
    (p.bind f).run A = (p.run A).bind fun r => (f r.1).run r.2 := by
  induction p generalizing A with
  | ret a => rfl
  | fail => rfl
  | rd p k ih =>
    simp only [bind, run, Option.bind_assoc]
    congr 1; funext x; exact ih x A
  | wr p v k ih =>
    simp only [bind, run, Option.bind_assoc]
    congr 1; funext x; exact ih x
  | ld p W k ih =>
    simp only [bind, run, Option.bind_assoc]
    congr 1; funext x; exact ih x A
  | st p W v k ih =>
    simp only [bind, run, Option.bind_assoc]
    congr 1; funext x; exact ih x

theorem run_each (body : ι → σ → Prog K σ) (l : List ι) (s : σ) (A : Buf K) :
    (each body l s).run A = exec (fun i (x : σ × Buf K) => (body i x.1).run x.2) l (s, A) := by
  induction l generalizing s A with
  | nil => rfl
  | cons i l ih =>
    rw [each, run_bind, exec_cons]
    congr 1; funext r; exact ih r.1 r.2

/-- A loop without registers. -/
theorem run_each_unit {body : ι → Unit → Prog K Unit} {f : ι → Buf K → Option (Buf K)} {l : List ι}
    (h : ∀ i ∈ l, ∀ A, (body i ()).run A = (f i A).map fun A => ((), A)) (A : Buf K) :
    (each body l ()).run A = (exec f l A).map fun A => ((), A) := by
  rw [run_each]
  induction l generalizing A with
  | nil => rfl
  | cons i l ih =>
    rw [exec_cons, exec_cons]
    simp only
    rw [h i (by simp)]
    cases f i A with
    | none => rfl
    | some B => exact ih (fun j hj => h j (by simp [hj])) B

theorem run_ofOption (o : Option α) (A : Buf K) : (ofOption o : Prog K α).run A = o.map fun a => (a, A) := by
  cases o <;> rfl

theorem Within.bind {R : Int → Prop} {p : Prog K α} {f : α → Prog K β} (hp : p.Within R) (hf : ∀ a, (f a).Within R) :
    (p.bind f).Within R := by
  induction p with
  | ret a => exact hf a
  | fail => trivial
  | rd p k ih => exact ⟨hp.1, fun x => ih x (hp.2 x)⟩
  | wr p v k ih => exact ⟨hp.1, ih hp.2⟩
  | ld p W k ih => exact ⟨hp.1, fun x => ih x (hp.2 x)⟩
  | st p W v k ih => exact ⟨hp.1, ih hp.2⟩

theorem Within.ofOption {R : Int → Prop} (o : Option α) : (Prog.ofOption o : Prog K α).Within R := by
  cases o <;> trivial

theorem Within.each {R : Int → Prop} {body : ι → σ → Prog K σ} {l : List ι} (h : ∀ i ∈ l, ∀ s, (body i s).Within R) (s : σ) :
    (each body l s).Within R := by
  induction l generalizing s with
  | nil => trivial
  | cons i l ih => exact Within.bind (h i (by simp) s) (fun s => ih (fun j hj => h j (by simp [hj])) s)

theorem Within.mono {R R' : Int → Prop} {p : Prog K α} (hp : p.Within R) (h : ∀ i, R i → R' i) : p.Within R' := by
  induction p with
  | ret a => trivial
  | fail => trivial
  | rd p k ih => exact ⟨h _ hp.1, fun x => ih x (hp.2 x)⟩
  | wr p v k ih => exact ⟨h _ hp.1, ih hp.2⟩
  | ld p W k ih => exact ⟨fun e a b => h _ (hp.1 e a b), fun x => ih x (hp.2 x)⟩
  | st p W v k ih => exact ⟨fun e a b => h _ (hp.1 e a b), ih hp.2⟩

/-- The outcome of a program depends on, and changes, only the positions it may access. -/
theorem run_local {R : Int → Prop} {p : Prog K α} (hp : p.Within R) {A B : Buf K} (hs : B.size = A.size)
    (hv : ∀ i, R i → B.val i = A.val i) {a : α} {A' : Buf K} (e : p.run A = some (a, A')) :
    A'.size = A.size ∧ (∀ i, ¬ R i → A'.val i = A.val i) ∧
    ∃ B', p.run B = some (a, B') ∧ B'.size = B.size ∧ (∀ i, R i → B'.val i = A'.val i) ∧ (∀ i, ¬ R i → B'.val i = B.val i) := by
  induction p generalizing A B with
  | ret a =>
    simp only [run, Option.some.injEq, Prod.mk.injEq] at e
    obtain ⟨rfl, rfl⟩ := e
    exact ⟨rfl, fun _ _ => rfl, B, rfl, rfl, hv, fun _ _ => rfl⟩
  | fail => cases e
  | rd p k ih =>
    simp only [run] at e ⊢
    by_cases h : 0 ≤ p ∧ p < (A.size : Int)
    · rw [Buf.rd_of h.1 h.2, Option.bind_some] at e
      rw [Buf.rd_of h.1 (by rw [hs]; exact h.2), Option.bind_some, hv p hp.1]
      exact ih _ (hp.2 _) hs hv e
    · rw [Buf.rd_oob h] at e; cases e
  | wr p v k ih =>
    simp only [run] at e ⊢
    by_cases h : 0 ≤ p ∧ p < (A.size : Int)
    · rw [Buf.wr_of h.1 h.2, Option.bind_some] at e
      rw [Buf.wr_of h.1 (by rw [hs]; exact h.2), Option.bind_some]
      obtain ⟨a1, a2, B', b1, b2, b3, b4⟩ := ih hp.2 (A := ⟨A.size, Function.update A.val p v⟩)
        (B := ⟨B.size, Function.update B.val p v⟩) hs (fun i hi => by
          simp only [Function.update_apply]
          split_ifs
          · rfl
          · exact hv i hi) e
      refine ⟨a1, fun i hi => ?_, B', b1, b2, b3, fun i hi => ?_⟩
      · rw [a2 i hi]; simp only; rw [Function.update_of_ne]; rintro rfl; exact hi hp.1
      · rw [b4 i hi]; simp only; rw [Function.update_of_ne]; rintro rfl; exact hi hp.1
    · rw [Buf.wr_oob h] at e; cases e
  | ld p W k ih =>
    simp only [run, vld] at e ⊢
    by_cases h : 0 ≤ p ∧ p + (W : Int) ≤ (A.size : Int)
    · rw [if_pos h, Option.bind_some] at e
      rw [if_pos (by rw [hs]; exact h), Option.bind_some]
      have : (fun e : Int => if 0 ≤ e ∧ e < (W : Int) then B.val (p + e) else 0) =
          fun e : Int => if 0 ≤ e ∧ e < (W : Int) then A.val (p + e) else 0 := by
        funext x
        split_ifs with hx
        · exact hv _ (hp.1 x hx.1 hx.2)
        · rfl
      rw [this]
      exact ih _ (hp.2 _) hs hv e
    · rw [if_neg h] at e; cases e
  | st p W v k ih =>
    simp only [run, vst] at e ⊢
    by_cases h : 0 ≤ p ∧ p + (W : Int) ≤ (A.size : Int)
    · rw [if_pos h, Option.bind_some] at e
      rw [if_pos (by rw [hs]; exact h), Option.bind_some]
      have hout : ∀ i, ¬ R i → ¬ (p ≤ i ∧ i < p + (W : Int)) := by
        intro i hi hx
        exact hi (by have := hp.1 (i - p) (by omega) (by omega); rwa [show p + (i - p) = i by omega] at this)
      obtain ⟨a1, a2, B', b1, b2, b3, b4⟩ := ih hp.2 (A := ⟨A.size, fun i => if p ≤ i ∧ i < p + (W : Int) then v (i - p) else A.val i⟩)
        (B := ⟨B.size, fun i => if p ≤ i ∧ i < p + (W : Int) then v (i - p) else B.val i⟩) hs (fun i hi => by
          simp only
          split_ifs
          · rfl
          · exact hv i hi) e
      refine ⟨a1, fun i hi => ?_, B', b1, b2, b3, fun i hi => ?_⟩
      · rw [a2 i hi]; simp only; rw [if_neg (hout i hi)]
      · rw [b4 i hi]; simp only; rw [if_neg (hout i hi)]
    · rw [if_neg h] at e; cases e

/-- One access of a program that would succeed succeeds, and the rest has the same outcome. -/
theorem step_of_run {p : Prog K α} {A : Buf K} {r : α × Buf K} (e : p.run A = some r) :
    ∃ q B, p.step A = some (q, B) ∧ q.run B = some r := by
  cases p with
  | ret a => exact ⟨_, _, rfl, e⟩
  | fail => cases e
  | rd p k =>
    simp only [run, step] at *
    cases h : A.rd p with
    | none => rw [h] at e; cases e
    | some x => rw [h] at e; exact ⟨_, _, rfl, e⟩
  | wr p v k =>
    simp only [run, step] at *
    cases h : A.wr p v with
    | none => rw [h] at e; cases e
    | some x => rw [h] at e; exact ⟨_, _, rfl, e⟩
  | ld p W k =>
    simp only [run, step] at *
    cases h : vld A p W with
    | none => rw [h] at e; cases e
    | some x => rw [h] at e; exact ⟨_, _, rfl, e⟩
  | st p W v k =>
    simp only [run, step] at *
    cases h : vst A p W v with
    | none => rw [h] at e; cases e
    | some x => rw [h] at e; exact ⟨_, _, rfl, e⟩

/-- A step changes only permitted positions and leaves a permitted program. -/
theorem step_local {R : Int → Prop} {p q : Prog K α} (hp : p.Within R) {A B : Buf K} (e : p.step A = some (q, B)) :
    q.Within R ∧ B.size = A.size ∧ ∀ i, ¬ R i → B.val i = A.val i := by
  cases p with
  | ret a => simp only [step, Option.some.injEq, Prod.mk.injEq] at e; obtain ⟨rfl, rfl⟩ := e; exact ⟨trivial, rfl, fun _ _ => rfl⟩
  | fail => cases e
  | rd p k =>
    simp only [step] at e
    cases h : A.rd p with
    | none => rw [h] at e; cases e
    | some x => rw [h] at e; cases e; exact ⟨hp.2 x, rfl, fun _ _ => rfl⟩
  | wr p v k =>
    simp only [step] at e
    by_cases h : 0 ≤ p ∧ p < (A.size : Int)
    · rw [Buf.wr_of h.1 h.2] at e; cases e
      refine ⟨hp.2, rfl, fun i hi => ?_⟩
      simp only; rw [Function.update_of_ne]; rintro rfl; exact hi hp.1
    · rw [Buf.wr_oob h] at e; cases e
  | ld p W k =>
    simp only [step] at e
    cases h : vld A p W with
    | none => rw [h] at e; cases e
    | some x => rw [h] at e; cases e; exact ⟨hp.2 x, rfl, fun _ _ => rfl⟩
  | st p W v k =>
    simp only [step, vst] at e
    split_ifs at e with h
    · simp only [Option.map_some, Option.some.injEq, Prod.mk.injEq] at e
      obtain ⟨rfl, rfl⟩ := e
      refine ⟨hp.2, rfl, fun i hi => ?_⟩
      simp only
      rw [if_neg]
      intro hx
      exact hi (by have := hp.1 (i - p) (by omega) (by omega); rwa [show p + (i - p) = i by omega] at this)
    · cases e

end Prog

/-! ## Several threads -/

section
variable [Zero K]

/-- One scheduled access: thread `t` moves, the others stay. -/
def stepOf (t : Nat) (c : (Nat → Prog K Unit) × Buf K) : Option ((Nat → Prog K Unit) × Buf K) :=
  ((c.1 t).step c.2).map fun r => (Function.update c.1 t r.1, r.2)

/-- Run the threads in the order of the schedule. -/
def runSched (sched : List Nat) (c : (Nat → Prog K Unit) × Buf K) : Option ((Nat → Prog K Unit) × Buf K) := exec stepOf sched c

/-- The parallel region ends, for every schedule of its `T` threads, without undefined behaviour and with the memory `B`;
and some schedule finishes all threads. -/
def ParEnds (T : Nat) (P : Nat → Prog K Unit) (A B : Buf K) : Prop :=
  (∃ sched c, (∀ t ∈ sched, t < T) ∧ runSched sched (P, A) = some c ∧ ∀ t, t < T → (c.1 t).Done) ∧
  ∀ sched : List Nat, (∀ t ∈ sched, t < T) →
    ∃ c, runSched sched (P, A) = some c ∧ ((∀ t, t < T → (c.1 t).Done) → c.2 = B)

/-- Threads whose accesses are to disjoint sets of positions do not influence each other: whatever the schedule, no access is
undefined, and when a thread has finished its positions hold what it computes when running alone from the initial memory;
positions of no thread are unchanged. -/
theorem par_disjoint {T : Nat} {R : Nat → Int → Prop} (hR : ∀ t u i, t ≠ u → R t i → ¬ R u i) {P : Nat → Prog K Unit} {A : Buf K}
    (hW : ∀ t, t < T → (P t).Within (R t)) {F : Nat → Buf K} (hF : ∀ t, t < T → (P t).run A = some ((), F t)) (sched : List Nat)
    (hs : ∀ t ∈ sched, t < T) :
    ∃ c, runSched sched (P, A) = some c ∧ c.2.size = A.size ∧
      (∀ t, t < T → (c.1 t).Done → ∀ i, R t i → c.2.val i = (F t).val i) ∧
      (∀ i, (∀ t, t < T → ¬ R t i) → c.2.val i = A.val i) := by
  have key : ∃ c, runSched sched (P, A) = some c ∧
      (c.2.size = A.size ∧ (∀ t, t < T → (c.1 t).Within (R t) ∧ ∃ w, (c.1 t).run c.2 = some ((), w) ∧ ∀ i, R t i → w.val i = (F t).val i) ∧
      ∀ i, (∀ t, t < T → ¬ R t i) → c.2.val i = A.val i) := by
    refine exec_total (fun c : (Nat → Prog K Unit) × Buf K => c.2.size = A.size ∧
      (∀ t, t < T → (c.1 t).Within (R t) ∧ ∃ w, (c.1 t).run c.2 = some ((), w) ∧ ∀ i, R t i → w.val i = (F t).val i) ∧
      ∀ i, (∀ t, t < T → ¬ R t i) → c.2.val i = A.val i)
      ⟨rfl, fun t ht => ⟨hW t ht, F t, hF t ht, fun _ _ => rfl⟩, fun _ _ => rfl⟩ ?_
    rintro t hmem ⟨Q, B⟩ ⟨hsz, hthr, hout⟩
    simp only at hsz hthr hout
    have ht := hs t hmem
    obtain ⟨hw, w, hrun, hval⟩ := hthr t ht
    obtain ⟨q, C, e, hq⟩ := Prog.step_of_run hrun
    obtain ⟨l1, l2, l3⟩ := Prog.step_local hw e
    refine ⟨(Function.update Q t q, C), by simp only [stepOf, e, Option.map_some], l2.trans hsz, ?_, ?_⟩
    · intro u hu
      by_cases htu : u = t
      · subst htu
        simp only [Function.update_self]
        exact ⟨l1, w, hq, hval⟩
      · simp only [Function.update_of_ne htu]
        obtain ⟨hw', w', hrun', hval'⟩ := hthr u hu
        obtain ⟨-, -, B', b1, b2, b3, b4⟩ := Prog.run_local hw' l2 (fun i hi => l3 i (hR u t i htu hi)) hrun'
        exact ⟨hw', B', b1, fun i hi => by rw [b3 i hi, hval' i hi]⟩
    · intro i hi
      simp only
      rw [l3 i (hi t ht), hout i hi]
  obtain ⟨c, e, h1, h2, h3⟩ := key
  refine ⟨c, e, h1, ?_, h3⟩
  intro t ht hd i hi
  obtain ⟨-, w, hrun, hval⟩ := h2 t ht
  cases hc : c.1 t with
  | ret a =>
    rw [hc] at hrun
    simp only [Prog.run, Option.some.injEq, Prod.mk.injEq] at hrun
    rw [← hval i hi, ← hrun.2]
  | _ => rw [hc] at hd; exact hd.elim

/-! ## Parallel loops -/

/-- A sequence of iterations on disjoint positions: each acts as if alone on the initial memory. -/
theorem each_disjoint {R : ι → Int → Prop} {body : ι → Prog K Unit} {A : Buf K} {l : List ι} (hnd : l.Nodup)
    (hR : ∀ a ∈ l, ∀ b ∈ l, ∀ i, a ≠ b → R a i → ¬ R b i) (hW : ∀ a ∈ l, (body a).Within (R a)) {F : ι → Buf K}
    (hF : ∀ a ∈ l, (body a).run A = some ((), F a)) :
    ∃ B, (Prog.each (fun a _ => body a) l ()).run A = some ((), B) ∧ B.size = A.size ∧
      (∀ a ∈ l, ∀ i, R a i → B.val i = (F a).val i) ∧ ∀ i, (∀ a ∈ l, ¬ R a i) → B.val i = A.val i := by
  -- generalise the memory in which the loop starts
  have key : ∀ (l' : List ι) (C : Buf K), (∀ a ∈ l', a ∈ l) → l'.Nodup → C.size = A.size →
      (∀ a ∈ l', ∀ i, R a i → C.val i = A.val i) →
      ∃ B, (Prog.each (fun a _ => body a) l' ()).run C = some ((), B) ∧ B.size = C.size ∧
        (∀ a ∈ l', ∀ i, R a i → B.val i = (F a).val i) ∧ ∀ i, (∀ a ∈ l', ¬ R a i) → B.val i = C.val i := by
    intro l'
    induction l' with
    | nil => intro C _ _ _ _; exact ⟨C, rfl, rfl, fun a ha => by simp at ha, fun _ _ => rfl⟩
    | cons a l' ih =>
      intro C hsub hnd hC hag
      have ha := hsub a (by simp)
      obtain ⟨-, -, C', c1, c2, c3, c4⟩ := Prog.run_local (hW a ha) hC (hag a (by simp)) (hF a ha)
      rw [List.nodup_cons] at hnd
      obtain ⟨B, b1, b2, b3, b4⟩ := ih C' (fun b hb => hsub b (by simp [hb])) hnd.2 (by omega) (fun b hb i hi => by
        have hne : b ≠ a := by rintro rfl; exact hnd.1 hb
        rw [c4 i (hR b (hsub b (by simp [hb])) a ha i hne hi)]
        exact hag b (by simp [hb]) i hi)
      refine ⟨B, ?_, b2.trans c2, ?_, ?_⟩
      · rw [Prog.each, Prog.run_bind, c1, Option.bind_some]; exact b1
      · intro b hb i hi
        rcases List.mem_cons.1 hb with rfl | hb
        · rw [b4 i (fun c hc hci => hR b ha c (hsub c (by simp [hc])) i (by rintro rfl; exact hnd.1 hc) hi hci), c3 i hi]
        · exact b3 b hb i hi
      · intro i hi
        rw [b4 i (fun b hb => hi b (by simp [hb])), c4 i (hi a (by simp))]
  exact key l A (fun _ h => h) hnd rfl (fun _ _ _ _ => rfl)

/-- `#pragma omp parallel` around `for (m = lo + st*thread; m < hi; m += st*threads) body(m)`: the program of thread `t` of `T`. -/
def ompThread (lo hi st : Int) (T : Nat) (body : Int → Prog K Unit) (t : Nat) : Prog K Unit :=
  Prog.each (fun m _ => body m) (rStep (lo + st * t) hi (st * T)) ()

/-- Every counter value of the loop belongs to exactly one thread. -/
theorem omp_cover {lo hi st : Int} (hst : 0 < st) {T : Nat} (hT : 0 < T) {m : Int} :
    (m ∈ rStep lo hi st ↔ ∃ t : Nat, t < T ∧ m ∈ rStep (lo + st * t) hi (st * T)) ∧
    ∀ t u : Nat, t < T → u < T → m ∈ rStep (lo + st * t) hi (st * T) → m ∈ rStep (lo + st * u) hi (st * T) → t = u := by
  have hT' : 0 < st * (T : Int) := Int.mul_pos hst (by omega)
  constructor
  · rw [mem_rStep hst]
    constructor
    · rintro ⟨⟨k, hk⟩, h⟩
      refine ⟨k % T, Nat.mod_lt _ hT, (mem_rStep hT').2 ⟨⟨k / T, ?_⟩, h⟩⟩
      have : (k : Int) = (T : Int) * (k / T : Nat) + (k % T : Nat) := by exact_mod_cast (Nat.div_add_mod k T).symm
      rw [hk]
      conv_lhs => rw [this]
      ring
    · rintro ⟨t, ht, hm⟩
      obtain ⟨⟨k, hk⟩, h⟩ := (mem_rStep hT').1 hm
      refine ⟨⟨t + T * k, ?_⟩, h⟩
      rw [hk]; push_cast; ring
  · intro t u ht hu h1 h2
    obtain ⟨⟨k, hk⟩, -⟩ := (mem_rStep hT').1 h1
    obtain ⟨⟨k', hk'⟩, -⟩ := (mem_rStep hT').1 h2
    have h3 : st * ((t : Int) + T * k) = st * (u + T * k') := by
      rw [Int.mul_add, Int.mul_add, ← Int.mul_assoc, ← Int.mul_assoc]; omega
    have h4 := Int.eq_of_mul_eq_mul_left (by omega) h3
    have h5 : t + T * k = u + T * k' := by exact_mod_cast h4
    have h6 := congrArg (· % T) h5
    simp only [Nat.add_mul_mod_self_left, Nat.mod_eq_of_lt ht, Nat.mod_eq_of_lt hu] at h6
    exact h6

theorem nodup_rStep {lo hi st : Int} (hst : 0 < st) : (rStep lo hi st).Nodup :=
  (pairwise_rStep hst).imp (fun h => by omega)

/-- A parallel loop whose iterations access disjoint positions: for every number of threads and every schedule no access is
undefined, and once all threads have finished the memory is the one in which every iteration acted alone on the initial
memory. -/
theorem omp_for {lo hi st : Int} (hst : 0 < st) {T : Nat} (hT : 0 < T) {R : Int → Int → Prop} {body : Int → Prog K Unit} {A : Buf K}
    (hR : ∀ a ∈ rStep lo hi st, ∀ b ∈ rStep lo hi st, ∀ i, a ≠ b → R a i → ¬ R b i)
    (hW : ∀ a ∈ rStep lo hi st, (body a).Within (R a)) {F : Int → Buf K}
    (hF : ∀ a ∈ rStep lo hi st, (body a).run A = some ((), F a)) (sched : List Nat) (hs : ∀ t ∈ sched, t < T) :
    ∃ c, runSched sched (ompThread lo hi st T body, A) = some c ∧ c.2.size = A.size ∧
      ((∀ t, t < T → (c.1 t).Done) →
        (∀ a ∈ rStep lo hi st, ∀ i, R a i → c.2.val i = (F a).val i) ∧
        ∀ i, (∀ a ∈ rStep lo hi st, ¬ R a i) → c.2.val i = A.val i) := by
  have hT' : 0 < st * (T : Int) := Int.mul_pos hst (by omega)
  have hin : ∀ t, t < T → ∀ a ∈ rStep (lo + st * t) hi (st * T), a ∈ rStep lo hi st :=
    fun t ht a ha => (omp_cover hst hT).1.2 ⟨t, ht, ha⟩
  have each := fun t (ht : t < T) => each_disjoint (R := R) (body := body) (A := A) (nodup_rStep (lo := lo + st * t) (hi := hi) hT')
    (fun a ha b hb => hR a (hin t ht a ha) b (hin t ht b hb)) (fun a ha => hW a (hin t ht a ha)) (fun a ha => hF a (hin t ht a ha))
  classical
  let G : Nat → Buf K := fun t => if h : t < T then (each t h).choose else A
  have hG : ∀ t (h : t < T), _ := fun t h => (each t h).choose_spec
  obtain ⟨c, e, c1, c2, c3⟩ := par_disjoint (T := T) (R := fun t i => t < T ∧ ∃ a ∈ rStep (lo + st * t) hi (st * T), R a i) (A := A)
    (P := ompThread lo hi st T body) (by
      rintro t u i htu ⟨ht, a, ha, hi⟩ ⟨hu, b, hb, hi'⟩
      by_cases hab : a = b
      · subst hab
        exact htu ((omp_cover hst hT).2 t u ht hu ha hb)
      · exact hR a (hin t ht a ha) b (hin u hu b hb) i hab hi hi')
    (fun t ht => Prog.Within.each (fun a ha _ => (hW a (hin t ht a ha)).mono (fun i hi => ⟨ht, a, ha, hi⟩)) ())
    (F := G) (fun t ht => by
      have := (hG t ht).1
      simp only [G, dif_pos ht]
      exact this) sched hs
  refine ⟨c, e, c1, fun hd => ⟨?_, ?_⟩⟩
  · intro a ha i hi
    obtain ⟨t, ht, ha'⟩ := (omp_cover hst hT).1.1 ha
    rw [c2 t ht (hd t ht) i ⟨ht, a, ha', hi⟩]
    simp only [G, dif_pos ht]
    exact (hG t ht).2.2.1 a ha' i hi
  · intro i hi
    refine c3 i ?_
    rintro t ht ⟨-, a, ha, hai⟩
    exact hi a (hin t ht a ha) hai

/-- Running the threads one after the other is one of the schedules, so the conclusion above is not vacuous. -/
theorem run_sched_alone {p : Prog K Unit} : ∀ {P : Nat → Prog K Unit} {t : Nat} {A B : Buf K}, P t = p → p.run A = some ((), B) →
    ∃ n : Nat, runSched (List.replicate n t) (P, A) = some (Function.update P t (.ret ()), B) := by
  induction p with
  | ret a =>
    intro P t A B hP e
    simp only [Prog.run, Option.some.injEq, Prod.mk.injEq] at e
    refine ⟨0, ?_⟩
    simp only [List.replicate_zero, runSched, exec_nil, Option.some.injEq, Prod.mk.injEq]
    refine ⟨?_, e.2⟩
    rw [← hP, Function.update_eq_self]
  | fail => intro P t A B hP e; cases e
  | rd p k ih =>
    intro P t A B hP e
    simp only [Prog.run] at e
    cases h : A.rd p with
    | none => rw [h] at e; cases e
    | some x =>
      rw [h, Option.bind_some] at e
      obtain ⟨n, hn⟩ := ih x (P := Function.update P t (k x)) (t := t) (Function.update_self ..) e
      refine ⟨n + 1, ?_⟩
      rw [List.replicate_succ, runSched, exec_cons]
      simp only [stepOf, hP, Prog.step, h, Option.map_some, Option.bind_some]
      rw [Function.update_idem] at hn
      exact hn
  | wr p v k ih =>
    intro P t A B hP e
    simp only [Prog.run] at e
    cases h : A.wr p v with
    | none => rw [h] at e; cases e
    | some x =>
      rw [h, Option.bind_some] at e
      obtain ⟨n, hn⟩ := ih (P := Function.update P t k) (t := t) (Function.update_self ..) e
      refine ⟨n + 1, ?_⟩
      rw [List.replicate_succ, runSched, exec_cons]
      simp only [stepOf, hP, Prog.step, h, Option.map_some, Option.bind_some]
      rw [Function.update_idem] at hn
      exact hn
  | ld p W k ih =>
    intro P t A B hP e
    simp only [Prog.run] at e
    cases h : vld A p W with
    | none => rw [h] at e; cases e
    | some x =>
      rw [h, Option.bind_some] at e
      obtain ⟨n, hn⟩ := ih x (P := Function.update P t (k x)) (t := t) (Function.update_self ..) e
      refine ⟨n + 1, ?_⟩
      rw [List.replicate_succ, runSched, exec_cons]
      simp only [stepOf, hP, Prog.step, h, Option.map_some, Option.bind_some]
      rw [Function.update_idem] at hn
      exact hn
  | st p W v k ih =>
    intro P t A B hP e
    simp only [Prog.run] at e
    cases h : vst A p W v with
    | none => rw [h] at e; cases e
    | some x =>
      rw [h, Option.bind_some] at e
      obtain ⟨n, hn⟩ := ih (P := Function.update P t k) (t := t) (Function.update_self ..) e
      refine ⟨n + 1, ?_⟩
      rw [List.replicate_succ, runSched, exec_cons]
      simp only [stepOf, hP, Prog.step, h, Option.map_some, Option.bind_some]
      rw [Function.update_idem] at hn
      exact hn

/-- There is a schedule that finishes all threads when they access disjoint positions. -/
theorem exists_sched {T : Nat} {R : Nat → Int → Prop} (hR : ∀ t u i, t ≠ u → R t i → ¬ R u i) {P : Nat → Prog K Unit} {A : Buf K}
    (hW : ∀ t, t < T → (P t).Within (R t)) {F : Nat → Buf K} (hF : ∀ t, t < T → (P t).run A = some ((), F t)) :
    ∃ sched c, (∀ t ∈ sched, t < T) ∧ runSched sched (P, A) = some c ∧ ∀ t, t < T → (c.1 t).Done := by
  have key : ∀ n, n ≤ T → ∃ sched c, (∀ t ∈ sched, t < T) ∧ runSched sched (P, A) = some c ∧ c.2.size = A.size ∧
      (∀ t, t < n → (c.1 t).Done) ∧ (∀ t, n ≤ t → c.1 t = P t) ∧ ∀ t, n ≤ t → t < T → ∀ i, R t i → c.2.val i = A.val i := by
    intro n
    induction n with
    | zero => intro _; exact ⟨[], (P, A), by simp, rfl, rfl, by simp, fun _ _ => rfl, fun _ _ _ _ _ => rfl⟩
    | succ n ih =>
      intro hn
      obtain ⟨s, c, h1, h2, h3, h4, h5, h6⟩ := ih (by omega)
      obtain ⟨-, -, B', b1, b2, b3, b4⟩ := Prog.run_local (hW n (by omega)) h3 (h6 n (by omega) (by omega)) (hF n (by omega))
      obtain ⟨k, hk⟩ := run_sched_alone (h5 n (by omega)) b1
      refine ⟨s ++ List.replicate k n, (Function.update c.1 n (.ret ()), B'), ?_, ?_, b2.trans h3, ?_, ?_, ?_⟩
      · intro t ht
        rcases List.mem_append.1 ht with ht | ht
        · exact h1 t ht
        · rw [List.eq_of_mem_replicate ht]; omega
      · unfold runSched at *
        rw [exec_append, h2, Option.bind_some]
        exact hk
      · intro t ht
        simp only
        by_cases htn : t = n
        · subst htn; rw [Function.update_self]; trivial
        · rw [Function.update_of_ne htn]; exact h4 t (by omega)
      · intro t ht
        simp only
        rw [Function.update_of_ne (by omega)]; exact h5 t (by omega)
      · intro t ht htT i hi
        simp only
        rw [b4 i (hR t n i (by omega) hi), h6 t (by omega) htT i hi]
  obtain ⟨s, c, h1, h2, _, h4, _⟩ := key T (le_refl T)
  exact ⟨s, c, h1, h2, h4⟩

end

end FT
