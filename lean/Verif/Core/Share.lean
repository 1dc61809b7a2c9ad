import Verif.Core.Prog

/-!
# Threads that share what they read

As in `Verif.Core.Prog`, but threads may read common positions as long as none of them writes there.  Also: pointers into the
shared memory that remember the allocation they belong to, so that leaving an allocation is undefined behaviour even where the
address happens to belong to another allocation.
-/

namespace FT
variable {K : Type*} {α β σ ι : Type*}

/-- A pointer: its allocation is the range of `size` positions from `base`; it points to position `base + off`. -/
structure Ptr where
  base : Int
  size : Int
  off : Int

/-- Pointer arithmetic, `p + k`. -/
def Ptr.add (p : Ptr) (k : Int) : Ptr := { p with off := p.off + k }

/-- The address of `p[i]`. -/
def Ptr.at (p : Ptr) (i : Int) : Int := p.base + p.off + i

/-- The addresses of `p[0], …, p[n-1]`. -/
def Ptr.In (p : Ptr) (n a : Int) : Prop := p.at 0 ≤ a ∧ a < p.at n

/-- `p[0], …, p[n-1]` lie in the allocation, and the allocation lies in a memory of `s` positions. -/
def Ptr.Ok (p : Ptr) (n : Int) (s : Nat) : Prop := 0 ≤ p.off ∧ p.off + n ≤ p.size ∧ 0 ≤ p.base ∧ p.base + p.size ≤ s

namespace Prog

/-- Read `p[i]`. -/
def get (p : Ptr) (i : Int) : Prog K K := if 0 ≤ p.off + i ∧ p.off + i < p.size then .rd (p.at i) .ret else .fail

/-- `p[i] = v`. -/
def put (p : Ptr) (i : Int) (v : K) : Prog K Unit := if 0 ≤ p.off + i ∧ p.off + i < p.size then .wr (p.at i) v (.ret ()) else .fail

/-- Reads are of positions in `R`, writes are to positions in `W`, whatever the values read. -/
def Acc (R W : Int → Prop) : Prog K α → Prop
  | ret _ => True
  | fail => True
  | rd p k => R p ∧ ∀ x, (k x).Acc R W
  | wr p _ k => W p ∧ k.Acc R W
  | ld p w k => (∀ e : Int, 0 ≤ e → e < w → R (p + e)) ∧ ∀ x, (k x).Acc R W
  | st p w _ k => (∀ e : Int, 0 ≤ e → e < w → W (p + e)) ∧ k.Acc R W

theorem Acc.bind {R W : Int → Prop} {p : Prog K α} {f : α → Prog K β} (hp : p.Acc R W) (hf : ∀ a, (f a).Acc R W) : (p.bind f).Acc R W := by
  induction p with
  | ret a => exact hf a
  | fail => trivial
  | rd p k ih => exact ⟨hp.1, fun x => ih x (hp.2 x)⟩
  | wr p v k ih => exact ⟨hp.1, ih hp.2⟩
  | ld p W k ih => exact ⟨hp.1, fun x => ih x (hp.2 x)⟩
  | st p W v k ih => exact ⟨hp.1, ih hp.2⟩

theorem Acc.ofOption {R W : Int → Prop} (o : Option α) : (Prog.ofOption o : Prog K α).Acc R W := by
  cases o <;> trivial

theorem Acc.each {R W : Int → Prop} {body : ι → σ → Prog K σ} {l : List ι} (h : ∀ i ∈ l, ∀ s, (body i s).Acc R W) (s : σ) :
    (each body l s).Acc R W := by
  induction l generalizing s with
  | nil => trivial
  | cons i l ih => exact Acc.bind (h i (by simp) s) (fun s => ih (fun j hj => h j (by simp [hj])) s)

theorem Acc.mono {R W R' W' : Int → Prop} {p : Prog K α} (hp : p.Acc R W) (hR : ∀ i, R i → R' i) (hW : ∀ i, W i → W' i) : p.Acc R' W' := by
  induction p with
  | ret a => trivial
  | fail => trivial
  | rd p k ih => exact ⟨hR _ hp.1, fun x => ih x (hp.2 x)⟩
  | wr p v k ih => exact ⟨hW _ hp.1, ih hp.2⟩
  | ld p W k ih => exact ⟨fun e a b => hR _ (hp.1 e a b), fun x => ih x (hp.2 x)⟩
  | st p W v k ih => exact ⟨fun e a b => hW _ (hp.1 e a b), ih hp.2⟩

theorem Acc.get {R W : Int → Prop} {p : Ptr} {i : Int} (h : 0 ≤ p.off + i → p.off + i < p.size → R (p.at i)) : (Prog.get p i : Prog K K).Acc R W := by
  unfold Prog.get
  split_ifs with c
  · exact ⟨h c.1 c.2, fun _ => trivial⟩
  · trivial

theorem Acc.put {R W : Int → Prop} {p : Ptr} {i : Int} {v : K} (h : 0 ≤ p.off + i → p.off + i < p.size → W (p.at i)) : (Prog.put p i v).Acc R W := by
  unfold Prog.put
  split_ifs with c
  · exact ⟨h c.1 c.2, trivial⟩
  · trivial

variable [Zero K]

theorem run_get {p : Ptr} {i n : Int} {A : Buf K} (h : p.Ok n A.size) (h0 : 0 ≤ i) (h1 : i < n) : (Prog.get p i).run A = some (A.val (p.at i), A) := by
  unfold Ptr.Ok at h
  unfold Prog.get
  rw [if_pos (by omega), run, Buf.rd_of (by unfold Ptr.at; omega) (by unfold Ptr.at; omega)]
  rfl

theorem run_put {p : Ptr} {i n : Int} {v : K} {A : Buf K} (h : p.Ok n A.size) (h0 : 0 ≤ i) (h1 : i < n) :
    (Prog.put p i v).run A = some ((), ⟨A.size, Function.update A.val (p.at i) v⟩) := by
  unfold Ptr.Ok at h
  unfold Prog.put
  rw [if_pos (by omega), run, Buf.wr_of (by unfold Ptr.at; omega) (by unfold Ptr.at; omega)]
  rfl

theorem run_get_bind {p : Ptr} {i n : Int} {A : Buf K} {f : K → Prog K β} (h : p.Ok n A.size) (h0 : 0 ≤ i) (h1 : i < n) :
    ((Prog.get p i).bind f).run A = (f (A.val (p.at i))).run A := by
  rw [run_bind, run_get h h0 h1, Option.bind_some]

theorem run_put_bind {p : Ptr} {i n : Int} {v : K} {A : Buf K} {f : Unit → Prog K β} (h : p.Ok n A.size) (h0 : 0 ≤ i) (h1 : i < n) :
    ((Prog.put p i v).bind f).run A = (f ()).run ⟨A.size, Function.update A.val (p.at i) v⟩ := by
  rw [run_bind, run_put h h0 h1, Option.bind_some]

theorem run_ofOption_bind {o : Option α} {a : α} {A : Buf K} {f : α → Prog K β} (h : o = some a) : ((Prog.ofOption o).bind f).run A = (f a).run A := by
  rw [run_bind, run_ofOption, h]; rfl

/-- The outcome depends only on the positions read, and only the positions written change. -/
theorem run_acc {R W : Int → Prop} (hWR : ∀ i, W i → R i) {p : Prog K α} (hp : p.Acc R W) {A B : Buf K} (hs : B.size = A.size)
    (hv : ∀ i, R i → B.val i = A.val i) {a : α} {A' : Buf K} (e : p.run A = some (a, A')) :
    A'.size = A.size ∧ (∀ i, ¬ W i → A'.val i = A.val i) ∧
    ∃ B', p.run B = some (a, B') ∧ B'.size = B.size ∧ (∀ i, R i → B'.val i = A'.val i) ∧ (∀ i, ¬ W i → B'.val i = B.val i) := by
  induction p generalizing A B with
  | ret a =>
    simp only [run, Option.some.injEq, Prod.mk.injEq] at e
    obtain ⟨rfl, rfl⟩ := e
    exact ⟨rfl, fun _ _ => rfl, B, rfl, rfl, hv, fun _ _ => rfl⟩
  | fail => cases e
  | rd p k ih =>
    simp only [run] at e ⊢
    by_cases h : 0 ≤ p ∧ p < (A.size : Int)
    · rw [Buf.rd_of h.1 h.2, Option.bind_some] at e
      rw [Buf.rd_of h.1 (by rw [hs]; exact h.2), Option.bind_some, hv p hp.1]
      exact ih _ (hp.2 _) hs hv e
    · rw [Buf.rd_oob h] at e; cases e
  | wr p v k ih =>
    simp only [run] at e ⊢
    by_cases h : 0 ≤ p ∧ p < (A.size : Int)
    · rw [Buf.wr_of h.1 h.2, Option.bind_some] at e
      rw [Buf.wr_of h.1 (by rw [hs]; exact h.2), Option.bind_some]
      obtain ⟨a1, a2, B', b1, b2, b3, b4⟩ := ih hp.2 (A := ⟨A.size, Function.update A.val p v⟩)
        (B := ⟨B.size, Function.update B.val p v⟩) hs (fun i hi => by
          simp only [Function.update_apply]
          split_ifs
          · rfl
          · exact hv i hi) e
      refine ⟨a1, fun i hi => ?_, B', b1, b2, b3, fun i hi => ?_⟩
      · rw [a2 i hi]; simp only; rw [Function.update_of_ne]; rintro rfl; exact hi hp.1
      · rw [b4 i hi]; simp only; rw [Function.update_of_ne]; rintro rfl; exact hi hp.1
    · rw [Buf.wr_oob h] at e; cases e
  | ld p w k ih =>
    simp only [run, vld] at e ⊢
    by_cases h : 0 ≤ p ∧ p + (w : Int) ≤ (A.size : Int)
    · rw [if_pos h, Option.bind_some] at e
      rw [if_pos (by rw [hs]; exact h), Option.bind_some]
      have : (fun e : Int => if 0 ≤ e ∧ e < (w : Int) then B.val (p + e) else 0) =
          fun e : Int => if 0 ≤ e ∧ e < (w : Int) then A.val (p + e) else 0 := by
        funext x
        split_ifs with hx
        · exact hv _ (hp.1 x hx.1 hx.2)
        · rfl
      rw [this]
      exact ih _ (hp.2 _) hs hv e
    · rw [if_neg h] at e; cases e
  | st p w v k ih =>
    simp only [run, vst] at e ⊢
    by_cases h : 0 ≤ p ∧ p + (w : Int) ≤ (A.size : Int)
    · rw [if_pos h, Option.bind_some] at e
      rw [if_pos (by rw [hs]; exact h), Option.bind_some]
      have hout : ∀ i, ¬ W i → ¬ (p ≤ i ∧ i < p + (w : Int)) := by
        intro i hi hx
        exact hi (by have := hp.1 (i - p) (by omega) (by omega); rwa [show p + (i - p) = i by omega] at this)
      obtain ⟨a1, a2, B', b1, b2, b3, b4⟩ := ih hp.2 (A := ⟨A.size, fun i => if p ≤ i ∧ i < p + (w : Int) then v (i - p) else A.val i⟩)
        (B := ⟨B.size, fun i => if p ≤ i ∧ i < p + (w : Int) then v (i - p) else B.val i⟩) hs (fun i hi => by
          simp only
          split_ifs
          · rfl
          · exact hv i hi) e
      refine ⟨a1, fun i hi => ?_, B', b1, b2, b3, fun i hi => ?_⟩
      · rw [a2 i hi]; simp only; rw [if_neg (hout i hi)]
      · rw [b4 i hi]; simp only; rw [if_neg (hout i hi)]
    · rw [if_neg h] at e; cases e

theorem step_acc {R W : Int → Prop} {p q : Prog K α} (hp : p.Acc R W) {A B : Buf K} (e : p.step A = some (q, B)) :
    q.Acc R W ∧ B.size = A.size ∧ ∀ i, ¬ W i → B.val i = A.val i := by
  cases p with
  | ret a => simp only [step, Option.some.injEq, Prod.mk.injEq] at e; obtain ⟨rfl, rfl⟩ := e; exact ⟨trivial, rfl, fun _ _ => rfl⟩
  | fail => cases e
  | rd p k =>
    simp only [step] at e
    cases h : A.rd p with
    | none => rw [h] at e; cases e
    | some x => rw [h] at e; cases e; exact ⟨hp.2 x, rfl, fun _ _ => rfl⟩
  | wr p v k =>
    simp only [step] at e
    by_cases h : 0 ≤ p ∧ p < (A.size : Int)
    · rw [Buf.wr_of h.1 h.2] at e; cases e
      refine ⟨hp.2, rfl, fun i hi => ?_⟩
      simp only; rw [Function.update_of_ne]; rintro rfl; exact hi hp.1
    · rw [Buf.wr_oob h] at e; cases e
  | ld p w k =>
    simp only [step] at e
    cases h : vld A p w with
    | none => rw [h] at e; cases e
    | some x => rw [h] at e; cases e; exact ⟨hp.2 x, rfl, fun _ _ => rfl⟩
  | st p w v k =>
    simp only [step, vst] at e
    split_ifs at e with h
    · simp only [Option.map_some, Option.some.injEq, Prod.mk.injEq] at e
      obtain ⟨rfl, rfl⟩ := e
      refine ⟨hp.2, rfl, fun i hi => ?_⟩
      simp only
      rw [if_neg]
      intro hx
      exact hi (by have := hp.1 (i - p) (by omega) (by omega); rwa [show p + (i - p) = i by omega] at this)
    · cases e

end Prog

section
variable [Zero K]

/-- Threads none of which writes where another reads or writes: whatever the schedule, no access is undefined, and when a
thread has finished, the positions it reads or writes hold what it leaves there when running alone from the initial memory;
positions no thread writes are unchanged. -/
theorem par_share {T : Nat} {R W : Nat → Int → Prop} (hWR : ∀ t i, W t i → R t i) (hR : ∀ t u i, t ≠ u → W t i → ¬ R u i)
    {P : Nat → Prog K Unit} {A : Buf K} (hW : ∀ t, t < T → (P t).Acc (R t) (W t)) {F : Nat → Buf K}
    (hF : ∀ t, t < T → (P t).run A = some ((), F t)) (sched : List Nat) (hs : ∀ t ∈ sched, t < T) :
    ∃ c, runSched sched (P, A) = some c ∧ c.2.size = A.size ∧
      (∀ t, t < T → (c.1 t).Done → ∀ i, R t i → c.2.val i = (F t).val i) ∧
      (∀ i, (∀ t, t < T → ¬ W t i) → c.2.val i = A.val i) := by
  have key : ∃ c, runSched sched (P, A) = some c ∧
      (c.2.size = A.size ∧ (∀ t, t < T → (c.1 t).Acc (R t) (W t) ∧ ∃ w, (c.1 t).run c.2 = some ((), w) ∧ ∀ i, R t i → w.val i = (F t).val i) ∧
      ∀ i, (∀ t, t < T → ¬ W t i) → c.2.val i = A.val i) := by
    refine exec_total (fun c : (Nat → Prog K Unit) × Buf K => c.2.size = A.size ∧
      (∀ t, t < T → (c.1 t).Acc (R t) (W t) ∧ ∃ w, (c.1 t).run c.2 = some ((), w) ∧ ∀ i, R t i → w.val i = (F t).val i) ∧
      ∀ i, (∀ t, t < T → ¬ W t i) → c.2.val i = A.val i)
      ⟨rfl, fun t ht => ⟨hW t ht, F t, hF t ht, fun _ _ => rfl⟩, fun _ _ => rfl⟩ ?_
    rintro t hmem ⟨Q, B⟩ ⟨hsz, hthr, hout⟩
    simp only at hsz hthr hout
    have ht := hs t hmem
    obtain ⟨hw, w, hrun, hval⟩ := hthr t ht
    obtain ⟨q, C, e, hq⟩ := Prog.step_of_run hrun
    obtain ⟨l1, l2, l3⟩ := Prog.step_acc hw e
    refine ⟨(Function.update Q t q, C), by simp only [stepOf, e, Option.map_some], l2.trans hsz, ?_, ?_⟩
    · intro u hu
      by_cases htu : u = t
      · subst htu
        simp only [Function.update_self]
        exact ⟨l1, w, hq, hval⟩
      · simp only [Function.update_of_ne htu]
        obtain ⟨hw', w', hrun', hval'⟩ := hthr u hu
        obtain ⟨-, -, B', b1, b2, b3, b4⟩ := Prog.run_acc (hWR u) hw' l2 (fun i hi => l3 i (fun h => hR t u i (Ne.symm htu) h hi)) hrun'
        exact ⟨hw', B', b1, fun i hi => by rw [b3 i hi, hval' i hi]⟩
    · intro i hi
      simp only
      rw [l3 i (hi t ht), hout i hi]
  obtain ⟨c, e, h1, h2, h3⟩ := key
  refine ⟨c, e, h1, ?_, h3⟩
  intro t ht hd i hi
  obtain ⟨-, w, hrun, hval⟩ := h2 t ht
  cases hc : c.1 t with
  | ret a =>
    rw [hc] at hrun
    simp only [Prog.run, Option.some.injEq, Prod.mk.injEq] at hrun
    rw [← hval i hi, ← hrun.2]
  | _ => rw [hc] at hd; exact hd.elim

/-- Some schedule finishes all threads. -/
theorem exists_sched_share {T : Nat} {R W : Nat → Int → Prop} (hWR : ∀ t i, W t i → R t i) (hR : ∀ t u i, t ≠ u → W t i → ¬ R u i)
    {P : Nat → Prog K Unit} {A : Buf K} (hW : ∀ t, t < T → (P t).Acc (R t) (W t)) {F : Nat → Buf K}
    (hF : ∀ t, t < T → (P t).run A = some ((), F t)) :
    ∃ sched c, (∀ t ∈ sched, t < T) ∧ runSched sched (P, A) = some c ∧ ∀ t, t < T → (c.1 t).Done := by
  have key : ∀ n, n ≤ T → ∃ sched c, (∀ t ∈ sched, t < T) ∧ runSched sched (P, A) = some c ∧ c.2.size = A.size ∧
      (∀ t, t < n → (c.1 t).Done) ∧ (∀ t, n ≤ t → c.1 t = P t) ∧ ∀ t, n ≤ t → t < T → ∀ i, R t i → c.2.val i = A.val i := by
    intro n
    induction n with
    | zero => intro _; exact ⟨[], (P, A), by simp, rfl, rfl, by simp, fun _ _ => rfl, fun _ _ _ _ _ => rfl⟩
    | succ n ih =>
      intro hn
      obtain ⟨s, c, h1, h2, h3, h4, h5, h6⟩ := ih (by omega)
      obtain ⟨-, -, B', b1, b2, b3, b4⟩ := Prog.run_acc (hWR n) (hW n (by omega)) h3 (h6 n (by omega) (by omega)) (hF n (by omega))
      obtain ⟨k, hk⟩ := run_sched_alone (h5 n (by omega)) b1
      refine ⟨s ++ List.replicate k n, (Function.update c.1 n (.ret ()), B'), ?_, ?_, b2.trans h3, ?_, ?_, ?_⟩
      · intro t ht
        rcases List.mem_append.1 ht with ht | ht
        · exact h1 t ht
        · rw [List.eq_of_mem_replicate ht]; omega
      · unfold runSched at *
        rw [exec_append, h2, Option.bind_some]
        exact hk
      · intro t ht
        simp only
        by_cases htn : t = n
        · subst htn; rw [Function.update_self]; trivial
        · rw [Function.update_of_ne htn]; exact h4 t (by omega)
      · intro t ht
        simp only
        rw [Function.update_of_ne (by omega)]; exact h5 t (by omega)
      · intro t ht htT i hi
        simp only
        rw [b4 i (fun h => hR n t i (by omega) h hi), h6 t (by omega) htT i hi]
  obtain ⟨s, c, h1, h2, _, h4, _⟩ := key T (le_refl T)
  exact ⟨s, c, h1, h2, h4⟩

/-- The region ends, on every schedule, in a memory satisfying `Post`; and some schedule finishes it. -/
def ParPost (T : Nat) (P : Nat → Prog K Unit) (A : Buf K) (Post : Buf K → Prop) : Prop :=
  (∃ sched c, (∀ t ∈ sched, t < T) ∧ runSched sched (P, A) = some c ∧ ∀ t, t < T → (c.1 t).Done) ∧
  ∀ sched : List Nat, (∀ t ∈ sched, t < T) →
    ∃ c, runSched sched (P, A) = some c ∧ ((∀ t, t < T → (c.1 t).Done) → Post c.2)

theorem parPost_share {T : Nat} {R W : Nat → Int → Prop} (hWR : ∀ t i, W t i → R t i) (hR : ∀ t u i, t ≠ u → W t i → ¬ R u i)
    {P : Nat → Prog K Unit} {A : Buf K} (hW : ∀ t, t < T → (P t).Acc (R t) (W t)) {F : Nat → Buf K}
    (hF : ∀ t, t < T → (P t).run A = some ((), F t)) {Post : Buf K → Prop}
    (hp : ∀ B : Buf K, B.size = A.size → (∀ t, t < T → ∀ i, R t i → B.val i = (F t).val i) → (∀ i, (∀ t, t < T → ¬ W t i) → B.val i = A.val i) → Post B) :
    ParPost T P A Post := by
  refine ⟨exists_sched_share hWR hR hW hF, fun sched hs => ?_⟩
  obtain ⟨c, e, h1, h2, h3⟩ := par_share hWR hR hW hF sched hs
  exact ⟨c, e, fun hd => hp c.2 h1 (fun t ht i hi => h2 t ht (hd t ht) i hi) h3⟩

/-- Parallel regions one after the other, each by `T` threads. -/
def Regions (T : Nat) : List (Nat → Prog K Unit) → Buf K → (Buf K → Prop) → Prop
  | [], A, Post => Post A
  | P :: l, A, Post => ParPost T P A fun B => Regions T l B Post

/-- `#pragma omp parallel for`: the iterations that the runtime gives to thread `t`, in increasing order. -/
def forThread (lo hi : Int) (owner : Int → Nat) (body : Int → Prog K Unit) (t : Nat) : Prog K Unit :=
  Prog.each (fun m _ => body m) ((rUp lo hi).filter (fun m => owner m = t)) ()

end

end FT
