import Mathlib.Logic.Function.Basic
import Mathlib.Order.Basic
import Mathlib.Algebra.Order.Ring.Int
import Mathlib.Data.Int.Init

/-!
# Buffers and loops with an "undefined behaviour" outcome

Not a model of any particular C function: this is the vocabulary in which the models are written.
`none` is the outcome "undefined behaviour" (an access outside the allocation).
-/

namespace FT

/-- A C array: `size` elements, contents `val`.  Indices are C `int`s, modelled by `Int`.
Contents outside `0 ≤ i < size` can neither be read (`rd`) nor written (`wr`). -/
structure Buf (α : Type*) where
  size : Nat
  val : Int → α

namespace Buf
variable {α : Type*}

/-- Read `b[i]`; `none` is an out-of-bounds access. -/
def rd (b : Buf α) (i : Int) : Option α :=
  if 0 ≤ i ∧ i < b.size then some (b.val i) else none

/-- Write `b[i] = v`; `none` is an out-of-bounds access. -/
def wr (b : Buf α) (i : Int) (v : α) : Option (Buf α) :=
  if 0 ≤ i ∧ i < b.size then some ⟨b.size, Function.update b.val i v⟩ else none

/-- The elements of a buffer, in order (what an observer can see of it). -/
def toList (b : Buf α) : List α := (List.range b.size).map (fun i : Nat => b.val (i : Int))

/-- A buffer with the elements of a list. -/
def ofList [Inhabited α] (l : List α) : Buf α := ⟨l.length, fun i => l.getD i.toNat default⟩

/-- Observational equality: same size and same elements. -/
def Same (a b : Buf α) : Prop := a.size = b.size ∧ ∀ i : Int, 0 ≤ i → i < a.size → a.val i = b.val i

theorem Same.rfl' {b : Buf α} : Same b b := ⟨Eq.refl _, fun _ _ _ => Eq.refl _⟩

theorem Same.symm {a b : Buf α} (h : Same a b) : Same b a :=
  ⟨h.1.symm, fun i h0 h1 => (h.2 i h0 (by rw [h.1]; exact h1)).symm⟩

theorem Same.trans {a b c : Buf α} (h : Same a b) (g : Same b c) : Same a c :=
  ⟨h.1.trans g.1, fun i h0 h1 => (h.2 i h0 h1).trans (g.2 i h0 (by rw [← h.1]; exact h1))⟩

theorem ext' {a b : Buf α} (hs : a.size = b.size) (hv : ∀ i, a.val i = b.val i) : a = b := by
  cases a; cases b; simp only [mk.injEq] at *; exact ⟨hs, funext hv⟩

theorem rd_of {b : Buf α} {i : Int} (h0 : 0 ≤ i) (h1 : i < b.size) : b.rd i = some (b.val i) := by
  simp [rd, h0, h1]

theorem wr_of {b : Buf α} {i : Int} {v : α} (h0 : 0 ≤ i) (h1 : i < b.size) :
    b.wr i v = some ⟨b.size, Function.update b.val i v⟩ := by
  simp [wr, h0, h1]

theorem rd_oob {b : Buf α} {i : Int} (h : ¬ (0 ≤ i ∧ i < b.size)) : b.rd i = none := by
  simp [rd, h]

theorem wr_oob {b : Buf α} {i : Int} {v : α} (h : ¬ (0 ≤ i ∧ i < b.size)) : b.wr i v = none := by
  simp [wr, h]

theorem rd_eq_some_iff {b : Buf α} {i : Int} {v : α} :
    b.rd i = some v ↔ (0 ≤ i ∧ i < b.size) ∧ b.val i = v := by
  unfold rd; split <;> simp_all

theorem wr_eq_some_iff {b c : Buf α} {i : Int} {v : α} :
    b.wr i v = some c ↔ (0 ≤ i ∧ i < b.size) ∧ c = ⟨b.size, Function.update b.val i v⟩ := by
  unfold wr; split <;> simp_all [eq_comm]

end Buf

/-! ## Loops -/

variable {σ : Type*}

/-- `n` iterations of `body`, with iteration number `0, 1, …, n-1`. -/
def loop (body : Nat → σ → Option σ) : Nat → σ → Option σ
  | 0, s => some s
  | n+1, s => (loop body n s).bind (body n)

/-- `for (int i = lo; i < hi; i++) body(i)`. -/
def forUp (lo hi : Int) (body : Int → σ → Option σ) (s : σ) : Option σ :=
  loop (fun k => body (lo + k)) (hi - lo).toNat s

/-- `for (int i = hi; i >= lo; i--) body(i)`. -/
def forDown (hi lo : Int) (body : Int → σ → Option σ) (s : σ) : Option σ :=
  loop (fun k => body (hi - k)) (hi - lo + 1).toNat s

/-- Number of iterations of `for (int i = lo; i < hi; i += st)` with `st > 0`. -/
def stepCount (lo hi st : Int) : Nat := ((hi - lo + st - 1) / st).toNat

/-- `for (int i = lo; i < hi; i += st) body(i)`, `st > 0`. -/
def forStep (lo hi st : Int) (body : Int → σ → Option σ) (s : σ) : Option σ :=
  loop (fun k => body (lo + st * k)) (stepCount lo hi st) s

/-- `for (int i = hi; i >= lo; i -= st) body(i)`, `st > 0`. -/
def forStepDown (hi lo st : Int) (body : Int → σ → Option σ) (s : σ) : Option σ :=
  loop (fun k => body (hi - st * k)) (stepCount lo (hi + 1) st) s

/-- The pure counterpart of `loop`. -/
def iter (g : Nat → σ → σ) : Nat → σ → σ
  | 0, s => s
  | n+1, s => g n (iter g n s)

@[simp] theorem loop_zero (body : Nat → σ → Option σ) (s : σ) : loop body 0 s = some s := rfl

theorem loop_succ (body : Nat → σ → Option σ) (n : Nat) (s : σ) :
    loop body (n+1) s = (loop body n s).bind (body n) := rfl

@[simp] theorem iter_zero (g : Nat → σ → σ) (s : σ) : iter g 0 s = s := rfl

theorem iter_succ (g : Nat → σ → σ) (n : Nat) (s : σ) :
    iter g (n+1) s = g n (iter g n s) := rfl

/-- Total-correctness rule for loops: an invariant indexed by the iteration number. -/
theorem loop_spec {body : Nat → σ → Option σ} {n : Nat} {s : σ} (P : Nat → σ → Prop)
    (h0 : P 0 s)
    (hstep : ∀ k, k < n → ∀ s, P k s → ∃ s', body k s = some s' ∧ P (k+1) s') :
    ∃ s', loop body n s = some s' ∧ P n s' := by
  induction n with
  | zero => exact ⟨s, rfl, h0⟩
  | succ n ih =>
    obtain ⟨s1, h1, p1⟩ := ih (fun k hk => hstep k (by omega))
    obtain ⟨s2, h2, p2⟩ := hstep n (by omega) s1 p1
    exact ⟨s2, by rw [loop_succ, h1]; exact h2, p2⟩

/-- A loop whose body succeeds under an invariant is the pure iteration. -/
theorem loop_eq_iter {body : Nat → σ → Option σ} {g : Nat → σ → σ} {n : Nat} {s : σ}
    (P : Nat → σ → Prop) (h0 : P 0 s)
    (hstep : ∀ k, k < n → ∀ s, P k s → body k s = some (g k s) ∧ P (k+1) (g k s)) :
    loop body n s = some (iter g n s) ∧ P n (iter g n s) := by
  induction n with
  | zero => exact ⟨rfl, h0⟩
  | succ n ih =>
    obtain ⟨h1, p1⟩ := ih (fun k hk => hstep k (by omega))
    obtain ⟨h2, p2⟩ := hstep n (by omega) _ p1
    refine ⟨?_, p2⟩
    rw [loop_succ, h1]; exact h2

/-- A loop fails if some iteration reached in a state satisfying the invariant fails. -/
theorem loop_none {body : Nat → σ → Option σ} {n : Nat} {s : σ} (k : Nat) (hk : k < n)
    (hfail : ∀ s', loop body k s = some s' → body k s' = none) :
    loop body n s = none := by
  induction n with
  | zero => omega
  | succ n ih =>
    rw [loop_succ]
    by_cases h : k = n
    · subst h
      cases hl : loop body k s with
      | none => rfl
      | some s' => exact hfail s' hl
    · rw [ih (by omega)]; rfl

theorem loop_congr {b1 b2 : Nat → σ → Option σ} {n : Nat} {s : σ}
    (h : ∀ k, k < n → ∀ s, b1 k s = b2 k s) : loop b1 n s = loop b2 n s := by
  induction n with
  | zero => rfl
  | succ n ih =>
    rw [loop_succ, loop_succ, ih (fun k hk => h k (by omega))]
    congr 1; funext s; exact h n (by omega) s

theorem iter_congr {g1 g2 : Nat → σ → σ} {n : Nat} {s : σ}
    (h : ∀ k, k < n → ∀ s, g1 k s = g2 k s) : iter g1 n s = iter g2 n s := by
  induction n with
  | zero => rfl
  | succ n ih => rw [iter_succ, iter_succ, ih (fun k hk => h k (by omega)), h n (by omega)]

/-- Splitting a loop at `m`. -/
theorem loop_add (body : Nat → σ → Option σ) (m n : Nat) (s : σ) :
    loop body (m + n) s = (loop body m s).bind (loop (fun k => body (m + k)) n) := by
  induction n with
  | zero => cases loop body m s <;> rfl
  | succ n ih =>
    rw [← Nat.add_assoc, loop_succ, ih]
    cases loop body m s <;> rfl

/-- First iteration split off. -/
theorem loop_succ' (body : Nat → σ → Option σ) (n : Nat) (s : σ) :
    loop body (n+1) s = (body 0 s).bind (loop (fun k => body (k+1)) n) := by
  rw [Nat.add_comm, loop_add, loop_succ, loop_zero]
  simp only [Option.bind_some]
  congr 1; funext s'; apply loop_congr; intro k _ s; rw [Nat.add_comm]

theorem iter_succ' (g : Nat → σ → σ) (n : Nat) (s : σ) :
    iter g (n+1) s = iter (fun k => g (k+1)) n (g 0 s) := by
  induction n with
  | zero => rfl
  | succ n ih => rw [iter_succ, ih]; rfl

theorem mem_stepCount {lo hi st : Int} (hst : 0 < st) (k : Nat) :
    k < stepCount lo hi st ↔ lo + st * k < hi := by
  unfold stepCount
  rw [Int.lt_toNat, ← Int.add_one_le_iff, Int.le_ediv_iff_mul_le hst]
  rw [Int.add_mul, Int.mul_comm (k : Int) st]
  constructor <;> intro h <;> omega

end FT

namespace FT

/-- `while (cond) body` with at most `fuel` iterations; `none` if the body has undefined behaviour or
the loop is still running when the fuel is used up (so a result `some` includes termination). -/
def whileF {σ : Type*} (cond : σ → Bool) (body : σ → Option σ) : Nat → σ → Option σ
  | 0, s => if cond s then none else some s
  | f+1, s => if cond s then (body s).bind (whileF cond body f) else some s

end FT
