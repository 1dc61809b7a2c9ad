import Mathlib.Logic.Function.Basic
/-
The C heap as seen by constructors and destructors of plans: blocks with an identity, pointers
into them, and the operations `malloc`, `calloc`, `free`, reading and writing a member of a
structure or an entry of an array of pointers, and touching the numerical contents of a block.

Modelled: which block a pointer refers to, whether the block is live, which allocator it came
from, and the pointers and integers stored in structures.  Not modelled: floating-point contents
(`use` only checks that the block is live) and failure of allocations of non-negative size.
An action returns `none` for undefined behaviour: dereferencing or freeing something that is not
(the start of) a live block, passing a block to the wrong deallocator, reading a member that was
never written, and accessing an array of pointers outside its bounds.
-/

set_option linter.dupNamespace false
namespace FT.Heap

/-- Members of the structures of src/banded_source.h, src/hierarchical_source.h,
src/dprk_source.h, src/tdc_source.h, src/fmm_source.h, src/tridiagonal_source.h, src/blockbanded_source.h and
src/fasttransforms.h that hold pointers, or integers that constructors and destructors read. -/
inductive Fld
  | m | n | nu | nv | l | u | b | p | q | v | data | factors | tau
  | V | lambda | lambdalo | lambdahi | F0 | F1 | F2 | S | X | Y | t1 | t2 | p1 | p2
  | K | R | s | c | t | a | A | B | C | U | Mrows | Ncols | hierarchical | dense | lowrank | hash
  | d | z | F | data00 | data01 | data10 | data11
  | RP | NRP | MP | NMP | P | Pinv | NP | SRP | P1 | P2 | P1inv | P2inv
  | s1 | c1 | s2 | c2 | F11 | F21 | F12 | F22 | T | w | iz | id
  | plan1 | plan2 | plan3 | plan4 | plan5
  | BT | ia | oa | work | wk | ck | dplan | L | an | dn
deriving DecidableEq

/-- Position inside a block: a member of a structure or an entry of an array. -/
inductive Key
  | fld (f : Fld)
  | idx (i : Int)
deriving DecidableEq

/-- A word of memory: indeterminate, the null pointer, an integer, or a pointer (block and offset
in entries). -/
inductive Val
  | junk
  | null
  | int (z : Int)
  | ptr (id : Nat) (off : Int)
deriving DecidableEq

/-- The allocator a block came from: `malloc`/`calloc`, `fftw_malloc`, or an `fftw_plan_*`
function. -/
inductive Tag
  | libc
  | fftw
  | plan
deriving DecidableEq

/-- A live block: its allocator, the number of entries when it is used as an array, and the words
stored in it. -/
structure Cell where
  tag : Tag
  size : Int
  val : Key → Val

/-- The heap: live blocks by identity; identities from `next` on were never handed out. -/
structure Heap where
  next : Nat
  cell : Nat → Option Cell

/-- No block lives at an identity that was not handed out yet. -/
def Heap.WF (h : Heap) : Prop := ∀ i, h.next ≤ i → h.cell i = none

/-- Actions on the heap; `none` is undefined behaviour. -/
abbrev HM (α : Type) := StateT Heap Option α

/-- Undefined behaviour. -/
def fault {α : Type} : HM α := fun _ => none

/-- A fresh block; a negative size is converted to a `size_t` beyond any memory, for which the
allocators return the null pointer. -/
def alloc (tag : Tag) (size : Int) (init : Key → Val) : HM Val := fun h =>
  if 0 ≤ size then
    some (.ptr h.next 0,
      ⟨h.next + 1, Function.update h.cell h.next (some ⟨tag, size, init⟩)⟩)
  else some (.null, h)

/-- `malloc(n*sizeof(...))` for an array. -/
def malloc (n : Int) : HM Val := alloc .libc n fun _ => .junk
/-- `malloc(sizeof(struct))`. -/
def mallocStruct : HM Val := alloc .libc 0 fun _ => .junk
/-- `calloc(n, ...)`; all bytes zero, which reads as the integer 0. -/
def calloc (n : Int) : HM Val := alloc .libc n fun _ => .int 0
/-- `fftw_malloc`. -/
def fftwMalloc (n : Int) : HM Val := alloc .fftw n fun _ => .junk
/-- `fftw_plan_many_r2r`, `fftw_plan_r2r_2d`, ...: an opaque object owned by FFTW. -/
def fftwPlan : HM Val := alloc .plan 0 fun _ => .junk

/-- Release of a block with the deallocator of `tag`; the null pointer is ignored. -/
def freeAs (tag : Tag) : Val → HM Unit
  | .null => pure ()
  | .ptr id off => fun h =>
    match h.cell id with
    | some c =>
      if off = 0 ∧ c.tag = tag then some ((), ⟨h.next, Function.update h.cell id none⟩) else none
    | none => none
  | _ => fault

/-- `free`. -/
def free : Val → HM Unit := freeAs .libc
/-- `fftw_free`. -/
def fftwFree : Val → HM Unit := freeAs .fftw
/-- `fftw_destroy_plan`. -/
def fftwDestroyPlan : Val → HM Unit := freeAs .plan

/-- Position of `key` relative to a pointer with offset `off` into a block of `size` entries:
members are reached through the start of the block only, entries within the bounds. -/
def place (size off : Int) : Key → Option Key
  | .fld f => if off = 0 then some (.fld f) else none
  | .idx i => if 0 ≤ off + i ∧ off + i < size then some (.idx (off + i)) else none

/-- `p->f` or `p[i]`, for a word that was written before. -/
def ld (p : Val) (key : Key) : HM Val := fun h =>
  match p with
  | .ptr id off =>
    match h.cell id with
    | some c =>
      match place c.size off key with
      | some k => if c.val k = .junk then none else some (c.val k, h)
      | none => none
    | none => none
  | _ => none

/-- An integer member. -/
def ldInt (p : Val) (key : Key) : HM Int := do
  match ← ld p key with
  | .int z => pure z
  | _ => fault

/-- `p->f = x` or `p[i] = x`. -/
def st (p : Val) (key : Key) (x : Val) : HM Unit := fun h =>
  match p with
  | .ptr id off =>
    match h.cell id with
    | some c =>
      match place c.size off key with
      | some k =>
        some ((), ⟨h.next, Function.update h.cell id (some ⟨c.tag, c.size, Function.update c.val k x⟩)⟩)
      | none => none
    | none => none
  | _ => none

/-- Reading or writing numbers of the block behind `p`: the block has to be live. -/
def use (p : Val) : HM Unit := fun h =>
  match p with
  | .ptr id _ => if (h.cell id).isSome then some ((), h) else none
  | _ => none

/-- `p + k`. -/
def shift : Val → Int → HM Val
  | .ptr id off, k => pure (.ptr id (off + k))
  | _, _ => fault

/-- `for (int i = lo; i < lo + k; i++)`. -/
def forN (lo : Int) : Nat → (Int → HM Unit) → HM Unit
  | 0, _ => pure ()
  | k + 1, body => do
    body lo
    forN (lo + 1) k body

end FT.Heap
