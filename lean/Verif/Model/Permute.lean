import Verif.Core.Mem

/-!
# Model of `src/permute.c` and `src/permute/*`

Doubles are values of an arbitrary type `α` (they are only moved).  Pointers are a buffer and an offset.
C `%` and `/` are applied to nonnegative numbers only, where they agree with Lean's `Int` operations.
-/

namespace FT.Permute
variable {α : Type*}

/-- The workspace position of entry `i` of a panel: `(L*i)%(L*N)+(L*i)/(L*N)`.
Models the subscript in src/permute.c L8 and L13. -/
def slot (N L i : Int) : Int := (L * i) % (L * N) + (L * i) / (L * N)

/-- `permute(A+o, B+o, N, M, L)`: returns the new `B`.  Models src/permute.c L5-9.
The callers always use the same offset for both arrays (`o`). -/
def permute (A B : Buf α) (o N M L : Int) : Option (Buf α) :=
  forStep 0 M L (fun j B =>
    forUp 0 (L * N) (fun i B =>
      (A.rd (o + (i + j * N))).bind fun v => B.wr (o + (slot N L i + j * N)) v) B) B

/-- `permute_t(A+o, B+o, N, M, L)`: returns the new `A`.  Models src/permute.c L10-14. -/
def permute_t (A B : Buf α) (o N M L : Int) : Option (Buf α) :=
  forStep 0 M L (fun j A =>
    forUp 0 (L * N) (fun i A =>
      (B.rd (o + (slot N L i + j * N))).bind fun v => A.wr (o + (i + j * N)) v) A) A

/-- The loop `for (i = 0; i < n; i++) B[i] = A[i]` at offset `o` (src/permute.c L17-18, L23-24, L29-30,
L35-36, L44-45, L61-62). -/
def copyPrefix (A B : Buf α) (o n : Int) : Option (Buf α) :=
  forUp 0 n (fun i B => (A.rd (o + i)).bind fun v => B.wr (o + i) v) B

/-- `permute_sph(A+o, B+o, N, M, L)`.  Models src/permute.c L16-20.  (`o` is 0 in most callers, `2*N` in
EXECUTE_SPHV, src/drivers.c L225.) -/
def permute_sph (A B : Buf α) (o N M L : Int) : Option (Buf α) :=
  (copyPrefix A B o (M % (2 * L) * N)).bind fun B =>
    permute A B (o + M % (2 * L) * N) N (M - M % (2 * L)) L

/-- `permute_t_sph(A+o, B+o, N, M, L)`.  Models src/permute.c L22-26. -/
def permute_t_sph (A B : Buf α) (o N M L : Int) : Option (Buf α) :=
  (copyPrefix B A o (M % (2 * L) * N)).bind fun A =>
    permute_t A B (o + M % (2 * L) * N) N (M - M % (2 * L)) L

/-- `permute_tri`.  Models src/permute.c L28-32. -/
def permute_tri (A B : Buf α) (o N M L : Int) : Option (Buf α) :=
  (copyPrefix A B o (M % L * N)).bind fun B =>
    permute A B (o + M % L * N) N (M - M % L) L

/-- `permute_t_tri`.  Models src/permute.c L34-38. -/
def permute_t_tri (A B : Buf α) (o N M L : Int) : Option (Buf α) :=
  (copyPrefix B A o (M % L * N)).bind fun A =>
    permute_t A B (o + M % L * N) N (M - M % L) L

/-- `old_permute_tri(A+o, B+o, N, M, 2^(e+1))`, recursion on `L → L/2` down to `L == 2`
(the callers use L = 2, 4, 8).  Models src/permute.c L40-55 with VALIGN(N) = N (src/ftinternal.h). -/
def old_permute_tri (A : Buf α) : Nat → (B : Buf α) → (o N M : Int) → Option (Buf α)
  | 0, B, o, N, M =>
    if M % 2 ≠ 0 then
      (copyPrefix A B o N).bind fun B => permute A B (o + N) N (M - 1) 2
    else permute A B o N M 2
  | e+1, B, o, N, M =>
    let L : Int := 2 ^ (e + 2)
    (old_permute_tri A e B o N (M % (2 * L))).bind fun B =>
      permute A B (o + M % (2 * L) * N) N (M - M % (2 * L)) L

/-- `old_permute_t_tri`.  Models src/permute.c L57-72. -/
def old_permute_t_tri (B : Buf α) : Nat → (A : Buf α) → (o N M : Int) → Option (Buf α)
  | 0, A, o, N, M =>
    if M % 2 ≠ 0 then
      (copyPrefix B A o N).bind fun A => permute_t A B (o + N) N (M - 1) 2
    else permute_t A B o N M 2
  | e+1, A, o, N, M =>
    let L : Int := 2 ^ (e + 2)
    (old_permute_t_tri B e A o N (M % (2 * L))).bind fun A =>
      permute_t A B (o + M % (2 * L) * N) N (M - M % (2 * L)) L

/-! ## Block swaps -/

/-- `temp = A[a+i]; A[a+i] = A[b+i]; A[b+i] = temp` (both pointers point into one array).
Models src/permute/permute_default.c L6-8 and src/permute/permute.h L18-20. -/
def swapOne (A : Buf α) (a b i : Int) : Option (Buf α) :=
  (A.rd (a + i)).bind fun temp =>
  (A.rd (b + i)).bind fun v =>
  (A.wr (a + i) v).bind fun A => A.wr (b + i) temp

/-- `swap_warp_default(A+a, A+b, N)`.  Models src/permute/permute_default.c L3-19. -/
def swapDefault (A : Buf α) (a b N : Int) : Option (Buf α) :=
  forUp 0 N (fun i A => swapOne A a b i) A

/-- Unaligned vector load of `W` lanes (`vloadu2`, `vloadu4`, `vloadu8`, `vloadu16f`, `vld1q_*`):
the intrinsic reads exactly the lanes `o .. o+W-1`. -/
def vload (A : Buf α) (o : Int) (W : Nat) : Option (Int → α) :=
  if 0 ≤ o ∧ o + W ≤ A.size then some (fun k => A.val (o + k)) else none

/-- Unaligned vector store of `W` lanes: writes exactly the lanes `o .. o+W-1`. -/
def vstore (A : Buf α) (o : Int) (W : Nat) (v : Int → α) : Option (Buf α) :=
  if 0 ≤ o ∧ o + W ≤ A.size then
    some ⟨A.size, fun i => if o ≤ i ∧ i < o + W then v (i - o) else A.val i⟩
  else none

/-- Body of the vector loop: src/permute/permute.h L11-14. -/
def swapVec (W : Nat) (A : Buf α) (a b i : Int) : Option (Buf α) :=
  (vload A (a + i) W).bind fun ta =>
  (vload A (b + i) W).bind fun tb =>
  (vstore A (a + i) W tb).bind fun A => vstore A (b + i) W ta

/-- `SWAP_WARP_KERNEL(T, VT, S, L, ...)` where the vector type VT has `W` lanes.
Models src/permute/permute.h L6-21: the vector loop runs while `i < N+1-S*L`, the scalar loop
continues from the final `i`. -/
def swapKernel (S L W : Nat) (A : Buf α) (a b N : Int) : Option (Buf α) :=
  (forStep 0 (N + 1 - S * L) (S * L) (fun i A =>
    forUp 0 L (fun l A => swapVec W A a b (i + S * l)) A) A).bind fun A =>
  forUp (S * L * stepCount 0 (N + 1 - S * L) (S * L)) N (fun i A => swapOne A a b i) A

/-- Instruction sets that select a variant (src/ftinternal.h, `ft_simd`). -/
inductive Isa | avx512f | avx | sse2 | sse | neon | scalar
  deriving DecidableEq, Repr

/-- `swap_warp` (double): dispatch of src/permute.c L75-87 to the variants of src/permute/permute_AVX512F.c
L4-6, permute_AVX.c L4-6, permute_SSE2.c L4-6, permute_NEON.c L4-6, permute_default.c L3-10. -/
def swapWarp (isa : Isa) (A : Buf α) (a b N : Int) : Option (Buf α) :=
  match isa with
  | .avx512f => swapKernel 8 4 8 A a b N
  | .avx => swapKernel 4 4 4 A a b N
  | .sse2 => swapKernel 2 4 2 A a b N
  | .sse => swapDefault A a b N
  | .neon => swapKernel 2 4 2 A a b N
  | .scalar => swapDefault A a b N

/-- `swap_warpf` (float): src/permute.c L89-101 and src/permute/permute_AVX512F.c L7-9, permute_AVX.c L7-9,
permute_SSE.c L4-6, permute_NEON.c L7-9, permute_default.c L12-19.
The AVX-512 variant passes S = 8 together with the 16-lane type `float16`. -/
def swapWarpf (isa : Isa) (A : Buf α) (a b N : Int) : Option (Buf α) :=
  match isa with
  | .avx512f => swapKernel 8 4 16 A a b N
  | .avx => swapKernel 8 4 8 A a b N
  | .sse2 => swapKernel 4 4 4 A a b N
  | .sse => swapKernel 4 4 4 A a b N
  | .neon => swapKernel 4 4 4 A a b N
  | .scalar => swapDefault A a b N

/-! ## Warping of columns -/

/-- One stage `j` of `warp`: src/permute.c L105-106. -/
def warpStage (isa : Isa) (N M L j : Int) (o : Int) (A : Buf α) : Option (Buf α) :=
  forStep (M % (4 * L)) M (4 * j) (fun i A =>
    swapWarp isa A (o + (i + j) * N) (o + (i + 2 * j) * N) (j * N)) A

/-- `warp(A+o, N, M, L)`: `for (j = 2; j <= L; j <<= 1)`.  Models src/permute.c L103-107.
The loop state is `(j, A)`. -/
def warp (isa : Isa) (A : Buf α) (o N M L : Int) : Option (Buf α) :=
  (whileF (fun s : Int × Buf α => decide (s.1 ≤ L))
    (fun s => (warpStage isa N M L s.1 o s.2).map fun A => (2 * s.1, A)) L.toNat (2, A)).map Prod.snd

/-- `warp_t(A+o, N, M, L)`: `for (j = L; j >= 2; j >>= 1)`.  Models src/permute.c L109-113. -/
def warp_t (isa : Isa) (A : Buf α) (o N M L : Int) : Option (Buf α) :=
  (whileF (fun s : Int × Buf α => decide (2 ≤ s.1))
    (fun s => (warpStage isa N M L s.1 o s.2).map fun A => (s.1 / 2, A)) L.toNat (L, A)).map Prod.snd

end FT.Permute
