import Verif.Lemmas.Warp

/-!
# C01, C02, C03: repacking, warping and block swaps
-/

namespace FT.Props
open FT FT.Permute
variable {α : Type*}

/-- Specification used by C01: `A'` has, in the `n` elements from `o`, the contents of `A`, and everywhere else
those of `A0`. -/
def Restores (A A0 A' : Buf α) (o n : Int) : Prop :=
  A'.size = A0.size ∧ (∀ i, o ≤ i → i < o + n → A'.val i = A.val i) ∧
  (∀ i, (i < o ∨ o + n ≤ i) → A'.val i = A0.val i)

/-- C01 (sphere layout).  Packing succeeds without touching memory outside the `N*M` elements, entry `(r, c)` ends up
at its lane position, and unpacking into any array gives back the original block. -/
theorem C01_permute_sph_roundtrip (A B A0 : Buf α) (o N M L : Int) (ho : 0 ≤ o) (hN : 0 ≤ N) (hM : 0 ≤ M)
    (hL : 1 ≤ L) (hA : o + N * M ≤ A.size) (hB : o + N * M ≤ B.size) (hA0 : o + N * M ≤ A0.size) :
    ∃ B', permute_sph A B o N M L = some B' ∧ OnlyWithin B B' o (N * M) ∧
      (∀ r c, 0 ≤ r → r < N → 0 ≤ c → c < M →
        B'.val (o + (if c < M % (2 * L) then r + c * N else
          M % (2 * L) * N + ((c - M % (2 * L)) / L * (L * N) + r * L + (c - M % (2 * L)) % L))) =
        A.val (o + (r + c * N))) ∧
      ∃ A', permute_t_sph A0 B' o N M L = some A' ∧ Restores A A0 A' o (N * M) := by
  have h0 := Int.emod_nonneg M (b := 2 * L) (by omega)
  have h1 := emod_le_self' (k := 2 * L) hM (by omega)
  have h2 : L ∣ M - M % (2 * L) := dvd_sub_mod L M 2
  obtain ⟨B', e, p, w⟩ := packFrom_spec A B (h := M % (2 * L)) ho hN (by omega) h0 h1 h2 hA hB
  obtain ⟨A', e', p', w'⟩ := unpackFrom_spec A0 B' (h := M % (2 * L)) ho hN (by omega) h0 h1 h2 hA0
    (by rw [w.1]; exact hB)
  exact ⟨B', e, w, p, A', e', w'.1, fun i hi0 hi1 => p.unique hN p' i hi0 hi1, w'.2⟩

/-- C01 (triangle layout). -/
theorem C01_permute_tri_roundtrip (A B A0 : Buf α) (o N M L : Int) (ho : 0 ≤ o) (hN : 0 ≤ N) (hM : 0 ≤ M)
    (hL : 1 ≤ L) (hA : o + N * M ≤ A.size) (hB : o + N * M ≤ B.size) (hA0 : o + N * M ≤ A0.size) :
    ∃ B', permute_tri A B o N M L = some B' ∧ OnlyWithin B B' o (N * M) ∧
      (∀ r c, 0 ≤ r → r < N → 0 ≤ c → c < M →
        B'.val (o + (if c < M % L then r + c * N else
          M % L * N + ((c - M % L) / L * (L * N) + r * L + (c - M % L) % L))) =
        A.val (o + (r + c * N))) ∧
      ∃ A', permute_t_tri A0 B' o N M L = some A' ∧ Restores A A0 A' o (N * M) := by
  have h0 := Int.emod_nonneg M (b := L) (by omega)
  have h1 := emod_le_self' (k := L) hM (by omega)
  have h2 : L ∣ M - M % L := by have := dvd_sub_mod L M 1; rwa [Int.one_mul] at this
  obtain ⟨B', e, p, w⟩ := packFrom_spec A B (h := M % L) ho hN (by omega) h0 h1 h2 hA hB
  obtain ⟨A', e', p', w'⟩ := unpackFrom_spec A0 B' (h := M % L) ho hN (by omega) h0 h1 h2 hA0
    (by rw [w.1]; exact hB)
  exact ⟨B', e, w, p, A', e', w'.1, fun i hi0 hi1 => p.unique hN p' i hi0 hi1, w'.2⟩

/-- C01 (raw panels; the code requires `L ∣ M`, see `C01_permute_undefined`). -/
theorem C01_permute_roundtrip (A B A0 : Buf α) (o N M L : Int) (ho : 0 ≤ o) (hN : 0 ≤ N) (hM : 0 ≤ M)
    (hL : 1 ≤ L) (hLM : L ∣ M) (hA : o + N * M ≤ A.size) (hB : o + N * M ≤ B.size)
    (hA0 : o + N * M ≤ A0.size) :
    ∃ B', permute A B o N M L = some B' ∧ OnlyWithin B B' o (N * M) ∧
      (∀ r c, 0 ≤ r → r < N → 0 ≤ c → c < M →
        B'.val (o + (c / L * (L * N) + r * L + c % L)) = A.val (o + (r + c * N))) ∧
      ∃ A', permute_t A0 B' o N M L = some A' ∧ Restores A A0 A' o (N * M) := by
  obtain ⟨B', e, s, v, u⟩ := permute_spec A B ho hN (by omega) hLM hM hA hB
  obtain ⟨A', e', s', v', u'⟩ := permute_t_spec A0 B' ho hN (by omega) hLM hM hA0 (by rw [s]; exact hB)
  refine ⟨B', e, ⟨s, u⟩, v, A', e', s', ?_, u'⟩
  exact PackedAs.unique (lay := lane N L) hN v (fun r c a b d f => (v' r c a b d f).symm)

/-- C01 (older triangle layout with `L = 2^(e+1)`, used by the tetrahedral driver). -/
theorem C01_old_permute_tri_roundtrip (A B A0 : Buf α) (e : Nat) (o N M : Int) (ho : 0 ≤ o) (hN : 0 ≤ N)
    (hM : 0 ≤ M) (hA : o + N * M ≤ A.size) (hB : o + N * M ≤ B.size) (hA0 : o + N * M ≤ A0.size) :
    ∃ B', old_permute_tri A e B o N M = some B' ∧ OnlyWithin B B' o (N * M) ∧
      ∃ A', old_permute_t_tri B' e A0 o N M = some A' ∧ Restores A A0 A' o (N * M) := by
  obtain ⟨B', h, p, w⟩ := old_permute_tri_spec A B e ho hN hM hA hB
  obtain ⟨A', h', p', w'⟩ := old_permute_t_tri_spec A0 B' e ho hN hM hA0 (by rw [w.1]; exact hB)
  exact ⟨B', h, w, A', h', w'.1, fun i hi0 hi1 => p.unique hN p' i hi0 hi1, w'.2⟩

/-- C01: the packed positions of the `N*M` entries are exactly the `N*M` slots, each used once
(`h` leading columns are copied, the others packed `L` at a time). -/
theorem C01_layout_bijective (h N M L : Int) (hL : 1 ≤ L) (hh : 0 ≤ h) (hhM : h ≤ M) (hM : L ∣ M - h)
    (hN : 0 ≤ N) (p : Int) (hp0 : 0 ≤ p) (hp1 : p < N * M) :
    ∃ rc : Int × Int, (0 ≤ rc.1 ∧ rc.1 < N ∧ 0 ≤ rc.2 ∧ rc.2 < M ∧ laneFrom h N L rc.1 rc.2 = p) ∧
      ∀ rc' : Int × Int, (0 ≤ rc'.1 ∧ rc'.1 < N ∧ 0 ≤ rc'.2 ∧ rc'.2 < M ∧ laneFrom h N L rc'.1 rc'.2 = p) →
        rc' = rc := by
  obtain ⟨r, c, a, b, c0, c1, e⟩ := laneFrom_surj (L := L) (by omega) hh hM hp0 hp1 hN hhM
  refine ⟨(r, c), ⟨a, b, c0, c1, e⟩, ?_⟩
  rintro ⟨r', c'⟩ ⟨a', b', c0', c1', e'⟩
  obtain ⟨x, y⟩ := laneFrom_inj (L := L) (by omega) a' b' a b (e'.trans e.symm)
  simp only at x y
  rw [x, y]

/-- C01 (limit of the raw routine): if `L` does not divide `M`, packing an array of exactly `N*M` elements reads
outside it. -/
theorem C01_permute_undefined (A B : Buf α) (N M L : Int) (hN : 0 < N) (hM : 0 < M) (hL : 1 ≤ L)
    (hLM : ¬ L ∣ M) (hA : (A.size : Int) = N * M) : permute A B 0 N M L = none := by
  have hq := Int.mul_ediv_add_emod M L
  have hr0 := Int.emod_nonneg M (b := L) (by omega)
  have hr1 := Int.emod_lt_of_pos M (b := L) (by omega)
  have hr : M % L ≠ 0 := fun e => hLM (Int.dvd_of_emod_eq_zero e)
  have hq0 : 0 ≤ M / L := Int.ediv_nonneg hM.le (by omega)
  unfold permute forStep
  apply loop_none (M / L).toNat
  · rw [mem_stepCount (by omega)]
    rw [Int.toNat_of_nonneg hq0]; omega
  · intro B' _
    unfold forUp
    have hi0 : 0 ≤ M % L * N := by positivity
    apply loop_none (M % L * N).toNat
    · have : M % L * N < L * N := by nlinarith
      omega
    · intro B'' _
      show (A.rd _).bind _ = none
      rw [Buf.rd_oob]; · rfl
      rw [Int.toNat_of_nonneg hq0, Int.toNat_of_nonneg hi0, hA]
      have : 0 + (0 + M % L * N + (0 + L * (M / L)) * N) = N * M := by
        conv_rhs => rw [← hq]
        ring
      omega

/-- C02.  `warp_t` after `warp` gives back the array, and `warp` after `warp_t` as well, for every power-of-two
vector length and every instruction set. -/
theorem C02_warp_roundtrip (isa isa' : Isa) (A : Buf α) (e : Nat) (o N M : Int) (ho : 0 ≤ o) (hN : 0 ≤ N)
    (hM : 0 ≤ M) (hA : o + N * M ≤ A.size) :
    (∃ A1, warp isa A o N M (2 ^ e) = some A1 ∧ warp_t isa' A1 o N M (2 ^ e) = some A) ∧
    (∃ A1, warp_t isa A o N M (2 ^ e) = some A1 ∧ warp isa' A1 o N M (2 ^ e) = some A) := by
  have fin : ∀ A2 : Buf α, ColMove (fun c => c) A A2 o N M → A2 = A := by
    intro A2 m
    refine Buf.ext' m.1 (fun i => ?_)
    by_cases hi : i < o ∨ o + N * M ≤ i
    · exact m.2.2 i hi
    · exact PackedAs.unique (lay := fun r c => r + c * N) (A := A) (A' := A2) (B := A2) hN
        (fun r c a b d f => m.2.1 r c a b d f) (fun r c a b d f => rfl) i (by omega) (by omega)
  constructor
  · obtain ⟨A1, h1, m1⟩ := warp_spec isa A e ho hN hM hA
    obtain ⟨A2, h2, m2⟩ := warp_t_spec isa' A1 e ho hN hM (by rw [m1.1]; exact hA)
    refine ⟨A1, h1, ?_⟩
    rw [h2, fin A2 ((m1.comp m2 (fun c a b => warpColsT_range e 1 e (by omega) a b)).congr
      (fun c _ _ => warpCols_inv _ _ _ c))]
  · obtain ⟨A1, h1, m1⟩ := warp_t_spec isa A e ho hN hM hA
    obtain ⟨A2, h2, m2⟩ := warp_spec isa' A1 e ho hN hM (by rw [m1.1]; exact hA)
    refine ⟨A1, h1, ?_⟩
    rw [h2, fin A2 ((m1.comp m2 (fun c a b => warpCols_range e 1 e (by omega) a b)).congr
      (fun c _ _ => warpColsT_inv _ _ _ c))]

/-- C03.  Swapping two disjoint blocks of `N` doubles: exactly the two blocks are exchanged, for every instruction
set. -/
theorem C03_swap_exact (isa : Isa) (A : Buf α) (a b N : Int) (hN : 0 ≤ N) (ha : 0 ≤ a)
    (ha' : a + N ≤ A.size) (hb : 0 ≤ b) (hb' : b + N ≤ A.size) (hd : a + N ≤ b ∨ b + N ≤ a) :
    ∃ A', swapWarp isa A a b N = some A' ∧ A'.size = A.size ∧
      (∀ i, 0 ≤ i → i < N → A'.val (a + i) = A.val (b + i) ∧ A'.val (b + i) = A.val (a + i)) ∧
      (∀ i, ¬ (a ≤ i ∧ i < a + N) → ¬ (b ≤ i ∧ i < b + N) → A'.val i = A.val i) := by
  refine ⟨_, swapWarp_spec isa A hN ha ha' hb hb' hd, rfl, ?_, ?_⟩
  · intro i h0 h1
    simp only [swapVal]
    constructor
    · rw [if_pos (by omega)]; congr 1; omega
    · rw [if_neg (by omega), if_pos (by omega)]; congr 1; omega
  · intro i h0 h1
    simp only [swapVal]
    rw [if_neg h0, if_neg h1]

/-- C03 (any unroll factor and lane count): the kernel macro exchanges exactly the two blocks whenever the vector type
has as many lanes as the step `S`. -/
theorem C03_swap_kernel_exact (S L : Nat) (hS : 0 < S) (hL : 0 < L) (A : Buf α) (a b N : Int) (hN : 0 ≤ N)
    (ha : 0 ≤ a) (ha' : a + N ≤ A.size) (hb : 0 ≤ b) (hb' : b + N ≤ A.size) (hd : a + N ≤ b ∨ b + N ≤ a) :
    swapKernel S L S A a b N = swapDefault A a b N := by
  rw [swapKernel_spec A hS hL hN ha ha' hb hb' hd, swapDefault_spec A hN ha ha' hb hb' hd]

/-- C03 (single precision), all instruction sets except AVX-512: see `C03_swapf_avx512_wrong` for that one. -/
theorem C03_swapf_exact_partial (isa : Isa) (hisa : isa ≠ .avx512f) (A : Buf α) (a b N : Int) (hN : 0 ≤ N)
    (ha : 0 ≤ a) (ha' : a + N ≤ A.size) (hb : 0 ≤ b) (hb' : b + N ≤ A.size) (hd : a + N ≤ b ∨ b + N ≤ a) :
    swapWarpf isa A a b N = swapDefault A a b N := by
  rw [swapDefault_spec A hN ha ha' hb hb' hd]
  cases isa <;> first
    | exact absurd rfl hisa
    | exact swapKernel_spec A (by omega) (by omega) hN ha ha' hb hb' hd
    | exact swapDefault_spec A hN ha ha' hb hb' hd

/-- C03 (violation).  The AVX-512 single-precision variant, asked to swap two blocks of 32 floats with at least 8
floats of room behind each, leaves elements 8..31 of the blocks where they were and exchanges elements 32..39,
which do not belong to the blocks. -/
theorem C03_swapf_avx512_wrong (A : Buf α) (a b : Int) (ha : 0 ≤ a) (ha' : a + 40 ≤ A.size) (hb : 0 ≤ b)
    (hb' : b + 40 ≤ A.size) (hd : a + 40 ≤ b ∨ b + 40 ≤ a) :
    ∃ A', swapWarpf .avx512f A a b 32 = some A' ∧
      (∀ i, 8 ≤ i → i < 32 → A'.val (a + i) = A.val (a + i)) ∧
      (∀ i, 32 ≤ i → i < 40 → A'.val (a + i) = A.val (b + i)) := by
  have hc : stepCount 0 ((32 : Int) + 1 - (8 : Nat) * (4 : Nat)) ((8 : Nat) * (4 : Nat)) = 1 := by decide
  have step : ∀ (v : Int → α) (i : Int), 0 ≤ i → i ≤ 24 →
      swapVec 16 ⟨A.size, v⟩ a b i = some ⟨A.size, swapVal v (a + i) (b + i) 16⟩ := by
    intro v i h0 h1
    exact swapVec_spec ⟨A.size, v⟩ (by omega) (by simp only; omega) (by omega) (by simp only; omega) (by omega)
  refine ⟨⟨A.size, swapVal (swapVal (swapVal (swapVal A.val (a + 0) (b + 0) 16) (a + 8) (b + 8) 16)
    (a + 16) (b + 16) 16) (a + 24) (b + 24) 16⟩, ?_, ?_, ?_⟩
  · show swapKernel 8 4 16 A a b 32 = _
    unfold swapKernel forStep
    rw [hc]
    simp only [loop, Option.bind_some, forUp]
    have h4 : (((4 : Nat) : Int) - 0).toNat = 4 := by decide
    have h0 : ((32 : Int) - ((8 : Nat) : Int) * ((4 : Nat) : Int) * ((1 : Nat) : Int)).toNat = 0 := by decide
    rw [h4, h0]
    simp only [loop, Option.bind_some]
    norm_num
    have s0 := step A.val 0 (by omega) (by omega)
    have : (⟨A.size, A.val⟩ : Buf α) = A := rfl
    rw [this] at s0
    rw [s0, Option.bind_some, step _ 8 (by omega) (by omega), Option.bind_some,
      step _ 16 (by omega) (by omega), Option.bind_some, step _ 24 (by omega) (by omega)]
    simp
  · intro i h0 h1
    simp only
    by_cases c1 : i < 16
    · rw [swapVal_out _ (by omega) (by omega), swapVal_out _ (by omega) (by omega),
        swapVal_left _ (k := i - 8) (by omega) (by omega) (by omega),
        swapVal_right _ (k := i) (by omega) (by omega) (by omega) (by omega)]
      congr 1; omega
    · by_cases c2 : i < 24
      · rw [swapVal_out _ (by omega) (by omega),
          swapVal_left _ (k := i - 16) (by omega) (by omega) (by omega),
          swapVal_right _ (k := i - 8) (by omega) (by omega) (by omega) (by omega),
          swapVal_out _ (by omega) (by omega)]
        congr 1; omega
      · rw [swapVal_left _ (k := i - 24) (by omega) (by omega) (by omega),
          swapVal_right _ (k := i - 16) (by omega) (by omega) (by omega) (by omega),
          swapVal_out _ (by omega) (by omega), swapVal_out _ (by omega) (by omega)]
        congr 1; omega
  · intro i h0 h1
    simp only
    rw [swapVal_left _ (k := i - 24) (by omega) (by omega) (by omega),
      swapVal_out _ (by omega) (by omega), swapVal_out _ (by omega) (by omega),
      swapVal_out _ (by omega) (by omega)]
    congr 1; omega

/-- C03 (violation): with nothing behind the second block the same call leaves the array (undefined behaviour). -/
theorem C03_swapf_avx512_undefined (A : Buf α) (hs : A.size = 64) : swapWarpf .avx512f A 0 32 32 = none := by
  show swapKernel 8 4 16 A 0 32 32 = none
  unfold swapKernel
  rw [Option.bind_eq_none_iff]
  intro A' hA'
  exfalso
  have : forStep 0 ((32 : Int) + 1 - (8 : Nat) * (4 : Nat)) ((8 : Nat) * (4 : Nat)) (fun i A =>
    forUp 0 (4 : Nat) (fun l A => swapVec 16 A 0 32 (i + (8 : Nat) * l)) A) A = none := by
    unfold forStep
    apply loop_none 0 (by decide)
    intro s hs'
    simp only [loop, Option.some.injEq] at hs'
    subst hs'
    unfold forUp
    apply loop_none 3 (by decide)
    intro s hs'
    have hsz : s.size = 64 := loop_preserves (fun s : Buf α => s.size = 64) hs
      (fun k s s' h e => (swapVec_size e).trans h) hs'
    show (vload s _ 16).bind (fun ta => (vload s _ 16).bind _) = none
    have : vload s (32 + (0 + ((8 : Nat) : Int) * ((4 : Nat) : Int) * ((0 : Nat) : Int) +
        ((8 : Nat) : Int) * (0 + ((3 : Nat) : Int)))) 16 = none := by
      unfold vload; rw [if_neg (by rw [hsz]; norm_num)]
    rw [this]
    cases vload s _ 16 <;> rfl
  rw [this] at hA'
  cases hA'

/-! ## The hypotheses are met by concrete non-trivial cases -/

/-- A 3 × 5 array packed two columns at a time, the way the SSE2 triangle driver does it. -/
example : ∃ B', permute_tri (Buf.ofList (List.range 15)) (Buf.ofList (List.replicate 15 0)) 0 3 5 2 = some B' ∧
    B'.toList = [0, 1, 2, 3, 6, 4, 7, 5, 8, 9, 12, 10, 13, 11, 14] := ⟨_, rfl, by decide⟩

example : ((permute (Buf.ofList (List.range 15)) (Buf.ofList (List.replicate 15 0)) 0 3 5 2).isNone) = true := by
  decide

example : (2 : Int) ∣ 4 - 0 ∧ laneFrom 0 3 2 1 3 = 9 := by decide

/-- A 2 × 9 array meets the hypotheses of `C02_warp_roundtrip` with `e = 1` and is really moved. -/
example : ((warp .avx (Buf.ofList (List.range 18)) 0 2 9 2).map Buf.toList) =
    some [0, 1, 2, 3, 4, 5, 10, 11, 12, 13, 6, 7, 8, 9, 14, 15, 16, 17] := by decide

/-- C02: for the vector length 6 the columns do not come back (24 columns, one row). -/
theorem C02_warp_not_power_of_two :
    ((warp .scalar (Buf.ofList (List.range 24)) 0 1 24 6).bind fun A => (warp_t .scalar A 0 1 24 6).map Buf.toList) ≠
      some (List.range 24) := by decide

example : (0 : Int) + 3 ≤ (Buf.ofList (List.range 8)).size ∧ ((0 : Int) + 3 ≤ 4 ∨ (4 : Int) + 3 ≤ 0) := by decide

end FT.Props
