import Verif.Lemmas.HeapSpec
import Verif.Lemmas.HeapFmm
/-
C42 for the plans of the fast multipole Legendre-Chebyshev transform.
-/
namespace FT.Props.C42
open FT.Heap

theorem leaks_of' {create : HM Val} {destroy : Val → HM Unit} {P : Val → Res → Prop} {k : Nat} {h : Heap}
    (hw : h.WF) (H : Makes create P)
    (D : ∀ {p : Val} {m R : Res} {h : Heap} {Q : Unit → Heap → Prop}, P p m → Sat h (m + R) →
      (∀ L h', L.card = k → Sat h' (L + R) → Q () h') → WP (destroy p) h Q) :
    Leaks k (fun _ => create) (fun _ => destroy) h := by
  obtain ⟨R, S⟩ := sat_of_wf hw
  refine ⟨0, fun _ _ => H R h (fun p h1 => ∃ k', ∀ fuel', k' ≤ fuel' → ∃ h2, destroy p h1 = some ((), h2) ∧
      ∃ S : Finset Nat, S.card = k ∧ (∀ i ∈ S, h.cell i = none ∧ h2.cell i ≠ none) ∧
        ∀ i, i ∉ S → h2.cell i = h.cell i) S ?_⟩
  intro p h1 ⟨m, hm, S1⟩
  refine ⟨0, fun _ _ => ?_⟩
  obtain ⟨_, h2, e, L, hL, S2⟩ := D (Q := fun _ h2 => ∃ L : Res, L.card = k ∧ Sat h2 (L + R)) hm S1
    fun L h' hL S' => ⟨L, hL, S'⟩
  refine ⟨h2, e, ?_⟩
  rw [← hL]
  exact leaked S S2

/-- Blocks that `X(free_fmm)` does not release: the array `oa`, and for 18 Chebyshev points the
matrices `B` and `BT` unless they are static arrays. -/
def fmmLeak (g : FmmArgs) : Nat :=
  1 + if g.M = 18 then if g.lagrange = 1 then 1 else if g.dbl then 0 else 2 else 0

/-- Blocks of a plan with levels. -/
def fmmBlocks (g : FmmArgs) : Nat :=
  (if g.lagrange = 1 then 1 else if g.dbl = true ∧ g.M = 18 then 0 else 2) +
    if g.dir = 0 then 13 else if g.dir = 1 then 15 else 16

theorem leak_eq {g : FmmArgs} (hg : g.Ok) : g.leak = fmmLeak g := by
  unfold FmmArgs.leak fmmLeak FmmArgs.bBlocks
  rcases hg.lagrange with h | h <;> by_cases hM : g.M = 18 <;> cases hd : g.dbl <;> simp [h, hM]

theorem blocks_eq {g : FmmArgs} (hg : g.Ok) : g.planBlocks = fmmBlocks g := by
  unfold FmmArgs.planBlocks fmmBlocks FmmArgs.bBlocks FmmArgs.aBlocks directBlocks
  rcases hg.lagrange with h | h <;> rcases hg.dir with h' | h' | h' <;> by_cases hM : g.M = 18 <;>
    cases hd : g.dbl <;> simp [h, h', hM]

/-- The plans of the direct method are released completely. -/
theorem C42_fmm_direct (N dir : Int) (hN : 0 ≤ N) : Balanced1 (createDirect N dir) freeDirect :=
  balanced1_of (createDirect_spec hN) fun _ _ h => freeDirect_spec h

/-- Every plan with levels leaks: `X(free_fmm)` tests `oa` and then releases `ia` a second time
(fmm_source.c L950-954), so that the array `oa` of half the size of the transform is lost.  With 18
Chebyshev points it also takes `B` and `BT` for static arrays (L932), which they are only in double
precision and without Lagrange interpolation. -/
theorem C42_fmm_plans_defect (g : FmmArgs) (hg : g.Ok) (hL : 1 ≤ g.L) (h : Heap) (hw : h.WF) :
    Leaks (fmmLeak g) (fun _ => createFmm g) (fun _ => freeFmm) h := by
  rw [← leak_eq hg]
  exact leaks_of' hw (createFmm_spec hg hL) fun hp S K => freeFmm_spec hL hp S K

/-- A plan without levels (small transforms) cannot be released without reading an uninitialised
member: `X(create_fmm)` returns before it sets `M` (L1119-1126), which `X(free_fmm)` reads (L932). -/
theorem C42_fmm_flat_defect (g : FmmArgs) (hN : 0 ≤ g.N) (hL : g.L < 1) (h : Heap) (hw : h.WF) :
    ∃ p h1, createFmm g h = some (p, h1) ∧ freeFmm p h1 = none := by
  obtain ⟨R, S⟩ := sat_of_wf hw
  refine createFmm_flat hN hL R h (fun p h1 => freeFmm p h1 = none) S ?_
  intro p h1 ⟨m, hm, S1⟩
  exact freeFmm_flat hm S1

/-- Two-dimensional plans lose what their parts lose as long as there is one part: transforms along
one axis, and along both for squares. -/
theorem C42_fmm_2d (g0 g1 : FmmArgs) (hg0 : g0.Ok) (hg1 : g1.Ok) (hL0 : 1 ≤ g0.L) (hL1 : 1 ≤ g1.L)
    (h : Heap) (hw : h.WF) :
    Leaks (fmmLeak g0) (fun _ => createFmm2d g0 g1 0) (fun _ => freeFmm2d) h ∧
      Leaks (fmmLeak g1) (fun _ => createFmm2d g0 g1 1) (fun _ => freeFmm2d) h ∧
      (g0.N = g1.N → Leaks (fmmLeak g0) (fun _ => createFmm2d g0 g1 (-1)) (fun _ => freeFmm2d) h) := by
  rw [← leak_eq hg0, ← leak_eq hg1]
  exact ⟨leaks_of' hw (create2d_axis0 hg0 hL0) fun hp S K => free2d_spec hL0 hp S K,
    leaks_of' hw (create2d_axis1 hg1 hL1) fun hp S K => free2d_spec hL1 hp S K,
    fun hN => leaks_of' hw (create2d_square hg0 hL0 hN) fun hp S K => free2d_spec hL0 hp S K⟩

/-- For transforms of rectangles along both axes the destructor releases the first plan only
(L890-907: `else if`), and the whole second plan is lost. -/
theorem C42_fmm_2d_defect (g0 g1 : FmmArgs) (hg0 : g0.Ok) (hg1 : g1.Ok) (hL0 : 1 ≤ g0.L) (hL1 : 1 ≤ g1.L)
    (hN : g0.N ≠ g1.N) (h : Heap) (hw : h.WF) :
    Leaks (fmmLeak g0 + fmmBlocks g1) (fun _ => createFmm2d g0 g1 (-1)) (fun _ => freeFmm2d) h := by
  rw [← leak_eq hg0, ← blocks_eq hg1]
  exact leaks_of' hw (create2d_rect hg0 hL0 hg1 hL1 hN) fun hp S K => free2d_rect hL0 hp S K

/-- Transforms along both axes release a temporary array of `calloc` with `fftw_free` (L1521 and
L1535), whatever the transforms in between do to it and to other blocks. -/
theorem C42_fmm_execute_defect (N0 N1 : Int) (h0 : 0 ≤ N0 * N1) (body : Val → HM Unit)
    (hb : ∀ i h, (∃ c, h.cell i = some c ∧ c.tag = .libc) → ∀ h', body (.ptr i 0) h = some ((), h') →
      ∃ c, h'.cell i = some c ∧ c.tag = .libc) (h : Heap) (hw : h.WF) :
    executeFmm2d N0 N1 body h = none := by
  obtain ⟨R, S⟩ := sat_of_wf hw
  unfold executeFmm2d
  refine fails_bind (wp_calloc S h0 fun i h1 S1 => ?_)
  show (body (.ptr i 0) h1).bind (fun x => fftwFree (.ptr i 0) x.2) = none
  cases e : body (.ptr i 0) h1 with
  | none => rfl
  | some x =>
    obtain ⟨_, h2⟩ := x
    obtain ⟨c, hc, tc⟩ := hb i h1 ⟨_, S1.get, rfl⟩ h2 e
    show (match h2.cell i with | some c => _ | none => _) = _
    rw [hc]
    exact if_neg (by rw [tc]; simp)

/-- The arguments of a transform of size 1000 with 18 points, both directions, double precision. -/
def fmmEx (N lagrange : Int) : FmmArgs :=
  ⟨true, N, 1024, 32, 3, 18, 2, lagrange, 78, 26, fun l => 2 ^ (l + 2).toNat - 2⟩

theorem fmmEx_ok (N lagrange : Int) (hN : 0 ≤ N) (hl : lagrange = 0 ∨ lagrange = 1) : (fmmEx N lagrange).Ok where
  N := hN
  Nn := by norm_num [fmmEx]
  s := by norm_num [fmmEx]
  M := by norm_num [fmmEx]
  dir := by norm_num [fmmEx]
  lagrange := hl
  subs := by norm_num [fmmEx]
  blocks := by norm_num [fmmEx]

/-- One block is lost, two with Lagrange interpolation. -/
example : Leaks 1 (fun _ => createFmm (fmmEx 1000 0)) (fun _ => freeFmm) ⟨0, fun _ => none⟩ ∧
    Leaks 2 (fun _ => createFmm (fmmEx 1000 1)) (fun _ => freeFmm) ⟨0, fun _ => none⟩ :=
  ⟨C42_fmm_plans_defect _ (fmmEx_ok 1000 0 (by norm_num) (by norm_num)) (by norm_num [fmmEx]) _ fun _ _ => rfl,
    C42_fmm_plans_defect _ (fmmEx_ok 1000 1 (by norm_num) (by norm_num)) (by norm_num [fmmEx]) _ fun _ _ => rfl⟩

/-- A rectangle. -/
example : Leaks 17 (fun _ => createFmm2d (fmmEx 1000 0) (fmmEx 900 0) (-1)) (fun _ => freeFmm2d)
    ⟨0, fun _ => none⟩ :=
  C42_fmm_2d_defect _ _ (fmmEx_ok 1000 0 (by norm_num) (by norm_num)) (fmmEx_ok 900 0 (by norm_num) (by norm_num))
    (by norm_num [fmmEx]) (by norm_num [fmmEx]) (by norm_num [fmmEx]) _ fun _ _ => rfl

/-- A transform of size 10. -/
example : ∃ p h1, createFmm ⟨true, 10, 10, 0, 0, 18, 2, 0, 0, 0, fun _ => 0⟩ ⟨0, fun _ => none⟩ = some (p, h1) ∧
    freeFmm p h1 = none :=
  C42_fmm_flat_defect _ (by norm_num) (by norm_num) _ fun _ _ => rfl

/-- Transforms that only use the temporary array. -/
example : executeFmm2d 3 4 use ⟨0, fun _ => none⟩ = none :=
  C42_fmm_execute_defect 3 4 (by norm_num) use (by
    intro i h ⟨c, hc, tc⟩ h' e
    have : h = h' := by
      unfold use at e
      simp only [hc] at e
      simpa using e
    exact this ▸ ⟨c, hc, tc⟩) _ fun _ _ => rfl

end FT.Props.C42
