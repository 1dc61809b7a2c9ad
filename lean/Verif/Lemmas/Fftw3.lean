import Verif.Lemmas.Fftw2
import Mathlib.Algebra.BigOperators.Intervals
import Mathlib.Order.Interval.Finset.Defs
import Mathlib.Data.Int.Interval

set_option linter.unusedSectionVars false

/-! # Transforms along several axes -/

namespace FT.Model
open FT
variable {K : Type*} [Field K] [DecidableEq K]

/-- A scaling does not depend on how the array is cut into columns. -/
theorem Maps.view {N M : Int} (hN : 0 < N) {f : Buf K → Option (Buf K)} {φ : Int → Int → K} (hf : Maps N M f (scaleG φ)) :
    Maps M N f (scaleG fun c i => φ ((i + c * M) / N) ((i + c * M) % N)) := by
  intro X a h
  have hs : (X.size : Int) = N * M := by rw [h.1, mul_comm]
  obtain ⟨X', e, h', o⟩ := hf X _ (Holds.self hs)
  refine ⟨X', e, ⟨by rw [h'.1, mul_comm], ?_⟩, o⟩
  intro c i c0 c1 i0 i1
  obtain ⟨b0, b1⟩ := grid_bound c0 c1 i0 i1
  have p : (i + c * M) % N + (i + c * M) / N * N = i + c * M := by have := Int.emod_add_mul_ediv (i + c * M) N; rw [mul_comm (_ / N) N]; exact this
  have := h'.2 ((i + c * M) / N) ((i + c * M) % N) (Int.ediv_nonneg b0 hN.le) (Int.ediv_lt_of_lt_mul hN b1) (Int.emod_nonneg _ hN.ne') (Int.emod_lt_of_pos _ hN)
  rw [p] at this
  rw [this]
  unfold scaleG
  dsimp only
  rw [p, h.2 c i c0 c1 i0 i1]

theorem plan2d_maps {k0 k1 : Line K} {N M : Int} (hN : 0 < N) (hM : 0 < M) (h0 : Local N k0) (h1 : Local M k1) :
    Maps M N (plan2d k0 k1 N M) (fun a => rowG k0 (colG (fun _ => k1) a)) :=
  (planAll_maps hM h1).comp (planRows_maps hM hN h0)

/-- `A` is the matrix of the transform `f` of length `n`. -/
def MatOf (n : Int) (A : Int → Int → K) (f : Line K) : Prop := ∀ x i, 0 ≤ i → i < n → f x i = ∑ j ∈ Finset.Ico 0 n, A i j * x j

theorem MatOf.local {n : Int} {A : Int → Int → K} {f : Line K} (h : MatOf n A f) : Local n f := by
  intro x y e i i0 i1
  rw [h x i i0 i1, h y i i0 i1]
  refine Finset.sum_congr rfl fun j hj => ?_
  rw [Finset.mem_Ico] at hj
  rw [e j hj.1 hj.2]

theorem MatOf.hom {n : Int} {A : Int → Int → K} {f : Line K} (h : MatOf n A f) (t : K) (x : Int → K) {i : Int} (i0 : 0 ≤ i) (i1 : i < n) :
    f (fun j => t * x j) i = t * f x i := by
  rw [h _ i i0 i1, h _ i i0 i1, Finset.mul_sum]
  refine Finset.sum_congr rfl fun j _ => by ring

/-- Transforms along different axes commute. -/
theorem line_swap {N M : Int} {A B : Int → Int → K} {f g : Line K} (hf : MatOf N A f) (hg : MatOf M B g) (a : Int → Int → K) {c i : Int}
    (c0 : 0 ≤ c) (c1 : c < N) (i0 : 0 ≤ i) (i1 : i < M) : f (fun c => g (a c) i) c = g (fun i => f (fun c => a c i) c) i := by
  rw [hf _ c c0 c1, hg _ i i0 i1]
  have e1 : ∀ j, g (a j) i = ∑ l ∈ Finset.Ico 0 M, B i l * a j l := fun j => hg _ i i0 i1
  have e2 : ∀ l, f (fun c => a c l) c = ∑ j ∈ Finset.Ico 0 N, A c j * a j l := fun l => hf _ c c0 c1
  simp only [e1, e2, Finset.mul_sum]
  rw [Finset.sum_comm]
  refine Finset.sum_congr rfl fun j _ => Finset.sum_congr rfl fun l _ => by ring

/-! ## Three axes -/

/-- The array `X` holds the values `a r t s` at `s + M (t + L r)`. -/
def Holds3 (N L M : Int) (X : Buf K) (a : Int → Int → Int → K) : Prop :=
  (X.size : Int) = N * L * M ∧ ∀ r t s, 0 ≤ r → r < N → 0 ≤ t → t < L → 0 ≤ s → s < M → X.val (s + M * (t + L * r)) = a r t s

def Maps3 (N L M : Int) (f : Buf K → Option (Buf K)) (v : (Int → Int → Int → K) → Int → Int → Int → K) : Prop :=
  ∀ X a, Holds3 N L M X a → ∃ X', f X = some X' ∧ Holds3 N L M X' (v a) ∧ Out X X'

theorem Maps3.comp {N L M : Int} {f g : Buf K → Option (Buf K)} {v w : (Int → Int → Int → K) → Int → Int → Int → K} (hf : Maps3 N L M f v) (hg : Maps3 N L M g w) :
    Maps3 N L M (fun X => (f X).bind g) (fun a => w (v a)) := by
  intro X a h
  obtain ⟨X1, e1, h1, o1⟩ := hf X a h
  obtain ⟨X2, e2, h2, o2⟩ := hg X1 _ h1
  exact ⟨X2, by simp only [e1, Option.bind_some, e2], h2, o1.trans (by have := h.1; have := h1.1; omega) o2⟩

theorem pos3_bound {N L M r t s : Int} (r0 : 0 ≤ r) (r1 : r < N) (t0 : 0 ≤ t) (t1 : t < L) (s0 : 0 ≤ s) (s1 : s < M) :
    0 ≤ s + M * (t + L * r) ∧ s + M * (t + L * r) < N * L * M := by
  obtain ⟨b0, b1⟩ := grid_bound (N := L) (M := N) r0 r1 t0 t1
  obtain ⟨b2, b3⟩ := grid_bound (N := M) (M := L * N) (c := t + r * L) b0 b1 s0 s1
  rw [show M * (t + L * r) = (t + r * L) * M by ring, show N * L * M = M * (L * N) by ring]
  exact ⟨b2, b3⟩

theorem pos3_split {N L M p : Int} (hL : 0 < L) (hM : 0 < M) (p0 : 0 ≤ p) (p1 : p < N * L * M) :
    ∃ r t s, 0 ≤ r ∧ r < N ∧ 0 ≤ t ∧ t < L ∧ 0 ≤ s ∧ s < M ∧ p = s + M * (t + L * r) := by
  have e1 := Int.emod_add_mul_ediv p M
  have e2 := Int.emod_add_mul_ediv (p / M) L
  refine ⟨p / M / L, p / M % L, p % M, ?_, ?_, Int.emod_nonneg _ hL.ne', Int.emod_lt_of_pos _ hL, Int.emod_nonneg _ hM.ne', Int.emod_lt_of_pos _ hM, ?_⟩
  · exact Int.ediv_nonneg (Int.ediv_nonneg p0 hM.le) hL.le
  · exact Int.ediv_lt_of_lt_mul hL (Int.ediv_lt_of_lt_mul hM p1)
  · rw [e2]; exact e1.symm

theorem pos3_inj {L M r t s r' t' s' : Int} (t0 : 0 ≤ t) (t1 : t < L) (s0 : 0 ≤ s) (s1 : s < M) (t0' : 0 ≤ t') (t1' : t' < L) (s0' : 0 ≤ s') (s1' : s' < M)
    (e : s + M * (t + L * r) = s' + M * (t' + L * r')) : r = r' ∧ t = t' ∧ s = s' := by
  obtain ⟨h1, h2⟩ := grid_inj (N := M) (c := t + r * L) (c' := t' + r' * L) s0 s1 s0' s1' (by rw [mul_comm r, mul_comm r', mul_comm _ M, mul_comm _ M]; exact e)
  obtain ⟨h3, h4⟩ := grid_inj t0 t1 t0' t1' h1
  exact ⟨h3, h4, h2⟩

theorem Holds3.self {N L M : Int} {X : Buf K} (h : (X.size : Int) = N * L * M) : Holds3 N L M X (fun r t s => X.val (s + M * (t + L * r))) :=
  ⟨h, fun _ _ _ _ _ _ _ _ _ => rfl⟩

theorem Holds3.ext {N L M : Int} (hL : 0 < L) (hM : 0 < M) {X X' : Buf K} {a b : Int → Int → Int → K} (h : Holds3 N L M X a) (h' : Holds3 N L M X' b)
    (e : ∀ r t s, 0 ≤ r → r < N → 0 ≤ t → t < L → 0 ≤ s → s < M → b r t s = a r t s) (o : Out X X') : X' = X := by
  refine Buf.ext' (by have := h.1; have := h'.1; omega) (fun p => ?_)
  by_cases hp : 0 ≤ p ∧ p < X.size
  · obtain ⟨r, t, s, r0, r1, t0, t1, s0, s1, rfl⟩ := pos3_split hL hM hp.1 (by rw [← h.1]; exact hp.2)
    rw [h.2 r t s r0 r1 t0 t1 s0 s1, h'.2 r t s r0 r1 t0 t1 s0 s1, e r t s r0 r1 t0 t1 s0 s1]
  · exact o p hp

/-- Along the contiguous axis. -/
theorem plan3_last {f : Line K} {N L M : Int} (hM : 0 < M) (hl : Local M f) : Maps3 N L M (planMany f M 1 M (N * L) 0) (fun a r t => f (a r t)) := by
  intro X a h
  have hh : Holds M (N * L) X (fun c i => X.val (i + c * M)) := Holds.self (by rw [h.1]; ring)
  obtain ⟨X', e, h', o⟩ := planAll_maps hM hl X _ hh
  refine ⟨X', e, ⟨by rw [h'.1]; ring, ?_⟩, o⟩
  intro r t s r0 r1 t0 t1 s0 s1
  obtain ⟨b0, b1⟩ := grid_bound (N := L) (M := N) r0 r1 t0 t1
  have := h'.2 (t + r * L) s b0 (by rw [mul_comm N L]; exact b1) s0 s1
  rw [show M * (t + L * r) = (t + r * L) * M by ring, this]
  unfold colG
  refine hl _ _ (fun j j0 j1 => ?_) s s0 s1
  rw [← h.2 r t j r0 r1 t0 t1 j0 j1, show j + M * (t + L * r) = j + (t + r * L) * M by ring]

/-- Along the slowest axis. -/
theorem plan3_first {f : Line K} {N L M : Int} (hN : 0 < N) (hL : 0 < L) (hM : 0 < M) (hl : Local N f) :
    Maps3 N L M (planMany f N (L * M) 1 (L * M) 0) (fun a r t s => f (fun r => a r t s) r) := by
  intro X a h
  have hh : Holds (L * M) N X (fun c i => X.val (i + c * (L * M))) := Holds.self (by rw [h.1]; ring)
  obtain ⟨X', e, h', o⟩ := planRows_maps (mul_pos hL hM) hN hl X _ hh
  refine ⟨X', e, ⟨by rw [h'.1]; ring, ?_⟩, o⟩
  intro r t s r0 r1 t0 t1 s0 s1
  obtain ⟨b0, b1⟩ := grid_bound (N := M) (M := L) t0 t1 s0 s1
  have := h'.2 r (s + t * M) r0 r1 b0 (by rw [mul_comm L M]; exact b1)
  rw [show s + M * (t + L * r) = s + t * M + r * (L * M) by ring, this]
  unfold rowG
  refine hl _ _ (fun j j0 j1 => ?_) r r0 r1
  rw [← h.2 j t s j0 j1 t0 t1 s0 s1, show s + M * (t + L * j) = s + t * M + j * (L * M) by ring]

/-- Along the middle axis. -/
theorem plan3_mid {f : Line K} {N L M : Int} (hL : 0 < L) (hM : 0 < M) (hl : Local L f) :
    Maps3 N L M (fun X => forUp 0 N (fun q X => planMany f L M 1 M (q * (L * M)) X) X) (fun a r t s => f (fun t => a r t s) t) := by
  intro X a h
  by_cases hN : 0 ≤ N
  swap
  · have : forUp 0 N (fun q X => planMany f L M 1 M (q * (L * M)) X) X = some X := by
      unfold forUp; rw [show (N - 0).toNat = 0 by omega]; rfl
    exact ⟨X, this, ⟨h.1, fun r t s r0 r1 => by omega⟩, Out.refl X⟩
  obtain ⟨X', e, hsz, hv, ho⟩ := forUp_spec (body := fun q X => planMany f L M 1 M (q * (L * M)) X) (lo := 0) (hi := N) (s := X)
    (fun q (Z : Buf K) => Z.size = X.size ∧ (∀ r t s, 0 ≤ r → r < N → 0 ≤ t → t < L → 0 ≤ s → s < M →
      Z.val (s + M * (t + L * r)) = if r < q then f (fun t => a r t s) t else a r t s) ∧ Out X Z)
    ⟨rfl, fun r t s r0 r1 t0 t1 s0 s1 => by rw [if_neg (by omega)]; exact h.2 r t s r0 r1 t0 t1 s0 s1, Out.refl X⟩
    (fun q q0 q1 Z ⟨zs, zv, zo⟩ => by
      have pe : ∀ d t : Int, q * (L * M) + 1 * d + M * t = d + M * (t + L * q) := fun d t => by ring
      have zs' : (Z.size : Int) = N * L * M := by rw [zs]; exact h.1
      obtain ⟨Z', e, sz, v, u⟩ := planMany_spec (f := f) (n := L) (s := M) (D := 1) (cnt := M) (off := q * (L * M)) (X := Z) hl hM
        (fun d d0 d1 => by
          obtain ⟨b0, -⟩ := pos3_bound (N := N) (L := L) (M := M) q0 q1 le_rfl hL d0 d1
          obtain ⟨-, b1⟩ := pos3_bound (N := N) (L := L) (M := M) (t := L - 1) q0 q1 (by omega) (by omega) d0 d1
          rw [← pe] at b0 b1
          rw [zs']
          exact ⟨by omega, b1⟩)
        (fun d d' t t' h0 h1 h2 h3 h4 h5 h6 h7 e => by
          refine (pos3_inj (r := q) (r' := q) h4 h5 h0 h1 h6 h7 h2 h3 ?_).2.2
          rw [← pe, ← pe]; omega)
      refine ⟨Z', e, by rw [sz, zs], ?_, ?_⟩
      · intro r t s r0 r1 t0 t1 s0 s1
        by_cases hr : r = q
        · subst hr
          have := v s t s0 s1 t0 t1
          simp only [pe] at this
          rw [this, if_pos (by omega)]
          refine hl _ _ (fun j j0 j1 => ?_) t t0 t1
          rw [zv r j s r0 r1 j0 j1 s0 s1, if_neg (by omega)]
        · rw [u, zv r t s r0 r1 t0 t1 s0 s1]
          · by_cases hlt : r < q
            · rw [if_pos hlt, if_pos (by omega)]
            · rw [if_neg hlt, if_neg (by omega)]
          · intro d j d0 d1 j0 j1 e
            rw [pe] at e
            exact hr (pos3_inj t0 t1 s0 s1 j0 j1 d0 d1 e).1
      · refine zo.trans zs.symm fun p hp => u p fun d j d0 d1 j0 j1 e => hp ?_
        rw [pe] at e
        rw [e, zs']
        exact pos3_bound q0 q1 j0 j1 d0 d1)
  refine ⟨X', e, ⟨by rw [hsz]; exact h.1, ?_⟩, ho⟩
  intro r t s r0 r1 t0 t1 s0 s1
  rw [hv r t s r0 r1 t0 t1 s0 s1, if_pos (by omega)]

theorem plan3d_maps {k0 k1 k2 : Line K} {N L M : Int} (hN : 0 < N) (hL : 0 < L) (hM : 0 < M) (h0 : Local N k0) (h1 : Local L k1) (h2 : Local M k2) :
    Maps3 N L M (plan3d k0 k1 k2 N L M) (fun a r t s => k0 (fun r => k1 (fun t => k2 (a r t) s) t) r) :=
  (plan3_last hM h2).comp ((plan3_mid hL hM h1).comp (plan3_first hN hL hM h0))

/-- A scaling by position. -/
def Scales (f : Buf K → Option (Buf K)) (P : Int) (φ : Int → K) : Prop :=
  ∀ X : Buf K, (X.size : Int) = P → ∃ X', f X = some X' ∧ X'.size = X.size ∧ (∀ p : Int, 0 ≤ p → p < P → X'.val p = X.val p * φ p) ∧ Out X X'

theorem Scales.comp {P : Int} {f g : Buf K → Option (Buf K)} {φ ψ : Int → K} (hf : Scales f P φ) (hg : Scales g P ψ) :
    Scales (fun X => (f X).bind g) P (fun p => φ p * ψ p) := by
  intro X hX
  obtain ⟨X1, e1, s1, v1, o1⟩ := hf X hX
  obtain ⟨X2, e2, s2, v2, o2⟩ := hg X1 (by rw [s1]; exact hX)
  refine ⟨X2, by simp only [e1, Option.bind_some, e2], by rw [s2, s1], ?_, o1.trans s1.symm o2⟩
  intro p p0 p1
  rw [v2 p p0 p1, v1 p p0 p1]; ring

theorem Scales.maps3 {N L M : Int} {f : Buf K → Option (Buf K)} {φ : Int → K} (h : Scales f (N * L * M) φ) :
    Maps3 N L M f (fun a r t s => a r t s * φ (s + M * (t + L * r))) := by
  intro X a hX
  obtain ⟨X', e, s, v, o⟩ := h X hX.1
  refine ⟨X', e, ⟨by rw [s]; exact hX.1, ?_⟩, o⟩
  intro r t s r0 r1 t0 t1 s0 s1
  obtain ⟨b0, b1⟩ := pos3_bound r0 r1 t0 t1 s0 s1
  rw [v _ b0 b1, hX.2 r t s r0 r1 t0 t1 s0 s1]

/-- Scaling the positions of a list, each as often as it occurs. -/
theorem scaleExec (c : K) (P : Int) : ∀ l : List Int, (∀ p ∈ l, 0 ≤ p ∧ p < P) → Scales (exec (fun p X => scaleAt p c X) l) P (fun p => c ^ l.count p)
  | [], _ => fun X hX => ⟨X, rfl, rfl, fun p _ _ => by simp, Out.refl X⟩
  | q :: l, h => by
    intro X hX
    have hq := h q (List.mem_cons_self ..)
    have e1 : scaleAt q c X = some ⟨X.size, fun p => if p = q then X.val q * c else X.val p⟩ := by
      unfold scaleAt
      rw [Buf.rd_of hq.1 (by omega)]
      show X.wr q (X.val q * c) = _
      rw [Buf.wr_of hq.1 (by omega)]
      congr 2; funext p
      by_cases hp : p = q
      · subst hp; rw [Function.update_self, if_pos rfl]
      · rw [Function.update_of_ne hp, if_neg hp]
    obtain ⟨X2, e2, s2, v2, o2⟩ := scaleExec c P l (fun p hp => h p (List.mem_cons_of_mem _ hp)) ⟨X.size, fun p => if p = q then X.val q * c else X.val p⟩ hX
    refine ⟨X2, by rw [exec_cons, e1]; exact e2, s2, ?_, ?_⟩
    · intro p p0 p1
      rw [v2 p p0 p1]
      dsimp only
      by_cases hp : p = q
      · subst hp
        rw [if_pos rfl, List.count_cons_self, pow_succ]; ring
      · rw [if_neg hp, List.count_cons_of_ne (fun e => hp e.symm)]
    · intro p hp
      rw [o2 p hp]
      dsimp only
      rw [if_neg (fun e => hp (by subst e; omega))]

/-- The positions of the three faces. -/
def faceList (N L M : Int) : List Int :=
  ((rUp 0 L).flatMap fun j => (rUp 0 N).map fun i => i + j * N) ++ (((rUp 0 M).flatMap fun k => (rUp 0 L).map fun j => (j + k * L) * N) ++
    ((rUp 0 M).flatMap fun k => (rUp 0 N).map fun i => i + k * L * N))

theorem exec_two (c : K) (pos : Int → Int → Int) (A B : Int) (X : Buf K) :
    forUp 0 A (fun j X => forUp 0 B (fun i X => scaleAt (pos j i) c X) X) X = exec (fun p X => scaleAt p c X) ((rUp 0 A).flatMap fun j => (rUp 0 B).map (pos j)) X := by
  rw [forUp_exec, exec_flatMap]
  refine exec_congr (fun j _ X => ?_) X
  rw [forUp_exec, exec_map]

theorem scaleFaces_scales {N L M : Int} (c : K) (hN : 0 < N) (hL : 0 < L) (hM : 0 < M) :
    Scales (scaleFaces c N L M) (N * L * M) (fun p => c ^ (faceList N L M).count p) := by
  have e : scaleFaces c N L M = exec (fun p X => scaleAt p c X) (faceList N L M) := by
    funext X
    unfold faceList
    rw [exec_append, ← exec_two c (fun j i => i + j * N)]
    show (forUp 0 L (fun j X => forUp 0 N (fun i X => scaleAt (i + j * N) c X) X) X).bind _ = _
    congr 1; funext X
    rw [exec_append, ← exec_two c (fun k j => (j + k * L) * N)]
    show (forUp 0 M (fun k X => forUp 0 L (fun j X => scaleAt ((j + k * L) * N) c X) X) X).bind _ = _
    congr 1; funext X
    rw [← exec_two c (fun k i => i + k * L * N)]
  rw [e]
  refine scaleExec c _ _ fun p hp => ?_
  have up : ∀ {j i k : Int}, 0 ≤ j → j < L → 0 ≤ i → i < N → 0 ≤ k → k < M → 0 ≤ i + (j + k * L) * N ∧ i + (j + k * L) * N < N * L * M := by
    intro j i k j0 j1 i0 i1 k0 k1
    obtain ⟨b0, b1⟩ := grid_bound k0 k1 j0 j1
    obtain ⟨b2, b3⟩ := grid_bound b0 b1 i0 i1
    exact ⟨b2, by rw [mul_assoc]; exact b3⟩
  unfold faceList at hp
  simp only [List.mem_append, List.mem_flatMap, List.mem_map, mem_rUp] at hp
  rcases hp with ⟨j, ⟨j0, j1⟩, i, ⟨i0, i1⟩, rfl⟩ | ⟨k, ⟨k0, k1⟩, j, ⟨j0, j1⟩, rfl⟩ | ⟨k, ⟨k0, k1⟩, i, ⟨i0, i1⟩, rfl⟩
  · have := up j0 j1 i0 i1 le_rfl hM; rwa [zero_mul, add_zero] at this
  · have := up j0 j1 le_rfl hN k0 k1; rwa [zero_add] at this
  · have := up le_rfl hL i0 i1 k0 k1; rwa [zero_add] at this

theorem scaleTo_scales (n : Int) (c : K) : Scales (scaleTo n c) n (fun _ => c) := by
  by_cases hn : 0 < n
  · intro X hX
    obtain ⟨X', e, h, o⟩ := scaleTo_maps (N := n) (M := 1) (n := n) (m := 1) hn (by omega) le_rfl (by ring) c X _ (Holds.self (by rw [hX]; ring))
    refine ⟨X', e, by have := h.1; omega, ?_, o⟩
    intro p p0 p1
    have := h.2 0 p le_rfl one_pos p0 p1
    rw [zero_mul, add_zero] at this
    rw [this]
    unfold scaleG
    dsimp only
    rw [zero_mul, add_zero, if_pos one_pos]
  · intro X hX
    refine ⟨X, ?_, rfl, fun p p0 p1 => by omega, Out.refl X⟩
    unfold scaleTo forUp
    rw [show (n - 0).toNat = 0 by omega]; rfl

theorem divTo_scales (n : Int) {c : K} (hc : c ≠ 0) : Scales (divTo n c) n (fun _ => c⁻¹) := by
  by_cases hn : 0 < n
  · intro X hX
    have m := divTo_maps (N := n) (M := 1) hn hc
    rw [mul_one] at m
    obtain ⟨X', e, h, o⟩ := m X _ (Holds.self (by rw [hX]; ring))
    refine ⟨X', e, by have := h.1; omega, ?_, o⟩
    intro p p0 p1
    have := h.2 0 p le_rfl one_pos p0 p1
    rw [zero_mul, add_zero] at this
    rw [this]
    dsimp only
    rw [zero_mul, add_zero, div_eq_mul_inv]
  · intro X hX
    refine ⟨X, ?_, rfl, fun p p0 p1 => by omega, Out.refl X⟩
    unfold divTo forUp
    rw [show (n - 0).toNat = 0 by omega]; rfl

/-- The positions of the two sides of the triangle's array. -/
def sideList (N M : Int) : List Int := rUp 0 N ++ (rUp 0 M).map fun j => j * N

theorem scaleSides_scales {N M : Int} (c : K) (hN : 0 < N) (hM : 0 < M) :
    Scales (fun X => (scaleTo N c X).bind fun X => forUp 0 M (fun j X => scaleAt (j * N) c X) X) (N * M) (fun p => c ^ (sideList N M).count p) := by
  have e : (fun X : Buf K => (scaleTo N c X).bind fun X => forUp 0 M (fun j X => scaleAt (j * N) c X) X) = exec (fun p X => scaleAt p c X) (sideList N M) := by
    funext X
    unfold sideList scaleTo
    rw [exec_append, forUp_exec]
    congr 1; funext X
    rw [forUp_exec, exec_map]
  rw [e]
  refine scaleExec c _ _ fun p hp => ?_
  unfold sideList at hp
  simp only [List.mem_append, List.mem_map, mem_rUp] at hp
  rcases hp with ⟨p0, p1⟩ | ⟨j, ⟨j0, j1⟩, rfl⟩
  · have := grid_bound le_rfl hM p0 p1; rwa [zero_mul, add_zero] at this
  · have := grid_bound j0 j1 le_rfl hN; rwa [zero_add] at this

theorem Scales.maps {N M : Int} {f : Buf K → Option (Buf K)} {φ : Int → K} (h : Scales f (N * M) φ) :
    Maps M N f (fun a c i => a c i * φ (i + c * M)) := by
  intro X a hX
  obtain ⟨X', e, s, v, o⟩ := h X (by rw [hX.1, mul_comm])
  refine ⟨X', e, ⟨by rw [s]; exact hX.1, ?_⟩, o⟩
  intro c i c0 c1 i0 i1
  obtain ⟨b0, b1⟩ := grid_bound c0 c1 i0 i1
  rw [v _ b0 (by rw [mul_comm N M]; exact b1), hX.2 c i c0 c1 i0 i1]

theorem Maps3.congr {N L M : Int} {f : Buf K → Option (Buf K)} {v w : (Int → Int → Int → K) → Int → Int → Int → K} (hf : Maps3 N L M f v)
    (e : ∀ a r t s, 0 ≤ r → r < N → 0 ≤ t → t < L → 0 ≤ s → s < M → v a r t s = w a r t s) : Maps3 N L M f w := fun X a h => by
  obtain ⟨X', e1, h1, o1⟩ := hf X a h
  exact ⟨X', e1, ⟨h1.1, fun r t s r0 r1 t0 t1 s0 s1 => by rw [h1.2 r t s r0 r1 t0 t1 s0 s1, e a r t s r0 r1 t0 t1 s0 s1]⟩, o1⟩

end FT.Model
