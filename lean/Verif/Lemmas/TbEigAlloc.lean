import Verif.Lemmas.TbEigRun

/-! # Scratch space of divide-and-conquer factorisations -/

namespace FT.Props.TbEig
open FT FT.Model FT.Prog FT.Props.Hier
set_option linter.unusedSectionVars false
variable {K : Type*} [CommRing K] [DecidableEq K]

theorem apart_symm {p q : Ptr} (h : Apart p q) : Apart q p := by unfold Apart at *; omega

/-- A position of the slice of thread `t` in one of the arrays. -/
def InSlice (t : Int) (l : List (Ptr × Int)) (a : Int) : Prop := ∃ q ∈ l, (q.1.add (q.2 * t)).In q.2 a

theorem InSlice.left {t : Int} {l m : List (Ptr × Int)} {a : Int} : InSlice t l a → InSlice t (l ++ m) a := fun ⟨q, h, h'⟩ => ⟨q, List.mem_append_left _ h, h'⟩
theorem InSlice.right {t : Int} {l m : List (Ptr × Int)} {a : Int} : InSlice t m a → InSlice t (l ++ m) a := fun ⟨q, h, h'⟩ => ⟨q, List.mem_append_right _ h, h'⟩

theorem scr_slice {t a : Int} : ∀ {H : HMat K}, Scr t H a → InSlice t (hArrs H) a
  | .nil, h => h.elim
  | .dense _, h => h.elim
  | .low L, h => by
    rcases h with h | h
    · exact ⟨(L.t1, L.r), by simp [hArrs], h⟩
    · exact ⟨(L.t2, L.r), by simp [hArrs], h⟩
  | .hier M N _ _ b, ⟨i, j, i0, i1, j0, j1, h⟩ => by
    obtain ⟨q, hq, h⟩ := scr_slice h
    refine ⟨q, ?_, h⟩
    rw [hArrs]
    exact List.mem_flatMap.2 ⟨i, (mem_rUp).2 ⟨i0, i1⟩, List.mem_flatMap.2 ⟨j, (mem_rUp).2 ⟨j0, j1⟩, hq⟩⟩

theorem cplScr_slice {t n a : Int} : ∀ {c : Couple K}, CplScr t n c a → InSlice t (cArrs n c) a
  | .fmm c, h => by
    rcases h with h | h | h
    · exact ⟨(c.t1, n / 2), by simp [cArrs], h⟩
    · exact ⟨(c.t2, n - n / 2), by simp [cArrs], h⟩
    · obtain ⟨q, hq, h⟩ := scr_slice h
      exact ⟨q, by simp [cArrs, hq], h⟩
  | .adi _, h => scr_slice h

theorem eScr_slice {t a : Int} : ∀ {F : TbEig K}, EScr t F a → InSlice t (eArrs F) a
  | .leaf _ _, h => h.elim
  | .node n c F1 F2, h => by
    rcases h with h | h | h
    · exact (cplScr_slice h).left
    · exact (eScr_slice h).left.right
    · exact (eScr_slice h).right.right

theorem slice_le {w t p : Int} (w0 : 0 ≤ w) (h : t < p) : w * t + w ≤ w * p := by
  have h2 : w * (t + 1) ≤ w * p := Int.mul_le_mul_of_nonneg_left (by omega) w0
  rwa [Int.mul_add, Int.mul_one] at h2

/-- The slice of a thread lies in the array. -/
theorem slice_in {p t a : Int} {s : Nat} {l : List (Ptr × Int)} (hA : Allocd p s l) (t0 : 0 ≤ t) (t1 : t < p) {q : Ptr × Int} (hq : q ∈ l) (h : (q.1.add (q.2 * t)).In q.2 a) :
    q.1.base ≤ a ∧ a < q.1.base + q.1.size := by
  obtain ⟨h1, h2, h3, h4⟩ := hA.1 q hq
  simp only [Ptr.In, Ptr.add, Ptr.at] at h
  have := slice_le (w := q.2) (by omega) t1
  have := mul_nonneg (by omega : 0 ≤ q.2) t0
  omega

theorem slice_ok {p t : Int} {s : Nat} {l : List (Ptr × Int)} (hA : Allocd p s l) (t0 : 0 ≤ t) (t1 : t < p) {q : Ptr × Int} (hq : q ∈ l) (w0 : 0 ≤ q.2) :
    (q.1.add (q.2 * t)).Ok q.2 s := by
  obtain ⟨h1, h2, h3, h4⟩ := hA.1 q hq
  have := slice_le w0 t1
  have := mul_nonneg w0 t0
  simp only [Ptr.Ok, Ptr.add]
  omega

theorem pairwise_ne {α : Type*} {R : α → α → Prop} (hs : ∀ a b, R a b → R b a) : ∀ {l : List α}, l.Pairwise R → ∀ {a b : α}, a ∈ l → b ∈ l → a ≠ b → R a b
  | [], _, _, _, h, _, _ => by simp at h
  | c :: l, hp, a, b, ha, hb, hne => by
    rw [List.pairwise_cons] at hp
    rw [List.mem_cons] at ha hb
    rcases ha with rfl | ha <;> rcases hb with rfl | hb
    · exact (hne rfl).elim
    · exact hp.1 _ hb
    · exact hs _ _ (hp.1 _ ha)
    · exact pairwise_ne hs hp.2 ha hb hne

/-- The slices of two threads do not overlap. -/
theorem slice_priv {p t u a : Int} {s : Nat} {l : List (Ptr × Int)} (hA : Allocd p s l) (t0 : 0 ≤ t) (t1 : t < p) (u0 : 0 ≤ u) (u1 : u < p) (htu : t ≠ u)
    (h : InSlice t l a) : ¬ InSlice u l a := by
  rintro ⟨r, hr, h'⟩
  obtain ⟨q, hq, h⟩ := h
  have i1 := slice_in hA t0 t1 hq h
  have i2 := slice_in hA u0 u1 hr h'
  by_cases e : q = r
  · subst e
    simp only [Ptr.In, Ptr.add, Ptr.at] at h h'
    rcases lt_or_gt_of_ne htu with c | c
    · have := slice_le (w := q.2) (by omega) c; omega
    · have := slice_le (w := q.2) (by omega) c; omega
  · have : Apart q.1 r.1 := pairwise_ne (fun _ _ h => apart_symm h) hA.2 hq hr e
    unfold Apart at this
    omega

theorem allocd_append {p : Int} {s : Nat} {l m : List (Ptr × Int)} (h : Allocd p s (l ++ m)) : Allocd p s l ∧ Allocd p s m ∧ ∀ q ∈ l, ∀ r ∈ m, Apart q.1 r.1 := by
  obtain ⟨h1, h2⟩ := h
  rw [List.pairwise_append] at h2
  exact ⟨⟨fun q hq => h1 q (List.mem_append_left _ hq), h2.1⟩, ⟨fun q hq => h1 q (List.mem_append_right _ hq), h2.2.1⟩, h2.2.2⟩

theorem scrOk_alloc {p t : Int} {s : Nat} (t0 : 0 ≤ t) (t1 : t < p) : ∀ {H : HMat K}, Sized H → Allocd p s (hArrs H) → ScrOk t s H
  | .nil, _, _ => trivial
  | .dense _, _, _ => trivial
  | .low L, hS, hA => by
    have m1 : (L.t1, L.r) ∈ hArrs (.low L) := by simp [hArrs]
    have m2 : (L.t2, L.r) ∈ hArrs (.low L) := by simp [hArrs]
    refine ⟨slice_ok hA t0 t1 m1 hS.2.2.2.1, slice_ok hA t0 t1 m2 hS.2.2.2.1, fun a h h' => ?_⟩
    have := slice_in hA t0 t1 m1 h
    have := slice_in hA t0 t1 m2 h'
    have : Apart L.t1 L.t2 := by
      have := hA.2
      simp only [hArrs, List.pairwise_cons] at this
      exact this.1 (L.t2, L.r) (by simp)
    unfold Apart at this
    dsimp only at *
    omega
  | .hier M N _ _ b, hS, hA => by
    intro i j i0 i1 j0 j1
    refine scrOk_alloc t0 t1 (hS.2.2.1 i j i0 i1 j0 j1).1 ⟨fun q hq => hA.1 q ?_, ?_⟩
    · rw [hArrs]
      exact List.mem_flatMap.2 ⟨i, (mem_rUp).2 ⟨i0, i1⟩, List.mem_flatMap.2 ⟨j, (mem_rUp).2 ⟨j0, j1⟩, hq⟩⟩
    · have h := hA.2
      rw [hArrs, List.pairwise_flatMap] at h
      have h := h.1 i ((mem_rUp).2 ⟨i0, i1⟩)
      rw [List.pairwise_flatMap] at h
      exact h.1 j ((mem_rUp).2 ⟨j0, j1⟩)

theorem cplScrOk_alloc {p t n : Int} {s : Nat} (n0 : 0 ≤ n) (t0 : 0 ≤ t) (t1 : t < p) : ∀ {c : Couple K}, CplSized n c → Allocd p s (cArrs n c) → CplScrOk t s n c
  | .fmm c, hS, hA => by
    have m1 : (c.t1, n / 2) ∈ cArrs n (.fmm c) := by simp [cArrs]
    have m2 : (c.t2, n - n / 2) ∈ cArrs n (.fmm c) := by simp [cArrs]
    have hp := hA.2
    simp only [cArrs, List.pairwise_cons] at hp
    have a12 := hp.1 (c.t2, n - n / 2) (by simp)
    have hF : Allocd p s (hArrs c.F0) := ⟨fun q hq => hA.1 q (by simp [cArrs, hq]), hp.2.2⟩
    have far : ∀ (q : Ptr × Int) a, q ∈ cArrs n (.fmm c) → (∀ r ∈ hArrs c.F0, Apart q.1 r.1) → (q.1.add (q.2 * t)).In q.2 a → ¬ Scr t c.F0 a := by
      intro q a hq hr h h'
      obtain ⟨r, hm, h'⟩ := scr_slice h'
      have := slice_in hA t0 t1 hq h
      have := slice_in hF t0 t1 hm h'
      have := hr r hm
      unfold Apart at this
      omega
    refine ⟨slice_ok hA t0 t1 m1 (by dsimp only; omega), slice_ok hA t0 t1 m2 (by dsimp only; omega), scrOk_alloc t0 t1 hS.2.1.1 hF, fun a h => ⟨fun h' => ?_, ?_⟩, fun a h => ?_⟩
    · have := slice_in hA t0 t1 m1 h
      have := slice_in hA t0 t1 m2 h'
      unfold Apart at a12
      dsimp only at *
      omega
    · exact far _ a m1 (fun r hr => hp.1 r (by simp [hr])) h
    · exact far _ a m2 (fun r hr => hp.2.1 r hr) h
  | .adi L, hS, hA => scrOk_alloc t0 t1 hS.1 hA

theorem eScrOk_alloc {BS p t : Int} {s : Nat} (t0 : 0 ≤ t) (t1 : t < p) : ∀ {F : TbEig K}, ESized BS F → Allocd p s (eArrs F) → EScrOk t s F
  | .leaf _ _, _, _ => trivial
  | .node n c F1 F2, ⟨n0, _, hc, ⟨_, h1⟩, _, h2⟩, hA => by
    obtain ⟨ac, hA', -⟩ := allocd_append hA
    obtain ⟨a1, a2, -⟩ := allocd_append hA'
    exact ⟨cplScrOk_alloc n0 t0 t1 hc ac, eScrOk_alloc t0 t1 h1 a1, eScrOk_alloc t0 t1 h2 a2⟩

/-- What is apart from the scratch arrays is not in the slice of a thread. -/
theorem not_scr {p t n : Int} {s : Nat} {F : TbEig K} (hA : Allocd p s (eArrs F)) (t0 : 0 ≤ t) (t1 : t < p) {x : Ptr} (hx : x.Ok n s) (ha : ∀ q ∈ eArrs F, Apart x q.1) {i : Int}
    (i0 : 0 ≤ i) (i1 : i < n) : ¬ EScr t F (x.at i) := by
  intro h
  obtain ⟨q, hq, h⟩ := eScr_slice h
  have := slice_in hA t0 t1 hq h
  have := ha q hq
  unfold Apart at this
  simp only [Ptr.Ok, Ptr.at] at *
  omega

theorem rUp_head {lo hi : Int} (h : lo < hi) : ∃ l, rUp lo hi = lo :: l := by
  unfold rUp
  obtain ⟨k, hk⟩ : ∃ k, (hi - lo).toNat = k + 1 := ⟨(hi - lo).toNat - 1, by omega⟩
  rw [hk, List.range_succ_eq_map]
  refine ⟨List.map (fun k : Nat => lo + (k : Int)) (List.map Nat.succ (List.range k)), ?_⟩
  rw [List.map_cons, Nat.cast_zero, add_zero]

theorem run_none {α β : Type*} {p : Prog K α} {f : α → Prog K β} (h : ∀ a M, (f a).run M = none) (M : Buf K) : (p.bind f).run M = none := by
  rw [run_bind]
  cases p.run M with
  | none => rfl
  | some r => exact h _ _

/-- A thread beyond those the scratch was allocated for leaves the scratch array. -/
theorem fmmP_oob {tr : Char} {alpha : K} {sub : Bool} {tid b : Int} {F0 : HMat K} {ns nd so ds : Int} {ps pd : Buf Int} {Fs Fd : Buf K} {ts td : Ptr} {nnz : Int} {qs qd : Buf Int} {sv : Buf K} {x : Ptr}
    (hb : 0 < b) (hn : 0 < ns) (ht : ts.size ≤ ts.off) (M : Buf K) : (fmmP tr alpha sub tid b F0 ns nd so ds ps pd Fs Fd ts td nnz qs qd sv x).run M = none := by
  have inner : ∀ k M, (each (fun i _ => (ofOption (ps.rd i)).bind fun pi => (ofOption (Fs.rd (pi + k * ns))).bind fun f => (get x (pi + so)).bind fun v => put ts i (f * v)) (rUp 0 ns) ()).run M = none := by
    intro k M
    obtain ⟨l, hl⟩ := rUp_head hn
    rw [hl, each, run_bind]
    have : ((ofOption (ps.rd 0)).bind fun pi => (ofOption (Fs.rd (pi + k * ns))).bind fun f => (get x (pi + so)).bind fun v => put ts 0 (f * v) : Prog K Unit).run M = none := by
      refine run_none (fun pi M => run_none (fun f M => run_none (fun v M => ?_) M) M) M
      unfold put
      rw [if_neg (by omega)]
      rfl
    rw [this]; rfl
  unfold fmmP
  obtain ⟨l, hl⟩ := rUp_head hb
  rw [run_bind, hl, each, run_bind, run_bind, inner]
  rfl

end FT.Props.TbEig
