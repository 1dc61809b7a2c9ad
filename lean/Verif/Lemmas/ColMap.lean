import Verif.Lemmas.KernelWithin

/-! Programs that transform the columns of an array independently of each other. -/

namespace FT
variable {K : Type*}

/-- The outcome of a parallel region is unique. -/
theorem ParEnds.unique [Zero K] {T : Nat} {P : Nat → Prog K Unit} {A B C : Buf K} (h : ParEnds T P A B) (h' : ParEnds T P A C) : B = C := by
  obtain ⟨⟨s, c, hs, e, hd⟩, h2⟩ := h
  obtain ⟨c1, e1, h1⟩ := h2 s hs
  obtain ⟨c2, e2, h2⟩ := h'.2 s hs
  rw [e] at e1 e2
  cases e1; cases e2
  rw [← h1 hd, ← h2 hd]

/-- Columns in `C` are transformed by `F`, nothing else changes.  `pos k c` is the position of entry `(k, c)`. -/
def Mapped (F : Int → (Int → K) → Int → K) (N : Int) (pos : Int → Int → Int) (C : Int → Prop) (B B' : Buf K) : Prop :=
  B'.size = B.size ∧ (∀ c, C c → ∀ k, 0 ≤ k → k < N → B'.val (pos k c) = F c (fun k => B.val (pos k c)) k) ∧
  ∀ i, (∀ c k, C c → 0 ≤ k → k < N → i ≠ pos k c) → B'.val i = B.val i

/-- The positions of the columns in `C`. -/
def ColsR (N : Int) (pos : Int → Int → Int) (C : Int → Prop) (i : Int) : Prop := ∃ c k, C c ∧ 0 ≤ k ∧ k < N ∧ i = pos k c

def PosInj (N : Int) (pos : Int → Int → Int) (D : Int → Prop) : Prop :=
  ∀ k c k' c', D c → D c' → 0 ≤ k → k < N → 0 ≤ k' → k' < N → pos k c = pos k' c' → k = k' ∧ c = c'

def FCongr (F : Int → (Int → K) → Int → K) (N : Int) : Prop :=
  ∀ c x y, (∀ k, 0 ≤ k → k < N → x k = y k) → ∀ k, 0 ≤ k → k < N → F c x k = F c y k

section
variable {F : Int → (Int → K) → Int → K} {N : Int} {pos : Int → Int → Int} {D : Int → Prop}

theorem Mapped.congrC {C C' : Int → Prop} {B B' : Buf K} (h : Mapped F N pos C B B') (hc : ∀ c, C c ↔ C' c) : Mapped F N pos C' B B' :=
  ⟨h.1, fun c hc' => h.2.1 c ((hc c).2 hc'), fun i hi => h.2.2 i fun c k hc' => hi c k ((hc c).1 hc')⟩

theorem Mapped.unique {C : Int → Prop} {B B' B'' : Buf K} (h : Mapped F N pos C B B') (h' : Mapped F N pos C B B'') : B' = B'' := by
  refine Buf.ext' (h.1.trans h'.1.symm) fun i => ?_
  by_cases hi : ∃ c k, C c ∧ 0 ≤ k ∧ k < N ∧ i = pos k c
  · obtain ⟨c, k, hc, h0, h1, rfl⟩ := hi
    rw [h.2.1 c hc k h0 h1, h'.2.1 c hc k h0 h1]
  · have hi' : ∀ c k, C c → 0 ≤ k → k < N → i ≠ pos k c := fun c k a b d e => hi ⟨c, k, a, b, d, e⟩
    rw [h.2.2 i hi', h'.2.2 i hi']

theorem Mapped.trans (hp : PosInj N pos D) (hF : FCongr F N) {C1 C2 : Int → Prop} (h1 : ∀ c, C1 c → D c) (h2 : ∀ c, C2 c → D c)
    (hd : ∀ c, C1 c → ¬ C2 c) {A B B' : Buf K} (a : Mapped F N pos C1 A B) (b : Mapped F N pos C2 B B') :
    Mapped F N pos (fun c => C1 c ∨ C2 c) A B' := by
  refine ⟨b.1.trans a.1, ?_, ?_⟩
  · rintro c (hc | hc) k k0 k1
    · rw [b.2.2 _ (fun c' k' hc' k0' k1' e => ?_), a.2.1 c hc k k0 k1]
      obtain ⟨-, rfl⟩ := hp _ _ _ _ (h1 c hc) (h2 c' hc') k0 k1 k0' k1' e
      exact hd c hc hc'
    · rw [b.2.1 c hc k k0 k1]
      refine hF c _ _ (fun k k0 k1 => ?_) k k0 k1
      refine a.2.2 _ (fun c' k' hc' k0' k1' e => ?_)
      obtain ⟨-, rfl⟩ := hp _ _ _ _ (h2 c hc) (h1 c' hc') k0 k1 k0' k1' e
      exact hd c hc' hc
  · intro i hi
    rw [b.2.2 i fun c k hc => hi c k (Or.inr hc), a.2.2 i fun c k hc => hi c k (Or.inl hc)]

end

section
variable [Zero K]

/-- `P` transforms the columns in `C` of every memory of `sz` entries and accesses nothing else. -/
structure ProgMaps (F : Int → (Int → K) → Int → K) (N : Int) (pos : Int → Int → Int) (sz : Nat) (C : Int → Prop) (P : Prog K Unit) : Prop where
  within : P.Within (ColsR N pos C)
  run : ∀ A : Buf K, A.size = sz → ∃ A', P.run A = some ((), A') ∧ Mapped F N pos C A A'

variable {F : Int → (Int → K) → Int → K} {N : Int} {pos : Int → Int → Int} {D : Int → Prop} {sz : Nat}

theorem ProgMaps.congrC {C C' : Int → Prop} {P : Prog K Unit} (h : ProgMaps F N pos sz C P) (hc : ∀ c, C c ↔ C' c) :
    ProgMaps F N pos sz C' P := by
  have : C = C' := by funext c; exact propext (hc c)
  exact this ▸ h

theorem ProgMaps.bind (hp : PosInj N pos D) (hF : FCongr F N) {C1 C2 : Int → Prop} (h1 : ∀ c, C1 c → D c) (h2 : ∀ c, C2 c → D c)
    (hd : ∀ c, C1 c → ¬ C2 c) {P Q : Prog K Unit} (a : ProgMaps F N pos sz C1 P) (b : ProgMaps F N pos sz C2 Q) :
    ProgMaps F N pos sz (fun c => C1 c ∨ C2 c) (P.bind fun _ => Q) := by
  refine ⟨Prog.Within.bind (a.within.mono ?_) fun _ => b.within.mono ?_, ?_⟩
  · rintro i ⟨c, k, hc, h⟩; exact ⟨c, k, Or.inl hc, h⟩
  · rintro i ⟨c, k, hc, h⟩; exact ⟨c, k, Or.inr hc, h⟩
  · intro A hA
    obtain ⟨B, e, m⟩ := a.run A hA
    obtain ⟨B', e', m'⟩ := b.run B (m.1.trans hA)
    refine ⟨B', ?_, Mapped.trans hp hF h1 h2 hd m m'⟩
    rw [Prog.run_bind, e, Option.bind_some]; exact e'

theorem colsR_disjoint (hp : PosInj N pos D) {C1 C2 : Int → Prop} (h1 : ∀ c, C1 c → D c) (h2 : ∀ c, C2 c → D c)
    (hd : ∀ c, C1 c → ¬ C2 c) (i : Int) (a : ColsR N pos C1 i) : ¬ ColsR N pos C2 i := by
  obtain ⟨c, k, hc, k0, k1, rfl⟩ := a
  rintro ⟨c', k', hc', k0', k1', e⟩
  obtain ⟨-, rfl⟩ := hp _ _ _ _ (h1 c hc) (h2 c' hc') k0 k1 k0' k1' e
  exact hd c hc hc'

theorem ProgMaps.each {ι : Type*} (hp : PosInj N pos D) {l : List ι} (hnd : l.Nodup) {C : ι → Int → Prop}
    (hC : ∀ a ∈ l, ∀ c, C a c → D c) (hd : ∀ a ∈ l, ∀ b ∈ l, a ≠ b → ∀ c, C a c → ¬ C b c) {P : ι → Prog K Unit}
    (h : ∀ a ∈ l, ProgMaps F N pos sz (C a) (P a)) :
    ProgMaps F N pos sz (fun c => ∃ a ∈ l, C a c) (Prog.each (fun a _ => P a) l ()) := by
  refine ⟨Prog.Within.each (fun a ha _ => (h a ha).within.mono ?_) (), ?_⟩
  · rintro i ⟨c, k, hc, h⟩; exact ⟨c, k, ⟨a, ha, hc⟩, h⟩
  · intro A hA
    classical
    let G : ι → Buf K := fun a => if ha : a ∈ l then ((h a ha).run A hA).choose else A
    have hG : ∀ a (ha : a ∈ l), (P a).run A = some ((), G a) ∧ Mapped F N pos (C a) A (G a) := by
      intro a ha
      simp only [G, dif_pos ha]
      exact ((h a ha).run A hA).choose_spec
    obtain ⟨B, e, b1, b2, b3⟩ := each_disjoint (R := fun a => ColsR N pos (C a)) hnd
      (fun a ha b hb i hab => colsR_disjoint hp (hC a ha) (hC b hb) (hd a ha b hb hab) i)
      (fun a ha => (h a ha).within) (fun a ha => (hG a ha).1)
    refine ⟨B, e, b1, ?_, ?_⟩
    · rintro c ⟨a, ha, hc⟩ k k0 k1
      rw [b2 a ha _ ⟨c, k, hc, k0, k1, rfl⟩, (hG a ha).2.2.1 c hc k k0 k1]
    · intro i hi
      refine b3 i fun a ha => ?_
      rintro ⟨c, k, hc, k0, k1, rfl⟩
      exact hi c k ⟨a, ha, hc⟩ k0 k1 rfl

/-- A parallel loop over iterations that transform disjoint sets of columns. -/
theorem ProgMaps.omp (hp : PosInj N pos D) {lo hi st : Int} (hst : 0 < st) {T : Nat} (hT : 0 < T) {C : Int → Int → Prop}
    (hC : ∀ a ∈ rStep lo hi st, ∀ c, C a c → D c)
    (hd : ∀ a ∈ rStep lo hi st, ∀ b ∈ rStep lo hi st, a ≠ b → ∀ c, C a c → ¬ C b c) {P : Int → Prog K Unit}
    (h : ∀ a ∈ rStep lo hi st, ProgMaps F N pos sz (C a) (P a)) {A : Buf K} (hA : A.size = sz) :
    ∃ B, ParEnds T (ompThread lo hi st T P) A B ∧ Mapped F N pos (fun c => ∃ a ∈ rStep lo hi st, C a c) A B := by
  have hT' : 0 < st * (T : Int) := Int.mul_pos hst (by omega)
  classical
  let G : Int → Buf K := fun a => if ha : a ∈ rStep lo hi st then ((h a ha).run A hA).choose else A
  have hG : ∀ a (ha : a ∈ rStep lo hi st), (P a).run A = some ((), G a) ∧ Mapped F N pos (C a) A (G a) := by
    intro a ha
    simp only [G, dif_pos ha]
    exact ((h a ha).run A hA).choose_spec
  have hdis : ∀ a ∈ rStep lo hi st, ∀ b ∈ rStep lo hi st, ∀ i, a ≠ b → ColsR N pos (C a) i → ¬ ColsR N pos (C b) i :=
    fun a ha b hb i hab => colsR_disjoint hp (hC a ha) (hC b hb) (hd a ha b hb hab) i
  obtain ⟨B, e, b⟩ := (ProgMaps.each hp (nodup_rStep hst) hC hd h).run A hA
  refine ⟨B, ⟨?_, ?_⟩, b⟩
  · have hin : ∀ t, t < T → ∀ a ∈ rStep (lo + st * t) hi (st * T), a ∈ rStep lo hi st :=
      fun t ht a ha => (omp_cover hst hT).1.2 ⟨t, ht, ha⟩
    have each := fun t (ht : t < T) => each_disjoint (R := fun a => ColsR N pos (C a)) (body := P) (A := A)
      (nodup_rStep (lo := lo + st * t) (hi := hi) hT')
      (fun a ha b hb => hdis a (hin t ht a ha) b (hin t ht b hb)) (fun a ha => (h a (hin t ht a ha)).within)
      (fun a ha => (hG a (hin t ht a ha)).1)
    let H : Nat → Buf K := fun t => if h : t < T then (each t h).choose else A
    refine exists_sched (R := fun t i => t < T ∧ ∃ a ∈ rStep (lo + st * t) hi (st * T), ColsR N pos (C a) i) (F := H) ?_ ?_ ?_
    · rintro t u i htu ⟨ht, a, ha, hi⟩ ⟨hu, b, hb, hi'⟩
      by_cases hab : a = b
      · subst hab
        exact htu ((omp_cover hst hT).2 t u ht hu ha hb)
      · exact hdis a (hin t ht a ha) b (hin u hu b hb) i hab hi hi'
    · exact fun t ht => Prog.Within.each (fun a ha _ => (h a (hin t ht a ha)).within.mono (fun i hi => ⟨ht, a, ha, hi⟩)) ()
    · intro t ht
      simp only [H, dif_pos ht]
      exact (each t ht).choose_spec.1
  · intro sched hs
    obtain ⟨c, e1, c1, c2⟩ := omp_for hst hT (R := fun a => ColsR N pos (C a)) hdis (fun a ha => (h a ha).within)
      (fun a ha => (hG a ha).1) sched hs
    refine ⟨c, e1, fun hdn => ?_⟩
    obtain ⟨c3, c4⟩ := c2 hdn
    refine Mapped.unique (F := F) (N := N) (pos := pos) ⟨c1, ?_, ?_⟩ b
    · rintro x ⟨a, ha, hx⟩ k k0 k1
      rw [c3 a ha _ ⟨x, k, hx, k0, k1, rfl⟩, (hG a ha).2.2.1 x hx k k0 k1]
    · intro i hi
      refine c4 i fun a ha => ?_
      rintro ⟨x, k, hx, k0, k1, rfl⟩
      exact hi x k ⟨a, ha, hx⟩ k0 k1 rfl

end

/-! ## Kernels as column transforms -/

section
variable [CommRing K]

theorem impl_kern (d : Bool) (G : Geom) (RP : RotPlan K) (m1 m2 o S : Int) : Impl (kernP d G RP m1 m2 o S) (kern d G RP m1 m2 o S) := by
  cases d
  · exact impl_kernelLo2hi ..
  · exact impl_kernelHi2lo ..

/-- What the kernel does to a column given as a function. -/
def colF (d : Bool) (G : Geom) (RP : RotPlan K) (m1 m2 : Int) (x : Int → K) : Int → K :=
  ((kern d G RP m1 m2 0 1 ⟨RP.n.toNat, x⟩).getD ⟨0, x⟩).val

variable {G : Geom} {RP : RotPlan K}

theorem within_kern {d : Bool} {m1 m2 o S : Int} (hG : GeomOK G) (hm : 0 ≤ m1) :
    (kernP d G RP m1 m2 o S).Within (ColR RP.n o S) := by
  cases d
  · exact within_kernelLo2hi hG hm
  · exact within_kernelHi2lo hG hm

theorem exec_sim {ι σ τ : Type*} {f : ι → σ → Option σ} {g : ι → τ → Option τ} (Rel : σ → τ → Prop) {l : List ι}
    (h : ∀ a ∈ l, ∀ s t, Rel s t → ∃ s' t', f a s = some s' ∧ g a t = some t' ∧ Rel s' t') {s : σ} {t : τ} (h0 : Rel s t) :
    ∃ s' t', exec f l s = some s' ∧ exec g l t = some t' ∧ Rel s' t' := by
  induction l generalizing s t with
  | nil => exact ⟨s, t, rfl, rfl, h0⟩
  | cons a l ih =>
    obtain ⟨s', t', e1, e2, r⟩ := h a (by simp) s t h0
    obtain ⟨s'', t'', e3, e4, r'⟩ := ih (fun b hb => h b (by simp [hb])) r
    exact ⟨s'', t'', by rw [exec_cons, e1, Option.bind_some, e3], by rw [exec_cons, e2, Option.bind_some, e4], r'⟩

theorem rot_sim {s c : K} {n o S k g : Int} (hS : 0 < S) {v w : Int → K} (hk : 0 ≤ k) (hg : 0 < g) (hkg : k + g ≤ n - 1)
    (h : ∀ i, 0 ≤ i → i ≤ n - 1 → v (o + i * S) = w (0 + i * 1)) :
    ∀ i, 0 ≤ i → i ≤ n - 1 → rotV s c (o + k * S) (o + (k + g) * S) v (o + i * S) = rotV s c (0 + k * 1) (0 + (k + g) * 1) w (0 + i * 1) := by
  intro i h0 h1
  have inj : ∀ a b : Int, a ≠ b → o + a * S ≠ o + b * S := by
    intro a b hab e
    exact hab (Int.eq_of_mul_eq_mul_right (by omega : S ≠ 0) (by omega))
  by_cases hi : i = k
  · subst hi
    rw [rotV_fst (inj i (i + g) (by omega)), rotV_fst (by omega), h i h0 h1, h (i + g) (by omega) (by omega)]
  · by_cases hi' : i = k + g
    · subst hi'
      rw [rotV_snd, rotV_snd, h (k + g) (by omega) (by omega), h k (by omega) (by omega)]
    · rw [rotV_of_ne (inj i k hi) (inj i _ hi'), rotV_of_ne (by omega) (by omega), h i h0 h1]

/-- On every column the kernel is the column transform `colF`; nothing else changes. -/
theorem kern_col (hG : GeomOK G) (hI : InB G RP) {d : Bool} {m1 m2 o S : Int} (hm : 0 ≤ m1) {A : Buf K} (hA : Fits RP.n o S A) :
    ∃ A', kern d G RP m1 m2 o S A = some A' ∧ A'.size = A.size ∧
      (∀ k, 0 ≤ k → k ≤ RP.n - 1 → A'.val (o + k * S) = colF d G RP m1 m2 (fun k => A.val (o + k * S)) k) ∧
      ∀ i, ¬ ColR RP.n o S i → A'.val i = A.val i := by
  have hC0 : Fits RP.n 0 1 (⟨RP.n.toNat, fun k => A.val (o + k * S)⟩ : Buf K) := by
    refine ⟨by omega, by omega, ?_⟩
    show 0 + (RP.n - 1) * 1 < (RP.n.toNat : Int)
    omega
  have key : ∃ A' C', kern d G RP m1 m2 o S A = some A' ∧ kern d G RP m1 m2 0 1 ⟨RP.n.toNat, fun k => A.val (o + k * S)⟩ = some C' ∧
      (A'.size = A.size ∧ C'.size = RP.n.toNat ∧ ∀ i, 0 ≤ i → i ≤ RP.n - 1 → A'.val (o + i * S) = C'.val (0 + i * 1)) := by
    cases d
    · simp only [kern, Bool.false_eq_true, if_false]
      simp only [kernelLo2hi_exec]
      refine exec_sim (fun (A' C' : Buf K) => A'.size = A.size ∧ C'.size = RP.n.toNat ∧
        ∀ i, 0 ≤ i → i ≤ RP.n - 1 → A'.val (o + i * S) = C'.val (0 + i * 1)) ?_ ⟨rfl, rfl, fun i _ _ => by simp⟩
      rintro ⟨j, k⟩ hmem B C ⟨hB, hC, hv⟩
      obtain ⟨⟨t, ht⟩, h1, h2, h3⟩ := (mem_loOps hG.jst).1 hmem
      have hj : 0 ≤ j := by
        have : 0 ≤ G.jst * (t : Int) := Int.mul_nonneg (by have := hG.jst; omega) (by omega)
        omega
      have hB' : Fits RP.n o S B := by unfold Fits at *; rw [hB]; exact hA
      have hC' : Fits RP.n 0 1 C := by unfold Fits at *; rw [hC]; exact hC0
      obtain ⟨a, b⟩ := op_rows hG hB' hj h2 h3
      obtain ⟨a', b'⟩ := op_rows hG hC' hj h2 h3
      simp only
      rw [rotAtT_eq hG hI hj h2 h3, rotAtT_eq hG hI hj h2 h3, applyGivens_of a b, applyGivens_of a' b']
      exact ⟨_, _, rfl, rfl, hB, hC, rot_sim hA.1 h2 hG.g (by have := hG.top RP.n j hj; omega) hv⟩
    · simp only [kern, if_true]
      simp only [kernelHi2lo_exec]
      refine exec_sim (fun (A' C' : Buf K) => A'.size = A.size ∧ C'.size = RP.n.toNat ∧
        ∀ i, 0 ≤ i → i ≤ RP.n - 1 → A'.val (o + i * S) = C'.val (0 + i * 1)) ?_ ⟨rfl, rfl, fun i _ _ => by simp⟩
      rintro ⟨j, k⟩ hmem B C ⟨hB, hC, hv⟩
      obtain ⟨-, h1, h2, h3⟩ := (mem_hiOps hG.jst).1 hmem
      have hj : 0 ≤ j := by omega
      have hB' : Fits RP.n o S B := by unfold Fits at *; rw [hB]; exact hA
      have hC' : Fits RP.n 0 1 C := by unfold Fits at *; rw [hC]; exact hC0
      obtain ⟨a, b⟩ := op_rows hG hB' hj h2 h3
      obtain ⟨a', b'⟩ := op_rows hG hC' hj h2 h3
      simp only
      rw [rotAt_eq hG hI hj h2 h3, rotAt_eq hG hI hj h2 h3, applyGivens_of a b, applyGivens_of a' b']
      exact ⟨_, _, rfl, rfl, hB, hC, rot_sim hA.1 h2 hG.g (by have := hG.top RP.n j hj; omega) hv⟩
  obtain ⟨A', C', e, e', h1, h2, h3⟩ := key
  refine ⟨A', e, h1, ?_, ?_⟩
  · intro k h0 h1'
    unfold colF
    rw [e', h3 k h0 h1']
    simp
  · have r := (impl_kern d G RP m1 m2 o S).run A
    rw [e, Option.map_some] at r
    exact (Prog.run_local (B := A) (within_kern hG hm) rfl (fun _ _ => rfl) r).2.1

theorem colF_congr (hG : GeomOK G) (hI : InB G RP) {d : Bool} {m1 m2 : Int} (hm : 0 ≤ m1) {x y : Int → K}
    (h : ∀ k, 0 ≤ k → k < RP.n → x k = y k) : ∀ k, 0 ≤ k → k < RP.n → colF d G RP m1 m2 x k = colF d G RP m1 m2 y k := by
  intro k h0 h1
  have fits : ∀ z : Int → K, Fits RP.n 0 1 (⟨RP.n.toNat, z⟩ : Buf K) := by
    intro z
    refine ⟨by omega, by omega, ?_⟩
    show 0 + (RP.n - 1) * 1 < (RP.n.toNat : Int)
    omega
  obtain ⟨X, e, -⟩ := kern_col (d := d) (m2 := m2) hG hI hm (fits x)
  obtain ⟨Y, e', -⟩ := kern_col (d := d) (m2 := m2) hG hI hm (fits y)
  unfold colF
  rw [e, e']
  simp only [Option.getD_some]
  have r := (impl_kern d G RP m1 m2 0 1).run ⟨RP.n.toNat, x⟩
  have r' := (impl_kern d G RP m1 m2 0 1).run ⟨RP.n.toNat, y⟩
  rw [e, Option.map_some] at r
  rw [e', Option.map_some] at r'
  obtain ⟨-, -, B', b1, -, b3, -⟩ := Prog.run_local (p := kernP d G RP m1 m2 0 1) (A := ⟨RP.n.toNat, x⟩) (B := ⟨RP.n.toNat, y⟩) (within_kern hG hm) rfl (fun i hi => by
    obtain ⟨k, k0, k1, rfl⟩ := hi
    show y (0 + k * 1) = x (0 + k * 1)
    exact (h _ (by omega) (by omega)).symm) r
  rw [r'] at b1
  cases b1
  exact (b3 k ⟨k, h0, by omega, by omega⟩).symm

/-- A kernel of order zero does nothing. -/
theorem colF_id {d : Bool} {m1 m2 : Int} (h : m2 ≤ m1) (hj : 0 < G.jst) (x : Int → K) : colF d G RP m1 m2 x = x := by
  unfold colF kern
  cases d
  · simp only [Bool.false_eq_true, if_false]
    rw [kernelLo2hi_exec]
    have : loOps G RP.n m1 m2 = [] := by
      rw [List.eq_nil_iff_forall_not_mem]
      rintro ⟨j, k⟩ hmem
      obtain ⟨⟨t, ht⟩, h1, -⟩ := (mem_loOps hj).1 hmem
      have : 0 ≤ G.jst * (t : Int) := Int.mul_nonneg (by omega) (by omega)
      omega
    rw [this]; rfl
  · simp only [if_true]
    rw [kernelHi2lo_exec]
    have : hiOps G RP.n m1 m2 = [] := by
      rw [List.eq_nil_iff_forall_not_mem]
      rintro ⟨j, k⟩ hmem
      obtain ⟨⟨t, ht⟩, h1, -⟩ := (mem_hiOps hj).1 hmem
      have : 0 ≤ G.jst * (t : Int) := Int.mul_nonneg (by omega) (by omega)
      omega
    rw [this]; rfl

/-- A kernel call is a transform of one column. -/
theorem progMaps_kern (hG : GeomOK G) (hI : InB G RP) {F : Int → (Int → K) → Int → K} {pos : Int → Int → Int} {sz : Nat} {d : Bool}
    {m1 m2 o S c : Int} (hm : 0 ≤ m1) (hF : F c = colF d G RP m1 m2) (hpos : ∀ k, pos k c = o + k * S)
    (hfit : 0 < S ∧ 0 ≤ o ∧ o + (RP.n - 1) * S < sz) :
    ProgMaps F RP.n pos sz (fun c' => c' = c) (kernP d G RP m1 m2 o S) := by
  refine ⟨(within_kern hG hm).mono ?_, ?_⟩
  · rintro i ⟨k, k0, k1, rfl⟩
    exact ⟨c, k, rfl, k0, by omega, (hpos k).symm⟩
  · intro A hA
    obtain ⟨A', e, h1, h2, h3⟩ := kern_col (d := d) (m2 := m2) hG hI hm (A := A) (o := o) (S := S) (by unfold Fits; rw [hA]; exact hfit)
    refine ⟨A', by rw [(impl_kern ..).run, e]; rfl, h1, ?_, ?_⟩
    · rintro x rfl k k0 k1
      rw [hF]
      simp only [hpos]
      exact h2 k k0 (by omega)
    · intro i hi
      refine h3 i ?_
      rintro ⟨k, k0, k1, rfl⟩
      exact hi c k rfl k0 (by omega) (hpos k).symm

end

end FT
