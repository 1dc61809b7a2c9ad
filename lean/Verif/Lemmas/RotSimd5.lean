import Verif.Lemmas.RotSimd4

namespace FT
variable {K : Type*} [CommRing K]

/-- The pairs of a list of scalar rotations, on lane `e`. -/
def onLane (e : Int) (T : List (Int × Int)) : List Op := T.map fun a => (e, a.1, a.2)

theorem mem_onLane {e : Int} {T : List (Int × Int)} {a : Op} : a ∈ onLane e T ↔ a.1 = e ∧ (a.2.1, a.2.2) ∈ T := by
  obtain ⟨x, j, k⟩ := a
  unfold onLane
  simp only [List.mem_map, Prod.mk.injEq]
  constructor
  · rintro ⟨⟨a, b⟩, h, rfl, rfl, rfl⟩; exact ⟨rfl, h⟩
  · rintro ⟨rfl, h⟩; exact ⟨(j, k), h, rfl, rfl, rfl⟩

theorem pw_hiOps {G : Geom} (hst : 0 < G.jst) (g n m1 m2 : Int) :
    (hiOps G n m1 m2).Pairwise (fun a b => CP g a b → BHi a b) := by
  unfold hiOps
  rw [List.pairwise_flatMap]
  constructor
  · intro j _
    rw [List.pairwise_map]
    refine (pairwise_rDown _ _).imp ?_
    intro a b h _
    right; exact ⟨rfl, h⟩
  · refine (pairwise_rStepDown hst).imp ?_
    intro j j' h x hx y hy _
    simp only [List.mem_map] at hx hy
    obtain ⟨_, _, rfl⟩ := hx
    obtain ⟨_, _, rfl⟩ := hy
    left
    simp only; omega

theorem pw_loOps {G : Geom} (hst : 0 < G.jst) (g n m1 m2 : Int) :
    (loOps G n m1 m2).Pairwise (fun a b => CP g a b → BLo a b) := by
  unfold loOps
  rw [List.pairwise_flatMap]
  constructor
  · intro j _
    rw [List.pairwise_map]
    refine (pairwise_rUp _ _).imp ?_
    intro a b h _
    right; exact ⟨rfl, h⟩
  · refine (pairwise_rStep hst).imp ?_
    intro j j' h x hx y hy _
    simp only [List.mem_map] at hx hy
    obtain ⟨_, _, rfl⟩ := hx
    obtain ⟨_, _, rfl⟩ := hy
    left
    simp only; omega

theorem pw_onLane_hi {g e : Int} {T : List (Int × Int)} (h : T.Pairwise (fun a b => CP g a b → BHi a b)) :
    (onLane e T).Pairwise (fun a b => Conflict g a b → BeforeHi a b) := by
  unfold onLane
  rw [List.pairwise_map]
  refine h.imp ?_
  intro a b hab hc
  exact hab hc.2

theorem pw_onLane_lo {g e : Int} {T : List (Int × Int)} (h : T.Pairwise (fun a b => CP g a b → BLo a b)) :
    (onLane e T).Pairwise (fun a b => Conflict g a b → BeforeLo a b) := by
  unfold onLane
  rw [List.pairwise_map]
  refine h.imp ?_
  intro a b hab hc
  exact hab hc.2

theorem pw_lanes_hi {g : Int} {VS : Nat} {T : List (Int × Int)} (h : T.Pairwise (fun a b => CP g a b → BHi a b)) :
    (T.flatMap fun a => lanes VS a.1 a.2).Pairwise (fun a b => Conflict g a b → BeforeHi a b) := by
  rw [List.pairwise_flatMap]
  refine ⟨fun a _ => pairwise_lanes, h.imp ?_⟩
  intro a b hab x hx y hy hc
  obtain ⟨_, h1, h2⟩ := mem_lanes.1 hx
  obtain ⟨_, h1', h2'⟩ := mem_lanes.1 hy
  have := hab (by unfold CP; have := hc.2; rw [h2, h2'] at this; exact this)
  unfold BHi at this
  unfold BeforeHi
  rw [h1, h1', h2, h2']
  exact this

theorem pw_lanes_lo {g : Int} {VS : Nat} {T : List (Int × Int)} (h : T.Pairwise (fun a b => CP g a b → BLo a b)) :
    (T.flatMap fun a => lanes VS a.1 a.2).Pairwise (fun a b => Conflict g a b → BeforeLo a b) := by
  rw [List.pairwise_flatMap]
  refine ⟨fun a _ => pairwise_lanes, h.imp ?_⟩
  intro a b hab x hx y hy hc
  obtain ⟨_, h1, h2⟩ := mem_lanes.1 hx
  obtain ⟨_, h1', h2'⟩ := mem_lanes.1 hy
  have := hab (by unfold CP; have := hc.2; rw [h2, h2'] at this; exact this)
  unfold BLo at this
  unfold BeforeLo
  rw [h1, h1', h2, h2']
  exact this

/-- Lists on different lanes never conflict. -/
theorem pw_flat_lanes {ι : Type*} {l : List ι} {e : ι → Int} {T : ι → List (Int × Int)} {g : Int} {before : Op → Op → Prop}
    (h : ∀ i ∈ l, (onLane (e i) (T i)).Pairwise (fun a b => Conflict g a b → before a b))
    (hne : l.Pairwise (fun i i' => e i ≠ e i')) :
    (l.flatMap fun i => onLane (e i) (T i)).Pairwise (fun a b => Conflict g a b → before a b) := by
  rw [List.pairwise_flatMap]
  refine ⟨h, hne.imp ?_⟩
  intro i i' hi x hx y hy hc
  have h1 := (mem_onLane.1 hx).1
  have h2 := (mem_onLane.1 hy).1
  exact absurd (by rw [← h1, ← h2]; exact hc.1) hi

/-- Lanes of the scalar prelude: `per*s + t` for `1 ≤ s < q`, `0 ≤ t < per`. -/
def preLanes (q per : Int) : List (Int × Int) := (rUp 1 q).flatMap fun s => (rUp 0 per).map fun t => (s, t)

theorem mem_preLanes {q per : Int} {a : Int × Int} : a ∈ preLanes q per ↔ (1 ≤ a.1 ∧ a.1 < q) ∧ (0 ≤ a.2 ∧ a.2 < per) := by
  obtain ⟨s, t⟩ := a
  unfold preLanes
  simp only [List.mem_flatMap, List.mem_map, mem_rUp, Prod.mk.injEq]
  constructor
  · rintro ⟨s, h, t, h', rfl, rfl⟩; exact ⟨h, h'⟩
  · rintro ⟨h, h'⟩; exact ⟨s, h, t, h', rfl, rfl⟩

theorem pw_preLanes {q per : Int} : (preLanes q per).Pairwise (fun a b => per * a.1 + a.2 ≠ per * b.1 + b.2) := by
  unfold preLanes
  rw [List.pairwise_flatMap]
  constructor
  · intro s _
    rw [List.pairwise_map]
    refine (pairwise_rUp _ _).imp ?_
    intro a b h; simp only; omega
  · refine (pairwise_rUp _ _).imp ?_
    intro s s' h x hx y hy
    simp only [List.mem_map, mem_rUp] at hx hy
    obtain ⟨t, ht, rfl⟩ := hx
    obtain ⟨t', ht', rfl⟩ := hy
    simp only
    have : per * (s + 1) ≤ per * s' := Int.mul_le_mul_of_nonneg_left (by omega) (by omega)
    rw [Int.mul_add, Int.mul_one] at this
    omega

section
variable {G : Geom} {RP : RotPlan K} {o S : Int}

/-- A scalar `hi2lo` kernel as operations on one lane. -/
theorem kernelHi2lo_lane (hG : GeomOK G) (h : InB G RP) {m1 m2 e : Int} (hm : 0 ≤ m1) (A : Buf K) :
    kernelHi2lo G RP m1 m2 (o + e) S A =
      exec (sop (sgnS false G RP) (tabC G RP) o S G.g) (onLane e (hiOps G RP.n m1 m2)) A := by
  rw [kernelHi2lo_exec, onLane, exec_map]
  apply exec_congr
  rintro ⟨j, k⟩ ha B
  obtain ⟨_, h1, h2, h3⟩ := (mem_hiOps hG.jst).1 ha
  exact rotAt_eq hG h (by omega) h2 h3 B

theorem kernelLo2hi_lane (hG : GeomOK G) (h : InB G RP) {m1 m2 e : Int} (hm : 0 ≤ m1) (A : Buf K) :
    kernelLo2hi G RP m1 m2 (o + e) S A =
      exec (sop (sgnS true G RP) (tabC G RP) o S G.g) (onLane e (loOps G RP.n m1 m2)) A := by
  rw [kernelLo2hi_exec, onLane, exec_map]
  apply exec_congr
  rintro ⟨j, k⟩ ha B
  obtain ⟨⟨t, ht⟩, h1, h2, h3⟩ := (mem_loOps hG.jst).1 ha
  have : 0 ≤ G.jst * (t : Int) := Int.mul_nonneg (by have := hG.jst; omega) (by omega)
  exact rotAtT_eq hG h (by omega) h2 h3 B

/-- The scalar prelude of a `hi2lo` kernel. -/
theorem preHi_exec (hG : GeomOK G) (h : InB G RP) {m2 q per : Int} (hm : 0 ≤ m2) (A : Buf K) :
    forUp 1 q (fun s => forUp 0 per (fun t => kernelHi2lo G RP m2 (m2 + G.jst * s) (o + per * s + t) S)) A =
      exec (sop (sgnS false G RP) (tabC G RP) o S G.g)
        ((preLanes q per).flatMap fun a => onLane (per * a.1 + a.2) (hiOps G RP.n m2 (m2 + G.jst * a.1))) A := by
  rw [forUp_exec, exec_flatMap, preLanes, exec_flatMap]
  apply exec_congr
  intro s _ B
  rw [forUp_exec, exec_map]
  apply exec_congr
  intro t _ B
  rw [Int.add_assoc, kernelHi2lo_lane hG h hm]

theorem preLo_exec (hG : GeomOK G) (h : InB G RP) {m2 q per : Int} (hm : 0 ≤ m2) (A : Buf K) :
    forUp 1 q (fun s => forUp 0 per (fun t => kernelLo2hi G RP m2 (m2 + G.jst * s) (o + per * s + t) S)) A =
      exec (sop (sgnS true G RP) (tabC G RP) o S G.g)
        ((preLanes q per).flatMap fun a => onLane (per * a.1 + a.2) (loOps G RP.n m2 (m2 + G.jst * a.1))) A := by
  rw [forUp_exec, exec_flatMap, preLanes, exec_flatMap]
  apply exec_congr
  intro s _ B
  rw [forUp_exec, exec_map]
  apply exec_congr
  intro t _ B
  rw [Int.add_assoc, kernelLo2hi_lane hG h hm]

/-- Cutting the orders of lane `e` at `m2`. -/
theorem hi_split {jst m1 m2 s j : Int} (hj : 0 < jst) (hs : 0 ≤ s) (hm : m1 ≤ m2) :
    ((∃ t : Nat, j = m2 + jst * s - jst - jst * t) ∧ m1 ≤ j) ↔
      ((∃ t : Nat, j = m2 + jst * s - jst - jst * t) ∧ m2 ≤ j) ∨ ((∃ t : Nat, j = m2 - jst - jst * t) ∧ m1 ≤ j) := by
  constructor
  · rintro ⟨⟨t, ht⟩, h1⟩
    by_cases h : m2 ≤ j
    · exact Or.inl ⟨⟨t, ht⟩, h⟩
    · refine Or.inr ⟨⟨((t : Int) - s).toNat, ?_⟩, h1⟩
      have : jst * (s - 1 - t) < jst * 0 := by
        rw [show jst * (s - 1 - t) = jst * s - jst - jst * t by ring]; omega
      have := Int.lt_of_mul_lt_mul_left this (by omega)
      rw [Int.toNat_of_nonneg (by omega), ht]
      ring
  · rintro (⟨h1, h2⟩ | ⟨⟨t, ht⟩, h2⟩)
    · exact ⟨h1, by omega⟩
    · refine ⟨⟨s.toNat + t, ?_⟩, h2⟩
      push_cast
      rw [Int.toNat_of_nonneg hs, ht]
      ring

theorem lo_split {jst m1 m2 s j : Int} (hj : 0 < jst) (hs : 0 ≤ s) (hm : m1 ≤ m2) (hd : jst ∣ m2 - m1) :
    ((∃ t : Nat, j = m1 + jst * t) ∧ j < m2 + jst * s) ↔
      ((∃ t : Nat, j = m1 + jst * t) ∧ j < m2) ∨ ((∃ t : Nat, j = m2 + jst * t) ∧ j < m2 + jst * s) := by
  obtain ⟨d, hd⟩ := hd
  have hd0 : 0 ≤ d := by
    by_contra hn
    have : jst * d ≤ jst * (-1) := Int.mul_le_mul_of_nonneg_left (by omega) (by omega)
    omega
  constructor
  · rintro ⟨⟨t, ht⟩, h1⟩
    by_cases h : j < m2
    · exact Or.inl ⟨⟨t, ht⟩, h⟩
    · refine Or.inr ⟨⟨((t : Int) - d).toNat, ?_⟩, h1⟩
      have : jst * d ≤ jst * t := by omega
      have := Int.le_of_mul_le_mul_left this hj
      rw [Int.toNat_of_nonneg (by omega), ht, Int.mul_sub]
      omega
  · rintro (⟨h1, h2⟩ | ⟨⟨t, ht⟩, h2⟩)
    · have : 0 ≤ jst * s := Int.mul_nonneg (by omega) hs
      exact ⟨h1, by omega⟩
    · refine ⟨⟨d.toNat + t, ?_⟩, h2⟩
      push_cast
      rw [Int.toNat_of_nonneg hd0, ht, Int.mul_add]
      omega

/-- Lane `e` of a vector belongs to the prelude or is one of the first `per` lanes. -/
theorem lane_split {VS : Nat} {per e : Int} (hper : 0 < per) (hd : per ∣ (VS : Int)) (h0 : 0 ≤ e) (h1 : e < VS) :
    (e / per = 0) ∨ (e / per, e % per) ∈ preLanes (VS / per) per := by
  by_cases h : e / per = 0
  · exact Or.inl h
  · right
    rw [mem_preLanes]
    have := Int.ediv_nonneg h0 (by omega : 0 ≤ per)
    refine ⟨⟨by simp only; omega, ?_⟩, ⟨Int.emod_nonneg _ (by omega), Int.emod_lt_of_pos _ hper⟩⟩
    obtain ⟨q, hq⟩ := hd
    simp only
    rw [hq, Int.mul_ediv_cancel_left _ (by omega)]
    exact Int.ediv_lt_of_lt_mul hper (by rw [Int.mul_comm]; omega)

theorem preLane_ok {VS : Nat} {per : Int} (hper : 0 < per) (hd : per ∣ (VS : Int)) {a : Int × Int}
    (ha : a ∈ preLanes (VS / per) per) :
    0 ≤ per * a.1 + a.2 ∧ per * a.1 + a.2 < VS ∧ (per * a.1 + a.2) / per = a.1 := by
  obtain ⟨⟨h1, h2⟩, h3, h4⟩ := mem_preLanes.1 ha
  obtain ⟨q, hq⟩ := hd
  rw [hq, Int.mul_ediv_cancel_left _ (by omega)] at h2
  have : per * (a.1 + 1) ≤ per * q := Int.mul_le_mul_of_nonneg_left (by omega) (by omega)
  rw [Int.mul_add, Int.mul_one] at this
  have h0 : 0 ≤ per * a.1 := Int.mul_nonneg (by omega) (by omega)
  refine ⟨by omega, by omega, ?_⟩
  rw [Int.add_comm, Int.add_mul_ediv_left _ _ (by omega), Int.ediv_eq_zero_of_lt h3 h4]
  omega

variable {V : VGeom} {L : Int} {VS : Nat}

/-- The vector kernel runs the scalar kernel on every lane. -/
theorem kernelVHi2lo_eq (hG : GeomOK V.G) (h : InB V.G RP) (hj : V.G.jst = 1 ∨ V.G.jst = 2) (hg : V.G.g = 1 ∨ V.G.g = 2)
    (hL : 0 < L) (hsl : 0 ≤ V.slack) (hper : 0 < V.per) (hd : V.per ∣ (VS : Int)) {m1 m2 : Int} (hm : 0 ≤ m1) (hm2 : m1 ≤ m2)
    {A : Buf K} (hA : VFits VS RP.n o S A.size) (junk : Int → Int → K) :
    kernelVHi2lo V L VS junk RP m1 m2 o S A =
      forUp 0 VS (fun e => kernelHi2lo V.G RP m1 (m2 + V.G.jst * (e / V.per)) (o + e) S) A := by
  have hvec : ∀ B : Buf K, VFits VS RP.n o S B.size → _ :=
    fun B hB => vecHi_exec (m1 := m1) (m2 := m2) (bnd := m1 + V.G.jst * L - V.G.jst + V.slack) hG h hj hg hL hm (by omega) hB
      (⟨((V.G.g + 1) * L).toNat, junk⟩ : Buf (Int → K)) rfl
  have htab := vecHi_tab (RP := RP) hG hj hg hL (m2 := m2) (bnd := m1 + V.G.jst * L - V.G.jst + V.slack) hm (by omega)
  have hrhs : forUp 0 VS (fun e => kernelHi2lo V.G RP m1 (m2 + V.G.jst * (e / V.per)) (o + e) S) A =
      exec (sop (sgnS false V.G RP) (tabC V.G RP) o S V.G.g)
        ((rUp 0 VS).flatMap fun e => onLane e (hiOps V.G RP.n m1 (m2 + V.G.jst * (e / V.per)))) A := by
    rw [forUp_exec, exec_flatMap]
    apply exec_congr
    intro e _ B
    exact kernelHi2lo_lane hG h hm B
  have hlhs : kernelVHi2lo V L VS junk RP m1 m2 o S A =
      exec (sop (sgnS false V.G RP) (tabC V.G RP) o S V.G.g)
        (((preLanes (VS / V.per) V.per).flatMap fun a => onLane (V.per * a.1 + a.2) (hiOps V.G RP.n m2 (m2 + V.G.jst * a.1))) ++
          (vecHi L V.G.jst V.G.g m1 m2 (m1 + V.G.jst * L - V.G.jst + V.slack) (V.G.top RP.n)).flatMap fun a => lanes VS a.1 a.2) A := by
    unfold kernelVHi2lo
    simp only
    rw [preHi_exec hG h (by omega), exec_append]
    cases e : exec (sop (sgnS false V.G RP) (tabC V.G RP) o S V.G.g)
        ((preLanes (VS / V.per) V.per).flatMap fun a => onLane (V.per * a.1 + a.2) (hiOps V.G RP.n m2 (m2 + V.G.jst * a.1))) A with
    | none => rfl
    | some B =>
      have hB : VFits VS RP.n o S B.size := by
        have : B.size = A.size := by
          refine exec_preserves (fun B : Buf K => B.size = A.size) rfl ?_ e
          intro a _ B B' hB e
          obtain ⟨h1, h2⟩ := applyGivens_some e
          unfold sop at e
          rw [applyGivens_of h1 h2] at e
          cases e
          exact hB
        rw [this]; exact hA
      rw [Option.bind_some, Option.bind_some, ← exec_vop_lanes hG hB htab]
      exact hvec B hB
  rw [hlhs, hrhs]
  refine simd_reorder hA.vs BeforeHi beforeHi_asymm ?_ ?_ ?_ ?_ A
  · rw [List.pairwise_append]
    refine ⟨pw_flat_lanes (fun a _ => pw_onLane_hi (pw_hiOps hG.jst _ _ _ _)) pw_preLanes, pw_lanes_hi (pw_vecHi hj hg hL), ?_⟩
    intro x hx y hy _
    obtain ⟨a, ha, hx⟩ := List.mem_flatMap.1 hx
    obtain ⟨_, hx⟩ := mem_onLane.1 hx
    obtain ⟨_, hx, _⟩ := (mem_hiOps hG.jst).1 hx
    obtain ⟨⟨jj, kk⟩, hb, hy⟩ := List.mem_flatMap.1 hy
    obtain ⟨⟨t, ht⟩, _⟩ := (mem_vecHi hj hg hL (by omega) (hG.shift RP.n)).1 hb
    obtain ⟨_, hy, _⟩ := mem_lanes.1 hy
    have : 0 ≤ V.G.jst * (t : Int) := Int.mul_nonneg (by omega) (by omega)
    left
    rw [hy]
    simp only
    omega
  · exact pw_flat_lanes (e := fun e => e) (fun a _ => pw_onLane_hi (pw_hiOps hG.jst _ _ _ _)) ((pairwise_rUp _ _).imp (fun h => by omega))
  · rintro ⟨e, j, k⟩
    simp only [List.mem_append, List.mem_flatMap, mem_onLane, mem_hiOps hG.jst, mem_rUp]
    have hv : ∀ j k, (j, k) ∈ vecHi L V.G.jst V.G.g m1 m2 (m1 + V.G.jst * L - V.G.jst + V.slack) (V.G.top RP.n) ↔ _ := fun j k =>
      mem_vecHi hj hg hL (by omega) (hG.shift RP.n)
    constructor
    · rintro (⟨a, ha, rfl, ⟨t, ht⟩, h1, h2⟩ | ⟨⟨j', k'⟩, hb, hy⟩)
      · obtain ⟨p1, p2, p3⟩ := preLane_ok hper hd ha
        refine ⟨_, ⟨p1, p2⟩, rfl, ⟨t, ?_⟩, by omega, h2⟩
        rw [p3]; exact ht
      · obtain ⟨he, rfl, rfl⟩ := mem_lanes.1 hy
        obtain ⟨h1, h2, h3⟩ := (hv _ _).1 hb
        have hs : 0 ≤ e / V.per := Int.ediv_nonneg he.1 (by omega)
        obtain ⟨h4, h5⟩ := (hi_split (s := e / V.per) (by omega) hs hm2).2 (Or.inr ⟨h1, h2⟩)
        exact ⟨e, he, rfl, h4, h5, h3⟩
    · rintro ⟨e', he, rfl, h1, h2, h3⟩
      have hs : 0 ≤ e / V.per := Int.ediv_nonneg he.1 (by omega)
      rcases (hi_split (s := e / V.per) (by omega) hs hm2).1 ⟨h1, h2⟩ with ⟨h4, h5⟩ | ⟨h4, h5⟩
      · rcases lane_split hper hd he.1 he.2 with h6 | h6
        · rw [h6] at h4
          obtain ⟨t, ht⟩ := h4
          have : 0 ≤ V.G.jst * (t : Int) := Int.mul_nonneg (by omega) (by omega)
          rw [Int.mul_zero] at ht
          omega
        · exact Or.inl ⟨_, h6, (Int.mul_ediv_add_emod _ _).symm, h4, h5, h3⟩
      · exact Or.inr ⟨(j, k), (hv _ _).2 ⟨h4, h5, h3⟩, mem_lanes.2 ⟨he, rfl, rfl⟩⟩
  · intro a ha
    rcases List.mem_append.1 ha with ha | ha
    · obtain ⟨b, hb, ha⟩ := List.mem_flatMap.1 ha
      obtain ⟨p1, p2, p3⟩ := preLane_ok hper hd hb
      rw [(mem_onLane.1 ha).1]
      exact ⟨p1, p2⟩
    · obtain ⟨b, hb, ha⟩ := List.mem_flatMap.1 ha
      exact (mem_lanes.1 ha).1

/-- The vector kernel runs the scalar kernel on every lane. -/
theorem kernelVLo2hi_eq (hG : GeomOK V.G) (h : InB V.G RP) (hj : V.G.jst = 1 ∨ V.G.jst = 2) (hg : V.G.g = 1 ∨ V.G.g = 2)
    (hL : 0 < L) (hper : 0 < V.per) (hVS : 1 ≤ VS) (hd : V.per ∣ (VS : Int)) {m1 m2 : Int} (hm : 0 ≤ m1) (hm2 : m1 ≤ m2)
    (hdj : V.G.jst ∣ m2 - m1)
    (htop : ∀ j, m1 ≤ j → j < m2 - V.G.jst * L - V.G.jst * VS + 2 * V.G.jst → V.G.g * L ≤ V.G.top RP.n j + 1)
    {A : Buf K} (hA : VFits VS RP.n o S A.size) (junk : Int → Int → K) :
    kernelVLo2hi V L VS junk RP m1 m2 o S A =
      forUp 0 VS (fun e => kernelLo2hi V.G RP m1 (m2 + V.G.jst * (e / V.per)) (o + e) S) A := by
  have hbnd : m2 - V.G.jst * L - V.G.jst * VS + 2 * V.G.jst ≤ m2 - V.G.jst * L + V.G.jst := by
    have : V.G.jst * 1 ≤ V.G.jst * (VS : Int) := Int.mul_le_mul_of_nonneg_left (by omega) (by omega)
    omega
  have hvec := vecLo_exec (m1 := m1) (m2 := m2) (bnd := m2 - V.G.jst * L - V.G.jst * VS + 2 * V.G.jst) hG h hj hg hL hm hbnd htop hA
      (⟨((V.G.g + 1) * L).toNat, junk⟩ : Buf (Int → K)) rfl
  have htab := vecLo_tab (RP := RP) hG hj hg hL (m2 := m2) hm hbnd htop
  have hrhs : forUp 0 VS (fun e => kernelLo2hi V.G RP m1 (m2 + V.G.jst * (e / V.per)) (o + e) S) A =
      exec (sop (sgnS true V.G RP) (tabC V.G RP) o S V.G.g)
        ((rUp 0 VS).flatMap fun e => onLane e (loOps V.G RP.n m1 (m2 + V.G.jst * (e / V.per)))) A := by
    rw [forUp_exec, exec_flatMap]
    apply exec_congr
    intro e _ B
    exact kernelLo2hi_lane hG h hm B
  have hlhs : kernelVLo2hi V L VS junk RP m1 m2 o S A =
      exec (sop (sgnS true V.G RP) (tabC V.G RP) o S V.G.g)
        (((vecLo L V.G.jst V.G.g m1 m2 (m2 - V.G.jst * L - V.G.jst * VS + 2 * V.G.jst) (V.G.top RP.n)).flatMap fun a => lanes VS a.1 a.2) ++
        ((preLanes (VS / V.per) V.per).flatMap fun a => onLane (V.per * a.1 + a.2) (loOps V.G RP.n m2 (m2 + V.G.jst * a.1)))) A := by
    unfold kernelVLo2hi
    simp only
    rw [exec_append, ← exec_vop_lanes hG hA htab, ← hvec, Option.bind_assoc]
    congr 1; funext B
    congr 1; funext C
    rw [preLo_exec hG h (by omega)]
  rw [hlhs, hrhs]
  refine simd_reorder hA.vs BeforeLo beforeLo_asymm ?_ ?_ ?_ ?_ A
  · rw [List.pairwise_append]
    refine ⟨pw_lanes_lo (pw_vecLo hj hg hL), pw_flat_lanes (fun a _ => pw_onLane_lo (pw_loOps hG.jst _ _ _ _)) pw_preLanes, ?_⟩
    intro x hx y hy _
    obtain ⟨a, ha, hy⟩ := List.mem_flatMap.1 hy
    obtain ⟨_, hy⟩ := mem_onLane.1 hy
    obtain ⟨⟨t, ht⟩, _⟩ := (mem_loOps hG.jst).1 hy
    obtain ⟨⟨jj, kk⟩, hb, hx⟩ := List.mem_flatMap.1 hx
    obtain ⟨_, hlt, _⟩ := (mem_vecLo hj hg hL hbnd htop (hG.shift' RP.n)).1 hb
    obtain ⟨_, hx, _⟩ := mem_lanes.1 hx
    have : 0 ≤ V.G.jst * (t : Int) := Int.mul_nonneg (by omega) (by omega)
    left
    rw [hx]
    simp only
    omega
  · exact pw_flat_lanes (e := fun e => e) (fun a _ => pw_onLane_lo (pw_loOps hG.jst _ _ _ _)) ((pairwise_rUp _ _).imp (fun h => by omega))
  · rintro ⟨e, j, k⟩
    simp only [List.mem_append, List.mem_flatMap, mem_onLane, mem_loOps hG.jst, mem_rUp]
    have hv : ∀ j k, (j, k) ∈ vecLo L V.G.jst V.G.g m1 m2 (m2 - V.G.jst * L - V.G.jst * VS + 2 * V.G.jst) (V.G.top RP.n) ↔ _ := fun j k =>
      mem_vecLo hj hg hL hbnd htop (hG.shift' RP.n)
    constructor
    · rintro (⟨⟨j', k'⟩, hb, hy⟩ | ⟨a, ha, rfl, h1, h2, h3⟩)
      · obtain ⟨he, rfl, rfl⟩ := mem_lanes.1 hy
        obtain ⟨h1, h2, h3⟩ := (hv _ _).1 hb
        have hs : 0 ≤ e / V.per := Int.ediv_nonneg he.1 (by omega)
        obtain ⟨h4, h5⟩ := (lo_split (s := e / V.per) (by omega) hs hm2 hdj).2 (Or.inl ⟨h1, h2⟩)
        exact ⟨e, he, rfl, h4, h5, h3⟩
      · obtain ⟨p1, p2, p3⟩ := preLane_ok hper hd ha
        have hs : 0 ≤ a.1 := by have := (mem_preLanes.1 ha).1; omega
        obtain ⟨h4, h5⟩ := (lo_split (by omega) hs hm2 hdj).2 (Or.inr ⟨h1, h2⟩)
        refine ⟨_, ⟨p1, p2⟩, rfl, h4, ?_, h3⟩
        rw [p3]; exact h5
    · rintro ⟨e', he, rfl, h1, h2, h3⟩
      have hs : 0 ≤ e / V.per := Int.ediv_nonneg he.1 (by omega)
      rcases (lo_split (s := e / V.per) (by omega) hs hm2 hdj).1 ⟨h1, h2⟩ with ⟨h4, h5⟩ | ⟨h4, h5⟩
      · exact Or.inl ⟨(j, k), (hv _ _).2 ⟨h4, h5, h3⟩, mem_lanes.2 ⟨he, rfl, rfl⟩⟩
      · rcases lane_split hper hd he.1 he.2 with h6 | h6
        · rw [h6, Int.mul_zero] at h5
          obtain ⟨t, ht⟩ := h4
          have : 0 ≤ V.G.jst * (t : Int) := Int.mul_nonneg (by omega) (by omega)
          omega
        · exact Or.inr ⟨_, h6, (Int.mul_ediv_add_emod _ _).symm, h4, h5, h3⟩
  · intro a ha
    rcases List.mem_append.1 ha with ha | ha
    · obtain ⟨b, hb, ha⟩ := List.mem_flatMap.1 ha
      exact (mem_lanes.1 ha).1
    · obtain ⟨b, hb, ha⟩ := List.mem_flatMap.1 ha
      obtain ⟨p1, p2, p3⟩ := preLane_ok hper hd hb
      rw [(mem_onLane.1 ha).1]
      exact ⟨p1, p2⟩

end

end FT
