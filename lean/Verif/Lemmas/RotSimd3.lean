import Verif.Lemmas.RotSimd2

namespace FT

/-- Pairs of (order, row) touching a common row. -/
def CP (g : Int) (a b : Int × Int) : Prop := a.2 = b.2 ∨ a.2 = b.2 + g ∨ b.2 = a.2 + g
def BHi (a b : Int × Int) : Prop := b.1 < a.1 ∨ (a.1 = b.1 ∧ b.2 < a.2)
def BLo (a b : Int × Int) : Prop := a.1 < b.1 ∨ (a.1 = b.1 ∧ a.2 < b.2)

section
variable {L jst g m1 m2 bnd : Int} {top : Int → Int}

theorem pw_tileHi (hj : jst = 1 ∨ jst = 2) (j k : Int) : (tileOpsHi L jst g j k).Pairwise (fun a b => CP g a b → BHi a b) := by
  unfold tileOpsHi
  rw [List.pairwise_flatMap]
  constructor
  · intro lj _
    rw [List.pairwise_map]
    refine (pairwise_rUp 0 L).imp ?_
    intro a b h _
    right; exact ⟨rfl, by simp only; omega⟩
  · refine (pairwise_rUp 0 L).imp ?_
    intro lj lj' h x hx y hy _
    simp only [List.mem_map] at hx hy
    obtain ⟨_, _, rfl⟩ := hx
    obtain ⟨_, _, rfl⟩ := hy
    left
    rcases hj with rfl | rfl <;> simp only <;> omega

theorem pw_tileLo (hj : jst = 1 ∨ jst = 2) (j k : Int) : (tileOpsLo L jst g j k).Pairwise (fun a b => CP g a b → BLo a b) := by
  unfold tileOpsLo
  rw [List.pairwise_flatMap]
  constructor
  · intro lj _
    rw [List.pairwise_map]
    refine (pairwise_rUp 0 L).imp ?_
    intro a b h _
    right; exact ⟨rfl, by simp only; omega⟩
  · refine (pairwise_rUp 0 L).imp ?_
    intro lj lj' h x hx y hy _
    simp only [List.mem_map] at hx hy
    obtain ⟨_, _, rfl⟩ := hx
    obtain ⟨_, _, rfl⟩ := hy
    left
    rcases hj with rfl | rfl <;> simp only <;> omega

/-- Elements of the blocked `hi2lo` part: `order = J - jst*lj` with `0 ≤ lj < L`. -/
theorem mem_blockHi_order {j : Int} {a : Int × Int} (h : a ∈ blockHi L jst g top j) :
    ∃ lj, 0 ≤ lj ∧ lj < L ∧ a.1 = j - jst * lj := by
  unfold blockHi at h
  rw [List.mem_append] at h
  rcases h with h | h
  · simp only [List.mem_flatMap] at h
    obtain ⟨k, _, h⟩ := h
    obtain ⟨lj, lk, h1, h2, h3, h4⟩ := mem_tileOpsHi.1 h
    exact ⟨lj, h1.1, h1.2, h3⟩
  · simp only [List.mem_flatMap, List.mem_map, mem_rUp] at h
    obtain ⟨lj, h1, lk, h2, rfl⟩ := h
    exact ⟨lj, h1.1, h1.2, rfl⟩

theorem mem_blockLo_order {j : Int} {a : Int × Int} (h : a ∈ blockLo L jst g top j) :
    ∃ lj, 0 ≤ lj ∧ lj < L ∧ a.1 = j + jst * lj := by
  unfold blockLo at h
  rw [List.mem_append] at h
  rcases h with h | h
  · simp only [List.mem_flatMap, List.mem_map, mem_rUp] at h
    obtain ⟨lj, h1, lk, h2, rfl⟩ := h
    exact ⟨lj, h1.1, h1.2, rfl⟩
  · simp only [List.mem_flatMap] at h
    obtain ⟨k, _, h⟩ := h
    obtain ⟨lj, lk, h1, h2, h3, h4⟩ := mem_tileOpsLo.1 h
    exact ⟨lj, h1.1, h1.2, h3⟩

theorem pw_blockHi (hj : jst = 1 ∨ jst = 2) (hg : g = 1 ∨ g = 2) (hL : 0 < L) (j : Int) :
    (blockHi L jst g top j).Pairwise (fun a b => CP g a b → BHi a b) := by
  unfold blockHi
  rw [List.pairwise_append]
  refine ⟨?_, ?_, ?_⟩
  · rw [List.pairwise_flatMap]
    refine ⟨fun k _ => pw_tileHi hj j k, ?_⟩
    refine (pairwise_rStepDown hL).imp ?_
    intro k k' hk x hx y hy hc
    obtain ⟨lj, lk, h1, h2, h3, h4⟩ := mem_tileOpsHi.1 hx
    obtain ⟨lj', lk', h1', h2', h3', h4'⟩ := mem_tileOpsHi.1 hy
    unfold CP at hc
    unfold BHi
    rw [h3, h3']
    rw [h4, h4'] at hc ⊢
    rcases hj with rfl | rfl <;> rcases hg with rfl | rfl <;> omega
  · rw [List.pairwise_flatMap]
    constructor
    · intro lj _
      rw [List.pairwise_map]
      refine (pairwise_rDown _ _).imp ?_
      intro a b h _
      right; exact ⟨rfl, h⟩
    · refine (pairwise_rUp 0 L).imp ?_
      intro lj lj' h x hx y hy _
      simp only [List.mem_map] at hx hy
      obtain ⟨_, _, rfl⟩ := hx
      obtain ⟨_, _, rfl⟩ := hy
      left
      rcases hj with rfl | rfl <;> simp only <;> omega
  · intro x hx y hy hc
    simp only [List.mem_flatMap] at hx
    obtain ⟨k, hk, hx⟩ := hx
    obtain ⟨lj, lk, h1, h2, h3, h4⟩ := mem_tileOpsHi.1 hx
    simp only [List.mem_flatMap, List.mem_map, mem_rUp, mem_rDown] at hy
    obtain ⟨lj', h1', lk', h2', rfl⟩ := hy
    have hlast := mem_rStepDown_last hL hk
    unfold CP at hc
    unfold BHi
    simp only at hc ⊢
    rw [h3]
    rw [h4] at hc ⊢
    rcases hj with rfl | rfl <;> rcases hg with rfl | rfl <;> omega

theorem pw_blockLo (hj : jst = 1 ∨ jst = 2) (hg : g = 1 ∨ g = 2) (hL : 0 < L) (j : Int) :
    (blockLo L jst g top j).Pairwise (fun a b => CP g a b → BLo a b) := by
  unfold blockLo
  rw [List.pairwise_append]
  refine ⟨?_, ?_, ?_⟩
  · rw [List.pairwise_flatMap]
    constructor
    · intro lj _
      rw [List.pairwise_map]
      refine (pairwise_rUp _ _).imp ?_
      intro a b h _
      right; exact ⟨rfl, h⟩
    · refine (pairwise_rUp 0 L).imp ?_
      intro lj lj' h x hx y hy _
      simp only [List.mem_map] at hx hy
      obtain ⟨_, _, rfl⟩ := hx
      obtain ⟨_, _, rfl⟩ := hy
      left
      rcases hj with rfl | rfl <;> simp only <;> omega
  · rw [List.pairwise_flatMap]
    refine ⟨fun k _ => pw_tileLo hj j k, ?_⟩
    refine (pairwise_rStep hL).imp ?_
    intro k k' hk x hx y hy hc
    obtain ⟨lj, lk, h1, h2, h3, h4⟩ := mem_tileOpsLo.1 hx
    obtain ⟨lj', lk', h1', h2', h3', h4'⟩ := mem_tileOpsLo.1 hy
    unfold CP at hc
    unfold BLo
    rw [h3, h3']
    rw [h4, h4'] at hc ⊢
    rcases hj with rfl | rfl <;> rcases hg with rfl | rfl <;> omega
  · intro x hx y hy hc
    simp only [List.mem_flatMap] at hy
    obtain ⟨k, hk, hy⟩ := hy
    obtain ⟨lj, lk, h1, h2, h3, h4⟩ := mem_tileOpsLo.1 hy
    simp only [List.mem_flatMap, List.mem_map, mem_rUp] at hx
    obtain ⟨lj', h1', lk', h2', rfl⟩ := hx
    obtain ⟨⟨i, hi⟩, -⟩ := (mem_rStep hL).1 hk
    have hi0 : 0 ≤ L * (i : Int) := Int.mul_nonneg (by omega) (by omega)
    unfold CP at hc
    unfold BLo
    simp only at hc ⊢
    rw [h3]
    rw [h4] at hc ⊢
    rcases hj with rfl | rfl <;> rcases hg with rfl | rfl <;> omega

theorem pw_vecHi (hj : jst = 1 ∨ jst = 2) (hg : g = 1 ∨ g = 2) (hL : 0 < L) :
    (vecHi L jst g m1 m2 bnd top).Pairwise (fun a b => CP g a b → BHi a b) := by
  have hst : 0 < jst * L := Int.mul_pos (by omega) hL
  unfold vecHi
  rw [List.pairwise_append]
  refine ⟨?_, ?_, ?_⟩
  · rw [List.pairwise_flatMap]
    refine ⟨fun j _ => pw_blockHi hj hg hL j, ?_⟩
    refine (pairwise_rStepDown hst).imp ?_
    intro j j' h x hx y hy _
    obtain ⟨lj, a, b, e⟩ := mem_blockHi_order hx
    obtain ⟨lj', a', b', e'⟩ := mem_blockHi_order hy
    left
    rw [e, e']
    rcases hj with rfl | rfl <;> omega
  · unfold restHi
    rw [List.pairwise_flatMap]
    constructor
    · intro j _
      rw [List.pairwise_map]
      refine (pairwise_rDown _ _).imp ?_
      intro a b h _
      right; exact ⟨rfl, h⟩
    · refine (pairwise_rStepDown (by omega)).imp ?_
      intro j j' h x hx y hy _
      simp only [List.mem_map] at hx hy
      obtain ⟨_, _, rfl⟩ := hx
      obtain ⟨_, _, rfl⟩ := hy
      left
      simp only; omega
  · intro x hx y hy _
    simp only [List.mem_flatMap] at hx
    obtain ⟨j, hjm, hx⟩ := hx
    obtain ⟨lj, a, b, e⟩ := mem_blockHi_order hx
    unfold restHi at hy
    simp only [List.mem_flatMap, List.mem_map] at hy
    obtain ⟨j', hjm', _, _, rfl⟩ := hy
    obtain ⟨⟨t, ht⟩, _⟩ := (mem_rStepDown' (by omega)).1 hjm'
    have := mem_rStepDown_last hst hjm
    left
    rw [e]
    simp only
    rcases hj with rfl | rfl <;> omega

theorem pw_vecLo (hj : jst = 1 ∨ jst = 2) (hg : g = 1 ∨ g = 2) (hL : 0 < L) :
    (vecLo L jst g m1 m2 bnd top).Pairwise (fun a b => CP g a b → BLo a b) := by
  have hst : 0 < jst * L := Int.mul_pos (by omega) hL
  unfold vecLo
  rw [List.pairwise_append]
  refine ⟨?_, ?_, ?_⟩
  · rw [List.pairwise_flatMap]
    refine ⟨fun j _ => pw_blockLo hj hg hL j, ?_⟩
    refine (pairwise_rStep hst).imp ?_
    intro j j' h x hx y hy _
    obtain ⟨lj, a, b, e⟩ := mem_blockLo_order hx
    obtain ⟨lj', a', b', e'⟩ := mem_blockLo_order hy
    left
    rw [e, e']
    rcases hj with rfl | rfl <;> omega
  · unfold restLo
    rw [List.pairwise_flatMap]
    constructor
    · intro j _
      rw [List.pairwise_map]
      refine (pairwise_rUp _ _).imp ?_
      intro a b h _
      right; exact ⟨rfl, h⟩
    · refine (pairwise_rStep (by omega)).imp ?_
      intro j j' h x hx y hy _
      simp only [List.mem_map] at hx hy
      obtain ⟨_, _, rfl⟩ := hx
      obtain ⟨_, _, rfl⟩ := hy
      left
      simp only; omega
  · intro x hx y hy _
    simp only [List.mem_flatMap] at hx
    obtain ⟨j, hjm, hx⟩ := hx
    obtain ⟨lj, a, b, e⟩ := mem_blockLo_order hx
    unfold restLo at hy
    simp only [List.mem_flatMap, List.mem_map] at hy
    obtain ⟨j', hjm', _, _, rfl⟩ := hy
    obtain ⟨⟨t, ht⟩, _⟩ := (mem_rStep (by omega)).1 hjm'
    have := mem_rStep_last hst hjm
    left
    rw [e]
    simp only
    rcases hj with rfl | rfl <;> omega

/-! ### Membership -/

theorem mem_blockHi (hL : 0 < L) (hg : g = 1 ∨ g = 2) {j : Int} {a : Int × Int}
    (hts : ∀ lj, 0 ≤ lj → top (j - jst * lj) = top j + g * lj) :
    a ∈ blockHi L jst g top j ↔ ∃ lj, (0 ≤ lj ∧ lj < L) ∧ a.1 = j - jst * lj ∧ 0 ≤ a.2 ∧ a.2 ≤ top a.1 := by
  unfold blockHi
  rw [List.mem_append]
  constructor
  · rintro (h | h)
    · simp only [List.mem_flatMap] at h
      obtain ⟨k, hk, h⟩ := h
      obtain ⟨lj, lk, h1, h2, h3, h4⟩ := mem_tileOpsHi.1 h
      obtain ⟨⟨i, hi⟩, hk'⟩ := (mem_rStepDown' hL).1 hk
      have : 0 ≤ L * (i : Int) := Int.mul_nonneg (by omega) (by omega)
      refine ⟨lj, h1, h3, ?_, ?_⟩
      · rw [h4]; rcases hg with rfl | rfl <;> omega
      · rw [h3, h4, hts lj h1.1]; rcases hg with rfl | rfl <;> omega
    · simp only [List.mem_flatMap, List.mem_map, mem_rUp, mem_rDown] at h
      obtain ⟨lj, h1, lk, h2, rfl⟩ := h
      refine ⟨lj, h1, rfl, h2.1, ?_⟩
      simp only
      rw [hts lj h1.1]
      have := lastDown_le (lo := L - 1) (hi := top j) hL
      omega
  · rintro ⟨lj, h1, h2, h3, h4⟩
    obtain ⟨x, k⟩ := a
    simp only at h2 h3 h4
    subst h2
    rw [hts lj h1.1] at h4
    have hd := split_down (lo := L - 1) (hi := top j) (st := L) (t := top j - (k - g * lj)) hL (by omega)
    rcases hd with hd | hd
    · left
      simp only [List.mem_flatMap]
      refine ⟨_, hd, mem_tileOpsHi.2 ⟨lj, (top j - (k - g * lj)) % L, h1,
        ⟨Int.emod_nonneg _ (by omega), Int.emod_lt_of_pos _ hL⟩, rfl, ?_⟩⟩
      have := Int.mul_ediv_add_emod (top j - (k - g * lj)) L
      simp only
      omega
    · right
      simp only [List.mem_flatMap, List.mem_map, mem_rUp, mem_rDown]
      refine ⟨lj, h1, k, ⟨h3, ?_⟩, rfl⟩
      unfold lastDown
      omega

theorem mem_vecHi (hj : jst = 1 ∨ jst = 2) (hg : g = 1 ∨ g = 2) (hL : 0 < L) (hb : m1 + jst * L - jst ≤ bnd)
    (hts : ∀ j lj, 0 ≤ lj → top (j - jst * lj) = top j + g * lj) {j k : Int} :
    (j, k) ∈ vecHi L jst g m1 m2 bnd top ↔ (∃ t : Nat, j = m2 - jst - jst * t) ∧ m1 ≤ j ∧ 0 ≤ k ∧ k ≤ top j := by
  have hst : 0 < jst * L := Int.mul_pos (by omega) hL
  have hj0 : 0 < jst := by omega
  unfold vecHi restHi
  rw [List.mem_append]
  simp only [List.mem_flatMap, mem_blockHi hL hg (hts _), List.mem_map, mem_rDown, Prod.mk.injEq]
  constructor
  · rintro (⟨J, hJ, lj, h1, h2, h3, h4⟩ | ⟨J, hJ, lk, h2, rfl, rfl⟩)
    · obtain ⟨⟨i, hi⟩, hJ'⟩ := (mem_rStepDown' hst).1 hJ
      refine ⟨⟨(L * i + lj).toNat, ?_⟩, ?_, h3, h4⟩
      · have : 0 ≤ L * (i : Int) := Int.mul_nonneg (by omega) (by omega)
        rw [Int.toNat_of_nonneg (by omega), h2, hi]
        ring
      · have : jst * lj ≤ jst * (L - 1) := Int.mul_le_mul_of_nonneg_left (by omega) (by omega)
        rw [Int.mul_sub, Int.mul_one] at this
        omega
    · obtain ⟨⟨i, hi⟩, hJ'⟩ := (mem_rStepDown' hj0).1 hJ
      refine ⟨⟨L.toNat * stepCount bnd (m2 - jst + 1) (jst * L) + i, ?_⟩, hJ', h2.1, h2.2⟩
      unfold lastDown at hi
      rw [hi]
      push_cast
      rw [Int.toNat_of_nonneg (by omega)]
      ring
  · rintro ⟨⟨t, ht⟩, h1, h2, h3⟩
    have hq : jst * (t : Int) / (jst * L) = t / L := Int.mul_ediv_mul_of_pos _ _ hj0
    have hr := Int.mul_ediv_add_emod (t : Int) L
    have hd := split_down (lo := bnd) (hi := m2 - jst) (st := jst * L) (t := jst * t) hst (Int.mul_nonneg (by omega) (by omega))
    rw [hq] at hd
    rcases hd with hd | hd
    · left
      refine ⟨_, hd, (t : Int) % L, ⟨Int.emod_nonneg _ (by omega), Int.emod_lt_of_pos _ hL⟩, ?_, h2, h3⟩
      rw [ht]
      have : jst * (t : Int) = jst * L * (t / L) + jst * (t % L) := by
        conv_lhs => rw [← hr]
        ring
      omega
    · right
      refine ⟨j, (mem_rStepDown' hj0).2 ⟨⟨(t - L * stepCount bnd (m2 - jst + 1) (jst * L)).toNat, ?_⟩, h1⟩, k, ⟨h2, h3⟩, rfl, rfl⟩
      have : L * (stepCount bnd (m2 - jst + 1) (jst * L) : Int) ≤ t := by
        rw [Int.mul_assoc] at hd
        exact Int.le_of_mul_le_mul_left hd hj0
      rw [Int.toNat_of_nonneg (by omega)]
      unfold lastDown
      rw [ht]
      ring

theorem mem_blockLo (hL : 0 < L) (hg : g = 1 ∨ g = 2) {j : Int} {a : Int × Int} (htop : g * L ≤ top j + 1)
    (hts : ∀ lj, 0 ≤ lj → top (j + jst * lj) = top j - g * lj) :
    a ∈ blockLo L jst g top j ↔ ∃ lj, (0 ≤ lj ∧ lj < L) ∧ a.1 = j + jst * lj ∧ 0 ≤ a.2 ∧ a.2 ≤ top a.1 := by
  unfold blockLo
  have htm : Int.tmod (top j + 1 - L) L = (top j + 1 - L) % L :=
    Int.tmod_eq_emod_of_nonneg (by rcases hg with rfl | rfl <;> omega)
  rw [htm]
  have hr0 := Int.emod_nonneg (top j + 1 - L) (b := L) (by omega)
  have hr1 := Int.emod_lt_of_pos (top j + 1 - L) (b := L) (by omega)
  -- top + 1 = k0 + L * z
  obtain ⟨z, hz0, hz⟩ : ∃ z : Int, 0 ≤ z ∧ top j + 1 = g * L + (top j + 1 - L) % L + L * z := by
    have hr := Int.mul_ediv_add_emod (top j + 1 - L) L
    refine ⟨(top j + 1 - L) / L + 1 - g, ?_, ?_⟩
    · by_contra hneg
      have : L * ((top j + 1 - L) / L + 1 - g) ≤ L * (-1) := Int.mul_le_mul_of_nonneg_left (by omega) (by omega)
      have e : L * ((top j + 1 - L) / L + 1 - g) = L * ((top j + 1 - L) / L) + L - g * L := by ring
      omega
    · have e : L * ((top j + 1 - L) / L + 1 - g) = L * ((top j + 1 - L) / L) + L - g * L := by ring
      omega
  generalize hk0 : g * L + (top j + 1 - L) % L = k0 at *
  have hLz : 0 ≤ L * z := Int.mul_nonneg (by omega) hz0
  rw [List.mem_append]
  constructor
  · rintro (h | h)
    · simp only [List.mem_flatMap, List.mem_map, mem_rUp] at h
      obtain ⟨lj, h1, lk, h2, rfl⟩ := h
      refine ⟨lj, h1, rfl, h2.1, ?_⟩
      simp only
      rw [hts lj h1.1]
      omega
    · simp only [List.mem_flatMap] at h
      obtain ⟨k, hk, h⟩ := h
      obtain ⟨lj, lk, h1, h2, h3, h4⟩ := mem_tileOpsLo.1 h
      obtain ⟨⟨i, hi⟩, hk'⟩ := (mem_rStep hL).1 hk
      have : 0 ≤ L * (i : Int) := Int.mul_nonneg (by omega) (by omega)
      refine ⟨lj, h1, h3, ?_, ?_⟩
      · rw [h4]; rcases hg with rfl | rfl <;> omega
      · rw [h3, h4, hts lj h1.1]; rcases hg with rfl | rfl <;> omega
  · rintro ⟨lj, h1, h2, h3, h4⟩
    obtain ⟨x, k⟩ := a
    simp only at h2 h3 h4
    subst h2
    rw [hts lj h1.1] at h4
    by_cases hlt : k + g * lj < k0
    · left
      simp only [List.mem_flatMap, List.mem_map, mem_rUp]
      exact ⟨lj, h1, k, ⟨h3, by omega⟩, rfl⟩
    · right
      have hr := Int.mul_ediv_add_emod (k + g * lj - k0) L
      have hr0 := Int.emod_nonneg (k + g * lj - k0) (b := L) (by omega)
      have hr1 := Int.emod_lt_of_pos (k + g * lj - k0) (b := L) (by omega)
      have hq0 : 0 ≤ (k + g * lj - k0) / L := Int.ediv_nonneg (by omega) (by omega)
      simp only [List.mem_flatMap]
      refine ⟨k0 + L * ((k + g * lj - k0) / L), (mem_rStep hL).2 ⟨⟨((k + g * lj - k0) / L).toNat, ?_⟩, ?_⟩, mem_tileOpsLo.2
        ⟨lj, (k + g * lj - k0) % L, h1, ⟨hr0, hr1⟩, rfl, ?_⟩⟩
      · rw [Int.toNat_of_nonneg hq0]
      · have hlz : L * ((k + g * lj - k0) / L) < L * z := by omega
        have := Int.lt_of_mul_lt_mul_left hlz (by omega)
        have : L * ((k + g * lj - k0) / L + 1) ≤ L * z := Int.mul_le_mul_of_nonneg_left (by omega) (by omega)
        rw [Int.mul_add, Int.mul_one] at this
        omega
      · simp only
        omega

/-- Membership in an ascending progression or beyond its end. -/
theorem split_up {lo hi st t : Int} (hst : 0 < st) (ht : 0 ≤ t) :
    (lo + st * (t / st) ∈ rStep lo hi st) ∨ st * (stepCount lo hi st : Int) ≤ t := by
  by_cases h : lo + st * (t / st) < hi
  · left
    rw [mem_rStep hst]
    exact ⟨⟨(t / st).toNat, by rw [Int.toNat_of_nonneg (Int.ediv_nonneg ht (by omega))]⟩, h⟩
  · right
    by_contra hc
    have h1 := (mem_stepCount (lo := lo) (hi := hi) hst (t / st).toNat)
    have hq : 0 ≤ t / st := Int.ediv_nonneg ht (by omega)
    rw [Int.toNat_of_nonneg hq] at h1
    have : ¬ ((t / st).toNat < stepCount lo hi st) := by rw [h1]; omega
    have h2 : (stepCount lo hi st : Int) ≤ t / st := by omega
    have h3 : st * (stepCount lo hi st : Int) ≤ st * (t / st) := Int.mul_le_mul_of_nonneg_left h2 (by omega)
    have h4 := Int.mul_ediv_self_le (x := t) (k := st) (by omega)
    omega

theorem mem_vecLo (hj : jst = 1 ∨ jst = 2) (hg : g = 1 ∨ g = 2) (hL : 0 < L) (hb : bnd ≤ m2 - jst * L + jst)
    (htop : ∀ j, m1 ≤ j → j < bnd → g * L ≤ top j + 1)
    (hts : ∀ j lj, 0 ≤ lj → top (j + jst * lj) = top j - g * lj) {j k : Int} :
    (j, k) ∈ vecLo L jst g m1 m2 bnd top ↔ (∃ t : Nat, j = m1 + jst * t) ∧ j < m2 ∧ 0 ≤ k ∧ k ≤ top j := by
  have hst : 0 < jst * L := Int.mul_pos (by omega) hL
  have hj0 : 0 < jst := by omega
  unfold vecLo restLo
  rw [List.mem_append]
  simp only [List.mem_flatMap, List.mem_map, mem_rUp, Prod.mk.injEq]
  have htop' : ∀ J ∈ rStep m1 bnd (jst * L), g * L ≤ top J + 1 := by
    intro J hJ
    obtain ⟨⟨i, hi⟩, hJ'⟩ := (mem_rStep hst).1 hJ
    have : 0 ≤ jst * L * (i : Int) := Int.mul_nonneg (by omega) (by omega)
    exact htop J (by omega) hJ'
  constructor
  · rintro (⟨J, hJ, hm⟩ | ⟨J, hJ, lk, h2, rfl, rfl⟩)
    · obtain ⟨lj, h1, h2, h3, h4⟩ := (mem_blockLo hL hg (htop' J hJ) (hts J)).1 hm
      obtain ⟨⟨i, hi⟩, hJ'⟩ := (mem_rStep hst).1 hJ
      refine ⟨⟨(L * i + lj).toNat, ?_⟩, ?_, h3, h4⟩
      · have : 0 ≤ L * (i : Int) := Int.mul_nonneg (by omega) (by omega)
        rw [Int.toNat_of_nonneg (by omega)]
        simp only at h2
        rw [h2, hi]
        ring
      · have : jst * lj ≤ jst * (L - 1) := Int.mul_le_mul_of_nonneg_left (by omega) (by omega)
        rw [Int.mul_sub, Int.mul_one] at this
        simp only at h2
        omega
    · obtain ⟨⟨i, hi⟩, hJ'⟩ := (mem_rStep hj0).1 hJ
      refine ⟨⟨L.toNat * stepCount m1 bnd (jst * L) + i, ?_⟩, hJ', h2.1, by omega⟩
      unfold lastUp at hi
      rw [hi]
      push_cast
      rw [Int.toNat_of_nonneg (by omega)]
      ring
  · rintro ⟨⟨t, ht⟩, h1, h2, h3⟩
    have hq : jst * (t : Int) / (jst * L) = t / L := Int.mul_ediv_mul_of_pos _ _ hj0
    have hr := Int.mul_ediv_add_emod (t : Int) L
    have hd := split_up (lo := m1) (hi := bnd) (st := jst * L) (t := jst * t) hst (Int.mul_nonneg (by omega) (by omega))
    rw [hq] at hd
    rcases hd with hd | hd
    · left
      refine ⟨_, hd, (mem_blockLo hL hg (htop' _ hd) (hts _)).2
        ⟨(t : Int) % L, ⟨Int.emod_nonneg _ (by omega), Int.emod_lt_of_pos _ hL⟩, ?_, h2, h3⟩⟩
      simp only
      rw [ht]
      have : jst * (t : Int) = jst * L * (t / L) + jst * (t % L) := by
        conv_lhs => rw [← hr]
        ring
      omega
    · right
      refine ⟨j, (mem_rStep hj0).2 ⟨⟨(t - L * stepCount m1 bnd (jst * L)).toNat, ?_⟩, h1⟩, k, ⟨h2, by omega⟩, rfl, rfl⟩
      have : L * (stepCount m1 bnd (jst * L) : Int) ≤ t := by
        rw [Int.mul_assoc] at hd
        exact Int.le_of_mul_le_mul_left hd hj0
      rw [Int.toNat_of_nonneg (by omega)]
      unfold lastUp
      rw [ht]
      ring

end

end FT
