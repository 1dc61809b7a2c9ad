import Verif.Lemmas.KernelProg

namespace FT
variable {K : Type*} [CommRing K]

/-- Positions of the rows `0 … n-1` of a column. -/
def ColR (n o S : Int) (p : Int) : Prop := ∃ k, 0 ≤ k ∧ k ≤ n - 1 ∧ p = o + k * S

/-- Positions of `VS` neighbouring lanes of `n` rows. -/
def LaneR (VS : Nat) (n o S : Int) (p : Int) : Prop := ∃ k e : Int, 0 ≤ k ∧ k ≤ n - 1 ∧ 0 ≤ e ∧ e < VS ∧ p = o + e + k * S

theorem LaneR.of_col {VS : Nat} {n o S e : Int} (h0 : 0 ≤ e) (h1 : e < VS) {p : Int} (h : ColR n (o + e) S p) : LaneR VS n o S p := by
  obtain ⟨k, a, b, rfl⟩ := h
  exact ⟨k, e, a, b, h0, h1, rfl⟩

theorem within_applyGivens {R : Int → Prop} (s c : K) {X Y : Int} (hX : R X) (hY : R Y) : (applyGivensP s c X Y).Within R :=
  ⟨hX, fun _ => ⟨hY, fun _ => ⟨hX, hY, trivial⟩⟩⟩

theorem within_applyGivensT {R : Int → Prop} (s c : K) {X Y : Int} (hX : R X) (hY : R Y) : (applyGivensTP s c X Y).Within R :=
  ⟨hX, fun _ => ⟨hY, fun _ => ⟨hX, hY, trivial⟩⟩⟩

theorem within_vGivens {R : Int → Prop} {VS : Nat} (s c : K) {X Y : Int} (hX : ∀ e : Int, 0 ≤ e → e < VS → R (X + e))
    (hY : ∀ e : Int, 0 ≤ e → e < VS → R (Y + e)) : (vGivensP VS s c X Y).Within R :=
  ⟨hX, fun _ => ⟨hY, fun _ => ⟨hX, hY, trivial⟩⟩⟩

theorem within_vGivensT {R : Int → Prop} {VS : Nat} (s c : K) {X Y : Int} (hX : ∀ e : Int, 0 ≤ e → e < VS → R (X + e))
    (hY : ∀ e : Int, 0 ≤ e → e < VS → R (Y + e)) : (vGivensTP VS s c X Y).Within R :=
  ⟨hX, fun _ => ⟨hY, fun _ => ⟨hX, hY, trivial⟩⟩⟩

theorem within_tab {R : Int → Prop} {G : Geom} {RP : RotPlan K} {k j : Int} {p : K → K → Prog K Unit} (h : ∀ s c, (p s c).Within R) :
    (tabP G RP k j p).Within R :=
  Prog.Within.bind (Prog.Within.ofOption _) fun s => Prog.Within.bind (Prog.Within.ofOption _) fun c => h s c

section
variable {G : Geom} {RP : RotPlan K} {o S m1 m2 : Int}

theorem within_kernelHi2lo (hG : GeomOK G) (hm : 0 ≤ m1) : (kernelHi2loP G RP m1 m2 o S).Within (ColR RP.n o S) := by
  refine Prog.Within.each (fun j hj _ => Prog.Within.each (fun k hk _ => within_tab fun s c => ?_) ()) ()
  obtain ⟨-, hj'⟩ := (mem_rStepDown' hG.jst).1 hj
  have hk' := mem_rDown.1 hk
  have := hG.top RP.n j (by omega)
  have := hG.g
  exact within_applyGivens s c ⟨k, by omega, by omega, rfl⟩ ⟨k + G.g, by omega, by omega, rfl⟩

theorem within_kernelLo2hi (hG : GeomOK G) (hm : 0 ≤ m1) : (kernelLo2hiP G RP m1 m2 o S).Within (ColR RP.n o S) := by
  refine Prog.Within.each (fun j hj _ => Prog.Within.each (fun k hk _ => within_tab fun s c => ?_) ()) ()
  obtain ⟨⟨t, ht⟩, hj'⟩ := (mem_rStep hG.jst).1 hj
  have hk' := mem_rUp.1 hk
  have hj : 0 ≤ j := by
    have : 0 ≤ G.jst * (t : Int) := Int.mul_nonneg (by have := hG.jst; omega) (by omega)
    omega
  have := hG.top RP.n j (by omega)
  have := hG.g
  exact within_applyGivensT s c ⟨k, by omega, by omega, rfl⟩ ⟨k + G.g, by omega, by omega, rfl⟩

theorem laneR_row {VS : Nat} {n r e : Int} (h0 : 0 ≤ r) (h1 : r ≤ n - 1) (h2 : 0 ≤ e) (h3 : e < VS) :
    LaneR VS n o S (o + r * S + e) := ⟨r, e, h0, h1, h2, h3, by ring⟩

theorem within_vrot {VS : Nat} (hG : GeomOK G) {k j : Int} (hj : 0 ≤ j) (hk : 0 ≤ k) (hk' : k ≤ G.top RP.n j) (s c : K) :
    (vGivensP VS s c (o + k * S) (o + (k + G.g) * S)).Within (LaneR VS RP.n o S) ∧
    (vGivensTP VS s c (o + k * S) (o + (k + G.g) * S)).Within (LaneR VS RP.n o S) := by
  have := hG.top RP.n j hj
  have := hG.g
  exact ⟨within_vGivens s c (fun e h2 h3 => laneR_row (by omega) (by omega) h2 h3) (fun e h2 h3 => laneR_row (by omega) (by omega) h2 h3),
    within_vGivensT s c (fun e h2 h3 => laneR_row (by omega) (by omega) h2 h3) (fun e h2 h3 => laneR_row (by omega) (by omega) h2 h3)⟩

theorem within_loadRegs {VS : Nat} {n cnt b : Int} (h0 : 0 ≤ b) (h1 : b + cnt ≤ n) (X : Buf (Int → K)) :
    (loadRegsP VS cnt b o S X).Within (LaneR VS n o S) := by
  refine Prog.Within.each (fun l hl X => ?_) X
  refine ⟨fun e h2 h3 => ?_, fun v => Prog.Within.ofOption _⟩
  have := mem_rUp.1 hl
  exact laneR_row (by omega) (by omega) h2 h3

theorem within_storeRegs {VS : Nat} {n cnt b : Int} (h0 : 0 ≤ b) (h1 : b + cnt ≤ n) (X : Buf (Int → K)) :
    (storeRegsP VS cnt b o S X).Within (LaneR VS n o S) := by
  refine Prog.Within.each (fun l hl _ => Prog.Within.bind (Prog.Within.ofOption _) fun v => ?_) ()
  refine ⟨fun e h2 h3 => ?_, trivial⟩
  have := mem_rUp.1 hl
  exact laneR_row (by omega) (by omega) h2 h3

theorem within_tileHi2lo {VS : Nat} {L j k : Int} (X : Buf (Int → K)) (h0 : 0 ≤ k + 1 - L) (h1 : k + 1 - L + (G.g + 1) * L ≤ RP.n) :
    (tileHi2loP VS L G RP o S j k X).Within (LaneR VS RP.n o S) :=
  Prog.Within.bind (within_loadRegs h0 h1 X) fun X => Prog.Within.bind (Prog.Within.ofOption _) fun X => within_storeRegs h0 h1 X

theorem within_tileLo2hi {VS : Nat} {L j k : Int} (X : Buf (Int → K)) (h0 : 0 ≤ k + G.g - G.g * L)
    (h1 : k + G.g - G.g * L + (G.g + 1) * L ≤ RP.n) : (tileLo2hiP VS L G RP o S j k X).Within (LaneR VS RP.n o S) :=
  Prog.Within.bind (within_loadRegs h0 h1 X) fun X => Prog.Within.bind (Prog.Within.ofOption _) fun X => within_storeRegs h0 h1 X

end

section
variable {V : VGeom} {RP : RotPlan K} {o S m1 m2 L : Int} {VS : Nat}

theorem within_kernelVHi2lo (hG : GeomOK V.G) (hL : 0 < L) (hsl : 0 ≤ V.slack) (hper : 0 < V.per) (hd : V.per ∣ (VS : Int))
    (hm : 0 ≤ m1) (hm2 : m1 ≤ m2) (junk : Int → Int → K) :
    (kernelVHi2loP V L VS junk RP m1 m2 o S).Within (LaneR VS RP.n o S) := by
  have hj := hG.jst
  have hg := hG.g
  have hst : 0 < V.G.jst * L := Int.mul_pos hj hL
  refine Prog.Within.bind (Prog.Within.each (fun s hs _ => Prog.Within.each (fun t ht _ => ?_) ()) ()) fun _ =>
    Prog.Within.bind (Prog.Within.each (fun j hj' _ => Prog.Within.bind (Prog.Within.each (fun k hk _ => ?_) ()) fun _ =>
      Prog.Within.each (fun lj hlj _ => Prog.Within.each (fun lk hlk _ => within_tab fun s c => ?_) ()) ()) ()) fun _ =>
    Prog.Within.each (fun j hj' _ => Prog.Within.each (fun k hk _ => within_tab fun s c => ?_) ()) ()
  · have hs' := mem_rUp.1 hs
    have ht' := mem_rUp.1 ht
    obtain ⟨q, hq⟩ := hd
    have hq' : (VS : Int) / V.per = q := by rw [hq]; exact Int.mul_ediv_cancel_left _ (by omega)
    rw [hq'] at hs'
    have h1 : V.per * s ≤ V.per * (q - 1) := Int.mul_le_mul_of_nonneg_left (by omega) (by omega)
    have h2 : 0 ≤ V.per * s := Int.mul_nonneg (by omega) (by omega)
    rw [Int.mul_sub] at h1
    refine (within_kernelHi2lo hG (by omega)).mono fun p hp => ?_
    rw [show o + V.per * s + t = o + (V.per * s + t) by ring] at hp
    exact LaneR.of_col (by omega) (by omega) hp
  · obtain ⟨-, hj1⟩ := (mem_rStepDown' hst).1 hj'
    obtain ⟨⟨i, hi⟩, hk1⟩ := (mem_rStepDown' hL).1 hk
    have h1 := hG.shift RP.n j (L - 1) (by omega)
    have h2 := hG.top RP.n (j - V.G.jst * (L - 1)) (by rw [Int.mul_sub]; omega)
    have h3 : 0 ≤ L * (i : Int) := Int.mul_nonneg (by omega) (by omega)
    rw [h1, Int.mul_sub] at h2
    refine within_tileHi2lo _ (by omega) ?_
    rw [Int.add_mul]; omega
  · obtain ⟨-, hj1⟩ := (mem_rStepDown' hst).1 hj'
    have hlj' := mem_rUp.1 hlj
    have hlk' := mem_rDown.1 hlk
    have h1 := hG.shift RP.n j lj (by omega)
    have h2 : V.G.jst * lj ≤ V.G.jst * (L - 1) := Int.mul_le_mul_of_nonneg_left (by omega) (by omega)
    rw [Int.mul_sub] at h2
    have h3 := lastDown_le (hi := V.G.top RP.n j) (lo := L - 1) hL
    exact (within_vrot hG (j := j - V.G.jst * lj) (by omega) (by omega) (by omega) s c).1
  · obtain ⟨-, hj1⟩ := (mem_rStepDown' hj).1 hj'
    have hk' := mem_rDown.1 hk
    exact (within_vrot hG (j := j) (by omega) (by omega) (by omega) s c).1

theorem within_kernelVLo2hi (hG : GeomOK V.G) (hL : 0 < L) (hper : 0 < V.per) (hd : V.per ∣ (VS : Int)) (hVS : 1 ≤ VS)
    (hm : 0 ≤ m1) (hm2 : m1 ≤ m2)
    (htop : ∀ j, m1 ≤ j → j < m2 - V.G.jst * L - V.G.jst * VS + 2 * V.G.jst → V.G.g * L ≤ V.G.top RP.n j + 1)
    (junk : Int → Int → K) :
    (kernelVLo2hiP V L VS junk RP m1 m2 o S).Within (LaneR VS RP.n o S) := by
  have hj := hG.jst
  have hg := hG.g
  have hst : 0 < V.G.jst * L := Int.mul_pos hj hL
  have hmod : ∀ j, V.G.g * L ≤ V.G.top RP.n j + 1 → 0 ≤ Int.tmod (V.G.top RP.n j + 1 - L) L ∧
      V.G.g * L + Int.tmod (V.G.top RP.n j + 1 - L) L ≤ V.G.top RP.n j + 1 := by
    intro j h
    have h1 : 1 * L ≤ V.G.g * L := Int.mul_le_mul_of_nonneg_right (by omega) (by omega)
    rw [Int.tmod_eq_emod_of_nonneg (by omega)]
    have h2 := Int.mul_ediv_add_emod (V.G.top RP.n j + 1 - L) L
    have h3 := Int.emod_nonneg (V.G.top RP.n j + 1 - L) (by omega : L ≠ 0)
    have h4 : V.G.g - 1 ≤ (V.G.top RP.n j + 1 - L) / L := by
      rw [Int.le_ediv_iff_mul_le hL, Int.sub_mul]; omega
    have h5 : L * (V.G.g - 1) ≤ L * ((V.G.top RP.n j + 1 - L) / L) := Int.mul_le_mul_of_nonneg_left h4 (by omega)
    rw [show L * (V.G.g - 1) = V.G.g * L - L by ring] at h5
    omega
  refine Prog.Within.bind (Prog.Within.each (fun j hj' _ => Prog.Within.bind
      (Prog.Within.each (fun lj hlj _ => Prog.Within.each (fun lk hlk _ => within_tab fun s c => ?_) ()) ()) fun _ =>
      Prog.Within.each (fun k hk _ => ?_) ()) ()) fun _ =>
    Prog.Within.bind (Prog.Within.each (fun j hj' _ => Prog.Within.each (fun k hk _ => within_tab fun s c => ?_) ()) ()) fun _ =>
    Prog.Within.each (fun s hs _ => Prog.Within.each (fun t ht _ => ?_) ()) ()
  · obtain ⟨⟨i, hi⟩, hj1⟩ := (mem_rStep hst).1 hj'
    have h0 : 0 ≤ V.G.jst * L * (i : Int) := Int.mul_nonneg (by omega) (by omega)
    have hlj' := mem_rUp.1 hlj
    have hlk' := mem_rUp.1 hlk
    have h1 := hG.shift' RP.n j lj (by omega)
    have h2 := hmod j (htop j (by omega) hj1)
    have h3 : 0 ≤ V.G.jst * lj := Int.mul_nonneg (by omega) (by omega)
    exact (within_vrot hG (j := j + V.G.jst * lj) (by omega) (by omega) (by omega) s c).2
  · obtain ⟨⟨i, hi⟩, hj1⟩ := (mem_rStep hst).1 hj'
    have h0 : 0 ≤ V.G.jst * L * (i : Int) := Int.mul_nonneg (by omega) (by omega)
    obtain ⟨⟨i', hi'⟩, hk1⟩ := (mem_rStep hL).1 hk
    have h2 := hmod j (htop j (by omega) hj1)
    have h3 : 0 ≤ L * (i' : Int) := Int.mul_nonneg (by omega) (by omega)
    have h4 := hG.top RP.n j (by omega)
    refine within_tileLo2hi _ (by omega) ?_
    rw [Int.add_mul]; omega
  · have hj2 : m1 ≤ lastUp m1 (m2 - V.G.jst * L - V.G.jst * VS + 2 * V.G.jst) (V.G.jst * L) := by
      unfold lastUp
      have : 0 ≤ V.G.jst * L * (stepCount m1 (m2 - V.G.jst * L - V.G.jst * VS + 2 * V.G.jst) (V.G.jst * L) : Int) :=
        Int.mul_nonneg (by omega) (by omega)
      omega
    obtain ⟨⟨i, hi⟩, hj1⟩ := (mem_rStep hj).1 hj'
    have h0 : 0 ≤ V.G.jst * (i : Int) := Int.mul_nonneg (by omega) (by omega)
    have hk' := mem_rUp.1 hk
    exact (within_vrot hG (j := j) (by omega) (by omega) (by omega) s c).2
  · have hs' := mem_rUp.1 hs
    have ht' := mem_rUp.1 ht
    obtain ⟨q, hq⟩ := hd
    have hq' : (VS : Int) / V.per = q := by rw [hq]; exact Int.mul_ediv_cancel_left _ (by omega)
    rw [hq'] at hs'
    have h1 : V.per * s ≤ V.per * (q - 1) := Int.mul_le_mul_of_nonneg_left (by omega) (by omega)
    have h2 : 0 ≤ V.per * s := Int.mul_nonneg (by omega) (by omega)
    rw [Int.mul_sub] at h1
    refine (within_kernelLo2hi hG (by omega)).mono fun p hp => ?_
    rw [show o + V.per * s + t = o + (V.per * s + t) by ring] at hp
    exact LaneR.of_col (by omega) (by omega) hp

end

end FT
