import Verif.Lemmas.RotSimd

namespace FT
variable {K : Type*} [CommRing K]

/-- A scalar rotation of a vector kernel: lane, order, row. -/
abbrev Op := Int × Int × Int

/-- The scalar rotation on one lane. -/
def sop (σs γs : Int → Int → K) (o S g : Int) (a : Op) : Buf K → Option (Buf K) :=
  applyGivens (σs a.2.2 a.2.1) (γs a.2.2 a.2.1) (o + a.1 + a.2.2 * S) (o + a.1 + (a.2.2 + g) * S)

/-- The lanes of one vector rotation. -/
def lanes (VS : Nat) (j k : Int) : List Op := (rUp 0 VS).map fun e => (e, j, k)

theorem mem_lanes {VS : Nat} {j k : Int} {a : Op} : a ∈ lanes VS j k ↔ (0 ≤ a.1 ∧ a.1 < VS) ∧ a.2.1 = j ∧ a.2.2 = k := by
  obtain ⟨e, j', k'⟩ := a
  unfold lanes
  simp only [List.mem_map, mem_rUp, Prod.mk.injEq]
  constructor
  · rintro ⟨e', h, rfl, rfl, rfl⟩; exact ⟨h, rfl, rfl⟩
  · rintro ⟨h, rfl, rfl⟩; exact ⟨e, h, rfl, rfl, rfl⟩

theorem exec_lanes {VS : Nat} {σs γs : Int → Int → K} {o S g j k : Int} {A : Buf K} (h0 : 0 ≤ o + k * S)
    (h1 : o + (k + g) * S + VS ≤ A.size) (hg : (VS : Int) ≤ g * S) :
    exec (sop σs γs o S g) (lanes VS j k) A = vGivens VS (σs k j) (γs k j) (o + k * S) (o + (k + g) * S) A := by
  have hkg : (k + g) * S = k * S + g * S := by ring
  rw [vGivens_of h0 (by omega) h1 (by omega), ← lanes_exec (s := σs k j) (c := γs k j) A.val h0 (by omega) h1 (by omega)]
  unfold lanes
  rw [exec_map]
  apply exec_congr
  intro e _ B
  unfold sop
  simp only
  rw [show o + e + k * S = o + k * S + e by ring, show o + e + (k + g) * S = o + (k + g) * S + e by ring]

/-- Two rotations that touch a common entry. -/
def Conflict (g : Int) (a b : Op) : Prop :=
  a.1 = b.1 ∧ (a.2.2 = b.2.2 ∨ a.2.2 = b.2.2 + g ∨ b.2.2 = a.2.2 + g)

/-- Order of the rotations in a scalar `hi2lo` kernel. -/
def BeforeHi (a b : Op) : Prop := b.2.1 < a.2.1 ∨ (a.2.1 = b.2.1 ∧ b.2.2 < a.2.2)
/-- Order of the rotations in a scalar `lo2hi` kernel. -/
def BeforeLo (a b : Op) : Prop := a.2.1 < b.2.1 ∨ (a.2.1 = b.2.1 ∧ a.2.2 < b.2.2)

theorem pos_ne {VS : Nat} {o S : Int} (hS : (VS : Int) ≤ S) {e e' k k' : Int} (h0 : 0 ≤ e) (h1 : e < VS) (h0' : 0 ≤ e')
    (h1' : e' < VS) (h : ¬ (e = e' ∧ k = k')) : o + e + k * S ≠ o + e' + k' * S := by
  intro he
  apply h
  have := regPos_inj (VS := VS) (b := 0) (o := o) hS h0 h1 h0' h1' (l := k) (l' := k')
    (by unfold regPos; rw [Int.zero_add, Int.zero_add]; omega)
  exact ⟨this.2, this.1⟩

theorem sop_comm {VS : Nat} {σs γs : Int → Int → K} {o S g : Int} (hS : (VS : Int) ≤ S) {a b : Op} (ha : 0 ≤ a.1 ∧ a.1 < VS)
    (hb : 0 ≤ b.1 ∧ b.1 < VS) (h : ¬ Conflict g a b) (A : Buf K) :
    (sop σs γs o S g b A).bind (sop σs γs o S g a) = (sop σs γs o S g a A).bind (sop σs γs o S g b) := by
  unfold sop
  unfold Conflict at h
  apply applyGivens_comm <;> apply pos_ne hS <;> first | omega | (intro hh; apply h; omega)

theorem simd_reorder {VS : Nat} {σs γs : Int → Int → K} {o S g : Int} (hS : (VS : Int) ≤ S) (before : Op → Op → Prop)
    (asymm : ∀ a b, before a b → ¬ before b a) {l₁ l₂ : List Op}
    (h₁ : l₁.Pairwise (fun a b => Conflict g a b → before a b)) (h₂ : l₂.Pairwise (fun a b => Conflict g a b → before a b))
    (hmem : ∀ a, a ∈ l₁ ↔ a ∈ l₂) (hl : ∀ a ∈ l₁, 0 ≤ a.1 ∧ a.1 < VS) (A : Buf K) :
    exec (sop σs γs o S g) l₁ A = exec (sop σs γs o S g) l₂ A := by
  have nd : ∀ l : List Op, l.Pairwise (fun a b => Conflict g a b → before a b) → l.Nodup := by
    intro l h
    refine h.imp ?_
    rintro a b hab rfl
    have := hab ⟨rfl, Or.inl rfl⟩
    exact asymm _ _ this this
  refine exec_reorder (fun _ => True) h₁ h₂ (nd _ h₁) (nd _ h₂) hmem (fun _ _ _ _ _ _ => trivial) ?_ trivial
  intro a ha b hb _ hab hba s _
  refine sop_comm hS (hl a ha) (hl b hb) ?_ s
  intro hc
  have hc' : Conflict g b a := by unfold Conflict at *; omega
  exact asymm _ _ (hab hc) (hba hc')

theorem beforeHi_asymm (a b : Op) (h : BeforeHi a b) : ¬ BeforeHi b a := by unfold BeforeHi at *; omega
theorem beforeLo_asymm (a b : Op) (h : BeforeLo a b) : ¬ BeforeLo b a := by unfold BeforeLo at *; omega

theorem pairwise_lanes {VS : Nat} {j k g : Int} {before : Op → Op → Prop} :
    (lanes VS j k).Pairwise (fun a b => Conflict g a b → before a b) := by
  unfold lanes
  rw [List.pairwise_map]
  refine (pairwise_rUp 0 VS).imp ?_
  intro e e' h hc
  have := hc.1
  simp only at this
  omega

/-! ## The lists -/

section lists
variable (VS : Nat) (L jst g per n m1 m2 bnd : Int) (top : Int → Int)

/-- Rotations of one tile of `hi2lo`. -/
def tileOpsHi (j k : Int) : List (Int × Int) :=
  (rUp 0 L).flatMap fun lj => (rUp 0 L).map fun lk => (j - jst * lj, k - lk + g * lj)

/-- Rotations of one tile of `lo2hi`. -/
def tileOpsLo (j k : Int) : List (Int × Int) :=
  (rUp 0 L).flatMap fun lj => (rUp 0 L).map fun lk => (j + jst * lj, k + lk - g * lj)

/-- Vector rotations of the blocked part of a `hi2lo` kernel for one block of orders. -/
def blockHi (j : Int) : List (Int × Int) :=
  ((rStepDown (top j) (L - 1) L).flatMap fun k => tileOpsHi L jst g j k) ++
  (rUp 0 L).flatMap fun lj => (rDown (lastDown (top j) (L - 1) L + g * lj) 0).map fun lk => (j - jst * lj, lk)

def blockLo (j : Int) : List (Int × Int) :=
  ((rUp 0 L).flatMap fun lj => (rUp 0 (g * L + Int.tmod (top j + 1 - L) L - g * lj)).map fun lk => (j + jst * lj, lk)) ++
  (rStep (g * L + Int.tmod (top j + 1 - L) L) (top j + 1 - L + 1) L).flatMap fun k => tileOpsLo L jst g j k

def restHi : List (Int × Int) :=
  (rStepDown (lastDown (m2 - jst) bnd (jst * L)) m1 jst).flatMap fun j => (rDown (top j) 0).map fun k => (j, k)

def restLo : List (Int × Int) :=
  (rStep (lastUp m1 bnd (jst * L)) m2 jst).flatMap fun j => (rUp 0 (top j + 1)).map fun k => (j, k)

/-- All vector rotations of a `hi2lo` kernel. -/
def vecHi : List (Int × Int) :=
  ((rStepDown (m2 - jst) bnd (jst * L)).flatMap fun j => blockHi L jst g top j) ++ restHi L jst m1 m2 bnd top

def vecLo : List (Int × Int) :=
  ((rStep m1 bnd (jst * L)).flatMap fun j => blockLo L jst g top j) ++ restLo L jst m1 m2 bnd top

variable {VS L jst g per n m1 m2 bnd top}

theorem mem_tileOpsHi {j k : Int} {a : Int × Int} :
    a ∈ tileOpsHi L jst g j k ↔ ∃ lj lk, (0 ≤ lj ∧ lj < L) ∧ (0 ≤ lk ∧ lk < L) ∧ a.1 = j - jst * lj ∧ a.2 = k - lk + g * lj := by
  obtain ⟨x, y⟩ := a
  unfold tileOpsHi
  simp only [List.mem_flatMap, List.mem_map, mem_rUp, Prod.mk.injEq]
  constructor
  · rintro ⟨lj, h1, lk, h2, rfl, rfl⟩; exact ⟨lj, lk, h1, h2, rfl, rfl⟩
  · rintro ⟨lj, lk, h1, h2, rfl, rfl⟩; exact ⟨lj, h1, lk, h2, rfl, rfl⟩

theorem mem_tileOpsLo {j k : Int} {a : Int × Int} :
    a ∈ tileOpsLo L jst g j k ↔ ∃ lj lk, (0 ≤ lj ∧ lj < L) ∧ (0 ≤ lk ∧ lk < L) ∧ a.1 = j + jst * lj ∧ a.2 = k + lk - g * lj := by
  obtain ⟨x, y⟩ := a
  unfold tileOpsLo
  simp only [List.mem_flatMap, List.mem_map, mem_rUp, Prod.mk.injEq]
  constructor
  · rintro ⟨lj, h1, lk, h2, rfl, rfl⟩; exact ⟨lj, lk, h1, h2, rfl, rfl⟩
  · rintro ⟨lj, lk, h1, h2, rfl, rfl⟩; exact ⟨lj, h1, lk, h2, rfl, rfl⟩

theorem mem_rStepDown_last {lo hi st x : Int} (hst : 0 < st) (hx : x ∈ rStepDown hi lo st) : lastDown hi lo st + st ≤ x := by
  unfold rStepDown at hx
  simp only [List.mem_map, List.mem_range] at hx
  obtain ⟨k, hk, rfl⟩ := hx
  unfold lastDown
  have : st * ((k : Int) + 1) ≤ st * (stepCount lo (hi + 1) st : Int) := Int.mul_le_mul_of_nonneg_left (by omega) (by omega)
  rw [Int.mul_add, Int.mul_one] at this
  omega

theorem mem_rStep_last {lo hi st x : Int} (hst : 0 < st) (hx : x ∈ rStep lo hi st) : x + st ≤ lastUp lo hi st := by
  unfold rStep at hx
  simp only [List.mem_map, List.mem_range] at hx
  obtain ⟨k, hk, rfl⟩ := hx
  unfold lastUp
  have : st * ((k : Int) + 1) ≤ st * (stepCount lo hi st : Int) := Int.mul_le_mul_of_nonneg_left (by omega) (by omega)
  rw [Int.mul_add, Int.mul_one] at this
  omega

theorem lastDown_le {lo hi st : Int} (hst : 0 < st) : lastDown hi lo st ≤ hi := by
  unfold lastDown
  have : 0 ≤ st * (stepCount lo (hi + 1) st : Int) := Int.mul_nonneg (by omega) (by omega)
  omega

theorem le_lastUp {lo hi st : Int} (hst : 0 < st) : lo ≤ lastUp lo hi st := by
  unfold lastUp
  have : 0 ≤ st * (stepCount lo hi st : Int) := Int.mul_nonneg (by omega) (by omega)
  omega

/-- Membership in a descending progression or beyond its end. -/
theorem split_down {lo hi st t : Int} (hst : 0 < st) (ht : 0 ≤ t) :
    (hi - st * (t / st) ∈ rStepDown hi lo st) ∨ st * (stepCount lo (hi + 1) st : Int) ≤ t := by
  by_cases h : lo ≤ hi - st * (t / st)
  · left
    rw [mem_rStepDown' hst]
    exact ⟨⟨(t / st).toNat, by rw [Int.toNat_of_nonneg (Int.ediv_nonneg ht (by omega))]⟩, h⟩
  · right
    by_contra hc
    have h1 := (mem_stepCount (lo := lo) (hi := hi + 1) hst (t / st).toNat)
    have hq : 0 ≤ t / st := Int.ediv_nonneg ht (by omega)
    rw [Int.toNat_of_nonneg hq] at h1
    have : ¬ ((t / st).toNat < stepCount lo (hi + 1) st) := by rw [h1]; omega
    have h2 : (stepCount lo (hi + 1) st : Int) ≤ t / st := by omega
    have h3 : st * (stepCount lo (hi + 1) st : Int) ≤ st * (t / st) := Int.mul_le_mul_of_nonneg_left h2 (by omega)
    have h4 := Int.mul_ediv_self_le (x := t) (k := st) (by omega)
    omega

end lists

end FT
