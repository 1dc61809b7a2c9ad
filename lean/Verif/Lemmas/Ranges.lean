import Verif.Core.Exec

/-! Integer ranges as lists: the iterations of the C loops. -/

namespace FT
variable {σ : Type*}

def rUp (lo hi : Int) : List Int := (List.range (hi - lo).toNat).map (fun k : Nat => lo + (k : Int))
def rDown (hi lo : Int) : List Int := (List.range (hi - lo + 1).toNat).map (fun k : Nat => hi - (k : Int))
def rStep (lo hi st : Int) : List Int := (List.range (stepCount lo hi st)).map (fun k : Nat => lo + st * (k : Int))
def rStepDown (hi lo st : Int) : List Int :=
  (List.range (stepCount lo (hi + 1) st)).map (fun k : Nat => hi - st * (k : Int))

theorem forUp_exec (lo hi : Int) (b : Int → σ → Option σ) (s : σ) : forUp lo hi b s = exec b (rUp lo hi) s := by
  unfold forUp rUp; rw [loop_eq_exec, exec_map]
theorem forDown_exec (hi lo : Int) (b : Int → σ → Option σ) (s : σ) : forDown hi lo b s = exec b (rDown hi lo) s := by
  unfold forDown rDown; rw [loop_eq_exec, exec_map]
theorem forStep_exec (lo hi st : Int) (b : Int → σ → Option σ) (s : σ) :
    forStep lo hi st b s = exec b (rStep lo hi st) s := by
  unfold forStep rStep; rw [loop_eq_exec, exec_map]
theorem forStepDown_exec (hi lo st : Int) (b : Int → σ → Option σ) (s : σ) :
    forStepDown hi lo st b s = exec b (rStepDown hi lo st) s := by
  unfold forStepDown rStepDown; rw [loop_eq_exec, exec_map]

theorem mem_rUp {lo hi x : Int} : x ∈ rUp lo hi ↔ lo ≤ x ∧ x < hi := by
  unfold rUp
  simp only [List.mem_map, List.mem_range]
  constructor
  · rintro ⟨k, hk, rfl⟩; omega
  · rintro ⟨h1, h2⟩; exact ⟨(x - lo).toNat, by omega, by omega⟩

theorem mem_rDown {lo hi x : Int} : x ∈ rDown hi lo ↔ lo ≤ x ∧ x ≤ hi := by
  unfold rDown
  simp only [List.mem_map, List.mem_range]
  constructor
  · rintro ⟨k, hk, rfl⟩; omega
  · rintro ⟨h1, h2⟩; exact ⟨(hi - x).toNat, by omega, by omega⟩

theorem mem_rStep {lo hi st x : Int} (hst : 0 < st) :
    x ∈ rStep lo hi st ↔ (∃ k : Nat, x = lo + st * k) ∧ x < hi := by
  unfold rStep
  simp only [List.mem_map, List.mem_range]
  constructor
  · rintro ⟨k, hk, rfl⟩; exact ⟨⟨k, rfl⟩, (mem_stepCount hst k).1 hk⟩
  · rintro ⟨⟨k, rfl⟩, h⟩; exact ⟨k, (mem_stepCount hst k).2 h, rfl⟩

theorem mem_rStepDown' {lo hi st x : Int} (hst : 0 < st) :
    x ∈ rStepDown hi lo st ↔ (∃ k : Nat, x = hi - st * k) ∧ lo ≤ x := by
  unfold rStepDown
  simp only [List.mem_map, List.mem_range]
  constructor
  · rintro ⟨k, hk, rfl⟩
    have := (mem_stepCount hst k).1 hk
    exact ⟨⟨k, rfl⟩, by omega⟩
  · rintro ⟨⟨k, rfl⟩, h⟩; exact ⟨k, (mem_stepCount hst k).2 (by omega), rfl⟩

theorem pairwise_rUp (lo hi : Int) : (rUp lo hi).Pairwise (· < ·) := by
  unfold rUp
  rw [List.pairwise_map]
  exact (List.pairwise_lt_range).imp (fun h => by omega)

theorem pairwise_rDown (hi lo : Int) : (rDown hi lo).Pairwise (· > ·) := by
  unfold rDown
  rw [List.pairwise_map]
  exact (List.pairwise_lt_range).imp (fun h => by omega)

theorem pairwise_rStep {lo hi st : Int} (hst : 0 < st) : (rStep lo hi st).Pairwise (fun a b => a + st ≤ b) := by
  unfold rStep
  rw [List.pairwise_map]
  refine (List.pairwise_lt_range).imp (fun {a b} h => ?_)
  have : st * ((a : Int) + 1) ≤ st * b := Int.mul_le_mul_of_nonneg_left (by omega) (by omega)
  rw [Int.mul_add] at this; omega

theorem pairwise_rStepDown {hi lo st : Int} (hst : 0 < st) :
    (rStepDown hi lo st).Pairwise (fun a b => b + st ≤ a) := by
  unfold rStepDown
  rw [List.pairwise_map]
  refine (List.pairwise_lt_range).imp (fun {a b} h => ?_)
  have : st * ((a : Int) + 1) ≤ st * b := Int.mul_le_mul_of_nonneg_left (by omega) (by omega)
  rw [Int.mul_add] at this; omega

/-- A strictly increasing list is determined by its members; used to compare ranges. -/
theorem eq_of_pairwise {l m : List Int} (hl : l.Pairwise (· < ·)) (hm : m.Pairwise (· < ·))
    (h : ∀ x, x ∈ l ↔ x ∈ m) : l = m := by
  apply List.Perm.eq_of_pairwise (le := (· < ·)) _ hl hm
  · rw [List.perm_ext_iff_of_nodup]
    · exact h
    · exact hl.imp (fun h => by omega)
    · exact hm.imp (fun h => by omega)
  · intro a b _ _ h1 h2; exfalso; omega

theorem rDown_reverse (hi : Int) (lo : Int) : (rDown hi lo).reverse = rUp lo (hi + 1) := by
  apply eq_of_pairwise
  · rw [List.pairwise_reverse]; exact pairwise_rDown hi lo
  · exact pairwise_rUp _ _
  · intro x; rw [List.mem_reverse, mem_rDown, mem_rUp]; omega

theorem rUp_reverse (hi : Int) (lo : Int) : (rUp lo (hi + 1)).reverse = rDown hi lo := by
  rw [← rDown_reverse, List.reverse_reverse]

theorem rStepDown_reverse {m1 m2 st : Int} (hst : 0 < st) (hd : st ∣ m2 - m1) :
    (rStepDown (m2 - st) m1 st).reverse = rStep m1 m2 st := by
  obtain ⟨q, hq⟩ := hd
  apply eq_of_pairwise
  · rw [List.pairwise_reverse]; exact (pairwise_rStepDown hst).imp (fun h => by omega)
  · exact (pairwise_rStep hst).imp (fun h => by omega)
  · intro x
    rw [List.mem_reverse, mem_rStepDown' hst, mem_rStep hst]
    constructor
    · rintro ⟨⟨k, rfl⟩, h⟩
      have e : m2 - st - st * k = m1 + st * (q - 1 - k) := by
        have : m2 = m1 + st * q := by omega
        rw [this]; ring
      have hnn : 0 ≤ q - 1 - k := by
        by_contra hneg
        have : st * (q - 1 - k) < 0 := Int.mul_neg_of_pos_of_neg hst (by omega)
        omega
      refine ⟨⟨(q - 1 - k).toNat, ?_⟩, ?_⟩
      · rw [Int.toNat_of_nonneg hnn]; exact e
      · have : 0 ≤ st * (k : Int) := Int.mul_nonneg (by omega) (by omega)
        omega
    · rintro ⟨⟨k, rfl⟩, h⟩
      have e : m1 + st * k = m2 - st - st * (q - 1 - k) := by
        have : m2 = m1 + st * q := by omega
        rw [this]; ring
      have hnn : 0 ≤ q - 1 - k := by
        by_contra hneg
        have : st * q ≤ st * k := Int.mul_le_mul_of_nonneg_left (by omega) (by omega)
        omega
      refine ⟨⟨(q - 1 - k).toNat, ?_⟩, ?_⟩
      · rw [Int.toNat_of_nonneg hnn]; exact e
      · have : 0 ≤ st * (k : Int) := Int.mul_nonneg (by omega) (by omega)
        omega

theorem rStep_reverse {m1 m2 st : Int} (hst : 0 < st) (hd : st ∣ m2 - m1) :
    (rStep m1 m2 st).reverse = rStepDown (m2 - st) m1 st := by
  rw [← rStepDown_reverse hst hd, List.reverse_reverse]

end FT
