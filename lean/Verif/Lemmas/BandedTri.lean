import Verif.Lemmas.BandedOps

/-! # Lemmas on the in-place product with a tridiagonal matrix -/

namespace FT
variable {K : Type*} [CommRing K]
open Banded

/-- Row `i` of `(α A + β I) B`, `A` tridiagonal. -/
theorem tri_row {alpha beta : K} {A B : Banded K} (hl : A.l = 1) (hu : A.u = 1) (hm : A.m = A.n) (hB : B.m = A.n) {i j : Int} (i0 : 0 ≤ i) (i1 : i < A.n) :
    alpha * (∑ k ∈ Finset.Ico 0 A.n, A.ent i k * B.ent k j) + beta * B.ent i j =
      alpha * A.ent i (i - 1) * B.ent (i - 1) j + (alpha * A.ent i i + beta) * B.ent i j + alpha * A.ent i (i + 1) * B.ent (i + 1) j := by
  have h3 : ∑ k ∈ Finset.Ico 0 A.n, A.ent i k * B.ent k j = ∑ k ∈ Finset.Ico (i - 1) (i + 1 + 1), A.ent i k * B.ent k j := by
    have e1 : ∑ k ∈ Finset.Ico (min 0 (i - 1)) (max A.n (i + 2)), A.ent i k * B.ent k j = ∑ k ∈ Finset.Ico 0 A.n, A.ent i k * B.ent k j :=
      sum_Ico_shrink (fun k _ _ h => by rw [ent_zero, zero_mul]; unfold InBand; omega) (by omega) (by omega)
    have e2 : ∑ k ∈ Finset.Ico (min 0 (i - 1)) (max A.n (i + 2)), A.ent i k * B.ent k j = ∑ k ∈ Finset.Ico (i - 1) (i + 1 + 1), A.ent i k * B.ent k j :=
      sum_Ico_shrink (fun k _ _ h => by rw [ent_zero, zero_mul]; unfold InBand; omega) (by omega) (by omega)
    rw [← e1, e2]
  rw [h3, sum_Ico_succ (by omega), sum_Ico_succ (by omega), show i = (i - 1) + 1 by omega, sum_Ico_succ (by omega)]
  simp only [sub_add_cancel, add_sub_cancel_right, Finset.Ico_self, Finset.sum_empty]
  ring

theorem tridiagMul_eq {alpha beta : K} {A B : Banded K} {l u : Int} (hA : A.WF) (hB : B.WF) (hAm : A.m = A.n) (hBm : B.m = B.n) (hAB : A.m = B.m)
    (hAl : A.l = 1) (hAu : A.u = 1) (hl : l < B.l) (hu : u < B.u) (hl1 : -1 ≤ l) (hu1 : -1 ≤ u)
    (hband : ∀ i j, (j - i < -l ∨ u < j - i) → B.ent i j = 0) :
    ∃ B', tridiagMul alpha A beta B l u = some B' ∧ B'.WF ∧ SameDim B' B ∧
      ∀ i j, 0 ≤ i → i < B.n → 0 ≤ j → j < B.n → B'.ent i j = alpha * (∑ k ∈ Finset.Ico 0 B.n, A.ent i k * B.ent k j) + beta * B.ent i j := by
  unfold tridiagMul
  rw [if_neg (by omega), if_neg (by omega), if_neg (by omega), if_neg (by omega), if_neg (by omega)]
  let Y : Int → Int → K := fun i j => alpha * A.ent i (i - 1) * B.ent (i - 1) j + (alpha * A.ent i i + beta) * B.ent i j + alpha * A.ent i (i + 1) * B.ent (i + 1) j
  obtain ⟨C', e, p⟩ := Upd.cols (C0 := B) (n := B.n) (y := Y)
    (R := fun a b => max 0 (b - u - 1) ≤ a ∧ a ≤ b + l + 1 ∧ a < B.m)
    (body := fun j B =>
      let i0 := max 0 (j - u - 1)
      (A.get i0 i0).bind fun a0 => (B.get i0 j).bind fun b0 => (A.get i0 (i0 + 1)).bind fun a1 => (B.get (i0 + 1) j).bind fun b1 =>
      (forUp i0 (min B.m (j + l + 1)) (fun i (st : K × Banded K) =>
        (A.get (i + 1) i).bind fun p => (st.2.get i j).bind fun q => (A.get (i + 1) (i + 1)).bind fun r => (st.2.get (i + 1) j).bind fun s =>
        (A.get (i + 1) (i + 2)).bind fun v => (st.2.get (i + 2) j).bind fun w =>
        (st.2.set st.1 i j).map fun B => (alpha * p * q + (alpha * r + beta) * s + alpha * v * w, B))
        ((alpha * a0 + beta) * b0 + alpha * a1 * b1, B)).bind fun st =>
      st.2.set st.1 (max i0 (min B.m (j + l + 1))) j) hB
    (fun j C1 j0 j1 p => by
      dsimp only
      set i0 := max 0 (j - u - 1) with hi0
      have ho : ∀ a, ¬ (0 ≤ j ∧ j < j ∧ max 0 (j - u - 1) ≤ a ∧ a ≤ j + l + 1 ∧ a < B.m) := by omega
      simp only [get_eq hA, get_eq p.wf, Option.bind_some, p.ent, if_neg (ho _), p.dim.1]
      obtain ⟨st, e, q⟩ := forUp_spec (lo := i0) (hi := min B.m (j + l + 1))
        (s := ((alpha * A.ent i0 i0 + beta) * B.ent i0 j + alpha * A.ent i0 (i0 + 1) * B.ent (i0 + 1) j, C1))
        (body := fun i (st : K × Banded K) =>
          (st.2.get i j).bind fun q => (st.2.get (i + 1) j).bind fun s => (st.2.get (i + 2) j).bind fun w =>
          (st.2.set st.1 i j).map fun B => (alpha * A.ent (i + 1) i * q + (alpha * A.ent (i + 1) (i + 1) + beta) * s + alpha * A.ent (i + 1) (i + 2) * w, B))
        (fun i st => st.1 = Y i j ∧ Upd B st.2 (fun a b => (0 ≤ b ∧ b < j ∧ max 0 (b - u - 1) ≤ a ∧ a ≤ b + l + 1 ∧ a < B.m) ∨ (b = j ∧ i0 ≤ a ∧ a < i)) Y)
        ⟨by
          show _ = alpha * A.ent i0 (i0 - 1) * B.ent (i0 - 1) j + (alpha * A.ent i0 i0 + beta) * B.ent i0 j + alpha * A.ent i0 (i0 + 1) * B.ent (i0 + 1) j
          have : alpha * A.ent i0 (i0 - 1) * B.ent (i0 - 1) j = 0 := by
            by_cases h : i0 = 0
            · rw [ent_zero (A := A) (by unfold InBand; omega), mul_zero, zero_mul]
            · rw [hband (i0 - 1) j (by omega), mul_zero]
          rw [this, zero_add], p.congr fun a b => by constructor <;> [exact Or.inl; rintro (h | h)] <;> [exact h; omega]⟩
        (fun i hi1 hi2 st hst => by
          obtain ⟨h1, h2⟩ := hst
          obtain ⟨C', e', p'⟩ := h2.set (i := i) (j := j) (by unfold InBand; omega)
          rw [h1]
          simp only [get_eq h2.wf, Option.bind_some, h2.ent]
          rw [if_neg (by omega), if_neg (by omega), if_neg (by omega), e']
          refine ⟨_, rfl, ?_, p'.congr fun a b => ?_⟩
          · show _ = alpha * A.ent (i + 1) (i + 1 - 1) * B.ent (i + 1 - 1) j + (alpha * A.ent (i + 1) (i + 1) + beta) * B.ent (i + 1) j + alpha * A.ent (i + 1) (i + 1 + 1) * B.ent (i + 1 + 1) j
            rw [add_sub_cancel_right, show i + 1 + 1 = i + 2 by ring]
          · rw [or_assoc]; apply or_congr_right; omega)
      rw [e, Option.bind_some, q.1]
      set i1 := max i0 (min B.m (j + l + 1)) with hi1
      by_cases hb : B.InBand i1 j
      · obtain ⟨C', e', p'⟩ := q.2.set hb
        refine ⟨C', e', p'.congr fun a b => ?_⟩
        unfold InBand at hb
        by_cases hbj : b = j
        · subst hbj; omega
        · omega
      · refine ⟨st.2, Banded.set_out (by rw [q.2.dim.inBand]; exact hb), q.2.congr fun a b => ?_⟩
        unfold InBand at hb
        by_cases hbj : b = j
        · subst hbj; omega
        · omega)
  refine ⟨C', e, p.wf, p.dim, fun i j i0 i1 j0 j1 => ?_⟩
  have hr := tri_row (alpha := alpha) (beta := beta) (A := A) (B := B) (i := i) (j := j) hAl hAu hAm (by omega) i0 (by omega)
  rw [show A.n = B.n by omega] at hr
  rw [p.ent, hr]
  split_ifs with hs
  · rfl
  · rw [hband i j (by omega), hband (i - 1) j (by omega), hband (i + 1) j (by omega)]
    ring

end FT
