import Verif.Lemmas.RankOne
import Mathlib.Analysis.Calculus.Deriv.Inv
import Mathlib.Analysis.Calculus.Deriv.Add
import Mathlib.Analysis.Calculus.Deriv.Mul
import Mathlib.Analysis.Real.Sqrt

/-! # Properties of rank-one updates: C34, C35 -/

namespace FT.Props
open FT

/-! ## Specification -/

noncomputable section Spec
variable {K : Type*} [CommRing K]

/-- The dense matrix `I + σ z zᵀ`. -/
def idpr1M (sigma : K) (z : Int → K) (i j : Int) : K := (if i = j then 1 else 0) + sigma * z i * z j

/-- The dense matrix `diag(d) + ρ z zᵀ`. -/
def dpr1M (d : Int → K) (rho : K) (z : Int → K) (i j : Int) : K := (if i = j then d i else 0) + rho * z i * z j

/-- Row `i` of the dense `n × n` matrix `M` times `x`. -/
def rowMul (n : Int) (M : Int → Int → K) (x : Int → K) (i : Int) : K := ∑ j ∈ Finset.Ico 0 n, M i j * x j

theorem rowMul_idpr1 {n : Int} {sigma : K} {z x : Int → K} {i : Int} (h0 : 0 ≤ i) (h1 : i < n) : rowMul n (idpr1M sigma z) x i = x i + dotN n z x * sigma * z i := by
  unfold rowMul idpr1M dotN
  rw [Finset.sum_mul, Finset.sum_mul]
  rw [sum_Ico_congr (g := fun j => (if j = i then x j else 0) + z j * x j * sigma * z i) fun j _ _ => by
    by_cases hj : i = j
    · rw [if_pos hj, if_pos hj.symm]; ring
    · rw [if_neg hj, if_neg (Ne.symm hj)]; ring]
  rw [Finset.sum_add_distrib, sum_Ico_delta h0 h1]

theorem rowMul_dpr1 {n : Int} {d : Int → K} {rho : K} {z x : Int → K} {i : Int} (h0 : 0 ≤ i) (h1 : i < n) : rowMul n (dpr1M d rho z) x i = d i * x i + dotN n z x * rho * z i := by
  unfold rowMul dpr1M dotN
  rw [Finset.sum_mul, Finset.sum_mul]
  rw [sum_Ico_congr (g := fun j => (if j = i then d j * x j else 0) + z j * x j * rho * z i) fun j _ _ => by
    by_cases hj : i = j
    · rw [if_pos hj, if_pos hj.symm, hj]; ring
    · rw [if_neg hj, if_neg (Ne.symm hj)]; ring]
  rw [Finset.sum_add_distrib, sum_Ico_delta h0 h1]

end Spec

/-! ## C34 -/

/-- **C34.** `irmv` multiplies the first `n` entries by `I + σ z zᵀ` and touches nothing else. -/
theorem C34_irmv {K : Type*} [CommRing K] {tr : Char} (ht : tr = 'N' ∨ tr = 'T') {A : Idpr1 K} {x : Buf K} (hz : A.n ≤ A.z.size) (hx : A.n ≤ x.size) :
    ∃ y, irmv tr A x = some y ∧ y.size = x.size ∧ (∀ i, 0 ≤ i → i < A.n → y.val i = rowMul A.n (idpr1M A.sigma A.z.val) x.val i) ∧
      ∀ i, ¬ (0 ≤ i ∧ i < A.n) → y.val i = x.val i :=
  ⟨_, irmv_eq ht hz hx, rfl, fun i h0 h1 => by rw [mix_val_in h0 h1, rowMul_idpr1 h0 h1], fun i h => mix_val_out h⟩

/-- **C34.** `drmv` multiplies the first `n` entries by `diag(d) + ρ z zᵀ` and touches nothing else. -/
theorem C34_drmv {K : Type*} [CommRing K] {tr : Char} (ht : tr = 'N' ∨ tr = 'T') {A : Dpr1 K} {x : Buf K} (hd : A.n ≤ A.d.size) (hz : A.n ≤ A.z.size) (hx : A.n ≤ x.size) :
    ∃ y, drmv tr A x = some y ∧ y.size = x.size ∧ (∀ i, 0 ≤ i → i < A.n → y.val i = rowMul A.n (dpr1M A.d.val A.rho A.z.val) x.val i) ∧
      ∀ i, ¬ (0 ≤ i ∧ i < A.n) → y.val i = x.val i :=
  ⟨_, drmv_eq ht hd hz hx, rfl, fun i h0 h1 => by rw [mix_val_in h0 h1, rowMul_dpr1 h0 h1], fun i h => mix_val_out h⟩

/-- **C34.** The inverse of `I + σ z zᵀ` is computed unless `1 + σ |z|² = 0` (then the matrix is singular and the code divides by zero), and it
undoes the product from both sides. -/
theorem C34_idpr1_inverse {K : Type*} [Field K] [DecidableEq K] {t1 t2 : Char} (h1 : t1 = 'N' ∨ t1 = 'T') (h2 : t2 = 'N' ∨ t2 = 'T') {A : Idpr1 K} {x : Buf K}
    (hz : A.n ≤ A.z.size) (hx : A.n ≤ x.size) (junk : Int → K) :
    (1 + A.sigma * ∑ i ∈ Finset.Ico 0 A.n, A.z.val i * A.z.val i ≠ 0 → ∃ B, idpr1Inv A junk = some B ∧
      ((irmv t1 A x).bind (irmv t2 B)) = some x ∧ ((irmv t2 B x).bind (irmv t1 A)) = some x) ∧
    (1 + A.sigma * ∑ i ∈ Finset.Ico 0 A.n, A.z.val i * A.z.val i = 0 → idpr1Inv A junk = none) := by
  constructor
  · intro hne
    have hB : idpr1Inv A junk = some ⟨A.n, mix ⟨A.n.toNat, junk⟩ 0 A.n A.z.val, -A.sigma / (1 + A.sigma * dotN A.n A.z.val A.z.val)⟩ := by
      unfold idpr1Inv
      rw [copySq_eq hz, Option.bind_some, divC_of (by exact hne)]; rfl
    have hsz : A.n ≤ ((mix ⟨A.n.toNat, junk⟩ 0 A.n A.z.val : Buf K).size : Int) := by show A.n ≤ ((A.n.toNat : Nat) : Int); omega
    have hc : 1 + A.sigma * dotN A.n A.z.val A.z.val ≠ 0 := hne
    have hzz : ∀ i, 0 ≤ i → i < A.n → (mix ⟨A.n.toNat, junk⟩ 0 A.n A.z.val : Buf K).val i = A.z.val i := fun i i0 i1 => mix_val_in i0 i1
    refine ⟨_, hB, ?_, ?_⟩
    · rw [irmv_irmv (B := ⟨A.n, mix ⟨A.n.toNat, junk⟩ 0 A.n A.z.val, -A.sigma / (1 + A.sigma * dotN A.n A.z.val A.z.val)⟩) h1 h2 hz hx rfl hsz hzz]
      congr 1
      refine mix_self fun i i0 i1 => ?_
      have : A.sigma + -A.sigma / (1 + A.sigma * dotN A.n A.z.val A.z.val) + A.sigma * (-A.sigma / (1 + A.sigma * dotN A.n A.z.val A.z.val)) * dotN A.n A.z.val A.z.val = 0 := by
        field_simp; ring
      rw [this]; ring
    · rw [irmv_irmv (A := ⟨A.n, mix ⟨A.n.toNat, junk⟩ 0 A.n A.z.val, -A.sigma / (1 + A.sigma * dotN A.n A.z.val A.z.val)⟩) (B := A) h2 h1 hsz hx rfl hz (fun i i0 i1 => (hzz i i0 i1).symm)]
      congr 1
      refine mix_self fun i i0 i1 => ?_
      simp only
      rw [dotN_congr (a := (mix ⟨A.n.toNat, junk⟩ 0 A.n A.z.val : Buf K).val) (b := (mix ⟨A.n.toNat, junk⟩ 0 A.n A.z.val : Buf K).val) (a' := A.z.val) (b' := A.z.val) fun k k0 k1 => ⟨hzz k k0 k1, hzz k k0 k1⟩]
      have : -A.sigma / (1 + A.sigma * dotN A.n A.z.val A.z.val) + A.sigma + -A.sigma / (1 + A.sigma * dotN A.n A.z.val A.z.val) * A.sigma * dotN A.n A.z.val A.z.val = 0 := by
        field_simp; ring
      rw [this]; ring
  · intro h0
    unfold idpr1Inv
    rw [copySq_eq hz, Option.bind_some]
    show Option.map _ (if 1 + A.sigma * dotN A.n A.z.val A.z.val = 0 then none else _) = none
    rw [if_pos (by exact h0)]; rfl

example : ((idpr1Inv ⟨2, Buf.ofList [1, 2], 3⟩ (fun _ => 7) : Option (Idpr1 Rat)).map fun B => B.sigma) = some (-3 / 16) := by
  simp [idpr1Inv, copySq, forUp, loop, divC, Buf.ofList, Buf.rd, Buf.wr, Function.update]; norm_num

/-- **C34.** The square-root factor: for `1 + σ |z|² ≥ 0` (the matrix is positive semidefinite) applying the factor twice is applying the matrix;
the factor is `I + τ z zᵀ` with `1 + τ |z|² ≥ 0`.  Otherwise a NaN results. -/
theorem C34_idpr1_root {K : Type*} [Field K] [LinearOrder K] [IsStrictOrderedRing K] {sqrt : K → K} (hsq : IsSqrt sqrt) {t1 t2 t3 : Char} (h1 : t1 = 'N' ∨ t1 = 'T')
    (h2 : t2 = 'N' ∨ t2 = 'T') (h3 : t3 = 'N' ∨ t3 = 'T') {A : Idpr1 K} {x : Buf K} (hz : A.n ≤ A.z.size) (hx : A.n ≤ x.size) (junk : Int → K) :
    (0 ≤ 1 + A.sigma * ∑ i ∈ Finset.Ico 0 A.n, A.z.val i * A.z.val i → ∃ B, idpr1Factorize sqrt A junk = some B ∧ ((irmv t1 B x).bind (irmv t2 B)) = irmv t3 A x ∧
      0 ≤ 1 + B.sigma * ∑ i ∈ Finset.Ico 0 A.n, B.z.val i * B.z.val i) ∧
    (1 + A.sigma * ∑ i ∈ Finset.Ico 0 A.n, A.z.val i * A.z.val i < 0 → idpr1Factorize sqrt A junk = none) := by
  constructor
  · intro hge
    obtain ⟨r0, r1⟩ := hsq _ hge
    have hge' : 0 ≤ 1 + A.sigma * dotN A.n A.z.val A.z.val := hge
    change 0 ≤ sqrt (1 + A.sigma * dotN A.n A.z.val A.z.val) at r0
    change sqrt (1 + A.sigma * dotN A.n A.z.val A.z.val) * sqrt (1 + A.sigma * dotN A.n A.z.val A.z.val) = 1 + A.sigma * dotN A.n A.z.val A.z.val at r1
    have hr : 1 + sqrt (1 + A.sigma * dotN A.n A.z.val A.z.val) ≠ 0 := by positivity
    have hB : idpr1Factorize sqrt A junk = some ⟨A.n, mix ⟨A.n.toNat, junk⟩ 0 A.n A.z.val, A.sigma / (1 + sqrt (1 + A.sigma * dotN A.n A.z.val A.z.val))⟩ := by
      unfold idpr1Factorize sqrtC
      rw [copySq_eq hz, Option.bind_some, if_neg (not_lt.2 hge'), Option.bind_some, divC_of hr]; rfl
    have hsz : A.n ≤ ((mix ⟨A.n.toNat, junk⟩ 0 A.n A.z.val : Buf K).size : Int) := by show A.n ≤ ((A.n.toNat : Nat) : Int); omega
    have hzz : ∀ i, 0 ≤ i → i < A.n → (mix ⟨A.n.toNat, junk⟩ 0 A.n A.z.val : Buf K).val i = A.z.val i := fun i i0 i1 => mix_val_in i0 i1
    have hd : dotN A.n (mix ⟨A.n.toNat, junk⟩ 0 A.n A.z.val : Buf K).val (mix ⟨A.n.toNat, junk⟩ 0 A.n A.z.val : Buf K).val = dotN A.n A.z.val A.z.val :=
      dotN_congr fun k k0 k1 => ⟨hzz k k0 k1, hzz k k0 k1⟩
    have hτ : A.sigma / (1 + sqrt (1 + A.sigma * dotN A.n A.z.val A.z.val)) * dotN A.n A.z.val A.z.val = sqrt (1 + A.sigma * dotN A.n A.z.val A.z.val) - 1 := by
      generalize sqrt (1 + A.sigma * dotN A.n A.z.val A.z.val) = r at r1 hr ⊢
      rw [div_mul_eq_mul_div, div_eq_iff hr]
      linear_combination (-1) * r1
    refine ⟨_, hB, ?_, ?_⟩
    · rw [irmv_irmv (A := ⟨A.n, mix ⟨A.n.toNat, junk⟩ 0 A.n A.z.val, A.sigma / (1 + sqrt (1 + A.sigma * dotN A.n A.z.val A.z.val))⟩) (B := ⟨A.n, mix ⟨A.n.toNat, junk⟩ 0 A.n A.z.val, A.sigma / (1 + sqrt (1 + A.sigma * dotN A.n A.z.val A.z.val))⟩) h1 h2 hsz hx rfl hsz (fun i i0 i1 => rfl), irmv_eq h3 hz hx]
      congr 1
      refine mix_succ_congr fun i i0 i1 => ?_
      simp only
      rw [hd, hzz i i0 i1, dotN_congr (a' := A.z.val) (b' := x.val) fun k k0 k1 => ⟨hzz k k0 k1, rfl⟩]
      have : A.sigma / (1 + sqrt (1 + A.sigma * dotN A.n A.z.val A.z.val)) + A.sigma / (1 + sqrt (1 + A.sigma * dotN A.n A.z.val A.z.val)) +
          A.sigma / (1 + sqrt (1 + A.sigma * dotN A.n A.z.val A.z.val)) * (A.sigma / (1 + sqrt (1 + A.sigma * dotN A.n A.z.val A.z.val))) * dotN A.n A.z.val A.z.val = A.sigma := by
        rw [mul_assoc, hτ]
        field_simp
        ring
      rw [this]
    · show 0 ≤ 1 + _ * dotN A.n _ _
      rw [hd, hτ]; linarith
  · intro hlt
    unfold idpr1Factorize sqrtC
    rw [copySq_eq hz, Option.bind_some, if_pos (by exact hlt)]; rfl

example : (0 : ℝ) ≤ 1 + 3 * ∑ i ∈ Finset.Ico 0 (2 : Int), (Buf.ofList [(1 : ℝ), 2]).val i * (Buf.ofList [(1 : ℝ), 2]).val i :=
  add_nonneg zero_le_one (mul_nonneg (by norm_num) (Finset.sum_nonneg fun i _ => mul_self_nonneg _))

/-- **C34.** The inverse of `diag(d) + ρ z zᵀ`: for nonzero `d` and `1 + ρ Σ z²/d ≠ 0` it is computed and undoes the product from both sides. -/
theorem C34_dpr1_inverse {K : Type*} [Field K] [DecidableEq K] {t1 t2 : Char} (h1 : t1 = 'N' ∨ t1 = 'T') (h2 : t2 = 'N' ∨ t2 = 'T') {A : Dpr1 K} {x : Buf K}
    (hd : A.n ≤ A.d.size) (hz : A.n ≤ A.z.size) (hx : A.n ≤ x.size) (junk1 junk2 : Int → K) (hne : ∀ i, 0 ≤ i → i < A.n → A.d.val i ≠ 0)
    (hs : 1 + A.rho * ∑ i ∈ Finset.Ico 0 A.n, A.z.val i * A.z.val i / A.d.val i ≠ 0) :
    ∃ B, dpr1Inv A junk1 junk2 = some B ∧ ((drmv t1 A x).bind (drmv t2 B)) = some x ∧ ((drmv t2 B x).bind (drmv t1 A)) = some x := by
  have es : dotN A.n A.z.val (fun i => 1 / A.d.val i * A.z.val i) = ∑ i ∈ Finset.Ico 0 A.n, A.z.val i * A.z.val i / A.d.val i :=
    Finset.sum_congr rfl fun i _ => by ring
  have hs' : 1 + A.rho * dotN A.n A.z.val (fun i => 1 / A.d.val i * A.z.val i) ≠ 0 := by rw [es]; exact hs
  refine ⟨_, dpr1Inv_eq hd hz junk1 junk2 hne hs', ?_⟩
  have hsz1 : A.n ≤ ((mix ⟨A.n.toNat, junk1⟩ 0 A.n (fun i => 1 / A.d.val i) : Buf K).size : Int) := by show A.n ≤ ((A.n.toNat : Nat) : Int); omega
  have hsz2 : A.n ≤ ((mix ⟨A.n.toNat, junk2⟩ 0 A.n (fun i => 1 / A.d.val i * A.z.val i) : Buf K).size : Int) := by show A.n ≤ ((A.n.toNat : Nat) : Int); omega
  generalize hS : dotN A.n A.z.val (fun i => 1 / A.d.val i * A.z.val i) = S at hs' ⊢
  constructor
  · rw [drmv_eq h1 hd hz hx, Option.bind_some, drmv_eq h2 (by exact hsz1) (by exact hsz2) (by exact hx), mix_mix]
    congr 1
    refine mix_self fun i i0 i1 => ?_
    simp only
    rw [mix_val_in i0 i1, mix_val_in i0 i1, mix_val_in i0 i1]
    have e : dotN A.n (mix ⟨A.n.toNat, junk2⟩ 0 A.n (fun i => 1 / A.d.val i * A.z.val i) : Buf K).val
        (mix x 0 A.n fun i => A.d.val i * x.val i + dotN A.n A.z.val x.val * A.rho * A.z.val i).val = dotN A.n A.z.val x.val * (1 + A.rho * S) := by
      rw [dotN_congr (a' := fun i => 1 / A.d.val i * A.z.val i) (b' := fun i => A.d.val i * x.val i + dotN A.n A.z.val x.val * A.rho * A.z.val i)
        fun k k0 k1 => ⟨mix_val_in k0 k1, mix_val_in k0 k1⟩, dotN_add, dotN_smul, dotN_comm A.n _ A.z.val, hS]
      have : dotN A.n (fun i => 1 / A.d.val i * A.z.val i) (fun i => A.d.val i * x.val i) = dotN A.n A.z.val x.val :=
        sum_Ico_congr fun k k0 k1 => by have := hne k k0 k1; field_simp
      rw [this]; ring
    rw [e]
    have := hne i i0 i1
    field_simp
    ring
  · rw [drmv_eq h2 (by exact hsz1) (by exact hsz2) (by exact hx), Option.bind_some, drmv_eq h1 hd hz (by exact hx), mix_mix]
    congr 1
    refine mix_self fun i i0 i1 => ?_
    simp only
    rw [mix_val_in i0 i1]
    have ey : dotN A.n (mix ⟨A.n.toNat, junk2⟩ 0 A.n (fun i => 1 / A.d.val i * A.z.val i) : Buf K).val x.val = dotN A.n (fun i => 1 / A.d.val i * A.z.val i) x.val :=
      dotN_congr fun k k0 k1 => ⟨mix_val_in k0 k1, rfl⟩
    rw [ey]
    generalize hY : dotN A.n (fun i => 1 / A.d.val i * A.z.val i) x.val = Y
    have e : dotN A.n A.z.val (mix x 0 A.n fun i => (mix ⟨A.n.toNat, junk1⟩ 0 A.n (fun i => 1 / A.d.val i) : Buf K).val i * x.val i +
        Y * (-A.rho / (1 + A.rho * S)) * (mix ⟨A.n.toNat, junk2⟩ 0 A.n (fun i => 1 / A.d.val i * A.z.val i) : Buf K).val i).val = Y + Y * (-A.rho / (1 + A.rho * S)) * S := by
      rw [dotN_congr (a' := A.z.val) (b' := fun i => 1 / A.d.val i * x.val i + Y * (-A.rho / (1 + A.rho * S)) * (1 / A.d.val i * A.z.val i))
        fun k k0 k1 => ⟨rfl, by rw [mix_val_in k0 k1, mix_val_in k0 k1, mix_val_in k0 k1]⟩, dotN_add, dotN_smul, hS, ← hY]
      congr 1
      exact Finset.sum_congr rfl fun k _ => by ring
    rw [e, mix_val_in i0 i1, mix_val_in i0 i1]
    have := hne i i0 i1
    field_simp
    ring

example : ((dpr1Inv ⟨2, Buf.ofList [2, 4], Buf.ofList [1, 2], 1⟩ (fun _ => 7) (fun _ => 8) : Option (Dpr1 Rat)).map fun B => B.rho) = some (-2 / 5) := by
  simp [dpr1Inv, dpr1InvBody, forUp, loop, divC, Buf.ofList, Buf.rd, Buf.wr, Function.update]; norm_num

end FT.Props
