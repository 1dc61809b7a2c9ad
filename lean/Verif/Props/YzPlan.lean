import Verif.Lemmas.YzSym
import Verif.Props.Yz
import Verif.Props.Recurrence

/-! # C79: the planned exchange of axes is orthogonal -/

namespace FT.Props
open FT FT.YzP
variable {K : Type*} [Field K] [LinearOrder K] [IsStrictOrderedRing K] {sqrt : K → K}

/-- The plan `F` multiplies every vector of length `n`, stored with any stride, by the matrix with the rows `W 0, …, W (n-1)`. -/
def YzMultiplies (sqrt : K → K) (F : SEig K) (n : Int) (W : Int → Int → K) : Prop :=
  ∀ (huge : K) (x y : Buf K) (incx : Int), Coeffs x n incx → n ≤ y.size →
    ∃ y', semv sqrt huge F x incx y = some y' ∧ Outputs y y' n fun j => ∑ k ∈ Finset.Ico 0 n, W j k * x.val (k * incx)

/-- `W j` is the unit eigenvector, of the tridiagonal matrix with diagonal `a` and off-diagonal `b`, for the eigenvalue `lam j`, with the requested sign of
the first entry. -/
structure EigRows (n : Int) (a b : Int → K) (lam : Int → K) (sign : K) (W : Int → Int → K) : Prop where
  rows : ∀ j, 0 ≤ j → j < n → Rows n a b (lam j) (W j)
  norm : ∀ j, 0 ≤ j → j < n → ∑ k ∈ Finset.Ico 0 n, W j k * W j k = 1
  sgn : ∀ j, 0 ≤ j → j < n → 0 ≤ sign * W j 0

theorem zDiag_flip (l μ : Int) : (zDiag l (l - μ) : K) = zDiag l (l + μ) := by
  unfold zDiag; push_cast; ring

theorem zDiag_ne {l μ ν : Int} (m0 : 0 ≤ μ) (h : μ < ν) : (zDiag l (l + μ) : K) ≠ zDiag l (l + ν) := by
  unfold zDiag
  rw [Ne, Int.cast_inj]
  intro e
  have : (ν - μ) * (ν + μ) = 0 := by linarith
  rcases mul_eq_zero.1 this with h | h <;> omega

/-- One block. -/
theorem block_plan (hs : IsSqrt sqrt) (junk : Int → K) {cosn : Bool} {l m0 n μ0 : Int} {ra rl : Bool} {ia il : Int → Int} (sign : Int) (n1 : 1 ≤ n) (u0 : 0 ≤ μ0)
    (hF : ∀ j, 0 ≤ j → j < n → BlockFits cosn l m0 n (μ0 + 2 * j))
    (hia : ∀ t, 0 ≤ t → t < n → ia (if ra then n - 1 - t else t) = posi cosn l (m0 + 2 * t))
    (hib : ∀ t, 0 ≤ t → t < n - 1 → ia (if ra then n - 1 - 1 - t else t) = if cosn then l + (m0 + 2 * t) else l - (m0 + 2 * t) - 2)
    (hil : ∀ t, 0 ≤ t → t < n → il (if rl then n - 1 - t else t) = l + (μ0 + 2 * t) ∨ il (if rl then n - 1 - t else t) = l - (μ0 + 2 * t)) :
    ∃ F W, planBlock sqrt junk l n ra rl ia il sign = some F ∧ F.n = n ∧ F.sign = sign ∧ Orthonormal n W ∧ YzMultiplies sqrt F n W ∧
      EigRows n (bA K cosn l m0) (bB sqrt cosn l m0) (fun j => zDiag l (l + (μ0 + 2 * j))) (sign : K) W := by
  obtain ⟨a, ea, za, va⟩ := fillB_spec ra junk (n := n) (by omega) fun i => (yDiag l (ia i) : K)
  obtain ⟨b, eb, zb, vb⟩ := fillB_spec ra junk (n := n - 1) (by omega) fun i => yOff sqrt l (ia i)
  obtain ⟨lam, el, zl, vl⟩ := fillB_spec rl junk (n := n) (by omega) fun i => (zDiag l (il i) : K)
  have va' : ∀ t, 0 ≤ t → t < n → a.val t = bA K cosn l m0 t := fun t t0 tn => by rw [va t t0 tn, hia t t0 tn]; rfl
  have vb' : ∀ t, 0 ≤ t → t < n - 1 → b.val t = bB sqrt cosn l m0 t := fun t t0 tn => by rw [vb t t0 tn, hib t t0 tn]; rfl
  have vl' : ∀ t, 0 ≤ t → t < n → lam.val t = zDiag l (l + (μ0 + 2 * t)) := fun t t0 tn => by
    rw [vl t t0 tn]
    rcases hil t t0 tn with e | e
    · rw [e]
    · rw [e, zDiag_flip]
  have F0 := hF 0 le_rfl (by omega)
  have hz : ∀ t, 0 ≤ t → t < n - 1 → b.val t ≠ 0 := fun t t0 tn => by rw [vb' t t0 tn]; exact (block_b hs F0 t0 tn).2
  obtain ⟨F, eF, Fn, Fs, zA, zB, zC, zL, vL, vF⟩ := symEig_spec junk (T := ⟨a, b, n⟩) (lambda := lam) sign n1 (by simp only; omega) (by simp only; omega) (by simp only; omega) hz
  simp only at Fn zA zB zC zL vL vF
  have ex : ∀ j, ∃ w, UnitEigenvector F.A.val F.B.val F.C.val (F.lambda.val j) (F.sign : K) n w := fun j =>
    let ⟨w, h, _⟩ := evExact_spec (c := fun _ => 0) hs n1
    ⟨w, h⟩
  choose W hW using ex
  have hoff : ∀ k, offd n b.val k = offd n (bB sqrt cosn l m0) k := fun k => by
    unfold offd
    by_cases c : 0 ≤ k ∧ k < n - 1
    · rw [if_pos c, if_pos c, vb' k c.1 c.2]
    · rw [if_neg c, if_neg c]
  have rows : ∀ j, 0 ≤ j → j < n → Rows n (bA K cosn l m0) (bB sqrt cosn l m0) (zDiag l (l + (μ0 + 2 * j))) (W j) := fun j j0 jn => by
    refine block_rows hs (hF j j0 jn) fun k k1 kn => ?_
    have r := (hW j).recur k k1 kn
    obtain ⟨eA, eB, eC⟩ := vF k k1 kn
    have z := hz (k - 1) (by omega) (by omega)
    rw [eA, eB, eC, vL j j0 jn, vl' j j0 jn, va' k (by omega) kn, hoff] at r
    rw [r, ← vb' (k - 1) (by omega) (by omega)]
    field_simp
    ring
  refine ⟨F, W, ?_, Fn, Fs, ?_, ?_, ⟨rows, fun j _ _ => (hW j).norm, fun j _ _ => by rw [← Fs]; exact (hW j).oriented⟩⟩
  · unfold planBlock
    rw [ea, Option.bind_some, eb, Option.bind_some, el, Option.bind_some, eF]
  · intro i j i0 i1 j0 j1
    by_cases c : i = j
    · rw [if_pos c, c]; exact (hW j).norm
    · rw [if_neg c]
      refine rows_orth (rows i i0 i1) (rows j j0 j1) ?_
      rcases lt_or_gt_of_ne c with h | h
      · exact zDiag_ne (by omega) (by omega)
      · exact (zDiag_ne (by omega) (by omega)).symm
  · intro huge x y incx hx hy
    obtain ⟨y', G, e, o, g⟩ := C33_eigen_eval hs (huge := huge) n1 (c := x) (A := F.A) (B := F.B) (C := F.C) (x := F.lambda) (f := y) (sign := (F.sign : K)) (m := n) hx
      (by omega) (by omega) (by omega) (by omega) hy
    refine ⟨y', by unfold semv; rw [Fn]; exact e, o.1, fun j j0 jn => ?_, o.2.2⟩
    obtain ⟨w, hw, ew⟩ := g j j0 jn
    rw [o.2.1 j j0 jn, ew]
    exact sum_Ico_congr fun k k0 kn => by rw [C33_unique n1 hw (hW j) k k0 kn]

/-- The planned blocks of a degree multiply by the matrices given. -/
structure PlanMultiplies (sqrt : K → K) (P : PartialIso K) (l : Int) (W11 W22 W12 W21 : Int → Int → K) : Prop where
  f11 : P.F11.n = l / 2 ∧ YzMultiplies sqrt P.F11 (l / 2) W11
  f22 : P.F22.n = (l + 2) / 2 ∧ YzMultiplies sqrt P.F22 ((l + 2) / 2) W22
  f12 : P.F12.n = (l + 1) / 2 ∧ YzMultiplies sqrt P.F12 ((l + 1) / 2) W12
  f21 : P.F21.n = (l + 1) / 2 ∧ YzMultiplies sqrt P.F21 ((l + 1) / 2) W21

/-- First order of the sine blocks and of the cosine blocks. -/
theorem partial_plan (hs : IsSqrt sqrt) (junk : Int → K) {l : Int} (hl : 2 ≤ l) :
    ∃ P W11 W22 W12 W21, planPartialIso sqrt junk l = some P ∧ P.l = l ∧ PlanMultiplies sqrt P l W11 W22 W12 W21 ∧
      Orthonormal (l / 2) W11 ∧ Orthonormal ((l + 2) / 2) W22 ∧ Orthonormal ((l + 1) / 2) W12 ∧ Orthonormal ((l + 1) / 2) W21 ∧
      EigRows (l / 2) (bA K false l (1 + l % 2)) (bB sqrt false l (1 + l % 2)) (fun j => zDiag l (l + (1 + l % 2 + 2 * j))) ((if l % 4 / 2 = 1 then 1 else -1 : Int) : K) W11 ∧
      EigRows ((l + 2) / 2) (bA K true l (l % 2)) (bB sqrt true l (l % 2)) (fun j => zDiag l (l + (l % 2 + 2 * j))) ((if l % 4 / 2 = 1 then -1 else 1 : Int) : K) W22 ∧
      EigRows ((l + 1) / 2) (bA K true l (1 - l % 2)) (bB sqrt true l (1 - l % 2)) (fun j => zDiag l (l + (2 - l % 2 + 2 * j))) ((if (l + 1) % 4 / 2 = 1 then -1 else 1 : Int) : K) W12 ∧
      EigRows ((l + 1) / 2) (bA K false l (2 - l % 2)) (bB sqrt false l (2 - l % 2)) (fun j => zDiag l (l + (1 - l % 2 + 2 * j))) ((if (l + 1) % 4 / 2 = 1 then -1 else 1 : Int) : K) W21 := by
  obtain ⟨F11, W11, e11, n11, -, o11, m11, g11⟩ := block_plan hs junk (cosn := false) (l := l) (m0 := 1 + l % 2) (n := l / 2) (μ0 := 1 + l % 2) (ra := true) (rl := true)
    (ia := fun i => 2 * i + 1) (il := fun i => 2 * i + 1) (if l % 4 / 2 = 1 then 1 else -1) (by omega) (by omega)
    (fun j j0 jn => ⟨by omega, by omega, by omega, fun _ => by omega, fun h => by simp at h, by omega, by omega, by omega, by simp; omega, fun _ => by omega⟩)
    (fun t t0 tn => by simp [posi]; omega) (fun t t0 tn => by simp; omega) (fun t t0 tn => Or.inr (by simp; omega))
  obtain ⟨F21, W21, e21, n21, -, o21, m21, g21⟩ := block_plan hs junk (cosn := false) (l := l) (m0 := 2 - l % 2) (n := (l + 1) / 2) (μ0 := 1 - l % 2) (ra := true) (rl := false)
    (ia := fun i => 2 * i) (il := fun i => l + 1 - l % 2 + 2 * i) (if (l + 1) % 4 / 2 = 1 then -1 else 1) (by omega) (by omega)
    (fun j j0 jn => ⟨by omega, by omega, by omega, fun _ => by omega, fun h => by simp at h, by omega, by omega, by omega, by simp; omega, fun _ => by omega⟩)
    (fun t t0 tn => by simp [posi]; omega) (fun t t0 tn => by simp; omega) (fun t t0 tn => Or.inl (by simp; omega))
  obtain ⟨F12, W12, e12, n12, -, o12, m12, g12⟩ := block_plan hs junk (cosn := true) (l := l) (m0 := 1 - l % 2) (n := (l + 1) / 2) (μ0 := 2 - l % 2) (ra := false) (rl := true)
    (ia := fun i => 2 * i + l - l % 2 + 1) (il := fun i => 2 * i) (if (l + 1) % 4 / 2 = 1 then -1 else 1) (by omega) (by omega)
    (fun j j0 jn => ⟨by omega, by omega, by omega, fun h => by simp at h, fun _ => by omega, by omega, by omega, by omega, by simp; omega, fun _ => by omega⟩)
    (fun t t0 tn => by simp [posi]; omega) (fun t t0 tn => by simp; omega) (fun t t0 tn => Or.inr (by simp; omega))
  obtain ⟨F22, W22, e22, n22, -, o22, m22, g22⟩ := block_plan hs junk (cosn := true) (l := l) (m0 := l % 2) (n := (l + 2) / 2) (μ0 := l % 2) (ra := false) (rl := false)
    (ia := fun i => 2 * i + l + l % 2) (il := fun i => l + l % 2 + 2 * i) (if l % 4 / 2 = 1 then -1 else 1) (by omega) (by omega)
    (fun j j0 jn => ⟨by omega, by omega, by omega, fun h => by simp at h, fun _ => by omega, by omega, by omega, by omega, by simp; omega, fun _ => by omega⟩)
    (fun t t0 tn => by simp [posi]; omega) (fun t t0 tn => by simp; omega) (fun t t0 tn => Or.inl (by simp; omega))
  refine ⟨⟨F11, F21, F12, F22, l⟩, W11, W22, W12, W21, ?_, rfl, ⟨⟨n11, m11⟩, ⟨n22, m22⟩, ⟨n12, m12⟩, ⟨n21, m21⟩⟩, o11, o22, o12, o21, g11, g22, g12, g21⟩
  unfold planPartialIso
  rw [e11, Option.bind_some, e21, Option.bind_some, e12, Option.bind_some, e22]
  rfl

/-- Two orthogonal matrices, one of them the other transposed up to row and column scalings, with the same signs in the first row and column. -/
theorem transpose_of {n : Int} {V W : Int → Int → K} {α β : Int → K} (n1 : 1 ≤ n) (oV : Orthonormal n V) (oW : Orthonormal n W)
    (rel : ∀ j t, 0 ≤ j → j < n → 0 ≤ t → t < n → W t j = α j * β t * V j t) (s1 : ∀ j, 0 ≤ j → j < n → 0 < V j 0 * W 0 j)
    (s2 : ∀ t, 0 ≤ t → t < n → 0 < V 0 t * W t 0) {j t : Int} (j0 : 0 ≤ j) (jn : j < n) (t0 : 0 ≤ t) (tn : t < n) : W t j = V j t := by
  have sq : ∀ i s, 0 ≤ i → i < n → 0 ≤ s → s < n → α i * α i * (β s * β s) * V i s = V i s := by
    intro i s i0 i1 s0 s1
    have e1 : ∑ p ∈ Finset.Ico 0 n, V i p * ∑ q ∈ Finset.Ico 0 n, α q * α q * V q p * V q s = α i * α i * V i s := by
      have : ∀ p, 0 ≤ p → p < n → V i p * ∑ q ∈ Finset.Ico 0 n, α q * α q * V q p * V q s = ∑ q ∈ Finset.Ico 0 n, α q * α q * V q s * (V i p * V q p) := fun p _ _ => by
        rw [Finset.mul_sum]; exact sum_Ico_congr fun q _ _ => by ring
      rw [sum_Ico_congr this, Finset.sum_comm]
      have : ∀ q, 0 ≤ q → q < n → ∑ p ∈ Finset.Ico 0 n, α q * α q * V q s * (V i p * V q p) = if q = i then α q * α q * V q s else 0 := fun q q0 q1 => by
        rw [← Finset.mul_sum, oV i q i0 i1 q0 q1]
        by_cases e : q = i
        · rw [if_pos e, if_pos e.symm, mul_one]
        · rw [if_neg e, if_neg (fun h => e h.symm), mul_zero]
      rw [sum_Ico_congr this, sum_Ico_delta i0 i1]
    have e2 : ∀ p, 0 ≤ p → p < n → β p * β s * ∑ q ∈ Finset.Ico 0 n, α q * α q * V q p * V q s = if p = s then 1 else 0 := fun p p0 p1 => by
      rw [← oW p s p0 p1 s0 s1, Finset.mul_sum]
      exact sum_Ico_congr fun q q0 q1 => by rw [rel q p q0 q1 p0 p1, rel q s q0 q1 s0 s1]; ring
    have bn : ∀ p, 0 ≤ p → p < n → β p ≠ 0 := fun p p0 p1 z => by
      have := s2 p p0 p1
      rw [rel 0 p le_rfl (by omega) p0 p1, z] at this
      simp at this
    have e3 : ∀ p, 0 ≤ p → p < n → β s * β s * (V i p * ∑ q ∈ Finset.Ico 0 n, α q * α q * V q p * V q s) = if p = s then V i p else 0 := fun p p0 p1 => by
      have h := e2 p p0 p1
      by_cases e : p = s
      · subst e
        rw [if_pos rfl] at h ⊢
        linear_combination V i p * h
      · rw [if_neg e] at h ⊢
        rw [(mul_eq_zero.1 h).resolve_left (mul_ne_zero (bn p p0 p1) (bn s s0 s1))]
        ring
    have e4 := congrArg (fun z => β s * β s * z) e1
    simp only [Finset.mul_sum] at e4
    simp only [← Finset.mul_sum] at e4
    rw [Finset.mul_sum, sum_Ico_congr e3, sum_Ico_delta s0 s1] at e4
    linear_combination -e4
  have one : ∀ {x v : K}, x * x * v = v → 0 < v * (x * v) → x = 1 := fun {x v} h p => by
    have v0 : v ≠ 0 := fun z => by rw [z] at p; simp at p
    have xx : x * x = 1 := mul_right_cancel₀ v0 (by rw [h, one_mul])
    have xp : 0 < x := by
      rw [show v * (x * v) = v ^ 2 * x by ring] at p
      exact (pos_iff_pos_of_mul_pos p).1 (by positivity)
    nlinarith
  have h1 : ∀ j, 0 ≤ j → j < n → α j * β 0 = 1 := fun j j0 jn => by
    have p := s1 j j0 jn
    rw [rel j 0 j0 jn le_rfl (by omega)] at p
    exact one (by linear_combination sq j 0 j0 jn le_rfl (by omega)) p
  have h2 : α 0 * β t = 1 := by
    have p := s2 t t0 tn
    rw [rel 0 t le_rfl (by omega) t0 tn] at p
    exact one (by linear_combination sq 0 t le_rfl (by omega) t0 tn) p
  rw [rel j t j0 jn t0 tn]
  have a := h1 j j0 jn
  have b := h1 0 le_rfl (by omega)
  have : α j * β t = 1 := by linear_combination (α j * β t) * (-b) + (α 0 * β t) * a + h2
  rw [this, one_mul]

/-- Blocks whose orders and eigenvalue indices are exchanged are transposes of each other. -/
theorem blocks_transpose (hs : IsSqrt sqrt) {c c' : Bool} {l m0 μ0 n sign : Int} (n1 : 1 ≤ n) (hsg : sign = 1 ∨ sign = -1)
    (hF : ∀ j, 0 ≤ j → j < n → BlockFits c l m0 n (μ0 + 2 * j)) (hF' : ∀ j, 0 ≤ j → j < n → BlockFits c' l μ0 n (m0 + 2 * j))
    (hA : Alternates K l m0 n μ0) (hA' : Alternates K l μ0 n m0) {V W : Int → Int → K} (oV : Orthonormal n V) (oW : Orthonormal n W)
    (gV : EigRows n (bA K c l m0) (bB sqrt c l m0) (fun j => zDiag l (l + (μ0 + 2 * j))) (sign : K) V)
    (gW : EigRows n (bA K c' l μ0) (bB sqrt c' l μ0) (fun j => zDiag l (l + (m0 + 2 * j))) (sign : K) W) {j t : Int} (j0 : 0 ≤ j) (jn : j < n) (t0 : 0 ≤ t) (tn : t < n) : W t j = V j t := by
  have ss : (sign : K) * sign = 1 := by rcases hsg with h | h <;> rw [h] <;> simp
  -- every row is a multiple of the explicit eigenvector
  have mult : ∀ {c : Bool} {m0 μ0 : Int} {V : Int → Int → K}, (∀ j, 0 ≤ j → j < n → BlockFits c l m0 n (μ0 + 2 * j)) →
      EigRows n (bA K c l m0) (bB sqrt c l m0) (fun j => zDiag l (l + (μ0 + 2 * j))) (sign : K) V →
      ∀ j, ∃ κ : K, 0 ≤ j → j < n → κ ≠ 0 ∧ ∀ t, 0 ≤ t → t < n → V j t = κ * uv sqrt c l m0 (μ0 + 2 * j) t := by
    intro c m0 μ0 V hF g j
    refine ⟨V j (n - 1) / uv sqrt c l m0 (μ0 + 2 * j) (n - 1), fun j0 jn => ?_⟩
    obtain ⟨r, z⟩ := uv_rows (K := K) hs (hF j j0 jn)
    have p : ∀ t, 0 ≤ t → t < n → V j t = V j (n - 1) / uv sqrt c l m0 (μ0 + 2 * j) (n - 1) * uv sqrt c l m0 (μ0 + 2 * j) t := fun t t0 tn =>
      rows_prop (fun t t0 tn => (block_b hs (hF j j0 jn) t0 tn).2) r z (g.rows j j0 jn) t0 tn
    refine ⟨fun k => ?_, p⟩
    have := g.norm j j0 jn
    rw [sum_Ico_congr (g := fun _ => 0) fun t t0 tn => by rw [p t t0 tn, k]; ring] at this
    simp at this
  choose κ hκ using mult hF gV
  choose κ' hκ' using mult hF' gW
  have hb := fun t t0 tn => block_b (K := K) hs (hF 0 le_rfl (by omega)) (t := t) t0 tn
  have hb' := fun t t0 tn => block_b (K := K) hs (hF' 0 le_rfl (by omega)) (t := t) t0 tn
  have bd : ∀ t, 0 ≤ t → t < n → 0 ≤ m0 + 2 * t ∧ m0 + 2 * t ≤ l := fun t t0 tn => ⟨(hF' t t0 tn).mu0, (hF' t t0 tn).mul⟩
  have bd' : ∀ t, 0 ≤ t → t < n → 0 ≤ μ0 + 2 * t ∧ μ0 + 2 * t ≤ l := fun t t0 tn => ⟨(hF t t0 tn).mu0, (hF t t0 tn).mul⟩
  let N := (2 * l).toNat
  have rel : ∀ j t, 0 ≤ j → j < n → 0 ≤ t → t < n → W t j = (scal (bX K l μ0) (bB sqrt c' l μ0) j.toNat * Kac.wt K N (l + (μ0 + 2 * j)).toNat / κ j) *
      (κ' t / (Kac.wt K N (l + (m0 + 2 * t)).toNat * scal (bX K l m0) (bB sqrt c l m0) t.toNat)) * V j t := by
    intro j t j0 jn t0 tn
    obtain ⟨k0, e⟩ := hκ j j0 jn
    obtain ⟨k0', e'⟩ := hκ' t t0 tn
    obtain ⟨a1, a2⟩ := bd t t0 tn
    obtain ⟨a3, a4⟩ := bd' j j0 jn
    have d := Kac.co_dual (K := K) (N := N) (k := (l + (m0 + 2 * t)).toNat) (by omega) (l + (μ0 + 2 * j)).toNat (by omega)
    have w1 := Kac.wt_ne (K := K) (N := N) (i := (l + (m0 + 2 * t)).toNat) (by omega)
    have sn := scal_ne (X := bX K l m0) (b := bB sqrt c l m0) hb t.toNat (by omega)
    rw [show N - (l + (m0 + 2 * t)).toNat = (l - (m0 + 2 * t)).toNat by omega, show N - (l + (μ0 + 2 * j)).toNat = (l - (μ0 + 2 * j)).toNat by omega,
      Int.toNat_of_nonneg (show 0 ≤ l + (μ0 + 2 * j) by omega), Int.toNat_of_nonneg (show 0 ≤ l + (m0 + 2 * t) by omega)] at d
    rw [e' j j0 jn, e t t0 tn]
    unfold uv qv
    rw [show l + μ0 + 2 * j = l + (μ0 + 2 * j) by ring, show l + m0 + 2 * t = l + (m0 + 2 * t) by ring]
    field_simp
    linear_combination scal (bX K l μ0) (bB sqrt c' l μ0) j.toNat * d
  have same : ∀ {c : Bool} {m0 μ0 : Int} {V : Int → Int → K} {κ : Int → K}, (∀ j, 0 ≤ j → j < n → BlockFits c l m0 n (μ0 + 2 * j)) → Alternates K l m0 n μ0 →
      (∀ j, 0 ≤ j → j < n → κ j ≠ 0 ∧ ∀ t, 0 ≤ t → t < n → V j t = κ j * uv sqrt c l m0 (μ0 + 2 * j) t) → ∀ t, 0 ≤ t → t < n → 0 < V 0 0 * V 0 t := by
    intro c m0 μ0 V κ hF hA hκ t t0 tn
    obtain ⟨k0, e⟩ := hκ 0 le_rfl (by omega)
    have f := hF 0 le_rfl (by omega)
    rw [mul_zero, add_zero] at f e
    have p := uv_same (K := K) hs f hA t0 tn
    rw [e 0 le_rfl (by omega), e t t0 tn, show κ 0 * uv sqrt c l m0 μ0 0 * (κ 0 * uv sqrt c l m0 μ0 t) = κ 0 ^ 2 * (uv sqrt c l m0 μ0 0 * uv sqrt c l m0 μ0 t) by ring]
    exact mul_pos (by positivity) p
  -- signs of the first row and column
  have signs : ∀ {x y z : K}, 0 ≤ sign * x → 0 ≤ sign * y → 0 < y * z → x ≠ 0 → 0 < x * z := by
    intro x y z h1 h2 h3 h4
    have h5 : 0 ≤ x * y := by have := mul_nonneg h1 h2; rw [show (sign : K) * x * (sign * y) = (sign * sign) * (x * y) by ring, ss, one_mul] at this; exact this
    have y0 : y ≠ 0 := fun h => by rw [h] at h3; simp at h3
    have h6 : 0 < x * y := lt_of_le_of_ne h5 (mul_ne_zero h4 y0).symm
    have h7 := mul_pos h6 h3
    rw [show x * y * (y * z) = y ^ 2 * (x * z) by ring] at h7
    exact (pos_iff_pos_of_mul_pos h7).1 (by positivity)
  have pV := same hF hA hκ
  have pW := same hF' hA' hκ'
  refine transpose_of n1 oV oW rel (fun j j0 jn => ?_) (fun t t0 tn => ?_) j0 jn t0 tn
  · refine signs (gV.sgn j j0 jn) (gW.sgn 0 le_rfl (by omega)) (pW j j0 jn) fun z => ?_
    have := pW j j0 jn
    rw [rel j 0 j0 jn le_rfl (by omega), z, mul_zero, mul_zero] at this
    exact lt_irrefl _ this
  · rw [mul_comm]
    refine signs (gW.sgn t t0 tn) (gV.sgn 0 le_rfl (by omega)) (pV t t0 tn) fun z => ?_
    rw [rel 0 t le_rfl (by omega) t0 tn] at z
    have v0 : V 0 t ≠ 0 := fun h => by have := pV t t0 tn; rw [h, mul_zero] at this; exact lt_irrefl _ this
    have := (mul_eq_zero.1 z).resolve_right v0
    obtain ⟨k0, -⟩ := hκ 0 le_rfl (by omega)
    obtain ⟨k0', -⟩ := hκ' t t0 tn
    obtain ⟨a1, a2⟩ := bd t t0 tn
    obtain ⟨a3, a4⟩ := bd' 0 le_rfl (by omega)
    exact mul_ne_zero (div_ne_zero (mul_ne_zero (scal_ne hb' _ (by omega)) (Kac.wt_ne (by omega))) k0)
      (div_ne_zero k0' (mul_ne_zero (Kac.wt_ne (by omega)) (scal_ne hb _ (by omega)))) this

theorem undoes_of {n : Int} {V W : Int → Int → K} (oV : Orthonormal n V) (h : ∀ j t, 0 ≤ j → j < n → 0 ≤ t → t < n → W t j = V j t) : Undoes n V W := by
  intro i j i0 i1 j0 j1
  rw [← oV i j i0 i1 j0 j1]
  exact sum_Ico_congr fun k k0 k1 => by rw [h j k j0 j1 k0 k1]

theorem yz_pm_one {p : Prop} [Decidable p] {a b : Int} (ha : a = 1 ∨ a = -1) (hb : b = 1 ∨ b = -1) : (if p then a else b) = 1 ∨ (if p then a else b) = -1 := by
  split_ifs <;> assumption

/-- Diagonal entry, for the order `m`, of `4 ((l+1)² - L²)`, with `L` the angular momentum about the y-axis, in the basis of the cosines or sines of degree `l`. -/
def angDiag (K : Type*) [Field K] (cosn : Bool) (l m : Int) : K :=
  2 * (l + 1) * (l + 2) + 2 * m * m + (if m = 1 then (if cosn then -1 else 1) * ((l : K) * (l + 1)) else 0)

/-- Square of the entry between the orders `m` and `m + 2`; the constant function is normalised differently from the cosines. -/
def angOffSq (K : Type*) [Field K] (l m : Int) : K := (if m = 0 then 2 else 1) * (((l : K) + m + 1) * (l + m + 2)) * ((l - m - 1) * (l - m))

/-- The rows of `W` are unit eigenvectors, for the orders `m0, m0+2, …`, with the squared angular momenta `μ0², (μ0+2)², …` and the sign given. -/
def Diagonalises (cosn : Bool) (l m0 μ0 n sign : Int) (W : Int → Int → K) : Prop :=
  ∃ b : Int → K, (∀ t, 0 ≤ t → t < n - 1 → 0 < b t ∧ b t * b t = angOffSq K l (m0 + 2 * t)) ∧ ∀ j, 0 ≤ j → j < n → 0 ≤ sign * W j 0 ∧ ∑ k ∈ Finset.Ico 0 n, W j k * W j k = 1 ∧
    ∀ t, 0 ≤ t → t < n → (if 0 < t then b (t - 1) * W j (t - 1) else 0) + angDiag K cosn l (m0 + 2 * t) * W j t + (if t + 1 < n then b t * W j (t + 1) else 0)
      = 4 * (((l : K) + 1) ^ 2 - ((μ0 + 2 * j : Int) : K) ^ 2) * W j t

theorem diagonalises_of (hs : IsSqrt sqrt) {cosn : Bool} {l m0 μ0 n sign : Int} {W : Int → Int → K} (hF : ∀ j, 0 ≤ j → j < n → BlockFits cosn l m0 n (μ0 + 2 * j))
    (g : EigRows n (bA K cosn l m0) (bB sqrt cosn l m0) (fun j => zDiag l (l + (μ0 + 2 * j))) (sign : K) W) : Diagonalises cosn l m0 μ0 n sign W := by
  refine ⟨bB sqrt cosn l m0, fun t t0 tn => ?_, fun j j0 jn => ⟨g.sgn j j0 jn, g.norm j j0 jn, fun t t0 tn => ?_⟩⟩
  · have f := hF 0 le_rfl (by omega)
    refine ⟨block_b_pos hs f t0 tn, ?_⟩
    rw [(block_b hs f t0 tn).1]
    unfold bX bY angOffSq
    ring
  · have r := g.rows j j0 jn t t0 tn
    have f := hF j j0 jn
    have f0 := f.m00
    have ft := f.top
    have e1 : offd n (bB sqrt cosn l m0) (t - 1) * W j (t - 1) = if 0 < t then bB sqrt cosn l m0 (t - 1) * W j (t - 1) else 0 := by
      unfold offd
      by_cases c : 0 < t
      · rw [if_pos (by omega), if_pos c]
      · rw [if_neg (by omega), if_neg c, zero_mul]
    have e2 : offd n (bB sqrt cosn l m0) t * W j (t + 1) = if t + 1 < n then bB sqrt cosn l m0 t * W j (t + 1) else 0 := by
      unfold offd
      by_cases c : t + 1 < n
      · rw [if_pos (by omega), if_pos c]
      · rw [if_neg (by omega), if_neg c, zero_mul]
    have e3 : bA K cosn l m0 t = angDiag K cosn l (m0 + 2 * t) := by
      unfold bA posi angDiag
      cases hc : cosn with
      | true =>
        simp only [if_true]
        rw [yDiag_cos (by omega) (by omega)]
        split_ifs <;> ring
      | false =>
        have := f.sinm hc
        simp only [Bool.false_eq_true, if_false]
        rw [yDiag_sin (by omega) (by omega)]
        split_ifs <;> ring
    rw [← e1, ← e2, ← e3, r]
    unfold zDiag
    push_cast
    ring

/-- **C79** Planning the exchange of axes for a degree from two on succeeds; its four blocks multiply by orthogonal matrices, two of which are their own inverses
and two inverse to each other; their rows are the eigenvectors of the squared angular momentum about the y-axis, in the order of the squared angular momenta. -/
theorem C79_degree (hs : IsSqrt sqrt) (junk : Int → K) {l : Int} (hl : 2 ≤ l) :
    ∃ P W11 W22 W12 W21, planPartialIso sqrt junk l = some P ∧ P.l = l ∧ PlanMultiplies sqrt P l W11 W22 W12 W21 ∧
      (Orthonormal (l / 2) W11 ∧ Orthonormal ((l + 2) / 2) W22 ∧ Orthonormal ((l + 1) / 2) W12 ∧ Orthonormal ((l + 1) / 2) W21) ∧
      (Undoes (l / 2) W11 W11 ∧ Undoes ((l + 2) / 2) W22 W22 ∧ Undoes ((l + 1) / 2) W12 W21 ∧ Undoes ((l + 1) / 2) W21 W12) ∧
      Diagonalises false l (1 + l % 2) (1 + l % 2) (l / 2) (if l % 4 / 2 = 1 then 1 else -1) W11 ∧
      Diagonalises true l (l % 2) (l % 2) ((l + 2) / 2) (if l % 4 / 2 = 1 then -1 else 1) W22 ∧
      Diagonalises true l (1 - l % 2) (2 - l % 2) ((l + 1) / 2) (if (l + 1) % 4 / 2 = 1 then -1 else 1) W12 ∧
      Diagonalises false l (2 - l % 2) (1 - l % 2) ((l + 1) / 2) (if (l + 1) % 4 / 2 = 1 then -1 else 1) W21 := by
  obtain ⟨P, W11, W22, W12, W21, eP, lP, mP, o11, o22, o12, o21, g11, g22, g12, g21⟩ := partial_plan hs junk hl
  have sinF : ∀ {m0 n μ0 : Int}, 1 ≤ n → 1 ≤ m0 → m0 ≤ 2 → (m0 + 2 * n = l + 1 ∨ m0 + 2 * n = l + 2) → 0 ≤ μ0 → μ0 + 2 * n ≤ l + 2 → (l - μ0) % 2 = 1 → (m0 + 2 * n = l + 1 → 1 ≤ μ0) →
      ∀ j, 0 ≤ j → j < n → BlockFits false l m0 n (μ0 + 2 * j) := fun a b c d e f g h j j0 jn =>
    ⟨a, by omega, c, fun _ => b, fun h => by simp at h, d, by omega, by omega, by simp; omega, fun x => by have := h x; omega⟩
  have cosF : ∀ {m0 n μ0 : Int}, 1 ≤ n → 0 ≤ m0 → m0 ≤ 1 → (m0 + 2 * n = l + 1 ∨ m0 + 2 * n = l + 2) → 0 ≤ μ0 → μ0 + 2 * n ≤ l + 2 → (l - μ0) % 2 = 0 → (m0 + 2 * n = l + 1 → 1 ≤ μ0) →
      ∀ j, 0 ≤ j → j < n → BlockFits true l m0 n (μ0 + 2 * j) := fun a b c d e f g h j j0 jn =>
    ⟨a, b, by omega, fun h => by simp at h, fun _ => c, d, by omega, by omega, by simp; omega, fun x => by have := h x; omega⟩
  have F11 := sinF (m0 := 1 + l % 2) (n := l / 2) (μ0 := 1 + l % 2) (by omega) (by omega) (by omega) (by omega) (by omega) (by omega) (by omega) (by omega)
  have F22 := cosF (m0 := l % 2) (n := (l + 2) / 2) (μ0 := l % 2) (by omega) (by omega) (by omega) (by omega) (by omega) (by omega) (by omega) (by omega)
  have F12 := cosF (m0 := 1 - l % 2) (n := (l + 1) / 2) (μ0 := 2 - l % 2) (by omega) (by omega) (by omega) (by omega) (by omega) (by omega) (by omega) (by omega)
  have F21 := sinF (m0 := 2 - l % 2) (n := (l + 1) / 2) (μ0 := 1 - l % 2) (by omega) (by omega) (by omega) (by omega) (by omega) (by omega) (by omega) (by omega)
  have A11 : Alternates K l (1 + l % 2) (l / 2) (1 + l % 2) := by
    rcases (by omega : l % 2 = 0 ∨ l % 2 = 1) with h | h <;> rw [h]
    · exact alt_one_odd (by omega) (by omega) (by omega)
    · exact alt_two hl (by omega) (by omega)
  have A22 : Alternates K l (l % 2) ((l + 2) / 2) (l % 2) := by
    rcases (by omega : l % 2 = 0 ∨ l % 2 = 1) with h | h <;> rw [h]
    · exact alt_zero (by omega) (by omega) (by omega)
    · exact alt_one_even (by omega) (by omega) (by omega)
  have A12 : Alternates K l (1 - l % 2) ((l + 1) / 2) (2 - l % 2) := by
    rcases (by omega : l % 2 = 0 ∨ l % 2 = 1) with h | h <;> rw [h]
    · exact alt_two hl (by omega) (by omega)
    · exact alt_one_odd (by omega) (by omega) (by omega)
  have A21 : Alternates K l (2 - l % 2) ((l + 1) / 2) (1 - l % 2) := by
    rcases (by omega : l % 2 = 0 ∨ l % 2 = 1) with h | h <;> rw [h]
    · exact alt_one_even (by omega) (by omega) (by omega)
    · exact alt_zero (by omega) (by omega) (by omega)
  have l1 : (1 : Int) = 1 ∨ (1 : Int) = -1 := Or.inl rfl
  have r1 : (-1 : Int) = 1 ∨ (-1 : Int) = -1 := Or.inr rfl
  refine ⟨P, W11, W22, W12, W21, eP, lP, mP, ⟨o11, o22, o12, o21⟩, ⟨?_, ?_, ?_, ?_⟩, diagonalises_of hs F11 g11, diagonalises_of hs F22 g22, diagonalises_of hs F12 g12, diagonalises_of hs F21 g21⟩
  · exact undoes_of o11 fun j t j0 jn t0 tn => blocks_transpose hs (by omega) (yz_pm_one l1 r1) F11 F11 A11 A11 o11 o11 g11 g11 j0 jn t0 tn
  · exact undoes_of o22 fun j t j0 jn t0 tn => blocks_transpose hs (by omega) (yz_pm_one r1 l1) F22 F22 A22 A22 o22 o22 g22 g22 j0 jn t0 tn
  · exact undoes_of o12 fun j t j0 jn t0 tn => blocks_transpose hs (by omega) (yz_pm_one r1 l1) F12 F21 A12 A21 o12 o21 g12 g21 j0 jn t0 tn
  · exact undoes_of o21 fun j t j0 jn t0 tn => blocks_transpose hs (by omega) (yz_pm_one r1 l1) F21 F12 A21 A12 o21 o12 g21 g12 j0 jn t0 tn

/-- `J` is what `ft_plan_sph_isometry(n)` (src/isometries.c L432-439) plans: for every degree `2 ≤ l < n` the partial plan exists and multiplies by the blocks of `J`. -/
def PlannedIsometry (sqrt : K → K) (junk : Int → K) (J : YzPlan K) : Prop :=
  ∀ l, 2 ≤ l → l < J.n → ∃ P, planPartialIso sqrt junk l = some P ∧ P.l = l ∧ PlanMultiplies sqrt P l (J.w11 l) (J.w22 l) (J.w12 l) (J.w21 l)

/-- **C79** For every order the planned exchange consists of orthogonal blocks that undo each other. -/
theorem C79_plan (hs : IsSqrt sqrt) (junk : Int → K) (n : Int) : ∃ J : YzPlan K, J.n = n ∧ PlannedIsometry sqrt junk J ∧ BlocksOrthonormal J ∧ BlocksInvolutive J := by
  have ex : ∀ l, ∃ P W11 W22 W12 W21, 2 ≤ l → planPartialIso sqrt junk l = some P ∧ P.l = l ∧ PlanMultiplies sqrt P l W11 W22 W12 W21 ∧
      (Orthonormal (l / 2) W11 ∧ Orthonormal ((l + 2) / 2) W22 ∧ Orthonormal ((l + 1) / 2) W12 ∧ Orthonormal ((l + 1) / 2) W21) ∧
      Undoes (l / 2) W11 W11 ∧ Undoes ((l + 2) / 2) W22 W22 ∧ Undoes ((l + 1) / 2) W12 W21 ∧ Undoes ((l + 1) / 2) W21 W12 := fun l => by
    by_cases hl : 2 ≤ l
    · obtain ⟨P, a, b, c, d, h⟩ := C79_degree hs junk hl
      exact ⟨P, a, b, c, d, fun _ => ⟨h.1, h.2.1, h.2.2.1, h.2.2.2.1, h.2.2.2.2.1⟩⟩
    · obtain ⟨P, a, b, c, d, h⟩ := C79_degree hs junk (le_refl 2)
      exact ⟨P, a, b, c, d, fun h => absurd h hl⟩
  choose P W11 W22 W12 W21 h using ex
  refine ⟨⟨n, W11, W22, W21, W12⟩, rfl, fun l l2 _ => ⟨P l, (h l l2).1, (h l l2).2.1, (h l l2).2.2.1⟩, ⟨?_, ?_, ?_, ?_⟩, ⟨?_, ?_, ?_, ?_⟩⟩ <;> intro l l2 _ <;>
    obtain ⟨-, -, -, ⟨o1, o2, o3, o4⟩, u1, u2, u3, u4⟩ := h l l2 <;> assumption

/-- The blocks are determined by the plan: whatever matrices it multiplies by, they agree on the entries that count. -/
theorem yz_multiplies_unique {F : SEig K} {n : Int} {V W : Int → Int → K} (hV : YzMultiplies sqrt F n V) (hW : YzMultiplies sqrt F n W) {j t : Int} (j0 : 0 ≤ j) (jn : j < n) (t0 : 0 ≤ t) (tn : t < n) :
    V j t = W j t := by
  let x : Buf K := ⟨n.toNat, fun k => if k = t then 1 else 0⟩
  have hx : Coeffs x n 1 := fun k k0 kn => ⟨by omega, by show k * 1 < ((n.toNat : Nat) : Int); omega⟩
  obtain ⟨y, e, o⟩ := hV 0 x x 1 hx (by show n ≤ ((n.toNat : Nat) : Int); omega)
  obtain ⟨y', e', o'⟩ := hW 0 x x 1 hx (by show n ≤ ((n.toNat : Nat) : Int); omega)
  rw [e] at e'
  cases e'
  have h := (o.2.1 j j0 jn).symm.trans (o'.2.1 j j0 jn)
  have d : ∀ Z : Int → K, ∑ k ∈ Finset.Ico 0 n, Z k * x.val (k * 1) = Z t := fun Z => by
    rw [sum_Ico_congr (g := fun k => if k = t then Z k else 0) fun k _ _ => by show Z k * (if k * 1 = t then 1 else 0) = _; rw [mul_one]; split_ifs <;> simp, sum_Ico_delta t0 tn]
  exact (d (V j)).symm.trans (h.trans (d (W j)))

/-- **C79** Every planned exchange of order from two on preserves the energy of every degree and is its own inverse, and so does, and is inverted by its inverse,
every planned rotation. -/
theorem C79_isometry (hs : IsSqrt sqrt) {junk : Int → K} {J : YzPlan K} (hJ : PlannedIsometry sqrt junk J) : BlocksOrthonormal J ∧ BlocksInvolutive J := by
  have key : ∀ l, 2 ≤ l → l < J.n → (Orthonormal (l / 2) (J.w11 l) ∧ Orthonormal ((l + 2) / 2) (J.w22 l) ∧ Orthonormal ((l + 1) / 2) (J.w12 l) ∧ Orthonormal ((l + 1) / 2) (J.w21 l)) ∧
      Undoes (l / 2) (J.w11 l) (J.w11 l) ∧ Undoes ((l + 2) / 2) (J.w22 l) (J.w22 l) ∧ Undoes ((l + 1) / 2) (J.w12 l) (J.w21 l) ∧ Undoes ((l + 1) / 2) (J.w21 l) (J.w12 l) := by
    intro l l2 ln
    obtain ⟨P, e, -, m⟩ := hJ l l2 ln
    obtain ⟨P', W11, W22, W12, W21, e', -, m', ⟨o1, o2, o3, o4⟩, ⟨u1, u2, u3, u4⟩, -⟩ := C79_degree hs junk l2
    rw [e] at e'
    cases e'
    have orth : ∀ {n : Int} {V W : Int → Int → K}, (∀ j t, 0 ≤ j → j < n → 0 ≤ t → t < n → V j t = W j t) → Orthonormal n W → Orthonormal n V := fun h o i j i0 i1 j0 j1 => by
      rw [← o i j i0 i1 j0 j1]
      exact sum_Ico_congr fun k k0 k1 => by rw [h i k i0 i1 k0 k1, h j k j0 j1 k0 k1]
    have und : ∀ {n : Int} {V W V' W' : Int → Int → K}, (∀ j t, 0 ≤ j → j < n → 0 ≤ t → t < n → V j t = W j t) → (∀ j t, 0 ≤ j → j < n → 0 ≤ t → t < n → V' j t = W' j t) →
        Undoes n W W' → Undoes n V V' := fun h h' o i j i0 i1 j0 j1 => by
      rw [← o i j i0 i1 j0 j1]
      exact sum_Ico_congr fun k k0 k1 => by rw [h i k i0 i1 k0 k1, h' k j k0 k1 j0 j1]
    have e11 := fun j t j0 jn t0 tn => yz_multiplies_unique m.f11.2 m'.f11.2 (j := j) (t := t) j0 jn t0 tn
    have e22 := fun j t j0 jn t0 tn => yz_multiplies_unique m.f22.2 m'.f22.2 (j := j) (t := t) j0 jn t0 tn
    have e12 := fun j t j0 jn t0 tn => yz_multiplies_unique m.f12.2 m'.f12.2 (j := j) (t := t) j0 jn t0 tn
    have e21 := fun j t j0 jn t0 tn => yz_multiplies_unique m.f21.2 m'.f21.2 (j := j) (t := t) j0 jn t0 tn
    exact ⟨⟨orth e11 o1, orth e22 o2, orth e12 o3, orth e21 o4⟩, und e11 e11 u1, und e22 e22 u2, und e12 e21 u3, und e21 e12 u4⟩
  exact ⟨⟨fun l a b => (key l a b).1.1, fun l a b => (key l a b).1.2.1, fun l a b => (key l a b).1.2.2.1, fun l a b => (key l a b).1.2.2.2⟩,
    ⟨fun l a b => (key l a b).2.1, fun l a b => (key l a b).2.2.1, fun l a b => (key l a b).2.2.2.1, fun l a b => (key l a b).2.2.2.2⟩⟩

/-- **C79** With a planned exchange, exchanging twice restores the expansion, whatever the numbers of threads, and the energy of every degree is preserved. -/
theorem C79_exchange (hs : IsSqrt sqrt) {junk : Int → K} {J : YzPlan K} (hJ : PlannedIsometry sqrt junk J) {N : Int} (hn : 2 ≤ J.n) (hN : J.n ≤ N) {A : Buf K}
    (hA : N * (2 * J.n - 1) ≤ A.size) (hp : Padded J.n N A.val) {T T' : Nat} (hT : 0 < T) (hT' : 0 < T') {L : Int} (hL : J.n - 1 ≤ L) :
    ∃ B, ExchangeEnds J N T A B ∧ ExchangeEnds J N T' B A ∧ ∀ l, 0 ≤ l → l < J.n → degreeEnergy N L l B.val = degreeEnergy N L l A.val := by
  obtain ⟨o, v⟩ := C79_isometry hs hJ
  obtain ⟨B, e, e'⟩ := C56_involution v hn hN hA hp hT hT'
  obtain ⟨B', e2, h⟩ := C56_energy o hn hN hA hT hL
  have := exchange_unique e2 e
  subst this
  exact ⟨B', e, e', h⟩

/-- **C79** Transforming by a planned rotation and then by its inverse restores the expansion; both preserve the energy of every degree. -/
theorem C79_rotation (hs : IsSqrt sqrt) {junk : Int → K} {J : YzPlan K} (hJ : PlannedIsometry sqrt junk J) {N M : Int} (hn : 2 ≤ J.n) (hN : J.n ≤ N) (hM : J.n - 1 ≤ M / 2)
    {Z : ZYZR K} (hZ : 0 ≤ Z.sign) (u0 : Z.c0 * Z.c0 + Z.s0 * Z.s0 = 1) (u1 : Z.c1 * Z.c1 + Z.s1 * Z.s1 = 1) (u2 : Z.c2 * Z.c2 + Z.s2 * Z.s2 = 1) {A : Buf K}
    (hA : N * (2 * (M / 2) + 1) ≤ A.size) (hp : Padded J.n N A.val) {T T' : Nat} (hT : 0 < T) (hT' : 0 < T') :
    (∃ B, IsometryEnds J Z N M T A B ∧ IsometryEnds J (ZYZR.inverse Z) N M T' B A) ∧
      ∃ B, IsometryEnds J Z N M T A B ∧ ∀ l, 0 ≤ l → l < J.n → degreeEnergy N (M / 2) l B.val = degreeEnergy N (M / 2) l A.val :=
  ⟨C56_inverse (C79_isometry hs hJ).2 hn hN hM hZ u0 u1 u2 hA hp hT hT', C56_isometry (C79_isometry hs hJ).1 hn hN hM u0 u1 u2 hA hT⟩

/-- A quarter turn of an expansion of degree three, planned over the reals. -/
example : ∃ J : YzPlan ℝ, J.n = 4 ∧ PlannedIsometry Real.sqrt (fun _ => 7) J ∧ (∃ i j, 0 ≤ i ∧ i < 2 ∧ 0 ≤ j ∧ j < 2 ∧ J.w22 3 i j ≠ 0) ∧
    ∃ B, IsometryEnds J ⟨1, 1, 0, 0, 0, 1, 1⟩ 4 7 2 (Buf.ofList ((List.range 28).map fun i => if i = 0 ∨ i = 6 then 1 else 0)) B := by
  have hs : IsSqrt Real.sqrt := fun x hx => ⟨Real.sqrt_nonneg x, Real.mul_self_sqrt hx⟩
  obtain ⟨J, e, p, o, v⟩ := C79_plan hs (fun _ => 7) 4
  refine ⟨J, e, p, ?_, ?_⟩
  · by_contra h
    push Not at h
    have := o.b22 3 (by omega) (by omega) 0 0 (by omega) (by omega) (by omega) (by omega)
    rw [sum_Ico_congr (g := fun _ => 0) fun k k0 k1 => by rw [h 0 k (by omega) (by omega) k0 (by simpa using k1), mul_zero]] at this
    simp at this
  · obtain ⟨B, h, -⟩ := C56_isometry (J := J) o (N := 4) (M := 7) (by omega) (by omega) (by omega) (Z := ⟨1, 1, 0, 0, 0, 1, 1⟩) (by norm_num) (by norm_num) (by norm_num)
      (A := Buf.ofList ((List.range 28).map fun i => if i = 0 ∨ i = 6 then 1 else 0)) (by simp [Buf.ofList]) (T := 2) (by decide)
    exact ⟨B, h⟩

end FT.Props
