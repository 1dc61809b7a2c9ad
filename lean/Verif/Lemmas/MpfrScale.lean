import Verif.Lemmas.Mpfr
import Verif.Lemmas.MpfrPencil

/-!
# Scales of the plans in multiple precision
-/

set_option linter.unusedSectionVars false

namespace FT.Poly
open Polynomial FT FT.Model FT.Fmm FT.Props FT.Props.Hier FT.Props.TbEig FT.Props.Eig FT.Props.Ops FT.Props.Plan
variable {K : Type*} [Field K] [LinearOrder K] [IsStrictOrderedRing K] {F : Libm K} {n : Int} {junk : Int → K}

/-- What a sequence of factors is. -/
def Holds (n : Int) (x : Buf K) (c : Int → K) : Prop := x.size = n.toNat ∧ ∀ i, 0 ≤ i → i < n → x.val i = c i

theorem Filled.holds {x : Buf K} {c : Int → K} (f : Filled n 1 (⟨n.toNat, junk⟩ : Buf K) x c) : Holds n x c :=
  ⟨f.size, fun i i0 i1 => by have := f.val i i0 i1; rwa [mul_one] at this⟩

theorem seq1 {c : Int → K} {v : K} {g : Int → K → K} (h0 : c 0 = v) (h : ∀ i, 1 ≤ i → c i = g i (c (i - 1))) :
    ∃ x, (diag0 n v ⟨n.toNat, junk⟩).bind (diagLoop 1 n 1 g) = some x ∧ Holds n x c := by
  obtain ⟨x, e, f⟩ := diag_fill1 (n := n) (inc := 1) (D := (⟨n.toNat, junk⟩ : Buf K)) (r := c) (v := v) (g := g) le_rfl (fun i i0 i1 => by show i * 1 < ((n.toNat : Nat) : Int); omega) h0 h
  exact ⟨x, e, Filled.holds f⟩

theorem seq2 {c : Int → K} {v : K} {g1 : K → K} {g : Int → K → K} (h0 : c 0 = v) (h1 : c 1 = g1 (c 0)) (h : ∀ i, 2 ≤ i → c i = g i (c (i - 1))) :
    ∃ x, ((diag0 n v ⟨n.toNat, junk⟩).bind fun r => (diag1 n 1 g1 r).bind (diagLoop 2 n 1 g)) = some x ∧ Holds n x c := by
  obtain ⟨x, e, f⟩ := diag_fill2 (n := n) (inc := 1) (D := (⟨n.toNat, junk⟩ : Buf K)) (r := c) (v := v) (g1 := g1) (g := g) le_rfl (fun i i0 i1 => by show i * 1 < ((n.toNat : Nat) : Int); omega) h0 h1 h
  exact ⟨x, e, Filled.holds f⟩

/-- The two sequences with a running factor. -/
theorem runScales_run {T rat row col R Cc : Int → K} {v0 v1 w0 w1 : K} (r0 : R 0 = v0) (r1 : R 1 = v1) (c0 : Cc 0 = w0) (c1 : Cc 1 = w1) (t1 : T 1 = 1)
    (ht : ∀ i, 2 ≤ i → T i = rat i * T (i - 1)) (hr : ∀ i, 2 ≤ i → R i = row i) (hc : ∀ i, 2 ≤ i → Cc i = T i * col i) :
    ∃ x y, ((diag0 n v0 ⟨n.toNat, junk⟩).bind fun r => (diag0 n w0 ⟨n.toNat, junk⟩).bind fun c => (if n > 1 then r.wr 1 v1 else some r).bind fun r =>
      (if n > 1 then c.wr 1 w1 else some c).bind fun c => (runScales n rat row col ((r, c), 1)).map fun s => s.1) = some (x, y) ∧ Holds n x R ∧ Holds n y Cc := by
  have hs : ∀ i, 0 ≤ i → i < n → i * 1 < (((⟨n.toNat, junk⟩ : Buf K)).size : Int) := fun i i0 i1 => by show i * 1 < ((n.toNat : Nat) : Int); omega
  obtain ⟨x0, e0, f0⟩ := diag0_fill (r := R) le_rfl hs r0
  obtain ⟨y0, g0, h0⟩ := diag0_fill (r := Cc) le_rfl hs c0
  obtain ⟨x1, e1, f1⟩ := diag1_fill le_rfl hs f0 (g := fun _ => v1) r1
  obtain ⟨y1, g1, h1⟩ := diag1_fill le_rfl hs h0 (g := fun _ => w1) c1
  have d1 : ∀ {x : Buf K} {v : K} {x' : Buf K}, x.size = n.toNat → diag1 n 1 (fun _ => v) x = some x' → (if n > 1 then x.wr 1 v else some x) = some x' := fun {x v x'} sx e => by
    unfold diag1 at e
    split_ifs at e ⊢ with h
    · rw [Buf.rd_of le_rfl (by rw [sx]; omega), Option.bind_some] at e
      exact e
    · exact e
  have E := d1 f0.size e1
  have G := d1 h0.size g1
  obtain ⟨s, e, p1, p2, p3⟩ := forUp_spec (lo := 2) (hi := n) (s := ((x1, y1), (1 : K)))
    (body := fun i s => let t := rat i * s.2; (s.1.1.wr i (row i)).bind fun r => (s.1.2.wr i (t * col i)).map fun c => ((r, c), t))
    (fun k s => Filled (min k n) 1 (⟨n.toNat, junk⟩ : Buf K) s.1.1 R ∧ Filled (min k n) 1 (⟨n.toNat, junk⟩ : Buf K) s.1.2 Cc ∧ s.2 = T (k - 1))
    ⟨f1, h1, t1.symm⟩ (by
      intro k k0 k1 s ⟨q1, q2, q3⟩
      rw [min_eq_left (by omega)] at q1 q2
      have sz : k * 1 < (((⟨n.toNat, junk⟩ : Buf K)).size : Int) := hs k (by omega) k1
      obtain ⟨x', ex, fx⟩ := q1.next le_rfl (by omega) sz
      obtain ⟨y', ey, fy⟩ := q2.next le_rfl (by omega) sz
      rw [mul_one] at ex ey
      refine ⟨((x', y'), rat k * s.2), ?_, by rw [min_eq_left (by omega)]; exact fx, by rw [min_eq_left (by omega)]; exact fy, ?_⟩
      · dsimp only
        rw [← hr k k0, ex, Option.bind_some, q3, ← ht k k0, ← hc k k0, ey]
        rfl
      · show rat k * s.2 = T (k + 1 - 1)
        rw [q3, add_sub_cancel_right, ht k k0])
  refine ⟨s.1.1, s.1.2, ?_, ?_, ?_⟩
  · rw [e0, Option.bind_some, g0, Option.bind_some, E, Option.bind_some, G, Option.bind_some]
    unfold runScales
    rw [e]
    rfl
  · rw [min_eq_right (by omega)] at p1; exact Filled.holds p1
  · rw [min_eq_right (by omega)] at p2; exact Filled.holds p2

section
variable (hF : IsLibm F)
include hF

/-! ## Ultraspherical polynomials -/

section
variable {lam mu : K} (hm : -1 / 2 < mu) (h0 : mu ≠ 0)
include hm h0

theorem ultG_zero : 0 < F.gamma (1 / 2) * F.gamma (mu + 1 / 2) ∧ 0 < F.gamma (mu + 1) :=
  ⟨mul_pos (hF.gamma_pos _ (by norm_num)) (hF.gamma_pos _ (by linarith)), hF.gamma_pos _ (by linarith)⟩

theorem mpfrRowUlt_run (norm2 : Bool) : ∃ x, mpfrRowUlt F junk norm2 n mu = some x ∧ Holds n x fun i => ultS F false mu i / ultS F norm2 mu i := by
  refine seq1 ?_ fun i hi => ?_
  · obtain ⟨g1, g2⟩ := ultG_zero hF hm h0
    unfold ultS
    rw [scale_zero, scale_zero, hF.div _ _ g2.ne']
    cases norm2
    · norm_num
    · simp only [Bool.false_eq_true, if_false, if_true, one_div_one_div]; rfl
  · have st := ratio_step (s := ultS F false mu) (t := ultS F norm2 mu) (fun n hn => ultS_succ hF hm h0 n hn) (fun n hn => ultS_succ hF hm h0 n hn) hi
    obtain ⟨h1, h2, h3, h4, h5⟩ := ult_nz hm h0 hi
    have rn := ultR_ne hm h0 (show 0 ≤ i - 1 by omega)
    have wp := ultW_pos hm h0 hi
    rw [st]
    cases norm2
    · have := ultS_ne (norm := false) hF hm h0 (i - 1)
      simp only [ultStep, Bool.false_eq_true, if_false]
      rw [div_self rn, div_self this, one_mul]
    · simp only [ultStep, Bool.false_eq_true, if_false, if_true]
      rw [sub_add_cancel, div_div_eq_mul_div, mul_div_assoc, mul_comm (ultR mu (i - 1)), div_mul_cancel₀ _ rn, hF.div _ _ h5.ne', hF.div _ _ (by intro h; exact h4.ne' (by rw [← h]; ring))]
      congr 2
      unfold ultW
      rw [div_mul_div_comm]
      congr 1 <;> ring

theorem mpfrColUlt_run (hl : -1 / 2 < lam) (l0 : lam ≠ 0) (norm1 : Bool) : ∃ x, mpfrColUlt F junk norm1 n lam mu = some x ∧ Holds n x fun i => ultS F norm1 lam i / ultS F false mu i := by
  refine seq1 ?_ fun i hi => ?_
  · obtain ⟨g1, g2⟩ := ultG_zero hF hl l0
    unfold ultS
    rw [scale_zero, scale_zero, hF.div _ _ g1.ne']
    cases norm1
    · norm_num
    · simp only [Bool.false_eq_true, if_false, if_true, div_one]
      rw [← sqrt_inv hF.sqrt (ultG_pos hF hl)]
      unfold ultG
      rw [one_div_div]
  · have st := ratio_step (s := ultS F norm1 lam) (t := ultS F false mu) (fun n hn => ultS_succ hF hl l0 n hn) (fun n hn => ultS_succ hF hm h0 n hn) hi
    obtain ⟨h1, h2, h3, h4, h5⟩ := ult_nz hm h0 hi
    obtain ⟨k1, k2, k3, k4, k5⟩ := ult_nz hl l0 hi
    have rn := ultR_ne hm h0 (show 0 ≤ i - 1 by omega)
    have wp := ultW_pos hl l0 hi
    have q : ultR lam (i - 1) / ultR mu (i - 1) = F.div (lam + (i - 1)) (mu + (i - 1)) := by
      rw [hF.div _ _ (by intro h; exact h1 (by rw [← h]; ring))]
      unfold ultR
      push_cast
      rw [sub_add_cancel, add_comm lam, add_comm mu]
      field_simp
    rw [st]
    cases norm1
    · simp only [ultStep, Bool.false_eq_true, if_false]
      rw [q]
    · simp only [ultStep, Bool.false_eq_true, if_false, if_true]
      rw [sub_add_cancel, ← q, hF.div _ _ (by intro h; exact k1 (by rw [← h]; ring)), hF.div _ _ (by intro h; exact k2 (by rw [← h]; ring)), ← mul_assoc]
      congr 1
      have : (i : K) / (lam + (i - 1)) * ((lam + (i - 1) + 1) / (lam + (i - 1) + lam)) = 1 / ultW lam i := by
        unfold ultW
        rw [div_mul_div_comm, one_div_div]
        congr 1 <;> ring
      rw [this, sqrt_inv hF.sqrt wp]
      ring

end

/-! ## Laguerre polynomials -/

omit hF in
theorem lagS_false (α β : K) (i : Int) : lagS F false α i = lagS F false β i := rfl

theorem mpfrRowLag_run {β : K} (hβ : -1 < β) (norm2 : Bool) : ∃ x, mpfrRowLag F junk norm2 n β = some x ∧ Holds n x fun i => lagS F false β i / lagS F norm2 β i := by
  refine seq1 ?_ fun i hi => ?_
  · unfold lagS
    rw [scale_zero, scale_zero]
    cases norm2
    · norm_num
    · simp only [Bool.false_eq_true, if_false, if_true, one_div_one_div]
  · cases norm2
    · simp only [Bool.false_eq_true, if_false]
      rw [div_self (lagS_ne hF hβ i)]
    · have h1 : (1 : K) ≤ i := by exact_mod_cast hi
      have st := ratio_step (s := lagS F false β) (t := lagS F true β) (fun n hn => lagS_succ hF hβ hn) (fun n hn => lagS_succ hF hβ hn) hi
      rw [st]
      simp only [lagStep, Bool.false_eq_true, if_false, if_true]
      push_cast
      have i0 : (i : K) ≠ 0 := by linarith
      have q1 : 0 < (β + i) / (i : K) := div_pos (by linarith) (by linarith)
      have e : ((i : K) - 1 + 1) * (i - 1 + β + 1) = i * i * ((β + i) / i) := by field_simp; ring
      rw [hF.div _ _ i0, e, sqrt_mul hF.sqrt (by positivity) q1.le, sqrt_sq hF.sqrt (by linarith), sub_add_cancel]
      congr 1
      have := (sqrt_pos hF.sqrt q1).ne'
      field_simp

theorem mpfrColLag_run {α : K} (hα : -1 < α) (β : K) (norm1 : Bool) : ∃ x, mpfrColLag F junk norm1 n α = some x ∧ Holds n x fun i => lagS F norm1 α i / lagS F false β i := by
  simp only [fun i => lagS_false (F := F) β α i]
  refine seq1 ?_ fun i hi => ?_
  · unfold lagS
    rw [scale_zero, scale_zero]
    cases norm1
    · norm_num
    · simp only [Bool.false_eq_true, if_false, if_true, div_one]
      unfold recSqrt
      rw [hF.div _ _ (sqrt_pos hF.sqrt (hF.gamma_pos _ (by linarith))).ne']
  · cases norm1
    · simp only [Bool.false_eq_true, if_false]
      rw [div_self (lagS_ne hF hα i)]
    · have h1 : (1 : K) ≤ i := by exact_mod_cast hi
      have st := ratio_step (s := lagS F true α) (t := lagS F false α) (fun n hn => lagS_succ hF hα hn) (fun n hn => lagS_succ hF hα hn) hi
      rw [st]
      simp only [lagStep, Bool.false_eq_true, if_false, if_true]
      push_cast
      have i0 : (i : K) ≠ 0 := by linarith
      have a0 : α + (i : K) ≠ 0 := by linarith
      have q1 : 0 < (i : K) / (α + i) := div_pos (by linarith) (by linarith)
      have e : ((i : K) - 1 + 1) * (i - 1 + α + 1) = i * i * (1 / (i / (α + i))) := by field_simp; ring
      rw [hF.div _ _ a0, e, sqrt_mul hF.sqrt (by positivity) (by positivity), sqrt_sq hF.sqrt (by linarith), sqrt_inv hF.sqrt q1, sub_add_cancel]
      congr 1
      have := (sqrt_pos hF.sqrt q1).ne'
      field_simp

/-! ## Jacobi polynomials -/

section
variable {α β γ δ : K} (hα : -1 < α) (hβ : -1 < β) (hγ : -1 < γ) (hδ : -1 < δ)

include hγ hδ in
theorem jacMass_eq : jacMass F γ δ = 1 / jacG F γ δ := by
  have g1 := (hF.gamma_pos (γ + 1) (by linarith)).ne'
  have g2 := (hF.gamma_pos (δ + 1) (by linarith)).ne'
  unfold jacMass jacG
  rw [hF.div _ _ g1, hF.div _ _ g2, hF.div _ _ (hF.pow2_pos _).ne', show γ + 1 + (δ + 1) - 1 = γ + δ + 1 by ring, show γ + 1 + (δ + 1) = γ + δ + 2 by ring, one_div_div, div_div, div_div]
  congr 1
  ring

omit [LinearOrder K] [IsStrictOrderedRing K] hF in
theorem quot_aux {a b g d m s : K} [CharZero K] (i : K) (hi : i ≠ 0) (h1 : s ≠ 0) (h2 : a ≠ 0) (h3 : b ≠ 0) (h4 : m ≠ 0) :
    m * b / (2 * i * s) * (m * b / (2 * i * s)) * (4 * i * g * d * s / (b * b * m * a)) = g / i * d / s * (m / a) := by
  field_simp
  ring

include hγ hδ in
theorem jacQuot_eq {i : Int} (hi : 2 ≤ i) : jacR γ δ (i - 1) * jacR γ δ (i - 1) * jacB γ δ i = jacQuot F γ δ i := by
  have h1 : (2 : K) ≤ i := by exact_mod_cast hi
  unfold jacQuot jacR jacB
  dsimp only
  rw [if_neg (by omega), if_neg (by omega), hF.div _ _ (by linarith), hF.div _ _ (by linarith), hF.div _ _ (by linarith)]
  push_cast
  have q := quot_aux (a := 2 * (i : K) + γ + δ + 1) (b := 2 * (i : K) + γ + δ) (g := γ + i) (d := δ + i) (m := 2 * (i : K) + γ + δ - 1) (s := i + γ + δ) i (by linarith) (by linarith) (by linarith) (by linarith) (by linarith)
  rw [show 2 * ((i : K) - 1) + γ + δ + 1 = 2 * i + γ + δ - 1 by ring, show 2 * ((i : K) - 1) + γ + δ + 2 = 2 * i + γ + δ by ring, show (i : K) - 1 + 1 = i by ring, show (i : K) - 1 + γ + δ + 1 = i + γ + δ by ring,
    add_comm (i : K) γ, show γ + (i : K) + δ = i + γ + δ by ring, add_comm (i : K) δ, q, show δ + (i : K) + γ = i + γ + δ by ring, show γ + (i : K) + (δ + i) - 1 = 2 * i + γ + δ - 1 by ring,
    show 2 * (i : K) + γ + δ - 1 + 2 = 2 * i + γ + δ + 1 by ring]

include hγ hδ in
theorem jacQuot_one : jacR γ δ 0 * jacR γ δ 0 * jacB γ δ 1 = F.div ((γ + 1) * (δ + 1)) (γ + 1 + (δ + 1) + 1) := by
  have h1 : γ + δ + 2 ≠ 0 := by linarith
  have h2 : γ + δ + 3 ≠ 0 := by linarith
  rw [hF.div _ _ (by linarith), show γ + 1 + (δ + 1) + 1 = γ + δ + 3 by ring]
  unfold jacR jacB
  rw [if_pos rfl, if_pos rfl]
  field_simp
  ring

include hγ hδ in
theorem jac_row_step {i : Int} (hi : 1 ≤ i) : jacStep F false γ δ (i - 1) / jacStep F true γ δ (i - 1) = F.sqrt (jacR γ δ (i - 1) * jacR γ δ (i - 1) * jacB γ δ i) := by
  have r := jacR_pos hγ hδ (show 0 ≤ i - 1 by omega)
  have b := jacB_pos hγ hδ hi
  simp only [jacStep, Bool.false_eq_true, if_false, if_true]
  rw [sub_add_cancel, sqrt_mul hF.sqrt (by positivity) b.le, sqrt_sq hF.sqrt r.le, div_div_eq_mul_div, div_one]

include hγ hδ in
theorem mpfrRowJac_run (norm2 : Bool) : ∃ x, mpfrRowJac F junk norm2 n γ δ = some x ∧ Holds n x fun i => jacS F false γ δ i / jacS F norm2 γ δ i := by
  refine seq2 ?_ ?_ fun i hi => ?_
  · unfold jacS
    rw [scale_zero, scale_zero, jacMass_eq hF hγ hδ]
    have := sqrt_pos hF.sqrt (jacG_pos hF hγ hδ)
    cases norm2
    · norm_num
    · simp only [Bool.false_eq_true, if_false, if_true, one_div_one_div, recSqrt]
      rw [sqrt_inv hF.sqrt (jacG_pos hF hγ hδ), hF.div _ _ (by positivity), one_div_one_div]
  · cases norm2
    · simp only [Bool.false_eq_true, if_false]
      rw [div_self (jacS_ne hF hγ hδ 1)]
    · have st := ratio_step (s := jacS F false γ δ) (t := jacS F true γ δ) (fun n hn => jacS_succ hF hγ hδ hn) (fun n hn => jacS_succ hF hγ hδ hn) le_rfl
      rw [st, jac_row_step hF hγ hδ le_rfl, sub_self, jacQuot_one hF hγ hδ, if_pos rfl]
  · cases norm2
    · simp only [Bool.false_eq_true, if_false]
      rw [div_self (jacS_ne hF hγ hδ i)]
    · have st := ratio_step (s := jacS F false γ δ) (t := jacS F true γ δ) (fun n hn => jacS_succ hF hγ hδ hn) (fun n hn => jacS_succ hF hγ hδ hn) (show 1 ≤ i by omega)
      rw [st, jac_row_step hF hγ hδ (by omega), jacQuot_eq hF hγ hδ hi, if_pos rfl]

include hα hβ in
theorem jac_col_step {i : Int} (hi : 1 ≤ i) (norm1 : Bool) :
    jacStep F norm1 α β (i - 1) = if norm1 then 1 / F.sqrt (jacR α β (i - 1) * jacR α β (i - 1) * jacB α β i) * jacR α β (i - 1) else jacR α β (i - 1) := by
  have r := jacR_pos hα hβ (show 0 ≤ i - 1 by omega)
  have b := jacB_pos hα hβ hi
  have := (sqrt_pos hF.sqrt b).ne'
  have := r.ne'
  cases norm1
  · simp only [jacStep, Bool.false_eq_true, if_false]
  · simp only [jacStep, if_true]
    rw [sub_add_cancel, sqrt_mul hF.sqrt (by positivity) b.le, sqrt_sq hF.sqrt r.le]
    field_simp

omit [LinearOrder K] [IsStrictOrderedRing K] hF in
theorem col_aux {i a b m b' m' s s' : K} [CharZero K] (hi : i ≠ 0) (h1 : s ≠ 0) (h2 : s' ≠ 0) (h3 : b' ≠ 0) (h4 : m' ≠ 0) :
    m * b / (2 * i * s) / (m' * b' / (2 * i * s')) = s' * (m * (b / s)) / b' / m' := by
  field_simp

include hα hβ hγ hδ in
theorem mpfrColJac_run (norm1 : Bool) : ∃ x, mpfrColJac F junk norm1 n α β γ δ = some x ∧ Holds n x fun i => jacS F norm1 α β i / jacS F false γ δ i := by
  refine seq2 ?_ ?_ fun i hi => ?_
  · unfold jacS
    rw [scale_zero, scale_zero, jacMass_eq hF hα hβ]
    cases norm1
    · norm_num
    · simp only [Bool.false_eq_true, if_false, if_true, div_one]
      rw [sqrt_inv hF.sqrt (jacG_pos hF hα hβ)]
  · have st := ratio_step (s := jacS F norm1 α β) (t := jacS F false γ δ) (fun n hn => jacS_succ hF hα hβ hn) (fun n hn => jacS_succ hF hγ hδ hn) le_rfl
    rw [st, jac_col_step hF hα hβ le_rfl, sub_self, jacQuot_one hF hα hβ]
    have e : jacR α β 0 / jacR γ δ 0 = F.div (α + β + 2) (γ + δ + 2) := by
      have : γ + δ + 2 ≠ 0 := by linarith
      rw [hF.div _ _ this]
      unfold jacR
      rw [if_pos rfl, if_pos rfl]
      field_simp
    have p : 0 < (α + 1) * (β + 1) := mul_pos (by linarith) (by linarith)
    have p' : 0 < α + 1 + (β + 1) + 1 := by linarith
    cases norm1
    · simp only [jacStep, Bool.false_eq_true, if_false]
      rw [e]
    · simp only [jacStep, Bool.false_eq_true, if_false, if_true]
      rw [← e, hF.div _ _ p'.ne', hF.div _ _ p.ne', ← sqrt_inv hF.sqrt (div_pos p p'), one_div_div]
      ring
  · have h1 : (2 : K) ≤ i := by exact_mod_cast hi
    have st := ratio_step (s := jacS F norm1 α β) (t := jacS F false γ δ) (fun n hn => jacS_succ hF hα hβ hn) (fun n hn => jacS_succ hF hγ hδ hn) (show 1 ≤ i by omega)
    have qp : 0 < jacQuot F α β i := by
      rw [← jacQuot_eq hF hα hβ hi]
      have := jacR_pos hα hβ (show 0 ≤ i - 1 by omega)
      have := jacB_pos hα hβ (show 1 ≤ i by omega)
      positivity
    rw [st, jac_col_step hF hα hβ (by omega), jacQuot_eq hF hα hβ hi]
    have e : jacR α β (i - 1) / jacR γ δ (i - 1) = F.div (F.div ((γ + δ + i) * ((α + β + i + i - 1) * F.div (α + β + i + i) (α + β + i))) (γ + δ + i + i)) (γ + δ + i + i - 1) := by
      rw [hF.div _ _ (by linarith : α + β + (i : K) ≠ 0), hF.div _ _ (by linarith), hF.div _ _ (by linarith)]
      unfold jacR
      rw [if_neg (by omega), if_neg (by omega)]
      push_cast
      rw [show 2 * ((i : K) - 1) + α + β + 1 = α + β + i + i - 1 by ring, show 2 * ((i : K) - 1) + α + β + 2 = α + β + i + i by ring, show (i : K) - 1 + 1 = i by ring, show (i : K) - 1 + α + β + 1 = α + β + i by ring,
        show 2 * ((i : K) - 1) + γ + δ + 1 = γ + δ + i + i - 1 by ring, show 2 * ((i : K) - 1) + γ + δ + 2 = γ + δ + i + i by ring, show (i : K) - 1 + γ + δ + 1 = γ + δ + i by ring]
      exact col_aux (a := 0) (by linarith) (by linarith) (by linarith) (by linarith) (by linarith)
    cases norm1
    · simp only [jacStep, Bool.false_eq_true, if_false]
      rw [e]
    · simp only [jacStep, Bool.false_eq_true, if_false, if_true, recSqrt]
      rw [← e, hF.div _ _ (sqrt_pos hF.sqrt qp).ne']
      ring

end

/-! ## Legendre and Chebyshev polynomials -/

theorem legS_true {i : Int} (hi : 0 ≤ i) : legS F true i = lead legR i * F.sqrt (i + 1 / 2) := by
  refine eq_of_steps (s := legS F true) (t := fun i => lead legR i * F.sqrt (i + 1 / 2)) ?_ (fun i hi ih => ?_) hi
  · rw [legS_zero, if_pos rfl, lead_zero, one_mul, Int.cast_zero, zero_add, ← sqrt_inv hF.sqrt two_pos]
  · have h0 : (0 : K) ≤ i := by exact_mod_cast hi
    have a : 0 < (i : K) + 1 / 2 := by positivity
    have b : 0 < (i : K) + 1 + 1 / 2 := by positivity
    have sa := hF.sqrt _ a.le
    have sb := hF.sqrt _ b.le
    have e : F.sqrt ((2 * (i : K) + 3) * (2 * i + 1)) = 2 * F.sqrt (i + 1 + 1 / 2) * F.sqrt (i + 1 / 2) :=
      sqrt_unique hF.sqrt (by positivity) (mul_nonneg (mul_nonneg two_pos.le sb.1) sa.1) (by linear_combination 4 * (F.sqrt ((i : K) + 1 / 2) * F.sqrt (i + 1 / 2)) * sb.2 + 4 * ((i : K) + 1 + 1 / 2) * sa.2)
    rw [legS_succ hF i hi, ih, lead_succ _ hi]
    generalize lead (legR (K := K)) i = L
    unfold legStep legR
    rw [if_pos rfl, e]
    push_cast
    have : (i : K) + 1 ≠ 0 := by positivity
    generalize F.sqrt ((i : K) + 1 / 2) = x at sa ⊢
    generalize F.sqrt ((i : K) + 1 + 1 / 2) = y
    field_simp
    linear_combination 2 * y * L * sa.2

theorem cheS_row {i : Int} (hi : 0 ≤ i) : cheS F false i / cheS F true i = 1 / cheQ F i := by
  rw [cheS_true hF hi]
  show lead chebR i / (lead chebR i * cheQ F i) = _
  rw [div_mul_eq_div_div, div_self (lead_ne (fun n _ => chebR_ne n) i)]

theorem half_inv : F.sqrt (1 / 2) = 1 / F.sqrt 2 := sqrt_inv hF.sqrt two_pos

theorem mpfrSclLegCheb_run (norm1 norm2 : Bool) :
    ∃ x y, mpfrSclLegCheb F junk norm1 norm2 n = some (x, y) ∧ Holds n x (fun i => cheS F false i / cheS F norm2 i) ∧ Holds n y fun i => legS F norm1 i / cheS F false i := by
  have ln : ∀ i, lead (chebR (K := K)) i ≠ 0 := lead_ne fun n _ => chebR_ne n
  have one : lead (legR (K := K)) 1 / lead chebR 1 = 1 := by
    rw [show (1 : Int) = 0 + 1 by norm_num, lead_succ _ le_rfl, lead_succ _ le_rfl, lead_zero, lead_zero]
    unfold legR chebR
    norm_num
  have row : ∀ i, 1 ≤ i → cheS F false i / cheS F norm2 i = if norm2 then F.gamma (1 / 2) * F.sqrt (1 / 2) else 1 := fun i hi => by
    cases norm2
    · simp only [Bool.false_eq_true, if_false]; exact div_self (cheS_ne hF i)
    · rw [cheS_row hF (by omega), half_inv hF, if_pos rfl]
      unfold cheQ
      rw [if_neg (by omega), one_div_div, mul_one_div]
  have col : ∀ i, 0 ≤ i → legS F norm1 i / cheS F false i = lead legR i / lead chebR i * if norm1 then F.sqrt (i + 1 / 2) else 1 := fun i hi => by
    cases norm1
    · simp only [Bool.false_eq_true, if_false, mul_one]; rfl
    · rw [legS_true hF hi, if_pos rfl, mul_div_right_comm]; rfl
  refine runScales_run (T := fun i => lead legR i / lead chebR i) ?_ (row 1 le_rfl) ?_ ?_ one (fun i hi => ?_) (fun i hi => row i (by omega)) fun i hi => col i (by omega)
  · cases norm2
    · exact div_self (cheS_ne hF 0)
    · rw [cheS_row hF le_rfl]
      unfold cheQ
      rw [if_pos rfl, one_div_one_div, if_pos rfl]
  · rw [col 0 le_rfl, lead_zero, lead_zero, div_one, one_mul, Int.cast_zero, zero_add]
  · rw [col 1 (by norm_num), one, one_mul, Int.cast_one, show (1 : K) + 1 / 2 = 3 / 2 by norm_num]
  · have h1 : (2 : K) ≤ i := by exact_mod_cast hi
    rw [ratio_step (s := lead legR) (t := lead chebR) (fun n hn => lead_succ _ hn) (fun n hn => lead_succ _ hn) (show 1 ≤ i by omega), hF.div _ _ (by linarith)]
    congr 1
    unfold legR chebR
    rw [if_neg (by omega)]
    push_cast
    have : (i : K) ≠ 0 := by linarith
    rw [sub_add_cancel]
    field_simp
    ring

theorem mpfrSclChebLeg_run (norm1 norm2 : Bool) :
    ∃ x y, mpfrSclChebLeg F junk norm1 norm2 n = some (x, y) ∧ Holds n x (fun i => legS F false i / legS F norm2 i) ∧ Holds n y fun i => cheS F norm1 i / legS F false i := by
  have ln : ∀ i, lead (legR (K := K)) i ≠ 0 := lead_ne fun n h => (legR_pos h).ne'
  have hg := hF.gamma_pos (1 / 2) (by norm_num)
  have one : lead (chebR (K := K)) 1 / lead legR 1 = 1 := by
    rw [show (1 : Int) = 0 + 1 by norm_num, lead_succ _ le_rfl, lead_succ _ le_rfl, lead_zero, lead_zero]
    unfold legR chebR
    norm_num
  have row : ∀ i, 0 ≤ i → legS F false i / legS F norm2 i = if norm2 then recSqrt F (i + 1 / 2) else 1 := fun i hi => by
    have h0 : (0 : K) ≤ i := by exact_mod_cast hi
    cases norm2
    · simp only [Bool.false_eq_true, if_false]; exact div_self (legS_ne hF i)
    · rw [legS_true hF hi, if_pos rfl]
      unfold recSqrt
      rw [hF.div _ _ (sqrt_pos hF.sqrt (by positivity)).ne']
      show lead legR i / _ = _
      rw [div_mul_eq_div_div, div_self (ln i)]
  have col : ∀ i, 0 ≤ i → cheS F norm1 i / legS F false i = lead chebR i / lead legR i * if norm1 then cheQ F i else 1 := fun i hi => by
    cases norm1
    · simp only [Bool.false_eq_true, if_false, mul_one]; rfl
    · rw [cheS_true hF hi, if_pos rfl, mul_div_right_comm]; rfl
  have q : ∀ i, 1 ≤ i → cheQ F i = F.div 1 (F.gamma (1 / 2)) * F.sqrt 2 := fun i hi => by
    unfold cheQ
    rw [if_neg (by omega), hF.div _ _ hg.ne']
    ring
  refine runScales_run (T := fun i => lead chebR i / lead legR i) ?_ ?_ ?_ ?_ one (fun i hi => ?_) (fun i hi => row i (by omega)) fun i hi => ?_
  · rw [row 0 le_rfl]
    unfold recSqrt
    have := sqrt_pos hF.sqrt (show (0 : K) < 2 by norm_num)
    rw [Int.cast_zero, zero_add, half_inv hF, hF.div _ _ (by positivity), one_div_one_div]
  · rw [row 1 (by norm_num), Int.cast_one, show (1 : K) + 1 / 2 = 3 / 2 by norm_num]
  · rw [col 0 le_rfl, lead_zero, lead_zero, div_one, one_mul]
    unfold cheQ
    rw [if_pos rfl, hF.div _ _ hg.ne']
  · rw [col 1 (by norm_num), one, one_mul, q 1 le_rfl]
  · have h1 : (2 : K) ≤ i := by exact_mod_cast hi
    rw [ratio_step (s := lead chebR) (t := lead legR) (fun n hn => lead_succ _ hn) (fun n hn => lead_succ _ hn) (show 1 ≤ i by omega), hF.div _ _ (by linarith)]
    congr 1
    unfold legR chebR
    rw [if_neg (by omega)]
    push_cast
    have : (i : K) ≠ 0 := by linarith
    have : 2 * (i : K) - 1 ≠ 0 := by linarith
    rw [sub_add_cancel, show 2 * ((i : K) - 1) + 1 = 2 * i - 1 by ring, div_div_eq_mul_div]
  · rw [col i (by omega), q i (by omega)]

end
end FT.Poly
