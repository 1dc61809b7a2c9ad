import Verif.Lemmas.RotSpin
import Verif.Lemmas.RotFun

/-!
# The spin-weighted kernels act on the real and on the imaginary parts as two real kernels
-/

namespace FT
variable {K : Type*} [CommRing K]

/-- Real (`b = 0`) or imaginary (`b = 1`) parts of a buffer of complex numbers. -/
def cpart (b : Int) (A : Buf K) : Buf K := ⟨A.size / 2, fun p => A.val (2 * p + b)⟩

theorem exec_proj {ι σ τ : Type*} {f : ι → σ → Option σ} {g : ι → τ → Option τ} (π : σ → τ) (P : σ → Prop) {l : List ι}
    (h : ∀ a ∈ l, ∀ s s', P s → f a s = some s' → g a (π s) = some (π s') ∧ P s') {s s' : σ} (h0 : P s) (e : exec f l s = some s') :
    exec g l (π s) = some (π s') ∧ P s' := by
  induction l generalizing s with
  | nil => cases e; exact ⟨rfl, h0⟩
  | cons a l ih =>
    simp only [exec] at e ⊢
    obtain ⟨t, e1, e2⟩ := Option.bind_eq_some_iff.1 e
    obtain ⟨g1, p1⟩ := h a (by simp) s t h0 e1
    rw [g1, Option.bind_some]
    exact ih (fun b hb => h b (by simp [hb])) p1 e2

theorem cpart_givens {s c : K} {X Y : Int} {A A' : Buf K} (hX : 0 ≤ X ∧ 2 * X + 1 < A.size) (hY : 0 ≤ Y ∧ 2 * Y + 1 < A.size)
    (e : applyGivensC s c X Y A = some A') {b : Int} (hb : b = 0 ∨ b = 1) : applyGivens s c X Y (cpart b A) = some (cpart b A') := by
  rw [show A = ⟨A.size, A.val⟩ from rfl, applyGivensC_mk hX hY] at e
  cases e
  unfold cpart
  rw [applyGivens_mk (by omega) (by omega)]
  congr 2
  funext p
  unfold rotV
  simp only [Function.update_apply]
  rcases hb with rfl | rfl
  · simp only [add_zero]
    simp only [show ∀ x y : Int, (2 * x = 2 * y + 1) = False from fun x y => by simp; omega, show ∀ x y : Int, (2 * x = 2 * y) = (x = y) from fun x y => by simp, if_false]
  · simp only [show ∀ x y : Int, (2 * x + 1 = 2 * y + 1) = (x = y) from fun x y => by simp,
      show ∀ x y : Int, (2 * x + 1 = 2 * y) = False from fun x y => by simp; omega, if_false]

/-- Stage with the tables `s1`, `c1`. -/
def geomSpin1 : Geom := ⟨2, 2, fun n j => n - 3 - j, fun n k j => k + j * n⟩
/-- Stage with the tables `s2`, `c2`, distance of the orders `d`, spin `as`. -/
def geomSpin2 (as d : Int) : Geom := ⟨1, 1, fun n j => n - 2 - d - j, fun n k j => k + j * n + d * as * n⟩

theorem geomSpin1_ok : GeomOK geomSpin1 := by
  constructor <;> simp only [geomSpin1] <;> intros <;> omega
theorem geomSpin2_ok {as d : Int} (hd : 0 ≤ d) : GeomOK (geomSpin2 as d) := by
  constructor <;> simp only [geomSpin2] <;> intros <;> omega

/-- The tables of the two stages, `neg` for the transposed rotations; those of the second are lengthened (the kernels do not reach the added entries). -/
def spinTab1 (P : SpinPlan K) : RotPlan K := ⟨P.s1, P.c1, P.n⟩
def spinTab2 (P : SpinPlan K) (neg : Bool) (d : Int) : RotPlan K :=
  ⟨⟨(P.n + P.n * P.n + d * |P.s| * P.n).toNat, fun i => if neg then -P.s2.val i else P.s2.val i⟩, ⟨(P.n + P.n * P.n + d * |P.s| * P.n).toNat, P.c2.val⟩, P.n⟩

theorem spinTab1_inb {P : SpinPlan K} (hP : SpinGood P) : InB geomSpin1 (spinTab1 P) := ⟨fun k j j0 k0 k1 => hP.inb1 k j j0 k0 k1⟩

theorem spinTab2_inb (P : SpinPlan K) (neg : Bool) {d : Int} (hd : 0 ≤ d) : InB (geomSpin2 |P.s| d) (spinTab2 P neg d) := by
  refine ⟨fun k j j0 k0 k1 => ?_⟩
  simp only [geomSpin2, spinTab2] at k1 ⊢
  have hn : 0 ≤ P.n := by omega
  have a : 0 ≤ j * P.n := Int.mul_nonneg j0 hn
  have b : j * P.n ≤ P.n * P.n := Int.mul_le_mul_of_nonneg_right (by omega) hn
  have c : 0 ≤ d * |P.s| * P.n := Int.mul_nonneg (Int.mul_nonneg hd (abs_nonneg _)) hn
  omega

/-- Both parts of a column of complex coefficients pass through the two stages. -/
theorem spin_stages {P : SpinPlan K} (hP : SpinGood P) {m o S : Int} {A A' : Buf K} (hA : FitsC P.n o S A) (e : kernelSpinHi2lo P m o S A = some A') :
    A'.size = A.size ∧ ∃ B : Buf K, B.size = A.size ∧ ∀ b, b = 0 ∨ b = 1 →
      kernelHi2lo (geomSpin2 |P.s| |(|m| - |P.s|)|) (spinTab2 P (!decide (m * P.s ≥ 0)) |(|m| - |P.s|)|) 0 (min |m| |P.s|) o S (cpart b A) = some (cpart b B) ∧
      kernelHi2lo geomSpin1 (spinTab1 P) ((|m| + |P.s|) % 2) |(|m| - |P.s|)| o S (cpart b B) = some (cpart b A') := by
  have hd := abs_nonneg (|m| - |P.s|)
  rw [kernelSpinHi2lo_exec] at e
  have hspl : spinHi P.n |m| |P.s| = (hiOps (geomSpin2 |P.s| |(|m| - |P.s|)|) P.n 0 (min |m| |P.s|)).map (fun a => (true, a.1, a.2)) ++
      (hiOps geomSpin1 P.n ((|m| + |P.s|) % 2) |(|m| - |P.s|)|).map (fun a => (false, a.1, a.2)) := by
    unfold spinHi hiOps
    rw [List.map_flatMap, List.map_flatMap]
    simp only [List.map_map, Function.comp_def, geomSpin1, geomSpin2]
    congr 1
    rw [show rStepDown (min |m| |P.s| - 1) 0 1 = rDown (min |m| |P.s| - 1) 0 by
      unfold rStepDown rDown stepCount
      rw [show min |m| |P.s| - 1 + 1 - 0 + 1 - 1 = min |m| |P.s| - 1 - 0 + 1 by ring, Int.ediv_one]
      refine List.map_congr_left (fun k _ => by ring)]
  have hmem2 : ∀ a ∈ hiOps (geomSpin2 |P.s| |(|m| - |P.s|)|) P.n 0 (min |m| |P.s|), ((true, a.1, a.2) : SpinOp) ∈ spinHi P.n |m| |P.s| := fun a ha => by
    rw [hspl]
    exact List.mem_append_left _ (List.mem_map_of_mem ha)
  have hmem1 : ∀ a ∈ hiOps geomSpin1 P.n ((|m| + |P.s|) % 2) |(|m| - |P.s|)|, ((false, a.1, a.2) : SpinOp) ∈ spinHi P.n |m| |P.s| := fun a ha => by
    rw [hspl]
    exact List.mem_append_right _ (List.mem_map_of_mem ha)
  rw [hspl, exec_append] at e
  obtain ⟨B, e1, e2⟩ := Option.bind_eq_some_iff.1 e
  rw [exec_map] at e1 e2
  have s2 : ∀ b, b = 0 ∨ b = 1 → exec (fun a => rotAt (geomSpin2 |P.s| |(|m| - |P.s|)|) (spinTab2 P (!decide (m * P.s ≥ 0)) |(|m| - |P.s|)|) o S a.2 a.1)
      (hiOps (geomSpin2 |P.s| |(|m| - |P.s|)|) P.n 0 (min |m| |P.s|)) (cpart b A) = some (cpart b B) ∧ B.size = A.size := by
    intro b hb
    refine exec_proj (cpart b) (fun C => C.size = A.size) (fun a ha C C' hC h => ?_) rfl e1
    have hC' : FitsC P.n o S C := by unfold FitsC at *; rw [hC]; exact hA
    rw [spinStep_eq hP (hmem2 a ha)] at h
    obtain ⟨r1, r2, -⟩ := spin_rows hC' (hmem2 a ha)
    have hm := mem_spinHi (abs_nonneg m) (abs_nonneg P.s) (hmem2 a ha)
    have hg := cpart_givens r1 r2 h hb
    constructor
    · rw [rotAt_eq (geomSpin2_ok hd) (spinTab2_inb P _ hd) hm.1 hm.2.1 hm.2.2.2]
      simp only [Bool.true_and, Bool.xor_false, spinS, spinC, if_true, spinGap] at hg
      simp only [geomSpin2, spinTab2]
      exact hg
    · rw [show C = ⟨C.size, C.val⟩ from rfl, applyGivensC_mk r1 r2] at h
      cases h
      exact hC
  have hB := (s2 0 (Or.inl rfl)).2
  have s1 : ∀ b, b = 0 ∨ b = 1 → exec (fun a => rotAt geomSpin1 (spinTab1 P) o S a.2 a.1)
      (hiOps geomSpin1 P.n ((|m| + |P.s|) % 2) |(|m| - |P.s|)|) (cpart b B) = some (cpart b A') ∧ A'.size = A.size := by
    intro b hb
    refine exec_proj (cpart b) (fun C => C.size = A.size) (fun a ha C C' hC h => ?_) hB e2
    have hC' : FitsC P.n o S C := by unfold FitsC at *; rw [hC]; exact hA
    rw [spinStep_eq hP (hmem1 a ha)] at h
    obtain ⟨r1, r2, -⟩ := spin_rows hC' (hmem1 a ha)
    have hm := mem_spinHi (abs_nonneg m) (abs_nonneg P.s) (hmem1 a ha)
    have hg := cpart_givens r1 r2 h hb
    constructor
    · rw [rotAt_eq geomSpin1_ok (spinTab1_inb hP) hm.1 hm.2.1 (by have := hm.2.2; simp only [Bool.false_eq_true, if_false] at this; exact this)]
      simp only [Bool.false_and, Bool.xor_false, spinS, spinC, Bool.false_eq_true, if_false, spinGap] at hg
      simp only [geomSpin1, spinTab1]
      exact hg
    · rw [show C = ⟨C.size, C.val⟩ from rfl, applyGivensC_mk r1 r2] at h
      cases h
      exact hC
  refine ⟨(s1 0 (Or.inl rfl)).2, B, hB, fun b hb => ⟨?_, ?_⟩⟩
  · rw [kernelHi2lo_exec]
    exact (s2 b hb).1
  · rw [kernelHi2lo_exec]
    exact (s1 b hb).1

end FT
