import Verif.Lemmas.DriversSimd
import Verif.Lemmas.SpinFun
import Verif.Model.SpinDrivers

namespace FT
open Permute
variable {K : Type*} [CommRing K]

/-! ### Kernels as lists of rotations -/

/-- The effect of a program on the memory. -/
def Prog.eff (p : Prog K Unit) (A : Buf K) : Option (Buf K) := (p.run A).map Prod.snd

theorem impl_eff (p : Prog K Unit) : Impl p p.eff := by
  refine ⟨fun A => ?_⟩
  unfold Prog.eff
  cases p.run A with
  | none => rfl
  | some r => rfl

theorem impl_spinHi (P : SpinPlan K) (m : Int) (r2 r1 : Int → Int → Prog K Unit) :
    Impl (spinHiP P m r2 r1) (exec (fun a => (if a.1 then r2 a.2.2 a.2.1 else r1 a.2.2 a.2.1).eff) (spinHi P.n |m| |P.s|)) := by
  have h := Impl.bind (Impl.each (body := fun j _ => Prog.each (fun k _ => r2 k j) (rDown (P.n - 2 - |(|m| - |P.s|)| - j) 0) ()) (l := rDown (min |m| |P.s| - 1) 0)
      (fun j => Impl.each (fun k => impl_eff (r2 k j))))
    (q := fun _ => Prog.each (fun j _ => Prog.each (fun k _ => r1 k j) (rDown (P.n - 3 - j) 0) ()) (rStepDown (|(|m| - |P.s|)| - 2) ((|m| + |P.s|) % 2) 2) ())
    (Impl.each (fun j => Impl.each (fun k => impl_eff (r1 k j))))
  refine ⟨fun A => ?_⟩
  have e := h.run A
  unfold spinHiP
  rw [e]
  congr 1
  unfold spinHi
  rw [exec_append]
  congr 1
  · rw [exec_flatMap]
    apply exec_congr; intro j _ B
    rw [exec_map]
    rfl
  · funext B
    rw [exec_flatMap]
    apply exec_congr; intro j _ B
    rw [exec_map]
    rfl

theorem impl_spinLo (P : SpinPlan K) (m : Int) (r2 r1 : Int → Int → Prog K Unit) :
    Impl (spinLoP P m r2 r1) (exec (fun a => (if a.1 then r2 a.2.2 a.2.1 else r1 a.2.2 a.2.1).eff) (spinHi P.n |m| |P.s|).reverse) := by
  have h := Impl.bind (Impl.each (body := fun j _ => Prog.each (fun k _ => r1 k j) (rUp 0 (P.n - 3 - j + 1)) ()) (l := rStep ((|m| + |P.s|) % 2) (|(|m| - |P.s|)| - 2 + 1) 2)
      (fun j => Impl.each (fun k => impl_eff (r1 k j))))
    (q := fun _ => Prog.each (fun j _ => Prog.each (fun k _ => r2 k j) (rUp 0 (P.n - 2 - |(|m| - |P.s|)| - j + 1)) ()) (rUp 0 (min |m| |P.s|)) ())
    (Impl.each (fun j => Impl.each (fun k => impl_eff (r2 k j))))
  refine ⟨fun A => ?_⟩
  have e := h.run A
  unfold spinLoP
  rw [e]
  congr 1
  unfold spinHi
  rw [List.reverse_append, List.reverse_flatMap, List.reverse_flatMap, rStepDown_reverse (by omega) (spin_parity _ _), rDown_reverse, exec_append]
  have hstep : rStep ((|m| + |P.s|) % 2) (|(|m| - |P.s|)| - 2 + 1) 2 = rStep ((|m| + |P.s|) % 2) |(|m| - |P.s|)| 2 := by
    apply eq_of_pairwise
    · exact (pairwise_rStep (by omega)).imp (fun h => by omega)
    · exact (pairwise_rStep (by omega)).imp (fun h => by omega)
    · intro x
      have := spin_parity |m| |P.s|
      rw [mem_rStep (by omega), mem_rStep (by omega)]
      constructor
      · rintro ⟨⟨k, rfl⟩, h⟩; exact ⟨⟨k, rfl⟩, by omega⟩
      · rintro ⟨⟨k, rfl⟩, h⟩; exact ⟨⟨k, rfl⟩, by omega⟩
  congr 1
  · rw [exec_flatMap, hstep]
    apply exec_congr; intro j _ B
    simp only [Function.comp]
    rw [← List.map_reverse, rDown_reverse, exec_map]
    rfl
  · funext B
    rw [exec_flatMap, show min |m| |P.s| - 1 + 1 = min |m| |P.s| by ring]
    apply exec_congr; intro j _ B
    simp only [Function.comp]
    rw [← List.map_reverse, rDown_reverse, exec_map]
    rfl

/-- The order in which a kernel applies its rotations. -/
def spinOps (d : Bool) (P : SpinPlan K) (m : Int) : List SpinOp := if d then spinHi P.n |m| |P.s| else (spinHi P.n |m| |P.s|).reverse

omit [CommRing K] in
theorem mem_spinOps {d : Bool} {P : SpinPlan K} {m : Int} {a : SpinOp} (h : a ∈ spinOps d P m) : a ∈ spinHi P.n |m| |P.s| := by
  unfold spinOps at h
  cases d
  · simpa using h
  · simpa using h

theorem kernSpin_exec (d : Bool) (P : SpinPlan K) (m o S : Int) (A : Buf K) :
    kernSpin d P m o S A = exec (spinStep P (!decide (m * P.s ≥ 0)) (!d) |(|m| - |P.s|)| o S) (spinOps d P m) A := by
  unfold kernSpin spinOps
  cases d
  · simp only [Bool.false_eq_true, if_false, Bool.not_false]
    exact kernelSpinLo2hi_exec ..
  · simp only [if_true, Bool.not_true]
    exact kernelSpinHi2lo_exec ..

/-! ### One rotation of complex rows -/

/-- Rotation of the complex rows `p` and `p + g` of a column of interleaved real and imaginary parts. -/
def rotC2 (s c : K) (p g : Int) (v : Int → K) (r : Int) : K :=
  if r / 2 = p then c * v r + s * v (r + 2 * g) else if r / 2 = p + g then c * v r - s * v (r - 2 * g) else v r

theorem rotVC_eq {s c : K} {p g : Int} (hg : 0 < g) (v : Int → K) (r : Int) :
    rotV s c (2 * p + 1) (2 * (p + g) + 1) (rotV s c (2 * p) (2 * (p + g)) v) r = rotC2 s c p g v r := by
  unfold rotC2
  split_ifs with h1 h2
  · rcases (show r = 2 * p ∨ r = 2 * p + 1 by omega) with rfl | rfl
    · rw [rotV_of_ne (by omega) (by omega), rotV_fst (by omega)]
      congr 2
      congr 1
      ring
    · rw [rotV_fst (by omega), rotV_of_ne (by omega) (by omega), rotV_of_ne (by omega) (by omega)]
      congr 3
      ring
  · rcases (show r = 2 * (p + g) ∨ r = 2 * (p + g) + 1 by omega) with rfl | rfl
    · rw [rotV_of_ne (by omega) (by omega), rotV_snd]
      congr 3
      ring
    · rw [rotV_snd, rotV_of_ne (by omega) (by omega), rotV_of_ne (by omega) (by omega)]
      congr 3
      ring
  · rw [rotV_of_ne (by omega) (by omega), rotV_of_ne (by omega) (by omega)]

/-- The signed sine of an operation. -/
def spinSg (P : SpinPlan K) (b neg : Bool) (d : Int) (a : SpinOp) : K := if xor (a.1 && b) neg then -spinS P d a else spinS P d a

/-- If the rotations act on the positions `q` as on a column, so does the kernel. -/
theorem spin_sim {P : SpinPlan K} (hP : SpinGood P) {m : Int} {b neg : Bool} {l : List SpinOp} (hl : ∀ a ∈ l, a ∈ spinHi P.n |m| |P.s|) {op : SpinOp → Prog K Unit} {q : Int → Int}
    {sz : Nat} (hstep : ∀ a ∈ l, ∀ A : Buf K, A.size = sz → ∃ A', (op a).run A = some ((), A') ∧ A'.size = sz ∧ ∀ r, 0 ≤ r → r < 2 * P.n →
      A'.val (q r) = rotC2 (spinSg P b neg |(|m| - |P.s|)| a) (spinC P |(|m| - |P.s|)| a) a.2.2 (spinGap a) (fun r => A.val (q r)) r)
    {A : Buf K} (hA : A.size = sz) {x : Int → K} (hx : ∀ r, 0 ≤ r → r < 2 * P.n → A.val (q r) = x r) :
    ∃ A' C, exec (fun a => (op a).eff) l A = some A' ∧ exec (spinStep P b neg |(|m| - |P.s|)| 0 1) l ⟨(2 * P.n).toNat, x⟩ = some C ∧ A'.size = sz ∧
      ∀ r, 0 ≤ r → r < 2 * P.n → A'.val (q r) = C.val r := by
  obtain ⟨A', C, e1, e2, h1, -, h2⟩ := exec_sim (f := fun a => (op a).eff) (g := spinStep P b neg |(|m| - |P.s|)| 0 1)
    (fun (A' C : Buf K) => A'.size = sz ∧ C.size = (2 * P.n).toNat ∧ ∀ r, 0 ≤ r → r < 2 * P.n → A'.val (q r) = C.val r) (l := l) (s := A) (t := ⟨(2 * P.n).toNat, x⟩)
    (by
      rintro a ha B C ⟨hB, hC, hv⟩
      obtain ⟨B', eB, sB, vB⟩ := hstep a ha B hB
      have hm := mem_spinHi (abs_nonneg m) (abs_nonneg P.s) (hl a ha)
      have hab := abs_nonneg (|m| - |P.s|)
      have hgap : 0 < spinGap a ∧ 0 ≤ a.2.2 ∧ a.2.2 + spinGap a ≤ P.n - 1 := by
        obtain ⟨t, j, k⟩ := a
        obtain ⟨hj, hk, hc⟩ := hm
        cases t
        · simp only [Bool.false_eq_true, if_false] at hc hj hk ⊢
          simp only [spinGap, Bool.false_eq_true, if_false]
          omega
        · simp only [if_true] at hc hj hk ⊢
          simp only [spinGap, if_true]
          omega
      have hC' : FitsC P.n 0 1 C := ⟨by omega, by omega, by rw [hC]; omega⟩
      obtain ⟨r1, r2, -⟩ := spin_rows hC' (hl a ha)
      refine ⟨B', ⟨C.size, rotV (spinSg P b neg |(|m| - |P.s|)| a) (spinC P |(|m| - |P.s|)| a) (2 * (0 + a.2.2 * 1) + 1) (2 * (0 + (a.2.2 + spinGap a) * 1) + 1)
          (rotV (spinSg P b neg |(|m| - |P.s|)| a) (spinC P |(|m| - |P.s|)| a) (2 * (0 + a.2.2 * 1)) (2 * (0 + (a.2.2 + spinGap a) * 1)) C.val)⟩,
        by unfold Prog.eff; rw [eB]; rfl, ?_, sB, ?_, ?_⟩
      · rw [spinStep_eq hP (hl a ha), show C = ⟨C.size, C.val⟩ from rfl, applyGivensC_mk r1 r2]
        rfl
      · exact hC
      · intro r r0 r1'
        rw [vB r r0 r1']
        show _ = rotV _ _ _ _ (rotV _ _ _ _ C.val) r
        rw [show (0 : Int) + a.2.2 * 1 = a.2.2 by ring, show (0 : Int) + (a.2.2 + spinGap a) * 1 = a.2.2 + spinGap a by ring, rotVC_eq hgap.1]
        unfold rotC2
        dsimp only
        split_ifs with g1 g2
        · rw [hv r r0 r1', hv (r + 2 * spinGap a) (by omega) (by omega)]
        · rw [hv r r0 r1', hv (r - 2 * spinGap a) (by omega) (by omega)]
        · exact hv r r0 r1') ⟨hA, rfl, hx⟩
  exact ⟨A', C, e1, e2, h1, h2⟩

/-- What a kernel does to a column of interleaved real and imaginary parts. -/
def spinF (d : Bool) (P : SpinPlan K) (m : Int) (x : Int → K) : Int → K := ((kernSpin d P m 0 1 ⟨(2 * P.n).toNat, x⟩).getD ⟨0, x⟩).val

theorem kernSpin_col {P : SpinPlan K} (hP : SpinGood P) (d : Bool) (m : Int) (x : Int → K) :
    ∃ C, kernSpin d P m 0 1 ⟨(2 * P.n).toNat, x⟩ = some C ∧ C.val = spinF d P m x := by
  by_cases hn : 0 < P.n
  · obtain ⟨C, e, -⟩ := spin_total (m := m) (A := ⟨(2 * P.n).toNat, x⟩) (o := 0) (S := 1) hP ⟨by omega, by omega, by show 2 * (0 + (P.n - 1) * 1) + 1 < ((2 * P.n).toNat : Int); omega⟩
      (!decide (m * P.s ≥ 0)) (!d) (l := spinOps d P m) (fun a h => mem_spinOps h)
    have e' : kernSpin d P m 0 1 ⟨(2 * P.n).toNat, x⟩ = some C := by rw [kernSpin_exec, e]
    exact ⟨C, e', by unfold spinF; rw [e']; rfl⟩
  · have : spinHi P.n |m| |P.s| = [] := by
      rw [List.eq_nil_iff_forall_not_mem]
      intro a ha
      have hm := mem_spinHi (abs_nonneg m) (abs_nonneg P.s) ha
      have hab := abs_nonneg (|m| - |P.s|)
      obtain ⟨t, j, k⟩ := a
      obtain ⟨hj, hk, hc⟩ := hm
      cases t
      · simp only [Bool.false_eq_true, if_false] at hc hj hk
        omega
      · simp only [if_true] at hc hj hk
        omega
    have e : kernSpin d P m 0 1 ⟨(2 * P.n).toNat, x⟩ = some ⟨(2 * P.n).toNat, x⟩ := by
      rw [kernSpin_exec]
      unfold spinOps
      rw [this]
      cases d <;> rfl
    exact ⟨_, e, by unfold spinF; rw [e]; rfl⟩

/-- The kernel as a thread on the positions `q`. -/
theorem spin_map {P : SpinPlan K} (hP : SpinGood P) {d : Bool} {m : Int} {op : SpinOp → Prog K Unit} {q : Int → Int}
    {sz : Nat} (hstep : ∀ a ∈ spinHi P.n |m| |P.s|, ∀ A : Buf K, A.size = sz → ∃ A', (op a).run A = some ((), A') ∧ A'.size = sz ∧ ∀ r, 0 ≤ r → r < 2 * P.n →
      A'.val (q r) = rotC2 (spinSg P (!decide (m * P.s ≥ 0)) (!d) |(|m| - |P.s|)| a) (spinC P |(|m| - |P.s|)| a) a.2.2 (spinGap a) (fun r => A.val (q r)) r)
    {A : Buf K} (hA : A.size = sz) {x : Int → K} (hx : ∀ r, 0 ≤ r → r < 2 * P.n → A.val (q r) = x r) :
    ∃ A', exec (fun a => (op a).eff) (spinOps d P m) A = some A' ∧ A'.size = sz ∧ ∀ r, 0 ≤ r → r < 2 * P.n → A'.val (q r) = spinF d P m x r := by
  obtain ⟨A', C, e1, e2, h1, h2⟩ := spin_sim hP (l := spinOps d P m) (fun a h => mem_spinOps h) (fun a ha => hstep a (mem_spinOps ha)) hA hx
  obtain ⟨C', e3, h3⟩ := kernSpin_col hP d m x
  rw [kernSpin_exec, e2] at e3
  cases e3
  exact ⟨A', e1, h1, fun r r0 r1 => by rw [h2 r r0 r1, h3]⟩

/-! ### The rotations -/

theorem run_tab1 {P : SpinPlan K} {k j : Int} {f : K → K → Prog K Unit} {A : Buf K} (h : 0 ≤ k + j * P.n ∧ k + j * P.n < P.s1.size ∧ k + j * P.n < P.c1.size) :
    (tab1P P k j f).run A = (f (P.s1.val (k + j * P.n)) (P.c1.val (k + j * P.n))).run A := by
  unfold tab1P
  rw [Buf.rd_of h.1 h.2.1, Buf.rd_of h.1 h.2.2]
  rfl

theorem run_tab2 {P : SpinPlan K} {d k j : Int} {f : K → K → Prog K Unit} {A : Buf K}
    (h : 0 ≤ k + j * P.n + d * |P.s| * P.n ∧ k + j * P.n + d * |P.s| * P.n < P.s2.size ∧ k + j * P.n + d * |P.s| * P.n < P.c2.size) :
    (tab2P P d k j f).run A = (f (P.s2.val (k + j * P.n + d * |P.s| * P.n)) (P.c2.val (k + j * P.n + d * |P.s| * P.n))).run A := by
  unfold tab2P
  rw [Buf.rd_of h.1 h.2.1, Buf.rd_of h.1 h.2.2]
  rfl

/-- Rotation of `W` neighbouring entries at `p` and at `q`, the sine depending on the position. -/
def rotW (W : Int) (σ : Int → K) (c : K) (p q : Int) (v : Int → K) (i : Int) : K :=
  if p ≤ i ∧ i < p + W then c * v i + σ i * v (i + (q - p)) else if q ≤ i ∧ i < q + W then c * v i - σ i * v (i - (q - p)) else v i

theorem run_vec {W : Nat} {f g : K → K → Int → K} {σ : Int → K} {c : K} {p q : Int} {A : Buf K} (hp : 0 ≤ p) (hd : p + W ≤ q) (hq : q + W ≤ A.size)
    (hf : ∀ (x y : K) (e : Int), 0 ≤ e → e < W → f x y e = c * x + σ (p + e) * y) (hg : ∀ (x y : K) (e : Int), 0 ≤ e → e < W → g x y e = c * y - σ (q + e) * x) :
    (Prog.ld p W fun x => .ld q W fun y => .st p W (fun e => f (x e) (y e) e) (.st q W (fun e => g (x e) (y e) e) (.ret ())) : Prog K Unit).run A =
      some ((), ⟨A.size, rotW W σ c p q A.val⟩) := by
  simp only [Prog.run]
  rw [vld_of hp (by omega), Option.bind_some, vld_of (by omega) hq, Option.bind_some, vst_of hp (by omega), Option.bind_some, vst_of (by omega) (by exact hq), Option.bind_some]
  simp only [Option.some.injEq, Prod.mk.injEq, true_and, Buf.mk.injEq]
  funext i
  unfold rotW
  by_cases h1 : q ≤ i ∧ i < q + W
  · rw [if_pos h1, if_neg (show ¬ (p ≤ i ∧ i < p + W) by omega), if_pos h1, if_pos (show 0 ≤ i - q ∧ i - q < W by omega), if_pos (show 0 ≤ i - q ∧ i - q < W by omega), hg _ _ _ (by omega) (by omega)]
    rw [show q + (i - q) = i by ring, show p + (i - q) = i - (q - p) by ring]
  · rw [if_neg h1]
    by_cases h2 : p ≤ i ∧ i < p + W
    · rw [if_pos h2, if_pos h2, if_pos (show 0 ≤ i - p ∧ i - p < W by omega), if_pos (show 0 ≤ i - p ∧ i - p < W by omega), hf _ _ _ (by omega) (by omega)]
      rw [show q + (i - p) = i + (q - p) by ring, show p + (i - p) = i by ring]
    · rw [if_neg h2, if_neg h2, if_neg h1]

theorem run_spinGivens (isa : SpinIsa) (t : Bool) {s c : K} {X Y : Int} {A : Buf K} (hX : 0 ≤ X) (hXY : X < Y) (hY : 2 * Y + 1 < A.size) :
    (spinGivensP isa t s c X Y).run A = some ((), ⟨A.size, rotW 2 (fun _ => if t then -s else s) c (2 * X) (2 * Y) A.val⟩) := by
  have scal : ∀ s' : K, applyGivensC s' c X Y A = some ⟨A.size, rotW 2 (fun _ => s') c (2 * X) (2 * Y) A.val⟩ := by
    intro s'
    rw [show A = ⟨A.size, A.val⟩ from rfl, applyGivensC_mk ⟨hX, by omega⟩ ⟨by omega, hY⟩]
    simp only [Option.some.injEq, Buf.mk.injEq, true_and]
    funext i
    have := rotVC_eq (s := s') (c := c) (p := X) (g := Y - X) (by omega) A.val i
    rw [show X + (Y - X) = Y by ring] at this
    rw [this]
    unfold rotC2 rotW
    rw [show 2 * (Y - X) = 2 * Y - 2 * X by ring]
    by_cases h1 : i / 2 = X
    · rw [if_pos h1, if_pos (show 2 * X ≤ i ∧ i < 2 * X + 2 by omega)]
    · rw [if_neg h1, if_neg (show ¬(2 * X ≤ i ∧ i < 2 * X + 2) by omega)]
      by_cases h2 : i / 2 = X + (Y - X)
      · rw [if_pos h2, if_pos (show 2 * Y ≤ i ∧ i < 2 * Y + 2 by omega)]
      · rw [if_neg h2, if_neg (show ¬(2 * Y ≤ i ∧ i < 2 * Y + 2) by omega)]
  cases isa <;> cases t
  · have := (Impl.bind (impl_applyGivens s c (2 * X) (2 * Y)) (q := fun _ => applyGivensP s c (2 * X + 1) (2 * Y + 1)) (impl_applyGivens s c (2 * X + 1) (2 * Y + 1))).run A
    simp only [spinGivensP]
    rw [this]
    have e := scal s
    unfold applyGivensC at e
    rw [e]
    rfl
  · have := (Impl.bind (impl_applyGivensT s c (2 * X) (2 * Y)) (q := fun _ => applyGivensTP s c (2 * X + 1) (2 * Y + 1)) (impl_applyGivensT s c (2 * X + 1) (2 * Y + 1))).run A
    simp only [spinGivensP]
    rw [this]
    have e := scal (-s)
    rw [← applyGivensTC_eq] at e
    unfold applyGivensTC at e
    rw [e]
    rfl
  · exact run_vec (W := 2) (f := fun x y _ => c * x + s * y) (g := fun x y _ => c * y - s * x) (by omega) (by push_cast; omega) (by push_cast; omega) (fun _ _ _ _ _ => rfl) (fun _ _ _ _ _ => rfl)
  · exact run_vec (W := 2) (f := fun x y _ => c * x - s * y) (g := fun x y _ => c * y + s * x) (by omega) (by push_cast; omega) (by push_cast; omega)
      (fun _ _ _ _ _ => by simp only [if_true]; ring) (fun _ _ _ _ _ => by simp only [if_true]; ring)

theorem run_avxGivens (t : Bool) {s c : K} {X Y : Int} {A : Buf K} (hX : 0 ≤ X) (hXY : X + 2 ≤ Y) (hY : 2 * Y + 3 < A.size) :
    (avxGivensP t s c X Y).run A = some ((), ⟨A.size, rotW 4 (fun _ => if t then -s else s) c (2 * X) (2 * Y) A.val⟩) := by
  unfold avxGivensP
  cases t
  · exact run_vec (W := 4) (f := fun x y _ => c * x + s * y) (g := fun x y _ => c * y - s * x) (by omega) (by push_cast; omega) (by push_cast; omega) (fun _ _ _ _ _ => rfl) (fun _ _ _ _ _ => rfl)
  · exact run_vec (W := 4) (f := fun x y _ => c * x - s * y) (g := fun x y _ => c * y + s * x) (by omega) (by push_cast; omega) (by push_cast; omega)
      (fun _ _ _ _ _ => by simp only [if_true]; ring) (fun _ _ _ _ _ => by simp only [if_true]; ring)

theorem run_avxTwisted (t : Bool) {s c : K} {X Y : Int} {A : Buf K} (hX : 0 ≤ X) (hXY : X + 2 ≤ Y) (hY : 2 * Y + 3 < A.size) :
    (avxTwistedP t s c X Y).run A = some ((), ⟨A.size, rotW 4 (fun i => if xor (decide (i % 2 = 0)) t then -s else s) c (2 * X) (2 * Y) A.val⟩) := by
  unfold avxTwistedP
  cases t
  · refine run_vec (W := 4) (f := fun x y e => if e % 2 = 0 then c * x - s * y else c * x + s * y) (g := fun x y e => if e % 2 = 0 then c * y - -s * x else c * y + -s * x)
      (by omega) (by push_cast; omega) (by push_cast; omega) (fun x y e _ _ => ?_) (fun x y e _ _ => ?_)
    · rcases (show e % 2 = 0 ∨ e % 2 = 1 by omega) with h | h
      · simp [h, show (2 * X + e) % 2 = 0 by omega]; ring
      · simp [h, show (2 * X + e) % 2 = 1 by omega]
    · rcases (show e % 2 = 0 ∨ e % 2 = 1 by omega) with h | h
      · simp [h, show (2 * Y + e) % 2 = 0 by omega]
      · simp [h, show (2 * Y + e) % 2 = 1 by omega]; ring
  · refine run_vec (W := 4) (f := fun x y e => if e % 2 = 0 then c * x - -s * y else c * x + -s * y) (g := fun x y e => if e % 2 = 0 then c * y - s * x else c * y + s * x)
      (by omega) (by push_cast; omega) (by push_cast; omega) (fun x y e _ _ => ?_) (fun x y e _ _ => ?_)
    · rcases (show e % 2 = 0 ∨ e % 2 = 1 by omega) with h | h
      · simp [h, show (2 * X + e) % 2 = 0 by omega]
      · simp [h, show (2 * X + e) % 2 = 1 by omega]
    · rcases (show e % 2 = 0 ∨ e % 2 = 1 by omega) with h | h
      · simp [h, show (2 * Y + e) % 2 = 0 by omega]
      · simp [h, show (2 * Y + e) % 2 = 1 by omega]

/-! ### Positions -/

theorem within_spin {P : SpinPlan K} {m : Int} {R : Int → Prop} {r2 r1 : Int → Int → Prog K Unit}
    (h2 : ∀ k j, 0 ≤ k → k ≤ P.n - 2 → (r2 k j).Within R) (h1 : ∀ k j, 0 ≤ k → k ≤ P.n - 3 → (r1 k j).Within R) :
    (spinHiP P m r2 r1).Within R ∧ (spinLoP P m r2 r1).Within R := by
  have hab := abs_nonneg (|m| - |P.s|)
  have hpar : 0 ≤ (|m| + |P.s|) % 2 := Int.emod_nonneg _ (by omega)
  constructor
  · refine Prog.Within.bind (Prog.Within.each (fun j hj _ => Prog.Within.each (fun k hk _ => ?_) ()) ()) fun _ => Prog.Within.each (fun j hj _ => Prog.Within.each (fun k hk _ => ?_) ()) ()
    · have := mem_rDown.1 hj
      have := mem_rDown.1 hk
      exact h2 k j (by omega) (by omega)
    · obtain ⟨-, hj1⟩ := (mem_rStepDown' (by omega)).1 hj
      have := mem_rDown.1 hk
      exact h1 k j (by omega) (by omega)
  · refine Prog.Within.bind (Prog.Within.each (fun j hj _ => Prog.Within.each (fun k hk _ => ?_) ()) ()) fun _ => Prog.Within.each (fun j hj _ => Prog.Within.each (fun k hk _ => ?_) ()) ()
    · obtain ⟨⟨t, ht⟩, hj1⟩ := (mem_rStep (by omega)).1 hj
      have := mem_rUp.1 hk
      exact h1 k j (by omega) (by omega)
    · have := mem_rUp.1 hj
      have := mem_rUp.1 hk
      exact h2 k j (by omega) (by omega)

theorem within_tab1 {R : Int → Prop} {P : SpinPlan K} {k j : Int} {p : K → K → Prog K Unit} (h : ∀ s c, (p s c).Within R) : (tab1P P k j p).Within R :=
  Prog.Within.bind (Prog.Within.ofOption _) fun s => Prog.Within.bind (Prog.Within.ofOption _) fun c => h s c
theorem within_tab2 {R : Int → Prop} {P : SpinPlan K} {d k j : Int} {p : K → K → Prog K Unit} (h : ∀ s c, (p s c).Within R) : (tab2P P d k j p).Within R :=
  Prog.Within.bind (Prog.Within.ofOption _) fun s => Prog.Within.bind (Prog.Within.ofOption _) fun c => h s c

theorem within_spinGivens {R : Int → Prop} {isa : SpinIsa} {t : Bool} {s c : K} {X Y : Int} (hX : R (2 * X) ∧ R (2 * X + 1)) (hY : R (2 * Y) ∧ R (2 * Y + 1)) :
    (spinGivensP isa t s c X Y).Within R := by
  have lanes : ∀ Z, (R (2 * Z) ∧ R (2 * Z + 1)) → ∀ e : Int, 0 ≤ e → e < (2 : Nat) → R (2 * Z + e) := by
    intro Z hZ e e0 e1
    rcases (show e = 0 ∨ e = 1 by push_cast at e1; omega) with rfl | rfl
    · simpa using hZ.1
    · exact hZ.2
  cases isa <;> cases t
  · exact Prog.Within.bind (within_applyGivens s c hX.1 hY.1) fun _ => within_applyGivens s c hX.2 hY.2
  · exact Prog.Within.bind (within_applyGivensT s c hX.1 hY.1) fun _ => within_applyGivensT s c hX.2 hY.2
  · exact within_vGivens s c (lanes X hX) (lanes Y hY)
  · exact within_vGivensT s c (lanes X hX) (lanes Y hY)

theorem within_avxGivens {R : Int → Prop} {t : Bool} {s c : K} {X Y : Int} (hX : ∀ e : Int, 0 ≤ e → e < (4 : Nat) → R (2 * X + e)) (hY : ∀ e : Int, 0 ≤ e → e < (4 : Nat) → R (2 * Y + e)) :
    (avxGivensP t s c X Y).Within R ∧ (avxTwistedP t s c X Y).Within R := by
  cases t
  · exact ⟨within_vGivens s c hX hY, hX, fun _ => ⟨hY, fun _ => ⟨hX, hY, trivial⟩⟩⟩
  · exact ⟨within_vGivensT s c hX hY, hX, fun _ => ⟨hY, fun _ => ⟨hX, hY, trivial⟩⟩⟩

/-- The rotation of an operation. -/
def spinOpP (isa : SpinIsa) (d : Bool) (P : SpinPlan K) (m o S : Int) (a : SpinOp) : Prog K Unit :=
  if a.1 then tab2P P |(|m| - |P.s|)| a.2.2 a.2.1 fun s c => spinGivensP isa (xor (!decide (m * P.s ≥ 0)) (!d)) s c (o + a.2.2 * S) (o + (a.2.2 + 1) * S)
  else tab1P P a.2.2 a.2.1 fun s c => spinGivensP isa (!d) s c (o + a.2.2 * S) (o + (a.2.2 + 2) * S)

theorem impl_kernSpin (isa : SpinIsa) (d : Bool) (P : SpinPlan K) (m o S : Int) :
    Impl (kernSpinP isa d P m o S) (exec (fun a => (spinOpP isa d P m o S a).eff) (spinOps d P m)) := by
  unfold kernSpinP spinOps spinOpP
  cases d
  · simp only [Bool.false_eq_true, if_false, Bool.not_false, Bool.xor_true, Bool.not_not]
    by_cases h : m * P.s ≥ 0
    · simp only [h, if_true, decide_true]
      exact impl_spinLo ..
    · simp only [h, if_false, decide_false]
      exact impl_spinLo ..
  · simp only [if_true, Bool.not_true, Bool.xor_false]
    by_cases h : m * P.s ≥ 0
    · simp only [h, if_true, decide_true, Bool.not_true]
      exact impl_spinHi ..
    · simp only [h, if_false, decide_false, Bool.not_false]
      exact impl_spinHi ..

theorem within_kernSpin {isa : SpinIsa} {d : Bool} {P : SpinPlan K} {m o : Int} : (kernSpinP isa d P m o 1).Within (fun i => 2 * o ≤ i ∧ i < 2 * o + 2 * P.n) := by
  have h2 : ∀ (t : Bool) (k j : Int), 0 ≤ k → k ≤ P.n - 2 → (tab2P P |(|m| - |P.s|)| k j fun s c => spinGivensP isa t s c (o + k * 1) (o + (k + 1) * 1)).Within (fun i => 2 * o ≤ i ∧ i < 2 * o + 2 * P.n) :=
    fun t k j k0 k1 => within_tab2 fun s c => within_spinGivens ⟨by omega, by omega⟩ ⟨by omega, by omega⟩
  have h1 : ∀ (t : Bool) (k j : Int), 0 ≤ k → k ≤ P.n - 3 → (tab1P P k j fun s c => spinGivensP isa t s c (o + k * 1) (o + (k + 2) * 1)).Within (fun i => 2 * o ≤ i ∧ i < 2 * o + 2 * P.n) :=
    fun t k j k0 k1 => within_tab1 fun s c => within_spinGivens ⟨by omega, by omega⟩ ⟨by omega, by omega⟩
  unfold kernSpinP
  cases d
  · simp only [Bool.false_eq_true, if_false]
    split_ifs
    · exact (within_spin (h2 true) (h1 true)).2
    · exact (within_spin (h2 false) (h1 true)).2
  · simp only [if_true]
    split_ifs
    · exact (within_spin (h2 false) (h1 false)).1
    · exact (within_spin (h2 true) (h1 false)).1

/-- One operation acts on the positions of its column as on the column alone. -/
theorem spinOp_step {P : SpinPlan K} (hP : SpinGood P) (isa : SpinIsa) (d : Bool) {m o : Int} (ho : 0 ≤ o) {sz : Nat} (hs : 2 * (o + P.n) ≤ sz) :
    ∀ a ∈ spinHi P.n |m| |P.s|, ∀ A : Buf K, A.size = sz → ∃ A', (spinOpP isa d P m o 1 a).run A = some ((), A') ∧ A'.size = sz ∧ ∀ r, 0 ≤ r → r < 2 * P.n →
      A'.val (2 * o + r) = rotC2 (spinSg P (!decide (m * P.s ≥ 0)) (!d) |(|m| - |P.s|)| a) (spinC P |(|m| - |P.s|)| a) a.2.2 (spinGap a) (fun r => A.val (2 * o + r)) r := by
  intro a ha A hA
  have hm := mem_spinHi (abs_nonneg m) (abs_nonneg P.s) ha
  have hab := abs_nonneg (|m| - |P.s|)
  have key : ∀ (σ c : K) (k g r : Int), 0 < g → rotW 2 (fun _ => σ) c (2 * (o + k * 1)) (2 * (o + (k + g) * 1)) A.val (2 * o + r) = rotC2 σ c k g (fun r => A.val (2 * o + r)) r := by
    intro σ c k g r hg
    unfold rotW rotC2
    rw [show 2 * (o + (k + g) * 1) - 2 * (o + k * 1) = 2 * g by ring, show 2 * o + r + 2 * g = 2 * o + (r + 2 * g) by ring, show 2 * o + r - 2 * g = 2 * o + (r - 2 * g) by ring]
    by_cases h1 : r / 2 = k
    · rw [if_pos (by omega), if_pos h1]
    · rw [if_neg (by omega), if_neg h1]
      by_cases h2 : r / 2 = k + g
      · rw [if_pos (by omega), if_pos h2]
      · rw [if_neg (by omega), if_neg h2]
  obtain ⟨t, j, k⟩ := a
  obtain ⟨hj, hk, hc⟩ := hm
  simp only at hj hk hc
  cases t
  · simp only [Bool.false_eq_true, if_false] at hc
    simp only [spinOpP, spinSg, spinS, spinC, spinGap, Bool.false_eq_true, if_false, Bool.false_and, Bool.false_xor]
    rw [run_tab1 (hP.inb1 k j hj hk hc), run_spinGivens isa (!d) (by omega) (by omega) (by omega)]
    exact ⟨_, rfl, hA, fun r _ _ => key _ _ k 2 r (by omega)⟩
  · simp only [if_true] at hc
    simp only [spinOpP, spinSg, spinS, spinC, spinGap, if_true, Bool.true_and]
    rw [run_tab2 (hP.inb2 k j _ hab hj hc.1 hk hc.2), run_spinGivens isa _ (by omega) (by omega) (by omega)]
    exact ⟨_, rfl, hA, fun r _ _ => key _ _ k 1 r (by omega)⟩

theorem spinF_congr {P : SpinPlan K} (hP : SpinGood P) (d : Bool) (ord : Int → Int) : FCongr (fun c => spinF d P (ord c)) (2 * P.n) := by
  intro c x y h k k0 k1
  have st := spinOp_step hP .scalar d (m := ord c) (o := 0) le_rfl (sz := (2 * P.n).toNat) (by omega)
  obtain ⟨X, e1, -, h1⟩ := spin_map hP (d := d) (q := fun r => 2 * 0 + r) st (A := ⟨(2 * P.n).toNat, x⟩) rfl (x := x) (fun r _ _ => by simp)
  obtain ⟨Y, e2, -, h2⟩ := spin_map hP (d := d) (q := fun r => 2 * 0 + r) st (A := ⟨(2 * P.n).toNat, x⟩) rfl (x := y) (fun r r0 r1 => by simpa using h r r0 r1)
  rw [e1] at e2
  cases e2
  exact (h1 k k0 k1).symm.trans (h2 k k0 k1)

/-- A kernel call on column `c`. -/
theorem progMaps_spin {P : SpinPlan K} (hP : SpinGood P) (isa : SpinIsa) {d : Bool} {ord : Int → Int} {M : Int} {sz : Nat} (hN : 0 ≤ P.n) (hs : 2 * P.n * M ≤ sz) {m c : Int} (h0 : 0 ≤ c)
    (h1 : c < M) (e : ord c = m) {pos : Int → Int → Int} (hpos : ∀ r, pos r c = posA 0 (2 * P.n) r c) :
    ProgMaps (fun c => spinF d P (ord c)) (2 * P.n) pos sz (fun c' => c' = c) (kernSpinP isa d P m (P.n * c) 1) := by
  have a : 0 ≤ P.n * c := Int.mul_nonneg hN h0
  have b : 2 * P.n * (c + 1) ≤ 2 * P.n * M := Int.mul_le_mul_of_nonneg_left (by omega) (by omega)
  have b' : 2 * (P.n * c + P.n) ≤ sz := by
    have : 2 * P.n * (c + 1) = 2 * (P.n * c + P.n) := by ring
    omega
  have hp : ∀ r, pos r c = 2 * (P.n * c) + r := fun r => by rw [hpos]; unfold posA; ring
  refine ⟨within_kernSpin.mono ?_, ?_⟩
  · intro i hi
    exact ⟨c, i - 2 * (P.n * c), rfl, by omega, by omega, by rw [hp]; ring⟩
  · intro A hA
    obtain ⟨A', e1, s1, v1⟩ := spin_map hP (d := d) (q := fun r => 2 * (P.n * c) + r) (spinOp_step hP isa d (m := m) a b') hA (x := fun r => A.val (2 * (P.n * c) + r)) (fun _ _ _ => rfl)
    have er : (kernSpinP isa d P m (P.n * c) 1).run A = some ((), A') := by rw [(impl_kernSpin ..).run, e1]; rfl
    refine ⟨A', er, s1.trans hA.symm, ?_, ?_⟩
    · rintro x rfl r r0 r1
      simp only [hp, e]
      exact v1 r r0 r1
    · intro i hi
      refine (Prog.run_local (B := A) within_kernSpin rfl (fun _ _ => rfl) er).2.1 i ?_
      intro h
      exact hi c (i - 2 * (P.n * c)) rfl (by omega) (by omega) (by rw [hp]; ring)

/-! ### The vector kernels for pairs of columns -/

/-- The rotation of an operation on a pair of columns. -/
def spinAvxOpP (d : Bool) (P : SpinPlan K) (m o S : Int) (a : SpinOp) : Prog K Unit :=
  if a.1 then tab2P P |(|m| - |P.s|)| a.2.2 a.2.1 fun s c => avxTwistedP (xor (!decide (P.s ≥ 0)) (!d)) s c (o + a.2.2 * S) (o + (a.2.2 + 1) * S)
  else tab1P P a.2.2 a.2.1 fun s c => avxGivensP (!d) s c (o + a.2.2 * S) (o + (a.2.2 + 2) * S)

theorem impl_kernSpinAvx (d : Bool) (P : SpinPlan K) (m o S : Int) :
    Impl (kernSpinAvxP d P m o S) (exec (fun a => (spinAvxOpP d P m o S a).eff) (spinOps d P m)) := by
  unfold kernSpinAvxP spinOps spinAvxOpP
  cases d
  · simp only [Bool.false_eq_true, if_false, Bool.not_false, Bool.xor_true, Bool.not_not]
    by_cases h : P.s ≥ 0
    · simp only [h, if_true, decide_true]
      exact impl_spinLo ..
    · simp only [h, if_false, decide_false]
      exact impl_spinLo ..
  · simp only [if_true, Bool.not_true, Bool.xor_false]
    by_cases h : P.s ≥ 0
    · simp only [h, if_true, decide_true, Bool.not_true]
      exact impl_spinHi ..
    · simp only [h, if_false, decide_false, Bool.not_false]
      exact impl_spinHi ..

theorem within_kernSpinAvx {d : Bool} {P : SpinPlan K} {m o : Int} : (kernSpinAvxP d P m o 2).Within (fun i => 2 * o ≤ i ∧ i < 2 * o + 4 * P.n) := by
  have h2 : ∀ (t : Bool) (k j : Int), 0 ≤ k → k ≤ P.n - 2 → (tab2P P |(|m| - |P.s|)| k j fun s c => avxTwistedP t s c (o + k * 2) (o + (k + 1) * 2)).Within (fun i => 2 * o ≤ i ∧ i < 2 * o + 4 * P.n) :=
    fun t k j k0 k1 => within_tab2 fun s c => (within_avxGivens (fun e e0 e1 => by push_cast at e1; omega) (fun e e0 e1 => by push_cast at e1; omega)).2
  have h1 : ∀ (t : Bool) (k j : Int), 0 ≤ k → k ≤ P.n - 3 → (tab1P P k j fun s c => avxGivensP t s c (o + k * 2) (o + (k + 2) * 2)).Within (fun i => 2 * o ≤ i ∧ i < 2 * o + 4 * P.n) :=
    fun t k j k0 k1 => within_tab1 fun s c => (within_avxGivens (fun e e0 e1 => by push_cast at e1; omega) (fun e e0 e1 => by push_cast at e1; omega)).1
  unfold kernSpinAvxP
  cases d
  · simp only [Bool.false_eq_true, if_false]
    split_ifs
    · exact (within_spin (h2 true) (h1 true)).2
    · exact (within_spin (h2 false) (h1 true)).2
  · simp only [if_true]
    split_ifs
    · exact (within_spin (h2 false) (h1 false)).1
    · exact (within_spin (h2 true) (h1 false)).1

/-- One operation acts on the even positions as on the column of order `-m`, on the odd positions as on the column of order `m`. -/
theorem spinAvxOp_step {P : SpinPlan K} (hP : SpinGood P) (d : Bool) {m m' i o : Int} (hm1 : 1 ≤ m) (hi : (i = 0 ∧ m' = -m) ∨ (i = 1 ∧ m' = m)) (ho : 0 ≤ o) {sz : Nat}
    (hs : 2 * (o + 2 * P.n) ≤ sz) :
    ∀ a ∈ spinHi P.n |m'| |P.s|, ∀ A : Buf K, A.size = sz → ∃ A', (spinAvxOpP d P m o 2 a).run A = some ((), A') ∧ A'.size = sz ∧ ∀ r, 0 ≤ r → r < 2 * P.n →
      A'.val (2 * o + 2 * r + i) =
        rotC2 (spinSg P (!decide (m' * P.s ≥ 0)) (!d) |(|m'| - |P.s|)| a) (spinC P |(|m'| - |P.s|)| a) a.2.2 (spinGap a) (fun r => A.val (2 * o + 2 * r + i)) r := by
  intro a ha A hA
  have ham : |m'| = |m| := by rcases hi with ⟨-, h⟩ | ⟨-, h⟩ <;> rw [h]; exact abs_neg m
  rw [ham] at ha ⊢
  have hm := mem_spinHi (abs_nonneg m) (abs_nonneg P.s) ha
  have hab := abs_nonneg (|m| - |P.s|)
  have hi2 : i = 0 ∨ i = 1 := by omega
  have key : ∀ (σ : Int → K) (σ' c : K) (k g r : Int), 0 < g → (∀ r, σ (2 * o + 2 * r + i) = σ') →
      rotW 4 σ c (2 * (o + k * 2)) (2 * (o + (k + g) * 2)) A.val (2 * o + 2 * r + i) = rotC2 σ' c k g (fun r => A.val (2 * o + 2 * r + i)) r := by
    intro σ σ' c k g r hg hσ
    unfold rotW rotC2
    rw [hσ, show 2 * (o + (k + g) * 2) - 2 * (o + k * 2) = 4 * g by ring, show 2 * o + 2 * r + i + 4 * g = 2 * o + 2 * (r + 2 * g) + i by ring,
      show 2 * o + 2 * r + i - 4 * g = 2 * o + 2 * (r - 2 * g) + i by ring]
    by_cases h1 : r / 2 = k
    · rw [if_pos (by omega), if_pos h1]
    · rw [if_neg (by omega), if_neg h1]
      by_cases h2 : r / 2 = k + g
      · rw [if_pos (by omega), if_pos h2]
      · rw [if_neg (by omega), if_neg h2]
  obtain ⟨t, j, k⟩ := a
  obtain ⟨hj, hk, hc⟩ := hm
  simp only at hj hk hc
  cases t
  · simp only [Bool.false_eq_true, if_false] at hc
    simp only [spinAvxOpP, spinSg, spinS, spinC, spinGap, Bool.false_eq_true, if_false, Bool.false_and, Bool.false_xor]
    rw [run_tab1 (hP.inb1 k j hj hk hc), run_avxGivens (!d) (by omega) (by omega) (by omega)]
    exact ⟨_, rfl, hA, fun r _ _ => key (fun _ => if !d then -P.s1.val (k + j * P.n) else P.s1.val (k + j * P.n)) _ _ k 2 r (by omega) (fun _ => rfl)⟩
  · simp only [if_true] at hc
    have hs0 : P.s ≠ 0 := by
      rintro h
      rw [h, abs_zero] at hc
      omega
    have hb : ∀ r, xor (decide ((2 * o + 2 * r + i) % 2 = 0)) (xor (!decide (P.s ≥ 0)) (!d)) = xor (!decide (m' * P.s ≥ 0)) (!d) := by
      intro r
      rcases hi with ⟨rfl, rfl⟩ | ⟨rfl, rfl⟩
      · rw [decide_eq_true (show (2 * o + 2 * r + 0) % 2 = 0 by omega)]
        rcases lt_or_gt_of_ne hs0 with h | h
        · rw [decide_eq_false (show ¬ P.s ≥ 0 by omega), decide_eq_true (show -m * P.s ≥ 0 by nlinarith)]
          cases d <;> rfl
        · rw [decide_eq_true (show P.s ≥ 0 by omega), decide_eq_false (show ¬ -m * P.s ≥ 0 by nlinarith)]
          cases d <;> rfl
      · rw [decide_eq_false (show ¬ (2 * o + 2 * r + 1) % 2 = 0 by omega)]
        rcases lt_or_gt_of_ne hs0 with h | h
        · rw [decide_eq_false (show ¬ P.s ≥ 0 by omega), decide_eq_false (show ¬ m' * P.s ≥ 0 by nlinarith)]
          cases d <;> rfl
        · rw [decide_eq_true (show P.s ≥ 0 by omega), decide_eq_true (show m' * P.s ≥ 0 by nlinarith)]
          cases d <;> rfl
    simp only [spinAvxOpP, spinSg, spinS, spinC, spinGap, if_true, Bool.true_and]
    rw [run_tab2 (hP.inb2 k j _ hab hj hc.1 hk hc.2), run_avxTwisted _ (by omega) (by omega) (by omega)]
    refine ⟨_, rfl, hA, fun r _ _ => ?_⟩
    refine key (fun i => if xor (decide (i % 2 = 0)) (xor (!decide (P.s ≥ 0)) (!d)) then -P.s2.val (k + j * P.n + |(|m| - |P.s|)| * |P.s| * P.n)
      else P.s2.val (k + j * P.n + |(|m| - |P.s|)| * |P.s| * P.n)) _ _ k 1 r (by omega) (fun r' => ?_)
    rw [hb]

omit [CommRing K] in
theorem spinOps_abs (d : Bool) (P : SpinPlan K) {m m' : Int} (h : |m| = |m'|) : spinOps d P m = spinOps d P m' := by unfold spinOps; rw [h]

/-- A kernel call on the packed pair of columns `2m-1`, `2m`. -/
theorem progMaps_spinAvx {P : SpinPlan K} (hP : SpinGood P) {d : Bool} {M : Int} {sz : Nat} (hN : 0 ≤ P.n) (hs : 2 * P.n * M ≤ sz) {m : Int} (h0 : 1 ≤ m)
    (h1 : 2 * m < M) {F : Int → (Int → K) → Int → K} (f0 : F (2 * m - 1) = spinF d P (-m)) (f1 : F (2 * m) = spinF d P m) {pos : Int → Int → Int}
    (p0 : ∀ r, pos r (2 * m - 1) = 2 * (P.n * (2 * m - 1)) + 2 * r + 0) (p1 : ∀ r, pos r (2 * m) = 2 * (P.n * (2 * m - 1)) + 2 * r + 1) :
    ProgMaps F (2 * P.n) pos sz (fun c => c = 2 * m - 1 ∨ c = 2 * m) (kernSpinAvxP d P m (P.n * (2 * m - 1)) 2) := by
  have a : 0 ≤ P.n * (2 * m - 1) := Int.mul_nonneg hN (by omega)
  have b : 2 * P.n * (2 * m + 1) ≤ 2 * P.n * M := Int.mul_le_mul_of_nonneg_left (by omega) (by omega)
  have b' : 2 * (P.n * (2 * m - 1) + 2 * P.n) ≤ sz := by
    have : 2 * P.n * (2 * m + 1) = 2 * (P.n * (2 * m - 1) + 2 * P.n) := by ring
    omega
  generalize P.n * (2 * m - 1) = o at *
  have cov : ∀ i, 2 * o ≤ i ∧ i < 2 * o + 4 * P.n → ∃ c r, (c = 2 * m - 1 ∨ c = 2 * m) ∧ 0 ≤ r ∧ r < 2 * P.n ∧ i = pos r c := by
    intro i hi
    rcases (show (i - 2 * o) % 2 = 0 ∨ (i - 2 * o) % 2 = 1 by omega) with h | h
    · exact ⟨2 * m - 1, (i - 2 * o) / 2, Or.inl rfl, by omega, by omega, by rw [p0]; omega⟩
    · exact ⟨2 * m, (i - 2 * o) / 2, Or.inr rfl, by omega, by omega, by rw [p1]; omega⟩
  refine ⟨within_kernSpinAvx.mono ?_, ?_⟩
  · intro i hi
    exact cov i hi
  · intro A hA
    obtain ⟨X, e0, s0, v0⟩ := spin_map hP (d := d) (q := fun r => 2 * o + 2 * r + 0) (spinAvxOp_step hP d h0 (Or.inl ⟨rfl, rfl⟩) a b') hA (x := fun r => A.val (2 * o + 2 * r + 0)) (fun _ _ _ => rfl)
    obtain ⟨Y, e1, s1, v1⟩ := spin_map hP (d := d) (q := fun r => 2 * o + 2 * r + 1) (spinAvxOp_step hP d h0 (Or.inr ⟨rfl, rfl⟩) a b') hA (x := fun r => A.val (2 * o + 2 * r + 1)) (fun _ _ _ => rfl)
    rw [spinOps_abs d P (abs_neg m), e1] at e0
    cases e0
    have er : (kernSpinAvxP d P m o 2).run A = some ((), X) := by rw [(impl_kernSpinAvx ..).run, e1]; rfl
    refine ⟨X, er, s1.trans hA.symm, ?_, ?_⟩
    · rintro x (rfl | rfl) r r0 r1
      · simp only [p0, f0]
        exact v0 r r0 r1
      · simp only [p1, f1]
        exact v1 r r0 r1
    · intro i hi
      refine (Prog.run_local (B := A) within_kernSpinAvx rfl (fun _ _ => rfl) er).2.1 i ?_
      intro h
      obtain ⟨c, r, hc, r0, r1, e⟩ := cov i h
      exact hi c r hc r0 r1 e

/-! ### The drivers -/

/-- The order of a column: `0, -1, 1, -2, 2, …`. -/
def ordS (c : Int) : Int := if c % 2 = 0 then c / 2 else -((c + 1) / 2)

theorem ordS_odd (m : Int) : ordS (2 * m - 1) = -m := by unfold ordS; rw [if_neg (by omega)]; omega
theorem ordS_even (m : Int) : ordS (2 * m) = m := by unfold ordS; rw [if_pos (by omega)]; omega

/-- The specification: one scalar kernel per column, in order. -/
def spinSpec (d : Bool) (P : SpinPlan K) (M : Int) (A : Buf K) : Option (Buf K) := forUp 0 M (fun c => kernSpin d P (ordS c) (P.n * c) 1) A

theorem impl_kernSpin_scalar (d : Bool) (P : SpinPlan K) (m o S : Int) : Impl (kernSpinP .scalar d P m o S) (kernSpin d P m o S) := by
  refine ⟨fun A => ?_⟩
  rw [(impl_kernSpin ..).run, kernSpin_exec]
  congr 1
  apply exec_congr
  intro a _ B
  obtain ⟨t, j, k⟩ := a
  have g : ∀ (t : Bool) (s c : K) (X Y : Int), (spinGivensP .scalar t s c X Y).eff B = if t then applyGivensTC s c X Y B else applyGivensC s c X Y B := by
    intro t s c X Y
    unfold Prog.eff
    cases t
    · rw [show spinGivensP .scalar false s c X Y = (applyGivensP s c (2 * X) (2 * Y)).bind fun _ => applyGivensP s c (2 * X + 1) (2 * Y + 1) from rfl,
        (Impl.bind (impl_applyGivens s c (2 * X) (2 * Y)) (q := fun _ => applyGivensP s c (2 * X + 1) (2 * Y + 1)) (impl_applyGivens s c (2 * X + 1) (2 * Y + 1))).run B, Option.map_map]
      exact Option.map_id'
    · rw [show spinGivensP .scalar true s c X Y = (applyGivensTP s c (2 * X) (2 * Y)).bind fun _ => applyGivensTP s c (2 * X + 1) (2 * Y + 1) from rfl,
        (Impl.bind (impl_applyGivensT s c (2 * X) (2 * Y)) (q := fun _ => applyGivensTP s c (2 * X + 1) (2 * Y + 1)) (impl_applyGivensT s c (2 * X + 1) (2 * Y + 1))).run B, Option.map_map]
      exact Option.map_id'
  have of1 : ∀ (x : Option K) (f : K → Prog K Unit), ((Prog.ofOption x).bind f).eff B = x.bind fun v => (f v).eff B := by
    intro x f
    cases x <;> rfl
  cases t
  · simp only [spinOpP, spinStep, Bool.false_eq_true, if_false, tab1P, spinRot1, of1, g]
  · simp only [spinOpP, spinStep, if_true, tab2P, spinRot2, of1, g]

theorem spinSpec_mapped {P : SpinPlan K} (hP : SpinGood P) (d : Bool) {M : Int} {A : Buf K} (hN : 0 ≤ P.n) (hs : 2 * P.n * M ≤ A.size) :
    ∃ A', spinSpec d P M A = some A' ∧ Mapped (fun c => spinF d P (ordS c)) (2 * P.n) (posA 0 (2 * P.n)) (fun c => 0 ≤ c ∧ c < M) A A' := by
  have key := ProgMaps.each (F := fun c => spinF d P (ordS c)) (N := 2 * P.n) (pos := posA 0 (2 * P.n)) (sz := A.size) (D := fun _ => True) (posA_inj _ _ _)
    (nodup_rUp (lo := 0) (hi := M)) (C := fun a c => c = a)
    (fun _ _ _ _ => trivial) (by rintro a _ b _ hab c rfl; exact hab)
    (P := fun c => kernSpinP .scalar d P (ordS c) (P.n * c) 1) (fun c hc => progMaps_spin hP .scalar hN hs (mem_rUp.1 hc).1 (mem_rUp.1 hc).2 rfl (fun _ => rfl))
  obtain ⟨A', e, m⟩ := key.run A rfl
  rw [Prog.run_each_unit (fun c _ => (impl_kernSpin_scalar d P (ordS c) (P.n * c) 1).run)] at e
  unfold spinSpec
  rw [forUp_exec]
  refine ⟨A', ?_, m.congrC fun c => by simp [mem_rUp]⟩
  cases hx : exec (fun c => kernSpin d P (ordS c) (P.n * c) 1) (rUp 0 M) A with
  | none => rw [hx] at e; cases e
  | some B => rw [hx] at e; cases e; rfl

theorem spinDriver_spec {P : SpinPlan K} (hP : SpinGood P) (isa : SpinIsa) (d : Bool) {T : Nat} (hT : 0 < T) {M : Int} (hM : 1 ≤ M) (hodd : M % 2 = 1) {A : Buf K} (hN : 0 ≤ P.n)
    (hs : 2 * P.n * M ≤ A.size) : ∃ A', SpinDriver isa d T P M A A' ∧ spinSpec d P M A = some A' := by
  have hF := spinF_congr hP d ordS
  have inj := posA_inj 0 (2 * P.n) (fun _ => True)
  have p0 := progMaps_spin (d := d) (ord := ordS) hP isa hN hs (m := 0) (c := 0) le_rfl (by omega) rfl (pos := posA 0 (2 * P.n)) (fun _ => rfl)
  rw [Int.mul_zero] at p0
  obtain ⟨A1, e1, m1⟩ := p0.run A rfl
  obtain ⟨A', pA, mA⟩ := ProgMaps.omp (F := fun c => spinF d P (ordS c)) (N := 2 * P.n) (pos := posA 0 (2 * P.n)) (sz := A.size) (D := fun _ => True) inj
    (lo := 1) (hi := M / 2 + 1) (st := 1) (by omega) hT (C := fun m c => c = 2 * m - 1 ∨ c = 2 * m) (fun _ _ _ _ => trivial)
    (fun a _ b _ hab c h1 h2 => by omega)
    (P := fun m => (kernSpinP isa d P (-m) (P.n * (2 * m - 1)) 1).bind fun _ => kernSpinP isa d P m (P.n * (2 * m)) 1)
    (fun m hm => by
      obtain ⟨⟨k, hk⟩, hlt⟩ := (mem_rStep (by omega)).1 hm
      exact ProgMaps.bind inj hF (fun _ _ => trivial) (fun _ _ => trivial) (fun c h1 h2 => by omega)
        (progMaps_spin hP isa hN hs (by omega) (by omega) (ordS_odd m) (fun _ => rfl)) (progMaps_spin hP isa hN hs (by omega) (by omega) (ordS_even m) (fun _ => rfl))) (A := A1) m1.1
  have mB := (Mapped.trans (D := fun _ => True) inj hF (fun _ _ => trivial) (fun _ _ => trivial)
    (fun c h1 h2 => by
      obtain ⟨m, hm, h⟩ := h2
      obtain ⟨⟨k, hk⟩, hlt⟩ := (mem_rStep (by omega)).1 hm
      omega) m1 mA).congrC (C' := fun c => 0 ≤ c ∧ c < M) (fun c => by
      constructor
      · rintro (h | ⟨m, hm, h⟩)
        · omega
        · obtain ⟨⟨k, hk⟩, hlt⟩ := (mem_rStep (by omega)).1 hm
          omega
      · rintro ⟨c0, c1⟩
        rcases c0.lt_or_eq with h | h
        · exact Or.inr ⟨(c + 1) / 2, (mem_rStep (by omega)).2 ⟨⟨((c + 1) / 2 - 1).toNat, by omega⟩, by omega⟩, by omega⟩
        · exact Or.inl h.symm)
  obtain ⟨X, eX, mX⟩ := spinSpec_mapped hP d hN hs
  rw [Mapped.unique mX mB] at eX
  exact ⟨A', ⟨A1, e1, pA⟩, eX⟩

theorem spinDriverAvx_spec {P : SpinPlan K} (hP : SpinGood P) (d : Bool) {T : Nat} (hT : 0 < T) {M : Int} (hM : 3 ≤ M) (hodd : M % 2 = 1) {A B : Buf K} (hN : 0 ≤ P.n)
    (hs : 2 * P.n * M ≤ A.size) (hB : 2 * P.n * M ≤ B.size) : ∃ A' B', SpinDriverAvx d T P M A B A' B' ∧ spinSpec d P M A = some A' := by
  set F := fun c => spinF d P (ordS c) with hFd
  have hF : FCongr F (2 * P.n) := spinF_congr hP d ordS
  have inj := posA_inj 0 (2 * P.n) (fun _ => True)
  have p0 := progMaps_spin (d := d) (ord := ordS) hP .scalar hN hs (m := 0) (c := 0) le_rfl (by omega) rfl (pos := posA 0 (2 * P.n)) (fun _ => rfl)
  have p1 := progMaps_spin (d := d) (ord := ordS) hP .scalar hN hs (m := -1) (c := 1) (by omega) (by omega) rfl (pos := posA 0 (2 * P.n)) (fun _ => rfl)
  have p2 := progMaps_spin (d := d) (ord := ordS) hP .scalar hN hs (m := 1) (c := 2) (by omega) (by omega) rfl (pos := posA 0 (2 * P.n)) (fun _ => rfl)
  rw [Int.mul_zero] at p0
  rw [Int.mul_one] at p1
  rw [Int.mul_comm P.n 2] at p2
  obtain ⟨A1, e1, m1⟩ := ((ProgMaps.bind inj hF (fun _ _ => trivial) (fun _ _ => trivial) (fun c h1 h2 => by omega) p0
    (ProgMaps.bind inj hF (fun _ _ => trivial) (fun _ _ => trivial) (fun c h1 h2 => by omega) p1 p2)).congrC (C' := fun c => 0 ≤ c ∧ c < 3) (fun c => by omega)).run A rfl
  have hh0 : 0 ≤ M % 4 ∧ M % 4 ≤ M ∧ M % 4 % 2 = 1 ∧ (2 : Int) ∣ M - M % 4 := by omega
  have hh3 : M % 4 ≤ 3 := by omega
  obtain ⟨B1, eB1, pB1, wB1⟩ := packFrom_spec A1 B (o := 0) (N := 2 * P.n) (M := M) (L := 2) (h := M % 4) le_rfl (by omega) (by omega) hh0.1 hh0.2.1 hh0.2.2.2 (by rw [m1.1]; omega) (by omega)
  generalize hhdef : M % 4 = h at *
  set G : Int → (Int → K) → Int → K := fun c => if c < 3 then id else F c with hG
  have hGC : FCongr G (2 * P.n) := by
    intro c x y hxy
    simp only [hG]
    split_ifs
    · exact hxy
    · exact hF c x y hxy
  have injB := posB_inj (h := h) (o := 0) (N := 2 * P.n) (L := 2) (by omega) (fun _ => True)
  obtain ⟨B', pB', mB'⟩ := ProgMaps.omp (F := G) (N := 2 * P.n) (pos := posB h 0 (2 * P.n) 2) (sz := B1.size) (D := fun _ => True) injB
    (lo := 2) (hi := M / 2 + 1) (st := 1) (by omega) hT (C := fun m c => c = 2 * m - 1 ∨ c = 2 * m) (fun _ _ _ _ => trivial)
    (fun a _ b _ hab c h1 h2 => by omega)
    (P := fun m => kernSpinAvxP d P m (P.n * (2 * m - 1)) 2)
    (fun m hm => by
      obtain ⟨⟨k, hk⟩, hlt⟩ := (mem_rStep (by omega)).1 hm
      refine progMaps_spinAvx hP (M := M) hN (by rw [wB1.1]; exact hB) (by omega) (by omega) ?_ ?_ ?_ ?_
      · simp only [hG, hFd, if_neg (show ¬ (2 * m - 1 < 3) by omega), ordS_odd]
      · simp only [hG, hFd, if_neg (show ¬ (2 * m < 3) by omega), ordS_even]
      · intro r
        have := posB_lane (h := h) (o := 0) (N := 2 * P.n) (L := 2) (k := r) (c := 2 * m - 1) (e := 0) (by omega) (by omega) (by omega) le_rfl (by omega)
        rw [Int.add_zero] at this
        rw [this]; ring
      · intro r
        have := posB_lane (h := h) (o := 0) (N := 2 * P.n) (L := 2) (k := r) (c := 2 * m - 1) (e := 1) (by omega) (by omega) (by omega) (by omega) (by omega)
        rw [show 2 * m - 1 + 1 = 2 * m by ring] at this
        rw [this]; ring) (A := B1) rfl
  have mBx := mB'.extend (D := fun _ => True) (C' := fun c => 0 ≤ c ∧ c < M) injB
    (by
      rintro c ⟨m, hm, hc⟩
      obtain ⟨⟨k, hk⟩, hlt⟩ := (mem_rStep (by omega)).1 hm
      omega) (fun _ _ => trivial)
    (by
      rintro c ⟨c0, c1⟩ hn x
      by_cases hc : c < 3
      · simp only [hG, if_pos hc, id]
      · exact absurd ⟨(c + 1) / 2, (mem_rStep (by omega)).2 ⟨⟨((c + 1) / 2 - 2).toNat, by omega⟩, by omega⟩, by omega⟩ hn)
  obtain ⟨A', eA, pA, wA⟩ := unpackFrom_spec A1 B' (o := 0) (N := 2 * P.n) (M := M) (L := 2) (h := h) le_rfl (by omega) (by omega) hh0.1 hh0.2.1 hh0.2.2.2 (by rw [m1.1]; omega)
    (by rw [mBx.1, wB1.1]; omega)
  have mA := packed_transform le_rfl (by omega) (by omega) hh0.2.2.2 hh0.1 hh0.2.1 hGC pB1 mBx pA wA
  have mA3 : Mapped F (2 * P.n) (posA 0 (2 * P.n)) (fun c => 3 ≤ c ∧ c < M) A1 A' := by
    refine ⟨mA.1, ?_, ?_⟩
    · rintro c ⟨c0, c1⟩ k k0 k1
      rw [mA.2.1 c ⟨by omega, c1⟩ k k0 k1]
      simp only [hG, if_neg (show ¬ c < 3 by omega)]
    · intro i hi
      by_cases hc : ∃ c k, 0 ≤ c ∧ c < 3 ∧ 0 ≤ k ∧ k < 2 * P.n ∧ i = posA 0 (2 * P.n) k c
      · obtain ⟨c, k, c0, c3, k0, k1, rfl⟩ := hc
        rw [mA.2.1 c ⟨c0, by omega⟩ k k0 k1]
        simp only [hG, if_pos c3, id]
      · refine mA.2.2 i ?_
        rintro c k ⟨c0, c1⟩ k0 k1 e
        by_cases h3 : c < 3
        · exact hc ⟨c, k, c0, h3, k0, k1, e⟩
        · exact hi c k ⟨by omega, c1⟩ k0 k1 e
  have fin := (Mapped.trans (D := fun _ => True) inj hF (fun _ _ => trivial) (fun _ _ => trivial) (fun c h1 h2 => by omega) m1 mA3).congrC (C' := fun c => 0 ≤ c ∧ c < M) (fun c => by omega)
  obtain ⟨X, eX, mX⟩ := spinSpec_mapped hP d hN hs
  rw [Mapped.unique mX fin] at eX
  refine ⟨A', B', ⟨A1, B1, e1, ?_, pB', ?_⟩, eX⟩
  · unfold permute_sph; rw [show (2 : Int) * 2 = 4 from rfl, hhdef]; exact eB1
  · unfold permute_t_sph; rw [show (2 : Int) * 2 = 4 from rfl, hhdef]; exact eA

theorem SpinDriver.unique {isa : SpinIsa} {d : Bool} {T : Nat} {P : SpinPlan K} {M : Int} {A A' A'' : Buf K} (h : SpinDriver isa d T P M A A') (h' : SpinDriver isa d T P M A A'') : A' = A'' := by
  obtain ⟨A1, e1, p1⟩ := h
  obtain ⟨X1, f1, q1⟩ := h'
  rw [e1] at f1; cases f1
  exact p1.unique q1

theorem SpinDriverAvx.unique {d : Bool} {T : Nat} {P : SpinPlan K} {M : Int} {A B A' B' A'' B'' : Buf K} (h : SpinDriverAvx d T P M A B A' B') (h' : SpinDriverAvx d T P M A B A'' B'') : A' = A'' := by
  obtain ⟨A1, B1, e1, e2, p1, e3⟩ := h
  obtain ⟨X1, Y1, f1, f2, q1, f3⟩ := h'
  rw [e1] at f1; cases f1
  rw [e2] at f2; cases f2
  obtain rfl := p1.unique q1
  rw [e3] at f3; cases f3
  rfl

end FT
