import Verif.Lemmas.RotPlan

namespace FT
variable {K : Type*} [CommRing K]

theorem applyGivensTC_eq (s c : K) (X Y : Int) (A : Buf K) :
    applyGivensTC s c X Y A = applyGivensC (-s) c X Y A := by
  unfold applyGivensTC applyGivensC
  rw [applyGivensT_eq]; congr 1; funext B; rw [applyGivensT_eq]

theorem applyGivensC_mk {s c : K} {X Y : Int} {n : Nat} {v : Int → K} (hX : 0 ≤ X ∧ 2 * X + 1 < (n : Int))
    (hY : 0 ≤ Y ∧ 2 * Y + 1 < (n : Int)) :
    applyGivensC s c X Y ⟨n, v⟩ = some ⟨n, rotV s c (2 * X + 1) (2 * Y + 1) (rotV s c (2 * X) (2 * Y) v)⟩ := by
  unfold applyGivensC
  rw [applyGivens_mk (by omega) (by omega), Option.bind_some, applyGivens_mk (by omega) (by omega)]

theorem rotVC_undo {s c : K} {X Y : Int} (h : X ≠ Y) (hu : s * s + c * c = 1) (v : Int → K) :
    rotV (-s) c (2 * X + 1) (2 * Y + 1) (rotV (-s) c (2 * X) (2 * Y)
      (rotV s c (2 * X + 1) (2 * Y + 1) (rotV s c (2 * X) (2 * Y) v))) = v := by
  rw [rotV_comm (s := -s) (s' := s) (p := 2 * X) (q := 2 * Y) (by omega) (by omega) (by omega) (by omega),
    rotV_undo (p := 2 * X + 1) (by omega) hu, rotV_undo (by omega) hu]

/-- Tables of a spin plan that the kernels may use. -/
structure SpinGood (P : SpinPlan K) : Prop where
  inb1 : ∀ k j, 0 ≤ j → 0 ≤ k → k ≤ P.n - 3 - j →
    0 ≤ k + j * P.n ∧ k + j * P.n < P.s1.size ∧ k + j * P.n < P.c1.size
  unit1 : ∀ k j, 0 ≤ j → 0 ≤ k → k ≤ P.n - 3 - j →
    P.s1.val (k + j * P.n) * P.s1.val (k + j * P.n) + P.c1.val (k + j * P.n) * P.c1.val (k + j * P.n) = 1
  inb2 : ∀ k j d, 0 ≤ d → 0 ≤ j → j < |P.s| → 0 ≤ k → k ≤ P.n - 2 - d - j →
    0 ≤ k + j * P.n + d * |P.s| * P.n ∧ k + j * P.n + d * |P.s| * P.n < P.s2.size ∧
      k + j * P.n + d * |P.s| * P.n < P.c2.size
  unit2 : ∀ k j d, 0 ≤ d → 0 ≤ j → j < |P.s| → 0 ≤ k → k ≤ P.n - 2 - d - j →
    P.s2.val (k + j * P.n + d * |P.s| * P.n) * P.s2.val (k + j * P.n + d * |P.s| * P.n) +
      P.c2.val (k + j * P.n + d * |P.s| * P.n) * P.c2.val (k + j * P.n + d * |P.s| * P.n) = 1

/-- Operation `(kind, j, k)`: `kind = true` uses the tables `s2,c2`. -/
abbrev SpinOp := Bool × Int × Int

/-- Rotation of an operation; `neg` tells whether it is the `lo2hi` direction, `b` whether the orders have opposite
sign. -/
def spinStep (P : SpinPlan K) (b neg : Bool) (d o S : Int) (a : SpinOp) : Buf K → Option (Buf K) :=
  if a.1 then spinRot2 (xor b neg) P d o S a.2.2 a.2.1 else spinRot1 neg P o S a.2.2 a.2.1

def spinHi (n am as : Int) : List SpinOp :=
  ((rDown (min am as - 1) 0).flatMap fun j => (rDown (n - 2 - |am - as| - j) 0).map fun k => (true, j, k)) ++
  ((rStepDown (|am - as| - 2) ((am + as) % 2) 2).flatMap fun j => (rDown (n - 3 - j) 0).map fun k => (false, j, k))

theorem kernelSpinHi2lo_exec (P : SpinPlan K) (m o S : Int) (A : Buf K) :
    kernelSpinHi2lo P m o S A = exec (spinStep P (!decide (m * P.s ≥ 0)) false |(|m| - |P.s|)| o S)
      (spinHi P.n |m| |P.s|) A := by
  unfold kernelSpinHi2lo spinHi
  simp only
  rw [exec_append]
  congr 1
  · rw [exec_flatMap]
    split_ifs with h
    · rw [forDown_exec]
      apply exec_congr; intro j _ B
      rw [forDown_exec, exec_map]
      apply exec_congr; intro k _ C
      simp [spinStep, h]
    · rw [forDown_exec]
      apply exec_congr; intro j _ B
      rw [forDown_exec, exec_map]
      apply exec_congr; intro k _ C
      simp [spinStep, h]
  · funext B
    rw [forStepDown_exec, exec_flatMap]
    apply exec_congr; intro j _ B
    rw [forDown_exec, exec_map]
    apply exec_congr; intro k _ C
    simp [spinStep]

theorem spin_parity (am as : Int) : (2 : Int) ∣ |am - as| - (am + as) % 2 := by
  rcases abs_cases (am - as) with ⟨h, -⟩ | ⟨h, -⟩ <;> rw [h] <;> omega

theorem kernelSpinLo2hi_exec (P : SpinPlan K) (m o S : Int) (A : Buf K) :
    kernelSpinLo2hi P m o S A = exec (spinStep P (!decide (m * P.s ≥ 0)) true |(|m| - |P.s|)| o S)
      (spinHi P.n |m| |P.s|).reverse A := by
  unfold kernelSpinLo2hi spinHi
  simp only
  rw [List.reverse_append, List.reverse_flatMap, List.reverse_flatMap,
    rStepDown_reverse (by omega) (spin_parity _ _), rDown_reverse, exec_append]
  have hstep : rStep ((|m| + |P.s|) % 2) (|(|m| - |P.s|)| - 2 + 1) 2 = rStep ((|m| + |P.s|) % 2) |(|m| - |P.s|)| 2 := by
    apply eq_of_pairwise
    · exact (pairwise_rStep (by omega)).imp (fun h => by omega)
    · exact (pairwise_rStep (by omega)).imp (fun h => by omega)
    · intro x
      have := spin_parity |m| |P.s|
      rw [mem_rStep (by omega), mem_rStep (by omega)]
      constructor
      · rintro ⟨⟨k, rfl⟩, h⟩; exact ⟨⟨k, rfl⟩, by omega⟩
      · rintro ⟨⟨k, rfl⟩, h⟩; exact ⟨⟨k, rfl⟩, by omega⟩
  congr 1
  · rw [forStep_exec, exec_flatMap, hstep]
    apply exec_congr; intro j _ B
    simp only [Function.comp]
    rw [forUp_exec, ← List.map_reverse, rDown_reverse, exec_map]
    apply exec_congr; intro k _ C
    simp [spinStep]
  · funext B
    rw [exec_flatMap, show min |m| |P.s| - 1 + 1 = min |m| |P.s| by ring]
    split_ifs with h
    · rw [forUp_exec]
      apply exec_congr; intro j _ B
      simp only [Function.comp]
      rw [forUp_exec, ← List.map_reverse, rDown_reverse, exec_map]
      apply exec_congr; intro k _ C
      simp [spinStep, h]
    · rw [forUp_exec]
      apply exec_congr; intro j _ B
      simp only [Function.comp]
      rw [forUp_exec, ← List.map_reverse, rDown_reverse, exec_map]
      apply exec_congr; intro k _ C
      simp [spinStep, h]

/-- Complex rows `0 … n-1` at offset `o`, stride `S`, lie in the buffer (of doubles). -/
def FitsC (n o S : Int) (A : Buf K) : Prop := 0 < S ∧ 0 ≤ o ∧ 2 * (o + (n - 1) * S) + 1 < A.size

theorem FitsC.row {n o S : Int} {A : Buf K} (h : FitsC n o S A) {k : Int} (h0 : 0 ≤ k) (h1 : k ≤ n - 1) :
    0 ≤ o + k * S ∧ 2 * (o + k * S) + 1 < A.size := by
  obtain ⟨hS, ho, hn⟩ := h
  have a : 0 ≤ k * S := Int.mul_nonneg h0 (by omega)
  have b : k * S ≤ (n - 1) * S := Int.mul_le_mul_of_nonneg_right h1 (by omega)
  omega

theorem mem_spinHi {n am as : Int} {a : SpinOp} (ham : 0 ≤ am) (has : 0 ≤ as) (h : a ∈ spinHi n am as) :
    0 ≤ a.2.1 ∧ 0 ≤ a.2.2 ∧ (if a.1 then a.2.1 < as ∧ a.2.2 ≤ n - 2 - |am - as| - a.2.1 else a.2.2 ≤ n - 3 - a.2.1) := by
  obtain ⟨t, j, k⟩ := a
  unfold spinHi at h
  simp only [List.mem_append, List.mem_flatMap, List.mem_map, mem_rDown, mem_rStepDown' (show (0:Int) < 2 by omega),
    Prod.mk.injEq] at h
  rcases h with ⟨j', ⟨h1, h2⟩, k', ⟨h3, h4⟩, rfl, rfl, rfl⟩ | ⟨j', ⟨-, h1⟩, k', ⟨h3, h4⟩, rfl, rfl, rfl⟩
  · exact ⟨h1, h3, by simp only [if_true]; exact ⟨by omega, h4⟩⟩
  · refine ⟨?_, h3, by simpa using h4⟩
    have : 0 ≤ (am + as) % 2 := Int.emod_nonneg _ (by omega)
    show 0 ≤ j'
    omega

/-- The table entries and the rotated complex rows of an operation. -/
def spinS (P : SpinPlan K) (d : Int) (a : SpinOp) : K :=
  if a.1 then P.s2.val (a.2.2 + a.2.1 * P.n + d * |P.s| * P.n) else P.s1.val (a.2.2 + a.2.1 * P.n)
def spinC (P : SpinPlan K) (d : Int) (a : SpinOp) : K :=
  if a.1 then P.c2.val (a.2.2 + a.2.1 * P.n + d * |P.s| * P.n) else P.c1.val (a.2.2 + a.2.1 * P.n)
def spinGap (a : SpinOp) : Int := if a.1 then 1 else 2

theorem spinStep_eq {P : SpinPlan K} (hP : SpinGood P) {m o S : Int} {b neg : Bool} {a : SpinOp}
    (ha : a ∈ spinHi P.n |m| |P.s|) (A : Buf K) :
    spinStep P b neg |(|m| - |P.s|)| o S a A = applyGivensC
      (if xor (a.1 && b) neg then -spinS P |(|m| - |P.s|)| a else spinS P |(|m| - |P.s|)| a)
      (spinC P |(|m| - |P.s|)| a) (o + a.2.2 * S) (o + (a.2.2 + spinGap a) * S) A := by
  have hm := mem_spinHi (abs_nonneg m) (abs_nonneg P.s) ha
  obtain ⟨t, j, k⟩ := a
  obtain ⟨hj, hk, hc⟩ := hm
  simp only at hj hk hc
  cases t
  · simp only [Bool.false_eq_true, if_false] at hc
    obtain ⟨h0, h1, h2⟩ := hP.inb1 k j hj hk hc
    simp only [spinStep, spinS, spinC, spinGap, Bool.false_eq_true, if_false, Bool.false_and, Bool.false_xor, spinRot1]
    rw [Buf.rd_of h0 h1, Option.bind_some, Buf.rd_of h0 h2, Option.bind_some]
    split_ifs
    · rw [applyGivensTC_eq]
    · rfl
  · simp only [if_true] at hc
    obtain ⟨h0, h1, h2⟩ := hP.inb2 k j _ (abs_nonneg _) hj hc.1 hk hc.2
    simp only [spinStep, spinS, spinC, spinGap, if_true, Bool.true_and, spinRot2]
    rw [Buf.rd_of h0 h1, Option.bind_some, Buf.rd_of h0 h2, Option.bind_some]
    split_ifs
    · rw [applyGivensTC_eq]
    · rfl

theorem spin_unit {P : SpinPlan K} (hP : SpinGood P) {m : Int} {a : SpinOp} (ha : a ∈ spinHi P.n |m| |P.s|) :
    spinS P |(|m| - |P.s|)| a * spinS P |(|m| - |P.s|)| a + spinC P |(|m| - |P.s|)| a * spinC P |(|m| - |P.s|)| a = 1 := by
  have hm := mem_spinHi (abs_nonneg m) (abs_nonneg P.s) ha
  obtain ⟨t, j, k⟩ := a
  obtain ⟨hj, hk, hc⟩ := hm
  simp only at hj hk hc
  cases t
  · simp only [Bool.false_eq_true, if_false] at hc
    simp only [spinS, spinC, Bool.false_eq_true, if_false]
    exact hP.unit1 k j hj hk hc
  · simp only [if_true] at hc
    simp only [spinS, spinC, if_true]
    exact hP.unit2 k j _ (abs_nonneg _) hj hc.1 hk hc.2

theorem spin_rows {P : SpinPlan K} {m o S : Int} {A : Buf K} (hA : FitsC P.n o S A) {a : SpinOp}
    (ha : a ∈ spinHi P.n |m| |P.s|) :
    (0 ≤ o + a.2.2 * S ∧ 2 * (o + a.2.2 * S) + 1 < A.size) ∧
    (0 ≤ o + (a.2.2 + spinGap a) * S ∧ 2 * (o + (a.2.2 + spinGap a) * S) + 1 < A.size) ∧
    o + a.2.2 * S ≠ o + (a.2.2 + spinGap a) * S := by
  have hm := mem_spinHi (abs_nonneg m) (abs_nonneg P.s) ha
  obtain ⟨t, j, k⟩ := a
  obtain ⟨hj, hk, hc⟩ := hm
  simp only at hj hk hc
  have hab := abs_nonneg (|m| - |P.s|)
  cases t
  · simp only [Bool.false_eq_true, if_false] at hc
    simp only [spinGap, Bool.false_eq_true, if_false]
    exact ⟨hA.row hk (by omega), hA.row (by omega) (by omega), row_ne hA.1 (by omega) o⟩
  · simp only [if_true] at hc
    simp only [spinGap, if_true]
    exact ⟨hA.row hk (by omega), hA.row (by omega) (by omega), row_ne hA.1 (by omega) o⟩

theorem spin_total {P : SpinPlan K} (hP : SpinGood P) {m o S : Int} {A : Buf K} (hA : FitsC P.n o S A) (b neg : Bool)
    {l : List SpinOp} (hl : ∀ a ∈ l, a ∈ spinHi P.n |m| |P.s|) :
    ∃ A', exec (spinStep P b neg |(|m| - |P.s|)| o S) l A = some A' ∧ A'.size = A.size := by
  refine exec_total (fun B : Buf K => B.size = A.size) rfl ?_
  intro a ha B hB
  have hB' : FitsC P.n o S B := by unfold FitsC at *; rw [hB]; exact hA
  obtain ⟨h1, h2, -⟩ := spin_rows hB' (hl a ha)
  have e := spinStep_eq (o := o) (S := S) (b := b) (neg := neg) hP (hl a ha) B
  rw [applyGivensC_mk (n := B.size) (v := B.val) h1 h2] at e
  exact ⟨_, e, hB⟩

theorem spin_undo {P : SpinPlan K} (hP : SpinGood P) {m o S : Int} {A A' : Buf K} (hA : FitsC P.n o S A) (b neg : Bool)
    {l : List SpinOp} (hl : ∀ a ∈ l, a ∈ spinHi P.n |m| |P.s|)
    (e : exec (spinStep P b neg |(|m| - |P.s|)| o S) l A = some A') :
    exec (spinStep P b (!neg) |(|m| - |P.s|)| o S) l.reverse A' = some A := by
  refine exec_undo (fun B : Buf K => B.size = A.size) rfl ?_ e
  intro a ha B B' hB e
  have hB' : FitsC P.n o S B := by unfold FitsC at *; rw [hB]; exact hA
  obtain ⟨h1, h2, h3⟩ := spin_rows hB' (hl a ha)
  rw [spinStep_eq hP (hl a ha) B, applyGivensC_mk (n := B.size) (v := B.val) h1 h2] at e
  cases e
  refine ⟨?_, hB⟩
  have hu := spin_unit hP (hl a ha)
  rw [spinStep_eq hP (hl a ha), applyGivensC_mk h1 h2]
  cases hx : xor (a.1 && b) neg
  · have hx' : xor (a.1 && b) (!neg) = true := by rw [Bool.xor_not, hx]; rfl
    rw [hx']
    simp only [Bool.false_eq_true, if_false, if_true]
    rw [rotVC_undo h3 hu]
  · have hx' : xor (a.1 && b) (!neg) = false := by rw [Bool.xor_not, hx]; rfl
    rw [hx']
    simp only [Bool.false_eq_true, if_false, if_true]
    have := rotVC_undo (s := -spinS P |(|m| - |P.s|)| a) (c := spinC P |(|m| - |P.s|)| a) h3 (by rw [neg_mul_neg]; exact hu) B.val
    rw [neg_neg] at this
    rw [this]

theorem spin_roundtrip {P : SpinPlan K} (hP : SpinGood P) {m o S : Int} {A : Buf K} (hA : FitsC P.n o S A) :
    (∃ A', kernelSpinHi2lo P m o S A = some A' ∧ kernelSpinLo2hi P m o S A' = some A) ∧
    (∃ A', kernelSpinLo2hi P m o S A = some A' ∧ kernelSpinHi2lo P m o S A' = some A) := by
  constructor
  · obtain ⟨A', e, -⟩ := spin_total (m := m) hP hA (!decide (m * P.s ≥ 0)) false (l := spinHi P.n |m| |P.s|) (fun _ h => h)
    refine ⟨A', by rw [kernelSpinHi2lo_exec, e], ?_⟩
    rw [kernelSpinLo2hi_exec]
    exact spin_undo hP hA _ false (fun _ h => h) e
  · obtain ⟨A', e, -⟩ := spin_total (m := m) hP hA (!decide (m * P.s ≥ 0)) true (l := (spinHi P.n |m| |P.s|).reverse)
      (fun _ h => List.mem_reverse.1 h)
    refine ⟨A', by rw [kernelSpinLo2hi_exec, e], ?_⟩
    rw [kernelSpinHi2lo_exec]
    have := spin_undo hP hA _ true (fun _ h => List.mem_reverse.1 h) e
    rw [List.reverse_reverse] at this
    exact this

/-! ## Spin planner -/

section
variable {K : Type*} [Field K] [LinearOrder K] [IsStrictOrderedRing K]

theorem idx1_range {n k j : Int} (hj : 0 ≤ j) (hj' : j < n) (hk : 0 ≤ k) (hk' : k < n) :
    0 ≤ k + j * n ∧ k + j * n < n * n := by
  have a : 0 ≤ j * n := Int.mul_nonneg hj (by omega)
  have b : (j + 1) * n ≤ n * n := Int.mul_le_mul_of_nonneg_right (by omega) (by omega)
  rw [Int.add_mul] at b
  omega

theorem idx1_inj {n k j k' j' : Int} (hk : 0 ≤ k) (hk' : k < n) (gk : 0 ≤ k') (gk' : k' < n)
    (e : k + j * n = k' + j' * n) : k = k' ∧ j = j' := by
  have h1 : (k + j * n) % n = k := by rw [Int.add_mul_emod_self_right]; exact Int.emod_eq_of_lt hk hk'
  have h2 : (k' + j' * n) % n = k' := by rw [Int.add_mul_emod_self_right]; exact Int.emod_eq_of_lt gk gk'
  have hkk : k = k' := by rw [← h1, ← h2, e]
  subst hkk
  have : j * n = j' * n := by omega
  exact ⟨rfl, Int.eq_of_mul_eq_mul_right (by omega) this⟩

theorem idx2_range {n as k j d : Int} (hj : 0 ≤ j) (hj' : j < as) (hk : 0 ≤ k) (hk' : k < n) (hd : 0 ≤ d) (hd' : d < n) :
    0 ≤ k + j * n + d * as * n ∧ k + j * n + d * as * n < as * n * n := by
  have e : k + j * n + d * as * n = k + (j + d * as) * n := by ring
  have h0 : 0 ≤ d * as := Int.mul_nonneg hd (by omega)
  have h1 : (d + 1) * as ≤ n * as := Int.mul_le_mul_of_nonneg_right (by omega) (by omega)
  have h2 : (j + d * as + 1) * n ≤ (n * as) * n := by
    apply Int.mul_le_mul_of_nonneg_right _ (by omega)
    rw [Int.add_mul] at h1; omega
  have h3 : 0 ≤ (j + d * as) * n := Int.mul_nonneg (by omega) (by omega)
  rw [e, show as * n * n = n * as * n by ring]
  rw [Int.add_mul (j + d * as)] at h2
  omega

theorem idx2_inj {n as k j d k' j' d' : Int} (hj : 0 ≤ j) (hj' : j < as) (hk : 0 ≤ k) (hk' : k < n)
    (gj : 0 ≤ j') (gj' : j' < as) (gk : 0 ≤ k') (gk' : k' < n)
    (e : k + j * n + d * as * n = k' + j' * n + d' * as * n) : k = k' ∧ j = j' ∧ d = d' := by
  have e' : k + (j + d * as) * n = k' + (j' + d' * as) * n := by linarith [e]
  obtain ⟨a, b⟩ := idx1_inj hk hk' gk gk' e'
  obtain ⟨c, f⟩ := idx1_inj hj hj' gj gj' b
  exact ⟨a, c, f⟩

/-- Values of the spin tables. -/
structure SpinTables (n s : Int) (P : SpinPlan K) (s1 c1 : Int → Int → K) (s2 c2 : Int → Int → Int → K) : Prop where
  hn : P.n = n
  hs : P.s = s
  sz1 : (P.s1.size : Int) = n * n ∧ (P.c1.size : Int) = n * n
  sz2 : (P.s2.size : Int) = |s| * n * n ∧ (P.c2.size : Int) = |s| * n * n
  val1 : ∀ l m, 0 ≤ m → m < n → 0 ≤ l → l < n - m → P.s1.val (l + m * n) = s1 l m ∧ P.c1.val (l + m * n) = c1 l m
  val2 : ∀ l j m, 0 ≤ m → m < n → 0 ≤ j → j < |s| → 0 ≤ l → l < n - m - j →
    P.s2.val (l + j * n + m * |s| * n) = s2 l j m ∧ P.c2.val (l + j * n + m * |s| * n) = c2 l j m

theorem planSpin_spec (n s : Int) (hn : 0 ≤ n) (s1 c1 : Int → Int → K) (s2 c2 : Int → Int → Int → K) :
    ∃ P : SpinPlan K,
      ((fillTables n (fun m => n - m) (fun l m => l + m * n) s1 c1 (malloc (n*n) 0, malloc (n*n) 0)).bind fun t1 =>
        (forUp 0 n (fun m => fillTables |s| (fun j => n - m - j) (fun l j => l + j * n + m * |s| * n)
          (fun l j => s2 l j m) (fun l j => c2 l j m)) (malloc (|s| * n * n) 0, malloc (|s| * n * n) 0)).map
          fun t2 => (⟨t1.1, t1.2, t2.1, t2.2, n, s⟩ : SpinPlan K)) = some P ∧
      SpinTables n s P s1 c1 s2 c2 := by
  have has := abs_nonneg s
  have sz1 : ((malloc (n*n) 0 : Buf K).size : Int) = n * n := by
    simp only [malloc]; exact Int.toNat_of_nonneg (Int.mul_nonneg hn hn)
  have sz2 : ((malloc (|s| * n * n) 0 : Buf K).size : Int) = |s| * n * n := by
    simp only [malloc]; exact Int.toNat_of_nonneg (Int.mul_nonneg (Int.mul_nonneg has hn) hn)
  obtain ⟨t1, e1, ⟨a1, b1⟩, v1, -⟩ := fillTables_spec (mMax := n) (rows := fun m => n - m) (ix := fun l m => l + m * n) s1 c1
    (t := (malloc (n*n) 0, malloc (n*n) 0))
    (fun l m a b c d => by
      have := idx1_range a b c (by omega : l < n)
      rw [sz1]; exact ⟨this.1, this.2, this.2⟩)
    (fun l m l' m' a b c d a' b' c' d' e => idx1_inj c (by omega : l < n) c' (by omega : l' < n) e)
  have hmem : ∀ a : Int × Int × Int, a ∈ ((rUp 0 n).flatMap fun m => (rUp 0 |s|).flatMap fun j =>
      (rUp 0 (n - m - j)).map fun l => (l, j, m)) ↔
      (0 ≤ a.2.2 ∧ a.2.2 < n) ∧ (0 ≤ a.2.1 ∧ a.2.1 < |s|) ∧ (0 ≤ a.1 ∧ a.1 < n - a.2.2 - a.2.1) := by
    rintro ⟨l, j, m⟩
    simp only [List.mem_flatMap, List.mem_map, mem_rUp, Prod.mk.injEq]
    constructor
    · rintro ⟨m, h1, j, h2, l, h3, rfl, rfl, rfl⟩; exact ⟨h1, h2, h3⟩
    · rintro ⟨h1, h2, h3⟩; exact ⟨m, h1, j, h2, l, h3, rfl, rfl, rfl⟩
  obtain ⟨t2, e2, ⟨a2, b2⟩, v2, -⟩ := exec_writes2 (K := K)
    (l := (rUp 0 n).flatMap fun m => (rUp 0 |s|).flatMap fun j => (rUp 0 (n - m - j)).map fun l => (l, j, m))
    (fun a => a.1 + a.2.1 * n + a.2.2 * |s| * n) (fun a => s2 a.1 a.2.1 a.2.2) (fun a => c2 a.1 a.2.1 a.2.2)
    (t := (malloc (|s| * n * n) 0, malloc (|s| * n * n) 0))
    (fun a ha => by
      obtain ⟨h1, h2, h3⟩ := (hmem a).1 ha
      have := idx2_range h2.1 h2.2 h3.1 (by omega : a.1 < n) h1.1 h1.2
      rw [sz2]; exact ⟨this.1, this.2, this.2⟩)
    (fun a ha b hb e => by
      obtain ⟨h1, h2, h3⟩ := (hmem a).1 ha
      obtain ⟨g1, g2, g3⟩ := (hmem b).1 hb
      obtain ⟨x, y, z⟩ := idx2_inj h2.1 h2.2 h3.1 (by omega : a.1 < n) g2.1 g2.2 g3.1 (by omega : b.1 < n) e
      exact Prod.ext x (Prod.ext y z))
  refine ⟨⟨t1.1, t1.2, t2.1, t2.2, n, s⟩, ?_, rfl, rfl, ?_, ?_, v1, ?_⟩
  · rw [e1, Option.bind_some]
    have : forUp 0 n (fun m => fillTables |s| (fun j => n - m - j) (fun l j => l + j * n + m * |s| * n)
          (fun l j => s2 l j m) (fun l j => c2 l j m)) (malloc (|s| * n * n) 0, malloc (|s| * n * n) 0) = some t2 := by
      rw [forUp_exec, ← e2, exec_flatMap]
      apply exec_congr; intro m _ t
      unfold fillTables
      rw [forUp_exec, exec_flatMap]
      apply exec_congr; intro j _ t
      rw [forUp_exec, exec_map]
    rw [this]; rfl
  · show (t1.1.size : Int) = _ ∧ (t1.2.size : Int) = _
    rw [a1, b1]; exact ⟨sz1, sz1⟩
  · show (t2.1.size : Int) = _ ∧ (t2.2.size : Int) = _
    rw [a2, b2]; exact ⟨sz2, sz2⟩
  · intro l j m h1 h2 h3 h4 h5 h6
    exact v2 (l, j, m) ((hmem _).2 ⟨⟨h1, h2⟩, ⟨h3, h4⟩, ⟨h5, h6⟩⟩)

theorem SpinTables.good {n s : Int} {P : SpinPlan K} {s1 c1 : Int → Int → K} {s2 c2 : Int → Int → Int → K}
    (h : SpinTables n s P s1 c1 s2 c2)
    (hu1 : ∀ l m, 0 ≤ m → m < n → 0 ≤ l → l < n - m → s1 l m * s1 l m + c1 l m * c1 l m = 1)
    (hu2 : ∀ l j m, 0 ≤ m → m < n → 0 ≤ j → j < |s| → 0 ≤ l → l < n - m - j →
      s2 l j m * s2 l j m + c2 l j m * c2 l j m = 1) : SpinGood P := by
  refine ⟨?_, ?_, ?_, ?_⟩
  · intro k j hj hk hk'
    rw [h.hn] at hk' ⊢
    rw [h.sz1.1, h.sz1.2]
    have := idx1_range (n := n) hj (by omega) hk (by omega)
    exact ⟨this.1, this.2, this.2⟩
  · intro k j hj hk hk'
    rw [h.hn] at hk' ⊢
    obtain ⟨a, b⟩ := h.val1 k j hj (by omega) hk (by omega)
    rw [a, b]; exact hu1 k j hj (by omega) hk (by omega)
  · intro k j d hd hj hj' hk hk'
    rw [h.hn] at hk' ⊢
    rw [h.hs] at hj' ⊢
    rw [h.sz2.1, h.sz2.2]
    have := idx2_range (n := n) hj hj' hk (by omega) hd (by omega)
    exact ⟨this.1, this.2, this.2⟩
  · intro k j d hd hj hj' hk hk'
    rw [h.hn] at hk' ⊢
    rw [h.hs] at hj' ⊢
    obtain ⟨a, b⟩ := h.val2 k j d hd (by omega) hj hj' hk (by omega)
    rw [a, b]; exact hu2 k j d hd (by omega) hj hj' hk (by omega)

end

end FT
