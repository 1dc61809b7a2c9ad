import Verif.Model.Rotations
import Verif.Lemmas.Ranges
import Mathlib.Algebra.BigOperators.Group.Finset.Basic
import Mathlib.Algebra.BigOperators.Ring.Finset
import Mathlib.Tactic.LinearCombination

namespace FT
variable {K : Type*} [CommRing K]

/-- The effect of a rotation on the contents. -/
def rotV (s c : K) (p q : Int) (v : Int → K) : Int → K :=
  Function.update (Function.update v p (c * v p + s * v q)) q (c * v q - s * v p)

theorem applyGivens_of {s c : K} {X Y : Int} {A : Buf K} (hX : 0 ≤ X ∧ X < A.size) (hY : 0 ≤ Y ∧ Y < A.size) :
    applyGivens s c X Y A = some ⟨A.size, rotV s c X Y A.val⟩ := by
  unfold applyGivens
  rw [Buf.rd_of hX.1 hX.2, Option.bind_some, Buf.rd_of hY.1 hY.2, Option.bind_some, Buf.wr_of hX.1 hX.2,
    Option.bind_some]
  exact Buf.wr_of (b := ⟨A.size, _⟩) hY.1 hY.2

theorem applyGivens_mk {s c : K} {X Y : Int} {n : Nat} {v : Int → K} (hX : 0 ≤ X ∧ X < (n : Int))
    (hY : 0 ≤ Y ∧ Y < (n : Int)) : applyGivens s c X Y ⟨n, v⟩ = some ⟨n, rotV s c X Y v⟩ :=
  applyGivens_of (A := ⟨n, v⟩) hX hY

theorem applyGivens_some {s c : K} {X Y : Int} {A B : Buf K} (h : applyGivens s c X Y A = some B) :
    (0 ≤ X ∧ X < A.size) ∧ (0 ≤ Y ∧ Y < A.size) := by
  unfold applyGivens Buf.rd at h
  by_cases h1 : 0 ≤ X ∧ X < (A.size : Int)
  · by_cases h2 : 0 ≤ Y ∧ Y < (A.size : Int)
    · exact ⟨h1, h2⟩
    · rw [if_pos h1, if_neg h2] at h; cases h
  · rw [if_neg h1] at h; cases h

theorem applyGivensT_eq (s c : K) (X Y : Int) (A : Buf K) :
    applyGivensT s c X Y A = applyGivens (-s) c X Y A := by
  unfold applyGivensT applyGivens
  congr 1; funext vx; congr 1; funext vy
  rw [show c * vx - s * vy = c * vx + -s * vy by ring, show c * vy + s * vx = c * vy - -s * vx by ring]

theorem rotV_undo {s c : K} {p q : Int} (hpq : p ≠ q) (h : s * s + c * c = 1) (v : Int → K) :
    rotV (-s) c p q (rotV s c p q v) = v := by
  funext i
  have hqp : q ≠ p := fun e => hpq e.symm
  unfold rotV
  simp only [Function.update_apply]
  by_cases h1 : i = q
  · subst h1; simp [hpq]
    linear_combination (v i) * h
  · by_cases h2 : i = p
    · subst h2; simp [hpq, hqp]
      linear_combination (v i) * h
    · simp [h1, h2]

theorem rotV_of_ne {s c : K} {p q i : Int} (hp : i ≠ p) (hq : i ≠ q) (v : Int → K) : rotV s c p q v i = v i := by
  unfold rotV; rw [Function.update_of_ne hq, Function.update_of_ne hp]

theorem rotV_fst {s c : K} {p q : Int} (hpq : p ≠ q) (v : Int → K) :
    rotV s c p q v p = c * v p + s * v q := by
  unfold rotV; rw [Function.update_of_ne hpq, Function.update_self]

theorem rotV_snd {s c : K} {p q : Int} (v : Int → K) : rotV s c p q v q = c * v q - s * v p := by
  unfold rotV; rw [Function.update_self]

theorem rotV_comm {s c s' c' : K} {p q p' q' : Int} (h1 : p ≠ p') (h2 : p ≠ q') (h3 : q ≠ p') (h4 : q ≠ q')
    (v : Int → K) : rotV s c p q (rotV s' c' p' q' v) = rotV s' c' p' q' (rotV s c p q v) := by
  funext i
  unfold rotV
  simp only [Function.update_apply]
  by_cases a : i = q
  · subst a; simp [h1, h2, h3, h4]
  · by_cases b : i = p
    · subst b; simp [h1, h2, h3, h4]
    · by_cases a' : i = q'
      · subst a'; simp [h2.symm, h4.symm, h1.symm, h3.symm]
      · by_cases b' : i = p'
        · subst b'; simp [h2.symm, h4.symm, h1.symm, h3.symm]
        · simp [a, b, a', b']

/-- Rotations of disjoint pairs of entries commute. -/
theorem applyGivens_comm {s c s' c' : K} {p q p' q' : Int} (h1 : p ≠ p') (h2 : p ≠ q') (h3 : q ≠ p') (h4 : q ≠ q')
    (A : Buf K) : (applyGivens s c p q A).bind (applyGivens s' c' p' q') =
      (applyGivens s' c' p' q' A).bind (applyGivens s c p q) := by
  by_cases hp : 0 ≤ p ∧ p < (A.size : Int)
  · by_cases hq : 0 ≤ q ∧ q < (A.size : Int)
    · by_cases hp' : 0 ≤ p' ∧ p' < (A.size : Int)
      · by_cases hq' : 0 ≤ q' ∧ q' < (A.size : Int)
        · rw [applyGivens_of hp hq, applyGivens_of hp' hq', Option.bind_some, Option.bind_some,
            applyGivens_mk hp' hq', applyGivens_mk hp hq]
          simp only [Option.some.injEq, Buf.mk.injEq, true_and]
          rw [rotV_comm h1 h2 h3 h4]
        · have e : ∀ B : Buf K, B.size = A.size → applyGivens s' c' p' q' B = none := by
            intro B hB
            unfold applyGivens
            rw [Buf.rd_oob (b := B) (i := q') (by rw [hB]; exact hq')]
            cases B.rd p' <;> rfl
          rw [e A rfl, applyGivens_of hp hq]
          exact e _ rfl
      · have e : ∀ B : Buf K, B.size = A.size → applyGivens s' c' p' q' B = none := by
          intro B hB
          unfold applyGivens
          rw [Buf.rd_oob (b := B) (i := p') (by rw [hB]; exact hp')]
          rfl
        rw [e A rfl, applyGivens_of hp hq]
        exact e _ rfl
    · have e : ∀ B : Buf K, B.size = A.size → applyGivens s c p q B = none := by
        intro B hB
        unfold applyGivens
        rw [Buf.rd_oob (b := B) (i := q) (by rw [hB]; exact hq)]
        cases B.rd p <;> rfl
      rw [e A rfl]
      cases h : applyGivens s' c' p' q' A with
      | none => rfl
      | some B =>
        obtain ⟨a, b⟩ := applyGivens_some h
        rw [applyGivens_of a b] at h
        rw [Option.bind_none, Option.bind_some, e B (by cases h; rfl)]
  · have e : ∀ B : Buf K, B.size = A.size → applyGivens s c p q B = none := by
      intro B hB
      unfold applyGivens
      rw [Buf.rd_oob (b := B) (i := p) (by rw [hB]; exact hp)]
      rfl
    rw [e A rfl]
    cases h : applyGivens s' c' p' q' A with
    | none => rfl
    | some B =>
      obtain ⟨a, b⟩ := applyGivens_some h
      rw [applyGivens_of a b] at h
      rw [Option.bind_none, Option.bind_some, e B (by cases h; rfl)]

/-! ## Inner product and norm over a set of positions -/

/-- Inner product of the entries of `v` and `w` at the positions `T`. -/
def dotOn (T : Finset Int) (v w : Int → K) : K := T.sum fun i => v i * w i

theorem dotOn_rot {s c : K} {p q : Int} {T : Finset Int} (hp : p ∈ T) (hq : q ∈ T) (hpq : p ≠ q) (v w : Int → K) :
    dotOn T (rotV s c p q v) w = dotOn T v (rotV (-s) c p q w) := by
  unfold dotOn
  have hq' : q ∈ T.erase p := Finset.mem_erase.2 ⟨fun e => hpq e.symm, hq⟩
  rw [← Finset.add_sum_erase T _ hp, ← Finset.add_sum_erase T _ hp, ← Finset.add_sum_erase _ _ hq',
    ← Finset.add_sum_erase _ _ hq', rotV_fst hpq, rotV_fst hpq, rotV_snd, rotV_snd]
  have : ∑ x ∈ (T.erase p).erase q, rotV s c p q v x * w x = ∑ x ∈ (T.erase p).erase q, v x * rotV (-s) c p q w x := by
    apply Finset.sum_congr rfl
    intro i hi
    simp only [Finset.mem_erase] at hi
    rw [rotV_of_ne hi.2.1 hi.1, rotV_of_ne hi.2.1 hi.1]
  rw [this]; ring

theorem dotOn_rot_rot {s c : K} {p q : Int} {T : Finset Int} (hp : p ∈ T) (hq : q ∈ T) (hpq : p ≠ q)
    (h : s * s + c * c = 1) (v w : Int → K) :
    dotOn T (rotV s c p q v) (rotV s c p q w) = dotOn T v w := by
  rw [dotOn_rot hp hq hpq, rotV_undo hpq h]

/-! ## Kernels as lists of rotations -/

/-- The rotations of a `hi2lo` kernel in program order, as pairs `(j, k)`. -/
def hiOps (G : Geom) (n m1 m2 : Int) : List (Int × Int) :=
  (rStepDown (m2 - G.jst) m1 G.jst).flatMap fun j => (rDown (G.top n j) 0).map fun k => (j, k)

/-- The rotations of a `lo2hi` kernel in program order. -/
def loOps (G : Geom) (n m1 m2 : Int) : List (Int × Int) :=
  (rStep m1 m2 G.jst).flatMap fun j => (rUp 0 (G.top n j + 1)).map fun k => (j, k)

theorem kernelHi2lo_exec (G : Geom) (RP : RotPlan K) (m1 m2 o S : Int) (A : Buf K) :
    kernelHi2lo G RP m1 m2 o S A = exec (fun a => rotAt G RP o S a.2 a.1) (hiOps G RP.n m1 m2) A := by
  unfold kernelHi2lo hiOps
  rw [forStepDown_exec, exec_flatMap]
  apply exec_congr
  intro j _ B
  rw [forDown_exec, exec_map]

theorem kernelLo2hi_exec (G : Geom) (RP : RotPlan K) (m1 m2 o S : Int) (A : Buf K) :
    kernelLo2hi G RP m1 m2 o S A = exec (fun a => rotAtT G RP o S a.2 a.1) (loOps G RP.n m1 m2) A := by
  unfold kernelLo2hi loOps
  rw [forStep_exec, exec_flatMap]
  apply exec_congr
  intro j _ B
  rw [forUp_exec, exec_map]

theorem hiOps_reverse {G : Geom} (hst : 0 < G.jst) {n m1 m2 : Int} (hd : G.jst ∣ m2 - m1) :
    (hiOps G n m1 m2).reverse = loOps G n m1 m2 := by
  unfold hiOps loOps
  rw [List.reverse_flatMap, rStepDown_reverse hst hd]
  congr 1; funext j
  simp only [Function.comp]
  rw [← List.map_reverse, rDown_reverse]

theorem mem_hiOps {G : Geom} (hst : 0 < G.jst) {n m1 m2 j k : Int} :
    (j, k) ∈ hiOps G n m1 m2 ↔ (∃ t : Nat, j = m2 - G.jst - G.jst * t) ∧ m1 ≤ j ∧ 0 ≤ k ∧ k ≤ G.top n j := by
  unfold hiOps
  simp only [List.mem_flatMap, List.mem_map, mem_rStepDown' hst, mem_rDown, Prod.mk.injEq]
  constructor
  · rintro ⟨j, ⟨h1, h2⟩, k, ⟨h3, h4⟩, rfl, rfl⟩; exact ⟨h1, h2, h3, h4⟩
  · rintro ⟨h1, h2, h3, h4⟩; exact ⟨j, ⟨h1, h2⟩, k, ⟨h3, h4⟩, rfl, rfl⟩

theorem mem_loOps {G : Geom} (hst : 0 < G.jst) {n m1 m2 j k : Int} :
    (j, k) ∈ loOps G n m1 m2 ↔ (∃ t : Nat, j = m1 + G.jst * t) ∧ j < m2 ∧ 0 ≤ k ∧ k ≤ G.top n j := by
  unfold loOps
  simp only [List.mem_flatMap, List.mem_map, mem_rStep hst, mem_rUp, Prod.mk.injEq]
  constructor
  · rintro ⟨j, ⟨h1, h2⟩, k, ⟨h3, h4⟩, rfl, rfl⟩; exact ⟨h1, h2, h3, by omega⟩
  · rintro ⟨h1, h2, h3, h4⟩; exact ⟨j, ⟨h1, h2⟩, k, ⟨h3, by omega⟩, rfl, rfl⟩

/-- Every table entry a kernel may use exists. -/
structure InB (G : Geom) (RP : RotPlan K) : Prop where
  inb : ∀ k j, 0 ≤ j → 0 ≤ k → k ≤ G.top RP.n j →
    0 ≤ G.ix RP.n k j ∧ G.ix RP.n k j < RP.s.size ∧ G.ix RP.n k j < RP.c.size

/-- What a kernel needs of its tables: every entry it may use exists and is a point of the unit circle. -/
structure Good (G : Geom) (RP : RotPlan K) : Prop extends InB G RP where
  unit : ∀ k j, 0 ≤ j → 0 ≤ k → k ≤ G.top RP.n j →
    RP.s.val (G.ix RP.n k j) * RP.s.val (G.ix RP.n k j) + RP.c.val (G.ix RP.n k j) * RP.c.val (G.ix RP.n k j) = 1

/-- What is common to the four geometries. -/
structure GeomOK (G : Geom) : Prop where
  jst : 0 < G.jst
  g : 0 < G.g
  g2 : G.g ≤ 2
  top : ∀ n j, 0 ≤ j → G.top n j + G.g ≤ n - 1
  top_shift : ∀ n j, G.top n (j - G.jst) = G.top n j + G.g

theorem geomSph_ok : GeomOK geomSph := by
  constructor <;> simp only [geomSph] <;> intros <;> omega
theorem geomTri_ok : GeomOK geomTri := by
  constructor <;> simp only [geomTri] <;> intros <;> omega
theorem geomDisk_ok : GeomOK geomDisk := by
  constructor <;> simp only [geomDisk] <;> intros <;> omega
theorem geomRect_ok : GeomOK geomRect := by
  constructor <;> simp only [geomRect] <;> intros <;> omega

/-- Rows `0 … n-1` of the array at offset `o` with stride `S` lie in the buffer. -/
def Fits (n o S : Int) (A : Buf K) : Prop := 0 < S ∧ 0 ≤ o ∧ o + (n - 1) * S < A.size

theorem Fits.row {n o S : Int} {A : Buf K} (h : Fits n o S A) {k : Int} (h0 : 0 ≤ k) (h1 : k ≤ n - 1) :
    0 ≤ o + k * S ∧ o + k * S < A.size := by
  obtain ⟨hS, ho, hn⟩ := h
  have a : 0 ≤ k * S := Int.mul_nonneg h0 (by omega)
  have b : k * S ≤ (n - 1) * S := Int.mul_le_mul_of_nonneg_right h1 (by omega)
  omega

theorem row_ne {S k g : Int} (hS : 0 < S) (hg : 0 < g) (o : Int) : o + k * S ≠ o + (k + g) * S := by
  have : 0 < g * S := Int.mul_pos hg hS
  rw [Int.add_mul]; omega

section
variable {G : Geom} {RP : RotPlan K} {o S : Int}

theorem rotAtT_eq (hG : GeomOK G) (h : InB G RP) {k j : Int} (hj : 0 ≤ j) (hk : 0 ≤ k) (hk' : k ≤ G.top RP.n j) (A : Buf K) :
    rotAtT G RP o S k j A = applyGivens (-RP.s.val (G.ix RP.n k j)) (RP.c.val (G.ix RP.n k j))
      (o + k * S) (o + (k + G.g) * S) A := by
  obtain ⟨a, b, c⟩ := h.inb k j hj hk hk'
  unfold rotAtT
  rw [Buf.rd_of a b, Option.bind_some, Buf.rd_of a c, Option.bind_some, applyGivensT_eq]

theorem rotAt_eq (hG : GeomOK G) (h : InB G RP) {k j : Int} (hj : 0 ≤ j) (hk : 0 ≤ k) (hk' : k ≤ G.top RP.n j) (A : Buf K) :
    rotAt G RP o S k j A = applyGivens (RP.s.val (G.ix RP.n k j)) (RP.c.val (G.ix RP.n k j))
      (o + k * S) (o + (k + G.g) * S) A := by
  obtain ⟨a, b, c⟩ := h.inb k j hj hk hk'
  unfold rotAt
  rw [Buf.rd_of a b, Option.bind_some, Buf.rd_of a c, Option.bind_some]

/-- Rows of a rotation are rows of the column. -/
theorem op_rows (hG : GeomOK G) {A : Buf K} (hA : Fits RP.n o S A) {k j : Int} (hj : 0 ≤ j) (hk : 0 ≤ k)
    (hk' : k ≤ G.top RP.n j) : (0 ≤ o + k * S ∧ o + k * S < A.size) ∧
      (0 ≤ o + (k + G.g) * S ∧ o + (k + G.g) * S < A.size) := by
  have := hG.top RP.n j hj
  have := hG.g
  exact ⟨hA.row hk (by omega), hA.row (by omega) (by omega)⟩

theorem kernelHi2lo_total (hG : GeomOK G) (h : InB G RP) {m1 m2 : Int} (hm : 0 ≤ m1) {A : Buf K} (hA : Fits RP.n o S A) :
    ∃ A', kernelHi2lo G RP m1 m2 o S A = some A' ∧ A'.size = A.size := by
  rw [kernelHi2lo_exec]
  refine exec_total (fun B : Buf K => B.size = A.size) rfl ?_
  rintro ⟨j, k⟩ hmem B hB
  obtain ⟨-, h1, h2, h3⟩ := (mem_hiOps hG.jst).1 hmem
  have hB' : Fits RP.n o S B := by unfold Fits at *; rw [hB]; exact hA
  obtain ⟨a, b⟩ := op_rows hG hB' (by omega) h2 h3
  have e := rotAt_eq (o := o) (S := S) hG h (by omega : 0 ≤ j) h2 h3 B
  rw [applyGivens_of a b] at e
  exact ⟨_, e, hB⟩

theorem kernelLo2hi_total (hG : GeomOK G) (h : InB G RP) {m1 m2 : Int} (hm : 0 ≤ m1) {A : Buf K} (hA : Fits RP.n o S A) :
    ∃ A', kernelLo2hi G RP m1 m2 o S A = some A' ∧ A'.size = A.size := by
  rw [kernelLo2hi_exec]
  refine exec_total (fun B : Buf K => B.size = A.size) rfl ?_
  rintro ⟨j, k⟩ hmem B hB
  obtain ⟨⟨t, ht⟩, h1, h2, h3⟩ := (mem_loOps hG.jst).1 hmem
  have hj : 0 ≤ j := by
    have : 0 ≤ G.jst * (t : Int) := Int.mul_nonneg (by have := hG.jst; omega) (by omega)
    omega
  have hB' : Fits RP.n o S B := by unfold Fits at *; rw [hB]; exact hA
  obtain ⟨a, b⟩ := op_rows hG hB' hj h2 h3
  have e := rotAtT_eq (o := o) (S := S) hG h hj h2 h3 B
  rw [applyGivens_of a b] at e
  exact ⟨_, e, hB⟩

/-- `lo2hi` undoes `hi2lo`, exactly and on the whole buffer. -/
theorem kernel_roundtrip (hG : GeomOK G) (h : Good G RP) {m1 m2 : Int} (hm : 0 ≤ m1) (hd : G.jst ∣ m2 - m1)
    {A : Buf K} (hA : Fits RP.n o S A) :
    ∃ A', kernelHi2lo G RP m1 m2 o S A = some A' ∧ A'.size = A.size ∧ kernelLo2hi G RP m1 m2 o S A' = some A := by
  obtain ⟨A', e, hs⟩ := kernelHi2lo_total (m2 := m2) hG h.toInB hm hA
  refine ⟨A', e, hs, ?_⟩
  rw [kernelHi2lo_exec] at e
  rw [kernelLo2hi_exec, ← hiOps_reverse hG.jst hd]
  refine exec_undo (fun B => B.size = A.size) rfl ?_ e
  rintro ⟨j, k⟩ hmem B B' hB e
  obtain ⟨-, h1, h2, h3⟩ := (mem_hiOps hG.jst).1 hmem
  have hB' : Fits RP.n o S B := by unfold Fits at *; rw [hB]; exact hA
  obtain ⟨a, b⟩ := op_rows hG hB' (by omega) h2 h3
  rw [rotAt_eq hG h.toInB (by omega) h2 h3, applyGivens_of a b] at e
  cases e
  refine ⟨?_, hB⟩
  rw [rotAtT_eq hG h.toInB (by omega) h2 h3, applyGivens_mk a b]
  rw [rotV_undo (row_ne hA.1 hG.g o) (h.unit k j (by omega) h2 h3)]

theorem kernel_roundtrip' (hG : GeomOK G) (h : Good G RP) {m1 m2 : Int} (hm : 0 ≤ m1) (hd : G.jst ∣ m2 - m1)
    {A : Buf K} (hA : Fits RP.n o S A) :
    ∃ A', kernelLo2hi G RP m1 m2 o S A = some A' ∧ A'.size = A.size ∧ kernelHi2lo G RP m1 m2 o S A' = some A := by
  obtain ⟨A', e, hs⟩ := kernelLo2hi_total (m2 := m2) hG h.toInB hm hA
  refine ⟨A', e, hs, ?_⟩
  rw [kernelLo2hi_exec] at e
  rw [kernelHi2lo_exec, ← List.reverse_reverse (hiOps G RP.n m1 m2), hiOps_reverse hG.jst hd]
  refine exec_undo (fun B => B.size = A.size) rfl ?_ e
  rintro ⟨j, k⟩ hmem B B' hB e
  rw [← hiOps_reverse hG.jst hd, List.mem_reverse] at hmem
  obtain ⟨-, h1, h2, h3⟩ := (mem_hiOps hG.jst).1 hmem
  have hB' : Fits RP.n o S B := by unfold Fits at *; rw [hB]; exact hA
  obtain ⟨a, b⟩ := op_rows hG hB' (by omega) h2 h3
  rw [rotAtT_eq hG h.toInB (by omega) h2 h3, applyGivens_of a b] at e
  cases e
  refine ⟨?_, hB⟩
  rw [rotAt_eq hG h.toInB (by omega) h2 h3, applyGivens_mk a b]
  have hu := h.unit k j (by omega) h2 h3
  have := rotV_undo (s := -RP.s.val (G.ix RP.n k j)) (c := RP.c.val (G.ix RP.n k j))
    (row_ne (k := k) hA.1 hG.g o) (by rw [neg_mul_neg]; exact hu) B.val
  rw [neg_neg] at this
  rw [this]

/-- The positions of the column. -/
def rows (n o S : Int) : Finset Int := (Finset.range n.toNat).image fun k : Nat => o + (k : Int) * S

theorem mem_rows {n o S k : Int} (h0 : 0 ≤ k) (h1 : k ≤ n - 1) : o + k * S ∈ rows n o S := by
  unfold rows
  rw [Finset.mem_image]
  exact ⟨k.toNat, by rw [Finset.mem_range]; omega, by rw [Int.toNat_of_nonneg h0]⟩

/-- A run of rotations changes nothing but the rows of its column. -/
theorem kernelHi2lo_frame (hG : GeomOK G) (h : InB G RP) {m1 m2 : Int} (hm : 0 ≤ m1) {A A' : Buf K}
    (hA : Fits RP.n o S A) (e : kernelHi2lo G RP m1 m2 o S A = some A') :
    ∀ i, (∀ k, 0 ≤ k → k ≤ RP.n - 1 → i ≠ o + k * S) → A'.val i = A.val i := by
  intro i hi
  rw [kernelHi2lo_exec] at e
  refine (exec_preserves (fun B => B.size = A.size ∧ B.val i = A.val i) ⟨rfl, rfl⟩ ?_ e).2
  rintro ⟨j, k⟩ hmem B B' ⟨hB, hv⟩ e
  obtain ⟨-, h1, h2, h3⟩ := (mem_hiOps hG.jst).1 hmem
  have hB' : Fits RP.n o S B := by unfold Fits at *; rw [hB]; exact hA
  obtain ⟨a, b⟩ := op_rows hG hB' (by omega) h2 h3
  have := hG.top RP.n j (by omega)
  have := hG.g
  rw [rotAt_eq hG h (by omega) h2 h3, applyGivens_of a b] at e
  cases e
  refine ⟨hB, ?_⟩
  simp only
  rw [rotV_of_ne (hi k h2 (by omega)) (hi _ (by omega) (by omega)), hv]

theorem kernelLo2hi_frame (hG : GeomOK G) (h : InB G RP) {m1 m2 : Int} (hm : 0 ≤ m1) {A A' : Buf K}
    (hA : Fits RP.n o S A) (e : kernelLo2hi G RP m1 m2 o S A = some A') :
    ∀ i, (∀ k, 0 ≤ k → k ≤ RP.n - 1 → i ≠ o + k * S) → A'.val i = A.val i := by
  intro i hi
  rw [kernelLo2hi_exec] at e
  refine (exec_preserves (fun B => B.size = A.size ∧ B.val i = A.val i) ⟨rfl, rfl⟩ ?_ e).2
  rintro ⟨j, k⟩ hmem B B' ⟨hB, hv⟩ e
  obtain ⟨⟨t, ht⟩, h1, h2, h3⟩ := (mem_loOps hG.jst).1 hmem
  have hj : 0 ≤ j := by
    have : 0 ≤ G.jst * (t : Int) := Int.mul_nonneg (by have := hG.jst; omega) (by omega)
    omega
  have hB' : Fits RP.n o S B := by unfold Fits at *; rw [hB]; exact hA
  obtain ⟨a, b⟩ := op_rows hG hB' (by omega) h2 h3
  have := hG.top RP.n j (by omega)
  have := hG.g
  rw [rotAtT_eq hG h (by omega) h2 h3, applyGivens_of a b] at e
  cases e
  refine ⟨hB, ?_⟩
  simp only
  rw [rotV_of_ne (hi k h2 (by omega)) (hi _ (by omega) (by omega)), hv]

/-- Inner products over the rows of the column are preserved. -/
theorem kernelHi2lo_dot (hG : GeomOK G) (h : Good G RP) {m1 m2 : Int} (hm : 0 ≤ m1) {A B A' B' : Buf K}
    (hA : Fits RP.n o S A) (hB : Fits RP.n o S B) (e : kernelHi2lo G RP m1 m2 o S A = some A')
    (e' : kernelHi2lo G RP m1 m2 o S B = some B') :
    dotOn (rows RP.n o S) A'.val B'.val = dotOn (rows RP.n o S) A.val B.val := by
  rw [kernelHi2lo_exec] at e e'
  have key : ∀ l : List (Int × Int), (∀ a ∈ l, a ∈ hiOps G RP.n m1 m2) → ∀ C D C' D' : Buf K, C.size = A.size → D.size = B.size →
      exec (fun a => rotAt G RP o S a.2 a.1) l C = some C' → exec (fun a => rotAt G RP o S a.2 a.1) l D = some D' →
      dotOn (rows RP.n o S) C'.val D'.val = dotOn (rows RP.n o S) C.val D.val := by
    intro l
    induction l with
    | nil => intro _ C D C' D' _ _ e e'; cases e; cases e'; rfl
    | cons a l ih =>
      intro hl C D C' D' hC hD e e'
      obtain ⟨j, k⟩ := a
      obtain ⟨-, h1, h2, h3⟩ := (mem_hiOps hG.jst).1 (hl (j, k) (by simp))
      have hC' : Fits RP.n o S C := by unfold Fits at *; rw [hC]; exact hA
      have hD' : Fits RP.n o S D := by unfold Fits at *; rw [hD]; exact hB
      obtain ⟨a, b⟩ := op_rows hG hC' (by omega) h2 h3
      obtain ⟨a', b'⟩ := op_rows hG hD' (by omega) h2 h3
      have := hG.top RP.n j (by omega)
      have := hG.g
      rw [exec_cons, rotAt_eq hG h.toInB (by omega) h2 h3, applyGivens_of a b, Option.bind_some] at e
      rw [exec_cons, rotAt_eq hG h.toInB (by omega) h2 h3, applyGivens_of a' b', Option.bind_some] at e'
      rw [ih (fun a ha => hl a (by simp [ha])) _ _ _ _ (by exact hC) (by exact hD) e e']
      exact dotOn_rot_rot (mem_rows h2 (by omega)) (mem_rows (by omega) (by omega)) (row_ne hA.1 hG.g o)
        (h.unit k j (by omega) h2 h3) _ _
  exact key _ (fun a ha => ha) A B A' B' rfl rfl e e'

/-- `lo2hi` is the adjoint of `hi2lo`. -/
theorem kernel_adjoint (hG : GeomOK G) (h : Good G RP) {m1 m2 : Int} (hm : 0 ≤ m1) (hd : G.jst ∣ m2 - m1) {A B A' B' : Buf K}
    (hA : Fits RP.n o S A) (hB : Fits RP.n o S B) (e : kernelHi2lo G RP m1 m2 o S A = some A')
    (e' : kernelLo2hi G RP m1 m2 o S B = some B') :
    dotOn (rows RP.n o S) A'.val B.val = dotOn (rows RP.n o S) A.val B'.val := by
  obtain ⟨C, eC, hC, eB⟩ := kernel_roundtrip' hG h hm hd hB
  rw [e'] at eC; cases eC
  exact kernelHi2lo_dot hG h hm hA (by unfold Fits at *; rw [hC]; exact hB) e eB

end

end FT
