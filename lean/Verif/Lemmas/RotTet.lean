import Verif.Lemmas.RotPlan

namespace FT
variable {K : Type*} [CommRing K]

/-- Rotations of pairwise disjoint pairs: the inner loop of the tetrahedron kernels. -/
theorem tet_inner {s c : K} {n l o : Int} (hn : 0 ≤ n) (hl : 0 ≤ l) (ho : 0 ≤ o) {A : Buf K}
    (hA : o + n * (l + 2) ≤ A.size) (hu : s * s + c * c = 1) :
    ∃ A', forUp 0 n (fun k => applyGivens s c (o + k + n * l) (o + k + n * (l + 1))) A = some A' ∧ A'.size = A.size ∧
      forUp 0 n (fun k => applyGivensT s c (o + k + n * l) (o + k + n * (l + 1))) A' = some A := by
  have hnl : 0 ≤ n * l := Int.mul_nonneg hn hl
  have e1 : n * (l + 1) = n * l + n := by ring
  have e2 : n * (l + 2) = n * l + n + n := by ring
  rw [e2] at hA
  simp only [e1]
  rw [forUp_exec]
  obtain ⟨A', e, hs⟩ := exec_total (f := fun k => applyGivens s c (o + k + n * l) (o + k + (n * l + n)))
    (l := rUp 0 n) (s := A) (fun B : Buf K => B.size = A.size) rfl (by
      intro k hk B hB
      rw [mem_rUp] at hk
      exact ⟨_, applyGivens_of (by rw [hB]; omega) (by rw [hB]; omega), hB⟩)
  refine ⟨A', e, hs, ?_⟩
  have hundo : exec (fun k => applyGivensT s c (o + k + n * l) (o + k + (n * l + n))) (rUp 0 n).reverse A' = some A := by
    refine exec_undo (fun B : Buf K => B.size = A.size) rfl ?_ e
    intro k hk B B' hB e
    rw [mem_rUp] at hk
    rw [applyGivens_of (by rw [hB]; omega) (by rw [hB]; omega)] at e
    cases e
    refine ⟨?_, hB⟩
    rw [applyGivensT_eq, applyGivens_mk (by rw [hB]; omega) (by rw [hB]; omega), rotV_undo (by omega) hu]
  rw [forUp_exec, ← hundo]
  apply exec_reorder (fun _ => True) (R₁ := fun a b => a < b) (R₂ := fun a b => b < a) (pairwise_rUp 0 n)
  · rw [List.pairwise_reverse]; exact pairwise_rUp 0 n
  · exact (pairwise_rUp 0 n).imp (fun h => by omega)
  · rw [List.nodup_reverse]; exact (pairwise_rUp 0 n).imp (fun h => by omega)
  · intro a; rw [List.mem_reverse]
  · intros; trivial
  · intro a ha b hb hne _ _ B _
    rw [mem_rUp] at ha hb
    simp only [applyGivensT_eq]
    exact applyGivens_comm (by omega) (by omega) (by omega) (by omega) B
  · trivial

theorem tet_inner' {s c : K} {n l o : Int} (hn : 0 ≤ n) (hl : 0 ≤ l) (ho : 0 ≤ o) {A : Buf K}
    (hA : o + n * (l + 2) ≤ A.size) (hu : s * s + c * c = 1) :
    ∃ A', forUp 0 n (fun k => applyGivensT s c (o + k + n * l) (o + k + n * (l + 1))) A = some A' ∧ A'.size = A.size ∧
      forUp 0 n (fun k => applyGivens s c (o + k + n * l) (o + k + n * (l + 1))) A' = some A := by
  have := tet_inner (s := -s) (c := c) hn hl ho hA (by rw [neg_mul_neg]; exact hu)
  have e : ∀ k, applyGivens (-s) c (o + k + n * l) (o + k + n * (l + 1)) = applyGivensT s c (o + k + n * l) (o + k + n * (l + 1)) :=
    fun k => funext fun _ => (applyGivensT_eq _ _ _ _ _).symm
  have e' : ∀ k, applyGivensT (-s) c (o + k + n * l) (o + k + n * (l + 1)) = applyGivens s c (o + k + n * l) (o + k + n * (l + 1)) :=
    fun k => funext fun _ => by rw [applyGivensT_eq, neg_neg]
  simp only [e, e'] at this
  exact this

/-- Rotations of a tetrahedron kernel. -/
def tetHi (L m : Int) : List (Int × Int) :=
  (rDown (m - 1) 0).flatMap fun j => (rDown (L - 2 - j) 0).map fun l => (j, l)

def tetStep (f : K → K → Int → Int → Buf K → Option (Buf K)) (RP : RotPlan K) (o : Int) (a : Int × Int) (A : Buf K) :
    Option (Buf K) :=
  (RP.s.rd (sIdx RP.n a.2 a.1)).bind fun s => (RP.c.rd (sIdx RP.n a.2 a.1)).bind fun c =>
    forUp 0 RP.n (fun k => f s c (o + k + RP.n * a.2) (o + k + RP.n * (a.2 + 1))) A

theorem kernelTetHi2lo_exec (RP : RotPlan K) (L m o : Int) (A : Buf K) :
    kernelTetHi2lo RP L m o A = exec (tetStep applyGivens RP o) (tetHi L m) A := by
  unfold kernelTetHi2lo tetHi
  rw [forDown_exec, exec_flatMap]
  apply exec_congr; intro j _ B
  rw [forDown_exec, exec_map]; rfl

theorem kernelTetLo2hi_exec (RP : RotPlan K) (L m o : Int) (A : Buf K) :
    kernelTetLo2hi RP L m o A = exec (tetStep applyGivensT RP o) (tetHi L m).reverse A := by
  unfold kernelTetLo2hi tetHi
  rw [List.reverse_flatMap, rDown_reverse, forUp_exec, exec_flatMap, show m - 1 + 1 = m by ring]
  apply exec_congr; intro j _ B
  simp only [Function.comp]
  rw [forUp_exec, ← List.map_reverse, rDown_reverse, exec_map]; rfl

theorem mem_tetHi {L m j l : Int} : (j, l) ∈ tetHi L m ↔ 0 ≤ j ∧ j < m ∧ 0 ≤ l ∧ l ≤ L - 2 - j := by
  unfold tetHi
  simp only [List.mem_flatMap, List.mem_map, mem_rDown, Prod.mk.injEq]
  constructor
  · rintro ⟨j, ⟨h1, h2⟩, k, ⟨h3, h4⟩, rfl, rfl⟩; exact ⟨h1, by omega, h3, h4⟩
  · rintro ⟨h1, h2, h3, h4⟩; exact ⟨j, ⟨h1, by omega⟩, l, ⟨h3, h4⟩, rfl, rfl⟩

/-- What the tetrahedron kernels need of the tables. -/
structure TetGood (RP : RotPlan K) (L : Int) : Prop where
  inb : ∀ l j, 0 ≤ j → 0 ≤ l → l ≤ L - 2 - j →
    0 ≤ sIdx RP.n l j ∧ sIdx RP.n l j < RP.s.size ∧ sIdx RP.n l j < RP.c.size
  unit : ∀ l j, 0 ≤ j → 0 ≤ l → l ≤ L - 2 - j →
    RP.s.val (sIdx RP.n l j) * RP.s.val (sIdx RP.n l j) + RP.c.val (sIdx RP.n l j) * RP.c.val (sIdx RP.n l j) = 1

theorem tet_roundtrip {RP : RotPlan K} {L m o : Int} (h : TetGood RP L) (hn : 0 ≤ RP.n) (ho : 0 ≤ o) {A : Buf K}
    (hA : o + RP.n * L ≤ A.size) :
    (∃ A', kernelTetHi2lo RP L m o A = some A' ∧ kernelTetLo2hi RP L m o A' = some A) ∧
    (∃ A', kernelTetLo2hi RP L m o A = some A' ∧ kernelTetHi2lo RP L m o A' = some A) := by
  have fits : ∀ l : Int, l ≤ L - 2 → o + RP.n * (l + 2) ≤ A.size := by
    intro l hl
    have : RP.n * (l + 2) ≤ RP.n * L := Int.mul_le_mul_of_nonneg_left (by omega) hn
    omega
  have step : ∀ a ∈ tetHi L m, ∀ B : Buf K, B.size = A.size →
      (∃ B', tetStep applyGivens RP o a B = some B' ∧ B'.size = A.size ∧ tetStep applyGivensT RP o a B' = some B) ∧
      (∃ B', tetStep applyGivensT RP o a B = some B' ∧ B'.size = A.size ∧ tetStep applyGivens RP o a B' = some B) := by
    rintro ⟨j, l⟩ ha B hB
    obtain ⟨h1, h2, h3, h4⟩ := mem_tetHi.1 ha
    obtain ⟨a, b, c⟩ := h.inb l j h1 h3 h4
    have hu := h.unit l j h1 h3 h4
    unfold tetStep
    simp only [Buf.rd_of a b, Buf.rd_of a c, Option.bind_some]
    constructor
    · obtain ⟨B', e, hs, e'⟩ := tet_inner (o := o) hn h3 ho (A := B) (by rw [hB]; exact fits l (by omega)) hu
      exact ⟨B', e, by rw [hs, hB], e'⟩
    · obtain ⟨B', e, hs, e'⟩ := tet_inner' (o := o) hn h3 ho (A := B) (by rw [hB]; exact fits l (by omega)) hu
      exact ⟨B', e, by rw [hs, hB], e'⟩
  constructor
  · obtain ⟨A', e, -⟩ := exec_total (f := tetStep applyGivens RP o) (l := tetHi L m) (s := A)
      (fun B : Buf K => B.size = A.size) rfl (fun a ha B hB => by
        obtain ⟨⟨B', e, hs, -⟩, -⟩ := step a ha B hB; exact ⟨B', e, hs⟩)
    refine ⟨A', by rw [kernelTetHi2lo_exec, e], ?_⟩
    rw [kernelTetLo2hi_exec]
    refine exec_undo (fun B : Buf K => B.size = A.size) rfl ?_ e
    intro a ha B B' hB e
    obtain ⟨⟨B'', e1, hs, e2⟩, -⟩ := step a ha B hB
    rw [e] at e1; cases e1; exact ⟨e2, hs⟩
  · obtain ⟨A', e, -⟩ := exec_total (f := tetStep applyGivensT RP o) (l := (tetHi L m).reverse) (s := A)
      (fun B : Buf K => B.size = A.size) rfl (fun a ha B hB => by
        obtain ⟨-, ⟨B', e, hs, -⟩⟩ := step a (List.mem_reverse.1 ha) B hB; exact ⟨B', e, hs⟩)
    refine ⟨A', by rw [kernelTetLo2hi_exec, e], ?_⟩
    rw [kernelTetHi2lo_exec, ← List.reverse_reverse (tetHi L m)]
    refine exec_undo (fun B : Buf K => B.size = A.size) rfl ?_ e
    intro a ha B B' hB e
    obtain ⟨-, ⟨B'', e1, hs, e2⟩⟩ := step a (List.mem_reverse.1 ha) B hB
    rw [e] at e1; cases e1; exact ⟨e2, hs⟩

end FT
