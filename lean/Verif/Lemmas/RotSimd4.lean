import Verif.Lemmas.RotSimd3

namespace FT
variable {K : Type*} [CommRing K]

/-- A vector rotation. -/
def vop (VS : Nat) (σs γs : Int → Int → K) (o S g : Int) (a : Int × Int) : Buf K → Option (Buf K) :=
  vGivens VS (σs a.2 a.1) (γs a.2 a.1) (o + a.2 * S) (o + (a.2 + g) * S)

/-- Table entries as used by the two directions. -/
def sgnS (neg : Bool) (G : Geom) (RP : RotPlan K) (row col : Int) : K :=
  if neg then -RP.s.val (G.ix RP.n row col) else RP.s.val (G.ix RP.n row col)
def tabC (G : Geom) (RP : RotPlan K) (row col : Int) : K := RP.c.val (G.ix RP.n row col)

theorem GeomOK.shift {G : Geom} (hG : GeomOK G) (n j lj : Int) (h : 0 ≤ lj) : G.top n (j - G.jst * lj) = G.top n j + G.g * lj := by
  obtain ⟨t, rfl⟩ := Int.eq_ofNat_of_zero_le h
  clear h
  induction t with
  | zero => simp
  | succ t ih =>
    have := hG.top_shift n (j - G.jst * t)
    rw [ih] at this
    push_cast
    rw [show j - G.jst * ((t : Int) + 1) = j - G.jst * t - G.jst by ring, this]
    ring

theorem GeomOK.shift' {G : Geom} (hG : GeomOK G) (n j lj : Int) (h : 0 ≤ lj) : G.top n (j + G.jst * lj) = G.top n j - G.g * lj := by
  have := hG.shift n (j + G.jst * lj) lj h
  rw [show j + G.jst * lj - G.jst * lj = j by ring] at this
  omega

/-- The operation `a` uses only table entries that exist. -/
def TabOK (G : Geom) (n : Int) (a : Int × Int) : Prop := 0 ≤ a.1 ∧ 0 ≤ a.2 ∧ a.2 ≤ G.top n a.1

section
variable {G : Geom} {RP : RotPlan K} {o S L : Int} {VS : Nat}

theorem vrotAt_eq (h : InB G RP) {a : Int × Int} (ha : TabOK G RP.n a) (A : Buf K) :
    vrotAt VS G RP o S a.2 a.1 A = vop VS (sgnS false G RP) (tabC G RP) o S G.g a A := by
  obtain ⟨h1, h2, h3⟩ := h.inb a.2 a.1 ha.1 ha.2.1 ha.2.2
  unfold vrotAt
  rw [Buf.rd_of h1 h2, Option.bind_some, Buf.rd_of h1 h3, Option.bind_some]
  rfl

theorem vrotAtT_eq (h : InB G RP) {a : Int × Int} (ha : TabOK G RP.n a) (A : Buf K) :
    vrotAtT VS G RP o S a.2 a.1 A = vop VS (sgnS true G RP) (tabC G RP) o S G.g a A := by
  obtain ⟨h1, h2, h3⟩ := h.inb a.2 a.1 ha.1 ha.2.1 ha.2.2
  unfold vrotAtT
  rw [Buf.rd_of h1 h2, Option.bind_some, Buf.rd_of h1 h3, Option.bind_some, vGivensT_eq]
  rfl

/-- The buffer holds `VS` lanes of the rows `0 … n-1`. -/
structure VFits (VS : Nat) (n o S : Int) (size : Nat) : Prop where
  vs : (VS : Int) ≤ S
  o0 : 0 ≤ o
  S0 : 0 < S
  top : o + (n - 1) * S + VS ≤ size

theorem VFits.row {n : Int} {size : Nat} (h : VFits VS n o S size) {k : Int} (h0 : 0 ≤ k) (h1 : k ≤ n - 1) :
    0 ≤ o + k * S ∧ o + k * S + VS ≤ size := by
  have a : 0 ≤ k * S := Int.mul_nonneg h0 (by have := h.S0; omega)
  have c : k * S ≤ (n - 1) * S := Int.mul_le_mul_of_nonneg_right (by omega) (by have := h.S0; omega)
  have := h.o0
  have := h.top
  omega

theorem tileHi2lo_eq (hG : GeomOK G) (h : InB G RP) (hL : 0 < L) {j k : Int} {A : Buf K} (hA : VFits VS RP.n o S A.size)
    (X : Buf (Int → K)) (hX : X.size = ((G.g + 1) * L).toNat) (hk : L - 1 ≤ k) (hk' : k + G.g * L ≤ RP.n - 1)
    (hT : ∀ a ∈ tileOpsHi L G.jst G.g j k, TabOK G RP.n a) :
    tileHi2lo VS L G RP o S j k X A = exec (vop VS (sgnS false G RP) (tabC G RP) o S G.g) (tileOpsHi L G.jst G.g j k) A := by
  have hg := hG.g
  have hgL : 0 < G.g * L := Int.mul_pos hg hL
  have hcnt : (G.g + 1) * L = G.g * L + L := by ring
  have hf : TileFits VS ((G.g + 1) * L) (k + 1 - L) o S A.size := by
    refine ⟨hA.vs, by omega, hA.o0, hA.S0, ?_⟩
    have := (hA.row (k := k + 1 - L + (G.g + 1) * L - 1) (by omega) (by omega)).2
    exact this
  have hX' : (X.size : Int) = (G.g + 1) * L := by rw [hX]; exact Int.toNat_of_nonneg (by omega)
  have key := tile_exec (σs := sgnS false G RP) (γs := tabC G RP) hf (by omega) hg X hX' (tileOpsHi L G.jst G.g j k) (by
    intro a ha
    obtain ⟨lj, lk, h1, h2, h3, h4⟩ := mem_tileOpsHi.1 ha
    have : 0 ≤ G.g * lj := Int.mul_nonneg (by omega) h1.1
    have : G.g * lj ≤ G.g * (L - 1) := Int.mul_le_mul_of_nonneg_left (by omega) (by omega)
    rw [Int.mul_sub, Int.mul_one] at this
    omega)
  unfold vop
  rw [← key]
  unfold tileHi2lo
  congr 1; funext X
  congr 1
  rw [tileOpsHi, forUp_exec, exec_flatMap]
  apply exec_congr
  intro lj hlj X
  rw [forUp_exec, exec_map]
  apply exec_congr
  intro lk hlk X
  have ha := hT _ (mem_tileOpsHi.2 ⟨lj, lk, mem_rUp.1 hlj, mem_rUp.1 hlk, rfl, rfl⟩ :
    (j - G.jst * lj, k - lk + G.g * lj) ∈ tileOpsHi L G.jst G.g j k)
  obtain ⟨h1, h2, h3⟩ := h.inb _ _ ha.1 ha.2.1 ha.2.2
  simp only at h1 h2 h3
  simp only
  rw [Buf.rd_of h1 h2, Buf.rd_of h1 h3]
  unfold regOp sgnS tabC
  rw [show k - lk + G.g * lj - (k + 1 - L) = L - 1 - lk + G.g * lj by ring,
    show L - 1 + G.g - lk + G.g * lj = L - 1 - lk + G.g * lj + G.g by ring]
  rfl

theorem tileLo2hi_eq (hG : GeomOK G) (h : InB G RP) (hL : 0 < L) {j k : Int} {A : Buf K} (hA : VFits VS RP.n o S A.size)
    (X : Buf (Int → K)) (hX : X.size = ((G.g + 1) * L).toNat) (hk : G.g * L ≤ k) (hk' : k + L - 1 + G.g ≤ RP.n - 1)
    (hT : ∀ a ∈ tileOpsLo L G.jst G.g j k, TabOK G RP.n a) :
    tileLo2hi VS L G RP o S j k X A = exec (vop VS (sgnS true G RP) (tabC G RP) o S G.g) (tileOpsLo L G.jst G.g j k) A := by
  have hg := hG.g
  have hgL : 0 < G.g * L := Int.mul_pos hg hL
  have hcnt : (G.g + 1) * L = G.g * L + L := by ring
  have hf : TileFits VS ((G.g + 1) * L) (k + G.g - G.g * L) o S A.size := by
    refine ⟨hA.vs, by omega, hA.o0, hA.S0, ?_⟩
    have := (hA.row (k := k + G.g - G.g * L + (G.g + 1) * L - 1) (by omega) (by omega)).2
    exact this
  have hX' : (X.size : Int) = (G.g + 1) * L := by rw [hX]; exact Int.toNat_of_nonneg (by omega)
  have key := tile_exec (σs := sgnS true G RP) (γs := tabC G RP) hf (by omega) hg X hX' (tileOpsLo L G.jst G.g j k) (by
    intro a ha
    obtain ⟨lj, lk, h1, h2, h3, h4⟩ := mem_tileOpsLo.1 ha
    have : 0 ≤ G.g * lj := Int.mul_nonneg (by omega) h1.1
    have : G.g * lj ≤ G.g * (L - 1) := Int.mul_le_mul_of_nonneg_left (by omega) (by omega)
    rw [Int.mul_sub, Int.mul_one] at this
    omega)
  unfold vop
  rw [← key]
  unfold tileLo2hi
  congr 1; funext X
  congr 1
  rw [tileOpsLo, forUp_exec, exec_flatMap]
  apply exec_congr
  intro lj hlj X
  rw [forUp_exec, exec_map]
  apply exec_congr
  intro lk hlk X
  have ha := hT _ (mem_tileOpsLo.2 ⟨lj, lk, mem_rUp.1 hlj, mem_rUp.1 hlk, rfl, rfl⟩ :
    (j + G.jst * lj, k + lk - G.g * lj) ∈ tileOpsLo L G.jst G.g j k)
  obtain ⟨h1, h2, h3⟩ := h.inb _ _ ha.1 ha.2.1 ha.2.2
  simp only at h1 h2 h3
  simp only
  rw [Buf.rd_of h1 h2, Buf.rd_of h1 h3]
  unfold regOp sgnS tabC
  rw [show k + lk - G.g * lj - (k + G.g - G.g * L) = G.g * L - G.g + lk - G.g * lj by ring,
    show G.g * L + lk - G.g * lj = G.g * L - G.g + lk - G.g * lj + G.g by ring]
  congr 1; funext T1
  congr 1; funext T2
  simp only [Option.bind_some, if_true]
  congr 1
  · congr 1; funext e; ring
  · funext X; congr 1; funext e; ring

/-- A vector rotation keeps the size and never fails on a buffer that holds its rows. -/
theorem vop_some (hG : GeomOK G) {neg : Bool} {A : Buf K} (hA : VFits VS RP.n o S A.size) {a : Int × Int} (ha : TabOK G RP.n a) :
    ∃ B, vop VS (sgnS neg G RP) (tabC G RP) o S G.g a A = some B ∧ B.size = A.size := by
  have hg := hG.g
  have ht := hG.top RP.n a.1 ha.1
  have h1 := hA.row (k := a.2) ha.2.1 (by have := ha.2.2; omega)
  have h2 := hA.row (k := a.2 + G.g) (by have := ha.2.1; omega) (by have := ha.2.2; omega)
  have hgS : S ≤ G.g * S := by
    have := Int.mul_le_mul_of_nonneg_right (by omega : (1 : Int) ≤ G.g) (by have := hA.S0; omega : 0 ≤ S)
    omega
  have he : (a.2 + G.g) * S = a.2 * S + G.g * S := by ring
  have := hA.vs
  exact ⟨_, vGivens_of h1.1 h1.2 h2.2 (by omega), rfl⟩

/-- Running vector rotations is running the scalar rotations of all lanes. -/
theorem exec_vop_lanes (hG : GeomOK G) {neg : Bool} {A : Buf K} (hA : VFits VS RP.n o S A.size) {T : List (Int × Int)}
    (hT : ∀ a ∈ T, TabOK G RP.n a) :
    exec (vop VS (sgnS neg G RP) (tabC G RP) o S G.g) T A =
      exec (sop (sgnS neg G RP) (tabC G RP) o S G.g) (T.flatMap fun a => lanes VS a.1 a.2) A := by
  rw [exec_flatMap]
  refine (exec_congr_inv (fun B : Buf K => B.size = A.size) ?_ ?_ rfl).symm
  · intro a ha B hB
    have hB' : VFits VS RP.n o S B.size := by rw [hB]; exact hA
    have hg := hG.g
    have ht := hG.top RP.n a.1 (hT a ha).1
    have h1 := hB'.row (k := a.2) (hT a ha).2.1 (by have := (hT a ha).2.2; omega)
    have h2 := hB'.row (k := a.2 + G.g) (by have := (hT a ha).2.1; omega) (by have := (hT a ha).2.2; omega)
    have hgS : S ≤ G.g * S := by
      have := Int.mul_le_mul_of_nonneg_right (by omega : (1 : Int) ≤ G.g) (by have := hA.S0; omega : 0 ≤ S)
      omega
    exact exec_lanes h1.1 h2.2 (by have := hA.vs; omega)
  · intro a ha B B' hB e
    have hB' : VFits VS RP.n o S B.size := by rw [hB]; exact hA
    obtain ⟨C, e', hC⟩ := vop_some (RP := RP) (neg := neg) hG hB' (hT a ha)
    rw [e] at e'
    cases e'
    rw [hC, hB]

theorem exec_vop_size (hG : GeomOK G) {neg : Bool} {A B : Buf K} (hA : VFits VS RP.n o S A.size) {T : List (Int × Int)}
    (hT : ∀ a ∈ T, TabOK G RP.n a) (e : exec (vop VS (sgnS neg G RP) (tabC G RP) o S G.g) T A = some B) : B.size = A.size := by
  refine exec_preserves (fun B : Buf K => B.size = A.size) rfl ?_ e
  intro a ha B B' hB e
  have hB' : VFits VS RP.n o S B.size := by rw [hB]; exact hA
  obtain ⟨C, e', hC⟩ := vop_some (RP := RP) (neg := neg) hG hB' (hT a ha)
  rw [e] at e'
  cases e'
  rw [hC, hB]

/-- Congruence for a sequence of stages that are lists of vector rotations. -/
theorem exec_stages {ι : Type*} (hG : GeomOK G) {neg : Bool} {A : Buf K} (hA : VFits VS RP.n o S A.size) {l : List ι}
    {f : ι → Buf K → Option (Buf K)} {T : ι → List (Int × Int)} (hT : ∀ i ∈ l, ∀ a ∈ T i, TabOK G RP.n a)
    (h : ∀ i ∈ l, ∀ B : Buf K, VFits VS RP.n o S B.size → f i B = exec (vop VS (sgnS neg G RP) (tabC G RP) o S G.g) (T i) B) :
    exec f l A = exec (vop VS (sgnS neg G RP) (tabC G RP) o S G.g) (l.flatMap T) A := by
  rw [exec_flatMap]
  refine exec_congr_inv (fun B : Buf K => B.size = A.size) ?_ ?_ rfl
  · intro i hi B hB
    exact h i hi B (by rw [hB]; exact hA)
  · intro i hi B B' hB e
    rw [exec_vop_size hG (by rw [hB]; exact hA) (hT i hi) e, hB]

theorem vecHi_tab (hG : GeomOK G) (hj : G.jst = 1 ∨ G.jst = 2) (hg : G.g = 1 ∨ G.g = 2) (hL : 0 < L) {m1 m2 bnd : Int}
    (hm : 0 ≤ m1) (hb : m1 + G.jst * L - G.jst ≤ bnd) :
    ∀ a ∈ vecHi L G.jst G.g m1 m2 bnd (G.top RP.n), TabOK G RP.n a := by
  rintro ⟨j, k⟩ ha
  obtain ⟨_, h1, h2, h3⟩ := (mem_vecHi hj hg hL hb (hG.shift RP.n)).1 ha
  exact ⟨by simp only; omega, h2, h3⟩

theorem vecLo_tab (hG : GeomOK G) (hj : G.jst = 1 ∨ G.jst = 2) (hg : G.g = 1 ∨ G.g = 2) (hL : 0 < L) {m1 m2 bnd : Int}
    (hm : 0 ≤ m1) (hb : bnd ≤ m2 - G.jst * L + G.jst) (htop : ∀ j, m1 ≤ j → j < bnd → G.g * L ≤ G.top RP.n j + 1) :
    ∀ a ∈ vecLo L G.jst G.g m1 m2 bnd (G.top RP.n), TabOK G RP.n a := by
  rintro ⟨j, k⟩ ha
  obtain ⟨⟨t, ht⟩, h1, h2, h3⟩ := (mem_vecLo hj hg hL hb htop (hG.shift' RP.n)).1 ha
  have : 0 ≤ G.jst * (t : Int) := Int.mul_nonneg (by omega) (by omega)
  exact ⟨by simp only; omega, h2, h3⟩

/-- The vector part of a `hi2lo` kernel as a list. -/
theorem vecHi_exec (hG : GeomOK G) (h : InB G RP) (hj : G.jst = 1 ∨ G.jst = 2) (hg : G.g = 1 ∨ G.g = 2) (hL : 0 < L)
    {m1 m2 bnd : Int} (hm : 0 ≤ m1) (hb : m1 + G.jst * L - G.jst ≤ bnd) {A : Buf K} (hA : VFits VS RP.n o S A.size)
    (X : Buf (Int → K)) (hX : X.size = ((G.g + 1) * L).toNat) :
    ((forStepDown (m2 - G.jst) bnd (G.jst * L) (fun j A =>
      (forStepDown (G.top RP.n j) (L - 1) L (fun k => tileHi2lo VS L G RP o S j k X) A).bind fun A =>
      forUp 0 L (fun lj => forDown (lastDown (G.top RP.n j) (L - 1) L + G.g * lj) 0 (fun lk =>
        vrotAt VS G RP o S lk (j - G.jst * lj))) A) A).bind fun A =>
    forStepDown (lastDown (m2 - G.jst) bnd (G.jst * L)) m1 G.jst (fun j =>
      forDown (G.top RP.n j) 0 (fun k => vrotAt VS G RP o S k j)) A) =
    exec (vop VS (sgnS false G RP) (tabC G RP) o S G.g) (vecHi L G.jst G.g m1 m2 bnd (G.top RP.n)) A := by
  have htab := vecHi_tab (RP := RP) hG hj hg hL (m2 := m2) hm hb
  have hst : 0 < G.jst * L := Int.mul_pos (by omega) hL
  unfold vecHi at htab ⊢
  have htab1 : ∀ j ∈ rStepDown (m2 - G.jst) bnd (G.jst * L), ∀ a ∈ blockHi L G.jst G.g (G.top RP.n) j, TabOK G RP.n a :=
    fun j hj a ha => htab a (List.mem_append_left _ (List.mem_flatMap.2 ⟨j, hj, ha⟩))
  have htab2 : ∀ a ∈ restHi L G.jst m1 m2 bnd (G.top RP.n), TabOK G RP.n a := fun a ha => htab a (List.mem_append_right _ ha)
  have e1 : ∀ j ∈ rStepDown (m2 - G.jst) bnd (G.jst * L), ∀ B : Buf K, VFits VS RP.n o S B.size →
      ((forStepDown (G.top RP.n j) (L - 1) L (fun k => tileHi2lo VS L G RP o S j k X) B).bind fun A =>
      forUp 0 L (fun lj => forDown (lastDown (G.top RP.n j) (L - 1) L + G.g * lj) 0 (fun lk =>
        vrotAt VS G RP o S lk (j - G.jst * lj))) A) =
      exec (vop VS (sgnS false G RP) (tabC G RP) o S G.g) (blockHi L G.jst G.g (G.top RP.n) j) B := by
    intro j hjm B hB
    have ht := htab1 j hjm
    unfold blockHi at ht ⊢
    rw [exec_append, forStepDown_exec]
    obtain ⟨⟨i, hi⟩, hjb⟩ := (mem_rStepDown' hst).1 hjm
    rw [exec_stages (neg := false) (RP := RP) hG hB (T := fun k => tileOpsHi L G.jst G.g j k)
      (fun k hk a ha => ht a (List.mem_append_left _ (List.mem_flatMap.2 ⟨k, hk, ha⟩)))]
    · congr 1; funext C
      rw [forUp_exec, exec_flatMap]
      apply exec_congr
      intro lj hlj D
      rw [forDown_exec, exec_map]
      apply exec_congr
      intro lk hlk E
      exact vrotAt_eq (a := (j - G.jst * lj, lk)) h
        (ht _ (List.mem_append_right _ (List.mem_flatMap.2 ⟨lj, hlj, List.mem_map.2 ⟨lk, hlk, rfl⟩⟩))) E
    · intro k hk C hC
      refine tileHi2lo_eq hG h hL hC X hX ?_ ?_ ?_
      · exact ((mem_rStepDown' hL).1 hk).2
      · obtain ⟨⟨u, hu⟩, _⟩ := (mem_rStepDown' hL).1 hk
        have h0 : 0 ≤ L * (u : Int) := Int.mul_nonneg (by omega) (by omega)
        have hs := hG.shift RP.n j (L - 1) (by omega)
        have e : G.jst * (L - 1) = G.jst * L - G.jst := by ring
        have ht' := hG.top RP.n (j - G.jst * (L - 1)) (by omega)
        have e' : G.g * (L - 1) = G.g * L - G.g := by ring
        omega
      · exact fun a ha => ht a (List.mem_append_left _ (List.mem_flatMap.2 ⟨k, hk, ha⟩))
  rw [exec_append, forStepDown_exec, exec_stages hG hA htab1 e1]
  congr 1; funext C
  unfold restHi at htab2 ⊢
  rw [forStepDown_exec, exec_flatMap]
  apply exec_congr
  intro j hjm D
  rw [forDown_exec, exec_map]
  apply exec_congr
  intro k hk E
  exact vrotAt_eq (a := (j, k)) h (htab2 _ (List.mem_flatMap.2 ⟨j, hjm, List.mem_map.2 ⟨k, hk, rfl⟩⟩)) E

/-- The vector part of a `lo2hi` kernel as a list. -/
theorem vecLo_exec (hG : GeomOK G) (h : InB G RP) (hj : G.jst = 1 ∨ G.jst = 2) (hg : G.g = 1 ∨ G.g = 2) (hL : 0 < L)
    {m1 m2 bnd : Int} (hm : 0 ≤ m1) (hb : bnd ≤ m2 - G.jst * L + G.jst)
    (htop : ∀ j, m1 ≤ j → j < bnd → G.g * L ≤ G.top RP.n j + 1) {A : Buf K} (hA : VFits VS RP.n o S A.size)
    (X : Buf (Int → K)) (hX : X.size = ((G.g + 1) * L).toNat) :
    ((forStep m1 bnd (G.jst * L) (fun j A =>
      (forUp 0 L (fun lj => forUp 0 (G.g * L + Int.tmod (G.top RP.n j + 1 - L) L - G.g * lj) (fun lk =>
        vrotAtT VS G RP o S lk (j + G.jst * lj))) A).bind fun A =>
      forStep (G.g * L + Int.tmod (G.top RP.n j + 1 - L) L) (G.top RP.n j + 1 - L + 1) L (fun k =>
        tileLo2hi VS L G RP o S j k X) A) A).bind fun A =>
    forStep (lastUp m1 bnd (G.jst * L)) m2 G.jst (fun j =>
      forUp 0 (G.top RP.n j + 1) (fun k => vrotAtT VS G RP o S k j)) A) =
    exec (vop VS (sgnS true G RP) (tabC G RP) o S G.g) (vecLo L G.jst G.g m1 m2 bnd (G.top RP.n)) A := by
  have htab := vecLo_tab (RP := RP) hG hj hg hL (m2 := m2) hm hb htop
  have hst : 0 < G.jst * L := Int.mul_pos (by omega) hL
  unfold vecLo at htab ⊢
  have htab1 : ∀ j ∈ rStep m1 bnd (G.jst * L), ∀ a ∈ blockLo L G.jst G.g (G.top RP.n) j, TabOK G RP.n a :=
    fun j hj a ha => htab a (List.mem_append_left _ (List.mem_flatMap.2 ⟨j, hj, ha⟩))
  have htab2 : ∀ a ∈ restLo L G.jst m1 m2 bnd (G.top RP.n), TabOK G RP.n a := fun a ha => htab a (List.mem_append_right _ ha)
  have e1 : ∀ j ∈ rStep m1 bnd (G.jst * L), ∀ B : Buf K, VFits VS RP.n o S B.size →
      ((forUp 0 L (fun lj => forUp 0 (G.g * L + Int.tmod (G.top RP.n j + 1 - L) L - G.g * lj) (fun lk =>
        vrotAtT VS G RP o S lk (j + G.jst * lj))) B).bind fun A =>
      forStep (G.g * L + Int.tmod (G.top RP.n j + 1 - L) L) (G.top RP.n j + 1 - L + 1) L (fun k =>
        tileLo2hi VS L G RP o S j k X) A) =
      exec (vop VS (sgnS true G RP) (tabC G RP) o S G.g) (blockLo L G.jst G.g (G.top RP.n) j) B := by
    intro j hjm B hB
    have ht := htab1 j hjm
    obtain ⟨⟨i, hi⟩, hjb⟩ := (mem_rStep hst).1 hjm
    have hi0 : 0 ≤ G.jst * L * (i : Int) := Int.mul_nonneg (by omega) (by omega)
    have htj := htop j (by omega) hjb
    have htm : 0 ≤ Int.tmod (G.top RP.n j + 1 - L) L := by
      apply Int.tmod_nonneg
      rcases hg with hg | hg <;> rw [hg] at htj <;> omega
    unfold blockLo at ht ⊢
    rw [exec_append]
    have e2 : forUp 0 L (fun lj => forUp 0 (G.g * L + Int.tmod (G.top RP.n j + 1 - L) L - G.g * lj) (fun lk =>
        vrotAtT VS G RP o S lk (j + G.jst * lj))) B = exec (vop VS (sgnS true G RP) (tabC G RP) o S G.g)
          ((rUp 0 L).flatMap fun lj => (rUp 0 (G.g * L + Int.tmod (G.top RP.n j + 1 - L) L - G.g * lj)).map fun lk =>
            (j + G.jst * lj, lk)) B := by
      rw [forUp_exec, exec_flatMap]
      apply exec_congr
      intro lj hlj D
      rw [forUp_exec, exec_map]
      apply exec_congr
      intro lk hlk E
      exact vrotAtT_eq (a := (j + G.jst * lj, lk)) h
        (ht _ (List.mem_append_left _ (List.mem_flatMap.2 ⟨lj, hlj, List.mem_map.2 ⟨lk, hlk, rfl⟩⟩))) E
    rw [e2]
    cases e3 : exec (vop VS (sgnS true G RP) (tabC G RP) o S G.g)
          ((rUp 0 L).flatMap fun lj => (rUp 0 (G.g * L + Int.tmod (G.top RP.n j + 1 - L) L - G.g * lj)).map fun lk =>
            (j + G.jst * lj, lk)) B with
    | none => rfl
    | some C =>
      have hC : VFits VS RP.n o S C.size := by
        rw [exec_vop_size hG hB (fun a ha => ht a (List.mem_append_left _ ha)) e3]; exact hB
      rw [Option.bind_some, Option.bind_some, forStep_exec]
      refine exec_stages (neg := true) (RP := RP) hG hC (T := fun k => tileOpsLo L G.jst G.g j k)
        (fun k hk a ha => ht a (List.mem_append_right _ (List.mem_flatMap.2 ⟨k, hk, ha⟩))) ?_
      intro k hk D hD
      obtain ⟨⟨u, hu⟩, hk2⟩ := (mem_rStep hL).1 hk
      have h0 : 0 ≤ L * (u : Int) := Int.mul_nonneg (by omega) (by omega)
      refine tileLo2hi_eq hG h hL hD X hX (by omega) ?_ ?_
      · have ht' := hG.top RP.n j (by omega)
        omega
      · exact fun a ha => ht a (List.mem_append_right _ (List.mem_flatMap.2 ⟨k, hk, ha⟩))
  rw [exec_append, forStep_exec, exec_stages hG hA htab1 e1]
  congr 1; funext C
  unfold restLo at htab2 ⊢
  rw [forStep_exec, exec_flatMap]
  apply exec_congr
  intro j hjm D
  rw [forUp_exec, exec_map]
  apply exec_congr
  intro k hk E
  exact vrotAtT_eq (a := (j, k)) h (htab2 _ (List.mem_flatMap.2 ⟨j, hjm, List.mem_map.2 ⟨k, hk, rfl⟩⟩)) E

end

end FT
