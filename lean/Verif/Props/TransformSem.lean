import Verif.Props.Tet

/-!
# Property C54: what the forward transforms compute

`C11` and `C12` relate the forward transforms to the backward and transposed ones.  The theorems here say what the forward transforms are: the
columnwise rotation (specification `columnwise` of C09/C10) followed by explicit sums with the connection matrices of the plan.
-/

namespace FT.Props
open FT
variable {K : Type*} [CommRing K] {N M : Int} {P : HPlan K}

/-- `F` always ends; and whenever it ends with `A'`, `A'` is obtained from the columnwise rotation `R` of `A` as described by `post`. -/
def RotatesThen {X : Type*} (ok : X → Prop) (N M : Int) (G : Geom) (RP : RotPlan K) (base ord : Int → Int) (F : X → Buf K → Buf K → Prop)
    (post : (Int → Int → K) → Int → Int → K) : Prop :=
  ∀ x, ok x → ∀ A : Buf K, N * M ≤ A.size → (∃ A', F x A A') ∧ ∀ A', F x A A' →
    ∃ R, columnwise true G RP base ord 0 M A = some R ∧
      ∀ i c, 0 ≤ i → i < N → 0 ≤ c → c < M → A'.val (i + c * N) = post (fun i c => R.val (i + c * N)) i c

theorem rotatesThen_of {X : Type*} {ok : X → Prop} {G : Geom} {base ord : Int → Int} {R : X → Buf K → Buf K → Prop} {D : Buf K → Option (Buf K)} {Φ : AOp K}
    {post : (Int → Int → K) → Int → Int → K} (hn : P.RP.n = N) (hN : 0 ≤ N) (hg : IsGeom G) (hR : TablesOK G P.RP) (hb : ∀ m, 0 ≤ base m)
    (hS : ∀ x, ok x → StepOK N M (R x) (rotOp true G P.RP base ord)) (hD : DenseOK N M D Φ) (hpost : ∀ x i c, 0 ≤ i → i < N → 0 ≤ c → c < M → Φ x i c = post x i c) :
    RotatesThen ok N M G P.RP base ord (fun x A A' => ∃ A1, R x A A1 ∧ D A1 = some A') post := by
  intro x hx A hA
  subst hn
  have hh : HoldsCols P.RP.n 0 M A := ⟨hN, le_refl _, by omega⟩
  obtain ⟨A1, r⟩ := (hS x hx).total A hA
  have a1 := (hS x hx).acts A A1 hA r
  obtain ⟨A2, e, a2⟩ := hD.2 A1 (by rw [a1.size]; exact hA)
  refine ⟨⟨A2, A1, r, e⟩, ?_⟩
  rintro A' ⟨B1, r', e'⟩
  have b1 := (hS x hx).acts A B1 hA r'
  obtain ⟨B2, f, b2⟩ := hD.2 B1 (by rw [b1.size]; exact hA)
  rw [e'] at f; cases f
  obtain ⟨Y, eY, -⟩ := colSpec_mapped (d := true) (isGeom_ok hg) (inB_of_size hg hR.1 hR.2) (m1 := fun c => base (ord c)) (ord := ord) (fun c => hb _) hh.1 hh.2.1 hh.2.2
  rw [← columnwise_eq] at eY
  refine ⟨Y, eY, fun i c i0 i1 c0 c1 => ?_⟩
  have aY := columnwise_acts hg hR hb hh eY
  rw [b2.val i c i0 i1 c0 c1, hD.1 _ (fun i c => Y.val (i + c * P.RP.n)) (fun k c k0 k1 c0 c1 => by rw [b1.val k c k0 k1 c0 c1, aY.val k c k0 k1 c0 c1]) i c i0 i1 c0 c1,
    hpost _ i c i0 i1 c0 c1]

/-- Columns of even order are converted by `P0`, those of odd order by `P1`. -/
def byParity (ord : Int → Int) (N : Int) (P0 P1 : Buf K) (R : Int → Int → K) (i c : Int) : K :=
  ∑ l ∈ Finset.range N.toNat, (if ord c % 2 = 0 then mat N P0 i l else mat N P1 i l) * R l c

theorem byParity_of {P0 P1 : Buf K} {ord : Int → Int} (h : ∀ c, 0 ≤ c → (ord c % 2 = 0 ↔ c % 4 = 0 ∨ c % 4 = 3)) (x : Int → Int → K) (i c : Int) (c0 : 0 ≤ c) :
    colOp (matF (sel4 (opU false P0 N) (opU false P1 N)) N) x i c = byParity ord N P0 P1 x i c := by
  unfold colOp matF byParity sumTo
  refine Finset.sum_congr rfl fun l _ => ?_
  congr 1
  by_cases hc : ord c % 2 = 0
  · rw [if_pos hc, sel4, if_pos ((h c c0).1 hc)]; rfl
  · rw [if_neg hc, sel4, if_neg (mt (h c c0).2 hc)]; rfl

/-- C54, sphere: `ft_execute_sph2fourier` rotates every column down to order 0 or 1 (the parity of its order) and converts columns of even order with
the first connection matrix, those of odd order with the second. -/
theorem C54_sph (hP : PlanOK geomSph (2 * N - 1) N P) (hM : M % 2 = 1) (hM1 : 1 ≤ M) (hM2 : M ≤ 2 * N - 1) :
    RotatesThen (Choice.OK P.szB) N M geomSph P.RP parity ordPair (fun x => Sph2fourier x false P N M) (byParity ordPair N P.P0 P.P1) := by
  have hN := hP.pos
  exact rotatesThen_of hP.n (by omega) (Or.inl rfl) hP.tables parity_nonneg (fun x hx => runSph_ok hP hM hM1 hM2 x hx true)
    (trmm4_ok (by omega) (by omega) hP.inv0.1 hP.inv1.1) fun x i c _ _ c0 _ => byParity_of (fun c c0 => by unfold ordPair; omega) x i c c0

/-- C54, vector fields on the sphere: the roles of the two matrices are exchanged on the columns `2m+1`, `2m+2` of order `m`. -/
theorem C54_sphv (hP : PlanOK geomSph (2 * N - 1) N P) (hM : M % 2 = 1) (hM1 : 3 ≤ M) (hM2 : M ≤ 2 * N - 1) :
    RotatesThen (Choice.OK P.szB) N M geomSph P.RP parity ordPairV (fun x => Sphv2fourier x false P N M) (byParity ordPair N P.P1 P.P0) := by
  have hN := hP.pos
  exact rotatesThen_of hP.n (by omega) (Or.inl rfl) hP.tables parity_nonneg (fun x hx => runSphv_ok hP hM hM1 hM2 x hx true)
    (trmm4_ok (by omega) (by omega) hP.inv1.1 hP.inv0.1) fun x i c _ _ c0 _ => byParity_of (fun c c0 => by unfold ordPair; omega) x i c c0

/-- C54, disk. -/
theorem C54_disk (hP : PlanOK geomDisk (4 * N - 3) N P) (hM : M % 2 = 1) (hM1 : 1 ≤ M) (hM2 : M ≤ 4 * N - 3) :
    RotatesThen (Choice.OK P.szB) N M geomDisk P.RP parity ordPair (fun x => Disk2cxf x false P N M) (byParity ordPair N P.P0 P.P1) := by
  have hN := hP.pos
  exact rotatesThen_of hP.n (by omega) (Or.inr (Or.inr (Or.inl rfl))) hP.tables parity_nonneg (fun x hx => runDisk_ok hP hM hM1 hM2 x hx true)
    (trmm4_ok (by omega) (by omega) hP.inv0.1 hP.inv1.1) fun x i c _ _ c0 _ => byParity_of (fun c c0 => by unfold ordPair; omega) x i c c0

open Classical in
/-- `P` if the conversion is needed, the identity otherwise. -/
noncomputable def convMat (c : Prop) (N : Int) (P : Buf K) (i j : Int) : K := if c then mat N P i j else if i = j then 1 else 0

theorem maybe_left {c : Prop} {Q : Buf K} (x : Int → Int → K) {i : Int} (j : Int) (i0 : 0 ≤ i) (i1 : i < N) :
    maybeOp c (colOp (matF (fun _ => opU false Q N) N)) x i j = sumTo N fun a => convMat c N Q i a * x a j := by
  by_cases hc : c
  · simp only [maybeOp, hc, if_true, convMat]; rfl
  · simp only [maybeOp, hc, if_false, convMat, ite_mul, one_mul, zero_mul, eq_comm (a := i)]
    exact (sumTo_delta i0 i1 fun a => x a j).symm

theorem maybe_right {c : Prop} {Q : Buf K} (x : Int → Int → K) (i : Int) {j : Int} (j0 : 0 ≤ j) (j1 : j < M) :
    maybeOp c (rightOp (opU true Q N) M) x i j = sumTo M fun b => convMat c N Q j b * x i b := by
  by_cases hc : c
  · simp only [maybeOp, hc, if_true, convMat]; exact sumTo_congr fun b _ _ => mul_comm _ _
  · simp only [maybeOp, hc, if_false, convMat, ite_mul, one_mul, zero_mul, eq_comm (a := j)]
    exact (sumTo_delta j0 j1 fun b => x i b).symm

/-- C54, triangle: conversion with `P0` along the first axis unless `β+γ = -3/2` and `α = -1/2`, with `P1` along the second unless `β = γ = -1/2`,
and the normalisation of C39. -/
theorem C54_tri (hP : PlanOK geomTri N N P) (hM1 : 1 ≤ M) (hM2 : M ≤ N) (p : TriPar K) :
    RotatesThen (Choice.OK P.szB) N M geomTri P.RP (fun _ => 0) (fun c => c) (fun x => Tri2cheb x false p P N M) (fun R i j =>
      (∑ b ∈ Finset.range M.toNat, convMat (p.c ≠ p.mhalf ∨ p.b ≠ p.mhalf) N P.P1 j b *
        ∑ a ∈ Finset.range N.toNat, convMat (p.b + p.c ≠ 3 * p.mhalf ∨ p.a ≠ p.mhalf) N P.P0 i a * R a b) * (edge2 p.s12 i j * p.ip)) := by
  have hN := hP.pos
  refine rotatesThen_of hP.n (by omega) (Or.inr (Or.inl rfl)) hP.tables (fun _ => le_refl _) (fun x hx => runTri_ok hP (by omega) hM2 x hx true)
    (triD_ok hP hM1 hM2 p false) fun x i c i0 i1 c0 c1 => ?_
  simp only [triD, Bool.false_eq_true, if_false, diagOp]
  rw [maybe_right _ _ c0 c1]
  congr 1
  · exact sumTo_congr fun b _ _ => congrArg _ (maybe_left x b i0 i1)
  · unfold wt2 edge2
    congr 1
    by_cases hi : i = 0 <;> by_cases hj : c = 0 <;> simp [hi, hj]

/-- C54, rectangularised disk: even columns with `P0`, odd columns with `P1`, then `P2` along the second axis. -/
theorem C54_rectdisk (hP : PlanOK geomRect N N P) (hi : InversePair N P.P2 P.Q2) (hM1 : 0 ≤ M) (hM2 : M ≤ N) :
    RotatesThen (fun T : Nat => 0 < T) N M geomRect P.RP parity (fun c => c) (fun T => Rectdisk2cheb T false P N M) (fun R i j =>
      ∑ b ∈ Finset.range M.toNat, mat N P.P2 j b * byParity (fun c => c) N P.P0 P.P1 R i b) := by
  have hN := hP.pos
  refine rotatesThen_of hP.n (by omega) (Or.inr (Or.inr (Or.inr rfl))) hP.tables parity_nonneg (fun T hT => runRect_ok hP T hT true)
    (rectD_ok hP hi hM1 hM2 false) fun x i c i0 i1 c0 c1 => ?_
  simp only [rectD, Bool.false_eq_true, if_false]
  show sumTo M _ = sumTo M (fun b => mat N P.P2 c b * byParity (fun c => c) N P.P0 P.P1 x i b)
  refine sumTo_congr fun b b0 b1 => (mul_comm _ _).trans ?_
  congr 1
  unfold colOp matF byParity sumTo
  refine Finset.sum_congr rfl fun l _ => ?_
  congr 1
  unfold sel2
  split_ifs <;> rfl

/-- The hypotheses are met by a concrete plan (tables of quarter turns, matrices `[[1,1],[0,1]]`, see `planEx`). -/
example : PlanOK geomSph (2 * 2 - 1) 2 planEx := planEx_ok (by decide) (by decide)

end FT.Props
