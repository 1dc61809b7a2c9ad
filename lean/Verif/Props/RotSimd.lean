import Verif.Lemmas.RotSimd5
import Verif.Props.Rotations

/-!
# Property C08: the cache-blocked SIMD rotation kernels equal the scalar kernels
-/

namespace FT.Props
open FT
variable {K : Type*} [CommRing K]

/-- The vector kernels that exist: sphere, triangle, disk. -/
def IsVGeom (V : VGeom) : Prop := V = vgSph ∨ V = vgTri ∨ V = vgDisk

/-- Specification: the scalar kernel on every one of the `VS` lanes, one lane after the other.  Lane `e` starts at `o + e`; on
the sphere and the disk two neighbouring lanes share an order (`m2, m2, m2+2, m2+2, …`), on the triangle each lane has its
own (`m2, m2+1, …`). -/
def perLane (k : Int → Int → Buf K → Option (Buf K)) (V : VGeom) (VS : Nat) (m2 o : Int) : Buf K → Option (Buf K) :=
  forUp 0 VS (fun e => k (m2 + (if V.per = 1 then e else 2 * (e / 2))) (o + e))

theorem isV_geom {V : VGeom} (h : IsVGeom V) : IsGeom V.G := by
  rcases h with rfl | rfl | rfl
  · exact Or.inl rfl
  · exact Or.inr (Or.inl rfl)
  · exact Or.inr (Or.inr (Or.inl rfl))

theorem isV_cases {V : VGeom} (h : IsVGeom V) : (V.G.jst = 1 ∨ V.G.jst = 2) ∧ (V.G.g = 1 ∨ V.G.g = 2) ∧ 0 ≤ V.slack ∧ 0 < V.per ∧
    (∀ VS : Nat, 2 ∣ VS → V.per ∣ (VS : Int)) := by
  rcases h with rfl | rfl | rfl
  · exact ⟨Or.inr rfl, Or.inr rfl, le_refl _, by decide, fun VS h => by show (2 : Int) ∣ _; omega⟩
  · exact ⟨Or.inl rfl, Or.inl rfl, le_refl _, by decide, fun VS h => by show (1 : Int) ∣ _; omega⟩
  · exact ⟨Or.inr rfl, Or.inl rfl, by decide, by decide, fun VS h => by show (2 : Int) ∣ _; omega⟩

theorem perLane_eq {V : VGeom} (h : IsVGeom V) (k : Int → Int → Buf K → Option (Buf K)) (VS : Nat) (m2 o : Int) :
    perLane k V VS m2 o = forUp 0 VS (fun e => k (m2 + V.G.jst * (e / V.per)) (o + e)) := by
  unfold perLane
  rcases h with rfl | rfl | rfl <;> simp [vgSph, vgTri, vgDisk, geomSph, geomTri, geomDisk]

/-- The lanes of the packed block: `n` rows of `VS` entries, `S` apart. -/
def LanesFit (VS : Nat) (n o S : Int) (A : Buf K) : Prop := 0 ≤ o ∧ 0 < S ∧ (VS : Int) ≤ S ∧ o + (n - 1) * S + VS ≤ A.size

/-- C08, `hi2lo`: for every size, every tile length `L ≥ 1`, every even number of lanes, all orders `0 ≤ m1 ≤ m2`, whatever
the uninitialised registers contain, the vector kernel succeeds (no access outside tables, registers or the packed rows) and
gives exactly the buffer obtained by running the scalar kernel on every lane; nothing outside the packed rows changes. -/
theorem C08_hi2lo_simd_eq_scalar {V : VGeom} (hV : IsVGeom V) (L : Int) (hL : 1 ≤ L) (VS : Nat) (hVS : 2 ∣ VS)
    (junk : Int → Int → K) (RP : RotPlan K) (hs : tableSize V.G RP.n ≤ RP.s.size) (hc : tableSize V.G RP.n ≤ RP.c.size)
    (m1 m2 o S : Int) (hm : 0 ≤ m1) (hm2 : m1 ≤ m2) (A : Buf K) (hA : LanesFit VS RP.n o S A) :
    ∃ A', kernelVHi2lo V L VS junk RP m1 m2 o S A = some A' ∧
      perLane (fun m2 o => kernelHi2lo V.G RP m1 m2 o S) V VS m2 o A = some A' ∧ A'.size = A.size ∧
      ∀ i, (∀ k e : Int, 0 ≤ k → k < RP.n → 0 ≤ e → e < VS → i ≠ o + e + k * S) → A'.val i = A.val i := by
  obtain ⟨hj, hg, hsl, hper, hdv⟩ := isV_cases hV
  have hG := isGeom_ok (isV_geom hV)
  have hI := inB_of_size (isV_geom hV) hs hc
  obtain ⟨h0, hS, hvs, htop⟩ := hA
  have e := kernelVHi2lo_eq hG hI hj hg (by omega : 0 < L) hsl hper (hdv VS hVS) hm hm2 (A := A) ⟨hvs, h0, hS, htop⟩ junk
  rw [e, perLane_eq hV, forUp_exec]
  suffices hx : ∃ A', exec (fun e => kernelHi2lo V.G RP m1 (m2 + V.G.jst * (e / V.per)) (o + e) S) (rUp 0 VS) A = some A' ∧ A'.size = A.size ∧
      ∀ i, (∀ k e : Int, 0 ≤ k → k < RP.n → 0 ≤ e → e < VS → i ≠ o + e + k * S) → A'.val i = A.val i by
    obtain ⟨A', h1, h2⟩ := hx
    exact ⟨A', h1, h1, h2⟩
  refine exec_total (fun B : Buf K => B.size = A.size ∧
      ∀ i, (∀ k e : Int, 0 ≤ k → k < RP.n → 0 ≤ e → e < VS → i ≠ o + e + k * S) → B.val i = A.val i) ⟨rfl, fun _ _ => rfl⟩ ?_
  rintro e he B ⟨hB, hBv⟩
  obtain ⟨he0, he1⟩ := mem_rUp.1 he
  have hF : Fits RP.n (o + e) S B := ⟨hS, by omega, by rw [hB]; omega⟩
  obtain ⟨C, e1, h1⟩ := kernelHi2lo_total (m2 := m2 + V.G.jst * (e / V.per)) hG hI hm hF
  refine ⟨C, e1, by omega, fun i hi => ?_⟩
  rw [kernelHi2lo_frame hG hI hm hF e1 i (fun k a b => hi k e a (by omega) he0 he1), hBv i hi]

/-- The orders for which the `lo2hi` kernels may be called: those of a column of the geometry. -/
def OrderOK (V : VGeom) (n m2 : Int) : Prop :=
  (V = vgSph → m2 ≤ n - 1) ∧ (V = vgTri → m2 ≤ n) ∧ (V = vgDisk → m2 / 2 ≤ n - 1)

/-- C08, `lo2hi`: as above, for orders of the geometry (`m2 ≤ n-1`, `n`, `2n-1`) with `m2 - m1` a multiple of the order step. -/
theorem C08_lo2hi_simd_eq_scalar {V : VGeom} (hV : IsVGeom V) (L : Int) (hL : 1 ≤ L) (VS : Nat) (hVS : 2 ∣ VS) (hVS0 : 0 < VS)
    (junk : Int → Int → K) (RP : RotPlan K) (hs : tableSize V.G RP.n ≤ RP.s.size) (hc : tableSize V.G RP.n ≤ RP.c.size)
    (m1 m2 o S : Int) (hm : 0 ≤ m1) (hm2 : m1 ≤ m2) (hd : V.G.jst ∣ m2 - m1) (ho : OrderOK V RP.n m2) (A : Buf K)
    (hA : LanesFit VS RP.n o S A) :
    ∃ A', kernelVLo2hi V L VS junk RP m1 m2 o S A = some A' ∧
      perLane (fun m2 o => kernelLo2hi V.G RP m1 m2 o S) V VS m2 o A = some A' ∧ A'.size = A.size ∧
      ∀ i, (∀ k e : Int, 0 ≤ k → k < RP.n → 0 ≤ e → e < VS → i ≠ o + e + k * S) → A'.val i = A.val i := by
  obtain ⟨hj, hg, hsl, hper, hdv⟩ := isV_cases hV
  have hG := isGeom_ok (isV_geom hV)
  have hI := inB_of_size (isV_geom hV) hs hc
  obtain ⟨h0, hS, hvs, htop⟩ := hA
  have hto : ∀ j, m1 ≤ j → j < m2 - V.G.jst * L - V.G.jst * VS + 2 * V.G.jst → V.G.g * L ≤ V.G.top RP.n j + 1 := by
    intro j h1 h2
    obtain ⟨q, hq⟩ := hVS
    rcases hV with rfl | rfl | rfl
    · have := ho.1 rfl
      simp only [vgSph, geomSph] at *
      omega
    · have := ho.2.1 rfl
      simp only [vgTri, geomTri] at *
      omega
    · have := ho.2.2 rfl
      simp only [vgDisk, geomDisk] at *
      omega
  have e := kernelVLo2hi_eq hG hI hj hg (by omega : 0 < L) hper (by omega) (hdv VS hVS) hm hm2 hd hto (A := A) ⟨hvs, h0, hS, htop⟩ junk
  rw [e, perLane_eq hV, forUp_exec]
  suffices hx : ∃ A', exec (fun e => kernelLo2hi V.G RP m1 (m2 + V.G.jst * (e / V.per)) (o + e) S) (rUp 0 VS) A = some A' ∧ A'.size = A.size ∧
      ∀ i, (∀ k e : Int, 0 ≤ k → k < RP.n → 0 ≤ e → e < VS → i ≠ o + e + k * S) → A'.val i = A.val i by
    obtain ⟨A', h1, h2⟩ := hx
    exact ⟨A', h1, h1, h2⟩
  refine exec_total (fun B : Buf K => B.size = A.size ∧
      ∀ i, (∀ k e : Int, 0 ≤ k → k < RP.n → 0 ≤ e → e < VS → i ≠ o + e + k * S) → B.val i = A.val i) ⟨rfl, fun _ _ => rfl⟩ ?_
  rintro e he B ⟨hB, hBv⟩
  obtain ⟨he0, he1⟩ := mem_rUp.1 he
  have hF : Fits RP.n (o + e) S B := ⟨hS, by omega, by rw [hB]; omega⟩
  obtain ⟨C, e1, h1⟩ := kernelLo2hi_total (m2 := m2 + V.G.jst * (e / V.per)) hG hI hm hF
  refine ⟨C, e1, by omega, fun i hi => ?_⟩
  rw [kernelLo2hi_frame hG hI hm hF e1 i (fun k a b => hi k e a (by omega) he0 he1), hBv i hi]

/-- C08, builds without the instruction set: the pair fallback is the scalar kernel on two lanes, for any kernel `k`. -/
theorem C08_pair_fallback {V : VGeom} (hV : IsVGeom V) (k : Int → Int → Buf K → Option (Buf K)) (m2 o : Int) (A : Buf K) :
    kernelPair V k m2 o A = perLane k V 2 m2 o A := by
  have e : rUp 0 ((2 : Nat) : Int) = [0, 1] := by decide
  unfold kernelPair perLane
  rw [forUp_exec, e, exec_cons]
  have h2 : m2 + (if V.per = 1 then 1 else 2 * ((1 : Int) / 2)) = if V.per = 1 then m2 + 1 else m2 := by
    split_ifs <;> simp
  have h1 : m2 + (if V.per = 1 then 0 else 2 * ((0 : Int) / 2)) = m2 := by simp
  simp only [Int.add_zero]
  rw [h1]
  congr 1; funext B
  rw [exec_singleton, h2]

/-- C08, builds without the instruction set: calling the half-width kernel at `(m2, A)` and `(m2+W, A+W)` runs the scalar
kernel on all `2W` lanes. -/
theorem C08_split_fallback {V : VGeom} (hV : IsVGeom V) (k : Int → Int → Buf K → Option (Buf K)) (W : Nat) (hW : 2 ∣ W) (m2 o : Int)
    (A : Buf K) : kernelSplit W (perLane k V W) m2 o A = perLane k V (2 * W) m2 o A := by
  unfold kernelSplit perLane forUp
  simp only [Int.sub_zero, Int.toNat_natCast, Int.zero_add]
  rw [Nat.two_mul, loop_add]
  congr 1; funext B
  apply loop_congr
  intro t _ C
  have e2 : m2 + (W : Int) + (if V.per = 1 then (t : Int) else 2 * ((t : Int) / 2)) =
      m2 + (if V.per = 1 then ((W + t : Nat) : Int) else 2 * (((W + t : Nat) : Int) / 2)) := by
    push_cast
    split_ifs
    · ring
    · omega
  rw [e2]
  push_cast
  rw [Int.add_assoc o]

/-- The hypotheses are met by the call the AVX sphere driver makes for `n = 20`, orders 7, 9 and tile length 3, with arbitrary tables. -/
example (s c : Int → Rat) (junk : Int → Int → Rat) (v : Int → Rat) : ∃ A',
    kernelVHi2lo vgSph 3 4 junk ⟨⟨210, s⟩, ⟨210, c⟩, 20⟩ 1 7 5 4 ⟨100, v⟩ = some A' := by
  obtain ⟨A', h, _⟩ := C08_hi2lo_simd_eq_scalar (V := vgSph) (Or.inl rfl) 3 (by decide) 4 (by decide) junk ⟨⟨210, s⟩, ⟨210, c⟩, 20⟩
    (by simp only; decide) (by simp only; decide) 1 7 5 4 (by decide) (by decide) ⟨100, v⟩ ⟨by decide, by decide, by decide, by simp only; decide⟩
  exact ⟨A', h⟩

example (s c : Int → Rat) (junk : Int → Int → Rat) (v : Int → Rat) : ∃ A',
    kernelVLo2hi vgDisk 3 8 junk ⟨⟨400, s⟩, ⟨400, c⟩, 20⟩ 1 37 5 8 ⟨170, v⟩ = some A' := by
  obtain ⟨A', h, _⟩ := C08_lo2hi_simd_eq_scalar (V := vgDisk) (Or.inr (Or.inr rfl)) 3 (by decide) 8 (by decide) (by decide) junk
    ⟨⟨400, s⟩, ⟨400, c⟩, 20⟩ (by simp only; decide) (by simp only; decide) 1 37 5 8 (by decide) (by decide) (by decide)
    ⟨fun h => by simp [vgDisk, vgSph] at h, fun h => by simp [vgDisk, vgTri] at h, fun _ => by simp only; decide⟩ ⟨170, v⟩
    ⟨by decide, by decide, by decide, by simp only; decide⟩
  exact ⟨A', h⟩

end FT.Props
