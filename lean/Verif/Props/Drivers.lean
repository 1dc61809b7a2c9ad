import Verif.Lemmas.DriversSimd
import Verif.Props.RotSimd

/-!
# Properties C09, C10: the drivers that apply the rotation kernels to all columns

Threads are programs of single memory accesses (`Prog`), executed in any interleaving.  `ParEnds T P A A'` says: for every schedule of the
`T` threads no access is undefined, whenever all threads have finished the memory is `A'`, and some schedule does finish them.
-/

namespace FT.Props
open FT FT.Permute
variable {K : Type*} [CommRing K]

/-- Specification: one after the other, column `c` (at `o + N*c`, contiguous) is rotated between order `base (ord c)` and order `ord c`
by the scalar kernel. -/
def columnwise (d : Bool) (G : Geom) (RP : RotPlan K) (base ord : Int → Int) (o M : Int) (A : Buf K) : Option (Buf K) :=
  forUp 0 M (fun c => if d then kernelHi2lo G RP (base (ord c)) (ord c) (o + RP.n * c) 1 else kernelLo2hi G RP (base (ord c)) (ord c) (o + RP.n * c) 1) A

theorem columnwise_eq (d : Bool) (G : Geom) (RP : RotPlan K) (base ord : Int → Int) (o M : Int) (A : Buf K) :
    columnwise d G RP base ord o M A = colSpec d G RP (fun c => base (ord c)) ord o M A := rfl

/-- Orders of the columns on the sphere and the disk: 0, 1, 1, 2, 2, … -/
def ordPair (c : Int) : Int := (c + 1) / 2
/-- Orders of the columns of a vector field on the sphere: 0, 0, 0, 1, 1, 2, 2, … -/
def ordPairV (c : Int) : Int := if c ≤ 0 then 0 else (c - 1) / 2
/-- Rotations on the sphere and the disks keep the parity of the order. -/
def parity (m : Int) : Int := m % 2

/-- An array of `M` columns of length `N` at offset `o`. -/
def HoldsCols (N o M : Int) (A : Buf K) : Prop := 0 ≤ N ∧ 0 ≤ o ∧ o + N * M ≤ A.size

/-- The rotation tables of the plan are as long as the planner makes them. -/
def TablesOK (G : Geom) (RP : RotPlan K) : Prop := tableSize G RP.n ≤ RP.s.size ∧ tableSize G RP.n ≤ RP.c.size

section
variable (d : Bool) (RP : RotPlan K) (o M : Int) {T : Nat} (hT : 0 < T) (A : Buf K) (hA : HoldsCols RP.n o M A)
include hT hA

/-- C09/C10, sphere: with any number of threads and any interleaving, the default driver does exactly one rotation of every column, by its
own order, and touches nothing else; `M` odd. -/
theorem C09_sph_default (hR : TablesOK geomSph RP) (hM : M % 2 = 1) :
    ∃ A', ParEnds T (sphThread d RP o M T) A A' ∧ columnwise d geomSph RP parity ordPair o M A = some A' := by
  have hg : IsGeom geomSph := Or.inl rfl
  refine driver_default (isGeom_ok hg) (inB_of_size hg hR.1 hR.2) (fun c => by simp only [parity]; omega) hA.1 hA.2.1 hA.2.2 hT ?_ ?_ ?_
  · intro m hm
    obtain ⟨⟨i, hi⟩, hlt⟩ := (mem_rStep (by omega)).1 hm
    refine ⟨by simp only [List.nodup_cons, List.mem_cons, List.not_mem_nil, or_false, not_false_eq_true, List.nodup_nil, and_true]; omega, fun c hc => ?_⟩
    simp only [List.mem_cons, List.not_mem_nil, or_false] at hc
    have : ordPair c = m := by unfold ordPair; omega
    refine ⟨by omega, by simp only [parity, this], this⟩
  · intro m hm; omega
  · intro c c0 c1
    by_cases h : 3 ≤ c
    · exact Or.inl ⟨ordPair c, (mem_rStep (by omega)).2 ⟨⟨(ordPair c - 2).toNat, by unfold ordPair; omega⟩, by unfold ordPair; omega⟩, by
        simp only [List.mem_cons, List.not_mem_nil, or_false]; unfold ordPair; omega⟩
    · right; simp only [parity, ordPair]; omega

/-- C09/C10, vector fields on the sphere. -/
theorem C09_sphv_default (hR : TablesOK geomSph RP) (hM : M % 2 = 1) :
    ∃ A', ParEnds T (sphvThread d RP o M T) A A' ∧ columnwise d geomSph RP parity ordPairV o M A = some A' := by
  have hg : IsGeom geomSph := Or.inl rfl
  refine driver_default (isGeom_ok hg) (inB_of_size hg hR.1 hR.2) (fun c => by simp only [parity]; omega) hA.1 hA.2.1 hA.2.2 hT ?_ ?_ ?_
  · intro m hm
    obtain ⟨⟨i, hi⟩, hlt⟩ := (mem_rStep (by omega)).1 hm
    refine ⟨by simp only [List.nodup_cons, List.mem_cons, List.not_mem_nil, or_false, not_false_eq_true, List.nodup_nil, and_true]; omega, fun c hc => ?_⟩
    simp only [List.mem_cons, List.not_mem_nil, or_false] at hc
    have : ordPairV c = m := by unfold ordPairV; rw [if_neg (by omega)]; omega
    refine ⟨by omega, by simp only [parity, this], this⟩
  · intro m hm; omega
  · intro c c0 c1
    by_cases h : 5 ≤ c
    · have e : ordPairV c = (c - 1) / 2 := by unfold ordPairV; rw [if_neg (by omega)]
      exact Or.inl ⟨ordPairV c, (mem_rStep (by omega)).2 ⟨⟨(ordPairV c - 2).toNat, by omega⟩, by omega⟩, by
        simp only [List.mem_cons, List.not_mem_nil, or_false]; omega⟩
    · right; simp only [parity, ordPairV]; split_ifs <;> omega

/-- C09/C10, triangle: every `M`. -/
theorem C09_tri_default (hR : TablesOK geomTri RP) :
    ∃ A', ParEnds T (triThread d RP o M T) A A' ∧ columnwise d geomTri RP (fun _ => 0) (fun c => c) o M A = some A' := by
  have hg : IsGeom geomTri := Or.inr (Or.inl rfl)
  refine driver_default (isGeom_ok hg) (inB_of_size hg hR.1 hR.2) (fun c => le_refl _) hA.1 hA.2.1 hA.2.2 hT ?_ ?_ ?_
  · intro m hm
    obtain ⟨⟨i, hi⟩, hlt⟩ := (mem_rStep (by omega)).1 hm
    refine ⟨by simp, fun c hc => ?_⟩
    simp only [List.mem_cons, List.not_mem_nil, or_false] at hc
    exact ⟨by omega, rfl, hc⟩
  · intro m hm; omega
  · intro c c0 c1
    by_cases h : 1 ≤ c
    · exact Or.inl ⟨c, (mem_rStep (by omega)).2 ⟨⟨(c - 1).toNat, by omega⟩, by omega⟩, by simp⟩
    · right; omega

/-- C09/C10, disk; `M` odd. -/
theorem C09_disk_default (hR : TablesOK geomDisk RP) (hM : M % 2 = 1) :
    ∃ A', ParEnds T (diskThread d RP o M T) A A' ∧ columnwise d geomDisk RP parity ordPair o M A = some A' := by
  have hg : IsGeom geomDisk := Or.inr (Or.inr (Or.inl rfl))
  refine driver_default (isGeom_ok hg) (inB_of_size hg hR.1 hR.2) (fun c => by simp only [parity]; omega) hA.1 hA.2.1 hA.2.2 hT ?_ ?_ ?_
  · intro m hm
    obtain ⟨⟨i, hi⟩, hlt⟩ := (mem_rStep (by omega)).1 hm
    refine ⟨by simp only [List.nodup_cons, List.mem_cons, List.not_mem_nil, or_false, not_false_eq_true, List.nodup_nil, and_true]; omega, fun c hc => ?_⟩
    simp only [List.mem_cons, List.not_mem_nil, or_false] at hc
    have : ordPair c = m := by unfold ordPair; omega
    refine ⟨by omega, by simp only [parity, this], this⟩
  · intro m hm; omega
  · intro c c0 c1
    by_cases h : 3 ≤ c
    · exact Or.inl ⟨ordPair c, (mem_rStep (by omega)).2 ⟨⟨(ordPair c - 2).toNat, by unfold ordPair; omega⟩, by unfold ordPair; omega⟩, by
        simp only [List.mem_cons, List.not_mem_nil, or_false]; unfold ordPair; omega⟩
    · right; simp only [parity, ordPair]; omega

/-- C09/C10, rectangularised disk: every `M`. -/
theorem C09_rectdisk_default (hR : TablesOK geomRect RP) :
    ∃ A', ParEnds T (rectThread d RP o M T) A A' ∧ columnwise d geomRect RP parity (fun c => c) o M A = some A' := by
  have hg : IsGeom geomRect := Or.inr (Or.inr (Or.inr rfl))
  refine driver_default (isGeom_ok hg) (inB_of_size hg hR.1 hR.2) (fun c => by simp only [parity]; omega) hA.1 hA.2.1 hA.2.2 hT ?_ ?_ ?_
  · intro m hm
    obtain ⟨⟨i, hi⟩, hlt⟩ := (mem_rStep (by omega)).1 hm
    refine ⟨by simp, fun c hc => ?_⟩
    simp only [List.mem_cons, List.not_mem_nil, or_false] at hc
    exact ⟨by omega, by simp only [parity, hc], hc⟩
  · intro m hm; omega
  · intro c c0 c1
    by_cases h : 2 ≤ c
    · exact Or.inl ⟨c, (mem_rStep (by omega)).2 ⟨⟨(c - 2).toNat, by omega⟩, by omega⟩, by simp⟩
    · right; simp only [parity]; omega

end

/-! ## The vector drivers -/

section
variable (d : Bool) (isa : Isa) (RP : RotPlan K) (o M : Int) {T : Nat} (hT : 0 < T) (L : Int) (hL : 1 ≤ L) (S e : Nat)
  (hS : S = 2 ^ (e + 1)) (junk : Int → Int → K) (A B : Buf K) (hA : HoldsCols RP.n o M A) (hB : HoldsCols RP.n o M B)
include hT hL hS hA hB

/-- C09/C10, sphere, vector driver with `S` lanes: warp, pack, serial head, parallel vector kernels, unpack, warp back gives, for every
thread count and schedule, exactly the columnwise rotation.  For `lo2hi` the array must not have more columns than `2N-1`. -/
theorem C09_sph_simd (hR : TablesOK geomSph RP) (hM : M % 2 = 1) (hM1 : 1 ≤ M) (hlo : d = false → M ≤ 2 * RP.n - 1) :
    (∃ A' B', SimdPair d vgSph isa T L S junk RP o M A B A' B' ∧ columnwise d geomSph RP parity ordPair o M A = some A') ∧
    ∀ A' B', SimdPair d vgSph isa T L S junk RP o M A B A' B' → columnwise d geomSph RP parity ordPair o M A = some A' := by
  have hg : IsGeom geomSph := Or.inl rfl
  have key : ∃ A' B', SimdPair d vgSph isa T L S junk RP o M A B A' B' ∧ columnwise d geomSph RP parity ordPair o M A = some A' := by
    have hSi : (S : Int) = 2 * 2 ^ e := by rw [hS]; push_cast; rw [pow_succ]; ring
    have : (0 : Int) < 2 ^ e := by positivity
    refine simdPair_spec (V := vgSph) (isGeom_ok hg) (inB_of_size hg hR.1 hR.2) rfl (Or.inr rfl) (by omega) (le_refl _) rfl d isa hT
      hSi junk hA.2.1 hA.1 hM1 hM ?_ hA.2.2 hB.2.2
    intro hd m m0 m1 j j0 j1
    have := hlo hd
    simp only [vgSph, geomSph]
    omega
  refine ⟨key, fun A' B' h => ?_⟩
  obtain ⟨X, Y, h1, h2⟩ := key
  rw [h2, h1.unique h]

/-- C09/C10, disk, vector driver.  For `lo2hi` not more than `4N-3` columns. -/
theorem C09_disk_simd (hR : TablesOK geomDisk RP) (hM : M % 2 = 1) (hM1 : 1 ≤ M) (hlo : d = false → M ≤ 4 * RP.n - 3) :
    (∃ A' B', SimdPair d vgDisk isa T L S junk RP o M A B A' B' ∧ columnwise d geomDisk RP parity ordPair o M A = some A') ∧
    ∀ A' B', SimdPair d vgDisk isa T L S junk RP o M A B A' B' → columnwise d geomDisk RP parity ordPair o M A = some A' := by
  have hg : IsGeom geomDisk := Or.inr (Or.inr (Or.inl rfl))
  have key : ∃ A' B', SimdPair d vgDisk isa T L S junk RP o M A B A' B' ∧ columnwise d geomDisk RP parity ordPair o M A = some A' := by
    have hSi : (S : Int) = 2 * 2 ^ e := by rw [hS]; push_cast; rw [pow_succ]; ring
    have : (0 : Int) < 2 ^ e := by positivity
    refine simdPair_spec (V := vgDisk) (isGeom_ok hg) (inB_of_size hg hR.1 hR.2) rfl (Or.inl rfl) (by omega) (by decide) rfl d isa hT
      hSi junk hA.2.1 hA.1 hM1 hM ?_ hA.2.2 hB.2.2
    intro hd m m0 m1 j j0 j1
    have := hlo hd
    simp only [vgDisk, geomDisk]
    omega
  refine ⟨key, fun A' B' h => ?_⟩
  obtain ⟨X, Y, h1, h2⟩ := key
  rw [h2, h1.unique h]

/-- C09/C10, triangle, vector driver; every `M` (for `lo2hi` `M ≤ N`). -/
theorem C09_tri_simd (hR : TablesOK geomTri RP) (hM : 0 ≤ M) (hlo : d = false → M ≤ RP.n) :
    (∃ A' B', SimdTri d T L S junk RP o M A B A' B' ∧ columnwise d geomTri RP (fun _ => 0) (fun c => c) o M A = some A') ∧
    ∀ A' B', SimdTri d T L S junk RP o M A B A' B' → columnwise d geomTri RP (fun _ => 0) (fun c => c) o M A = some A' := by
  have hg : IsGeom geomTri := Or.inr (Or.inl rfl)
  have key : ∃ A' B', SimdTri d T L S junk RP o M A B A' B' ∧ columnwise d geomTri RP (fun _ => 0) (fun c => c) o M A = some A' := by
    have h2 : 2 ≤ S := by
      rw [hS, pow_succ]
      have := Nat.one_le_two_pow (n := e)
      omega
    refine simdTri_spec (isGeom_ok hg) (inB_of_size hg hR.1 hR.2) (by omega) d hT (by omega) junk hA.2.1 hA.1 hM ?_ hA.2.2 hB.2.2
    intro hd m m0 m1 j j0 j1
    have := hlo hd
    simp only [geomTri]
    omega
  refine ⟨key, fun A' B' h => ?_⟩
  obtain ⟨X, Y, h1, h2⟩ := key
  rw [h2, h1.unique h]

/-- C09/C10, vector fields on the sphere, vector driver. -/
theorem C09_sphv_simd (hR : TablesOK geomSph RP) (hM : M % 2 = 1) (hM1 : 3 ≤ M) (hlo : d = false → M ≤ 2 * RP.n + 1) :
    (∃ A' B', SimdSphv d isa T L S junk RP o M A B A' B' ∧ columnwise d geomSph RP parity ordPairV o M A = some A') ∧
    ∀ A' B', SimdSphv d isa T L S junk RP o M A B A' B' → columnwise d geomSph RP parity ordPairV o M A = some A' := by
  have hg : IsGeom geomSph := Or.inl rfl
  have hG := isGeom_ok hg
  have hI := inB_of_size hg hR.1 hR.2
  have e0 : o + 2 * RP.n + RP.n * (M - 2) = o + RP.n * M := by ring
  have hN := hA.1
  have hA' : HoldsCols RP.n (o + 2 * RP.n) (M - 2) A := ⟨hA.1, by have := hA.2.1; omega, by rw [e0]; exact hA.2.2⟩
  have hB' : HoldsCols RP.n (o + 2 * RP.n) (M - 2) B := ⟨hA.1, by have := hA.2.1; omega, by rw [e0]; exact hB.2.2⟩
  obtain ⟨⟨A', B', h1, h2⟩, -⟩ := C09_sph_simd d isa RP (o + 2 * RP.n) (M - 2) hT L hL S e hS junk A B hA' hB' hR (by omega) (by omega)
    (fun hd => by have := hlo hd; omega)
  have key : columnwise d geomSph RP parity ordPairV o M A = some A' := by
    obtain ⟨X, eX, mX⟩ := colSpec_mapped (d := d) hG hI (m1 := fun c => parity (ordPair c)) (ord := ordPair) (fun c => by simp only [parity]; omega) hN hA'.2.1 hA'.2.2
    obtain ⟨Y, eY, mY⟩ := colSpec_mapped (d := d) hG hI (m1 := fun c => parity (ordPairV c)) (ord := ordPairV) (fun c => by simp only [parity]; omega) hN hA.2.1 hA.2.2
    rw [columnwise_eq, eX] at h2
    cases h2
    rw [columnwise_eq, eY]
    have hpos : ∀ k c, posA (o + 2 * RP.n) RP.n k c = posA o RP.n k (c + 2) := by intro k c; unfold posA; ring
    have hF : ∀ c, 0 ≤ c → ordF d geomSph RP (fun c => parity (ordPair c)) ordPair c = ordF d geomSph RP (fun c => parity (ordPairV c)) ordPairV (c + 2) := by
      intro c c0
      have : ordPairV (c + 2) = ordPair c := by unfold ordPairV ordPair; rw [if_neg (by omega)]; omega
      unfold ordF
      simp only [this]
    have mX' : Mapped (ordF d geomSph RP (fun c => parity (ordPairV c)) ordPairV) RP.n (posA o RP.n) (fun c => 2 ≤ c ∧ c < M) A A' := by
      refine ⟨mX.1, ?_, ?_⟩
      · intro c hc k k0 k1
        have := mX.2.1 (c - 2) ⟨by omega, by omega⟩ k k0 k1
        rw [hF _ (by omega)] at this
        simp only [hpos, show c - 2 + 2 = c by omega] at this
        exact this
      · intro i hi
        refine mX.2.2 i fun c k hc k0 k1 => ?_
        rw [hpos]
        exact hi (c + 2) k ⟨by omega, by omega⟩ k0 k1
    have := mX'.extend (D := fun _ => True) (C' := fun c => 0 ≤ c ∧ c < M) (posA_inj _ _ _) (fun c hc => ⟨by omega, hc.2⟩) (fun _ _ => trivial)
      (by
        rintro c ⟨c0, c1⟩ hn x
        refine colF_id ?_ hG.jst x
        have : ¬ 2 ≤ c := fun h => hn ⟨h, c1⟩
        simp only [parity, ordPairV]; split_ifs <;> omega)
    rw [Mapped.unique mY this]
  refine ⟨⟨A', B', h1, key⟩, fun X Y h => ?_⟩
  rw [key, SimdPair.unique h1 h]

end

/-- C09: for any two thread counts (and any schedules), all five default drivers leave the same array. -/
theorem C09_thread_count_irrelevant (d : Bool) (RP : RotPlan K) (o M : Int) {T T' : Nat} (hT : 0 < T) (hT' : 0 < T') (A : Buf K)
    (hA : HoldsCols RP.n o M A) :
    (TablesOK geomSph RP → M % 2 = 1 → ∃ A', ParEnds T (sphThread d RP o M T) A A' ∧ ParEnds T' (sphThread d RP o M T') A A') ∧
    (TablesOK geomSph RP → M % 2 = 1 → ∃ A', ParEnds T (sphvThread d RP o M T) A A' ∧ ParEnds T' (sphvThread d RP o M T') A A') ∧
    (TablesOK geomTri RP → ∃ A', ParEnds T (triThread d RP o M T) A A' ∧ ParEnds T' (triThread d RP o M T') A A') ∧
    (TablesOK geomDisk RP → M % 2 = 1 → ∃ A', ParEnds T (diskThread d RP o M T) A A' ∧ ParEnds T' (diskThread d RP o M T') A A') ∧
    (TablesOK geomRect RP → ∃ A', ParEnds T (rectThread d RP o M T) A A' ∧ ParEnds T' (rectThread d RP o M T') A A') := by
  refine ⟨fun h h' => ?_, fun h h' => ?_, fun h => ?_, fun h h' => ?_, fun h => ?_⟩
  · obtain ⟨X, p, e⟩ := C09_sph_default d RP o M hT A hA h h'
    obtain ⟨Y, p', e'⟩ := C09_sph_default d RP o M hT' A hA h h'
    rw [e] at e'; cases e'; exact ⟨X, p, p'⟩
  · obtain ⟨X, p, e⟩ := C09_sphv_default d RP o M hT A hA h h'
    obtain ⟨Y, p', e'⟩ := C09_sphv_default d RP o M hT' A hA h h'
    rw [e] at e'; cases e'; exact ⟨X, p, p'⟩
  · obtain ⟨X, p, e⟩ := C09_tri_default d RP o M hT A hA h
    obtain ⟨Y, p', e'⟩ := C09_tri_default d RP o M hT' A hA h
    rw [e] at e'; cases e'; exact ⟨X, p, p'⟩
  · obtain ⟨X, p, e⟩ := C09_disk_default d RP o M hT A hA h h'
    obtain ⟨Y, p', e'⟩ := C09_disk_default d RP o M hT' A hA h h'
    rw [e] at e'; cases e'; exact ⟨X, p, p'⟩
  · obtain ⟨X, p, e⟩ := C09_rectdisk_default d RP o M hT A hA h
    obtain ⟨Y, p', e'⟩ := C09_rectdisk_default d RP o M hT' A hA h
    rw [e] at e'; cases e'; exact ⟨X, p, p'⟩

/-! ## C10: coverage -/

/-- C10: with `T` threads, thread `t` runs `for (m = lo + st*t; m < hi; m += st*T)`.  Every value of the sequential loop
`for (m = lo; m < hi; m += st)` is taken by exactly one thread, exactly once, and no other value is taken. -/
theorem C10_cyclic_exactly_once {lo hi st : Int} (hst : 0 < st) {T : Nat} (hT : 0 < T) (m : Int) :
    ((∃ k : Nat, m = lo + st * k) ∧ m < hi → ∃! t : Nat, t < T ∧ m ∈ rStep (lo + st * t) hi (st * T)) ∧
    (∀ t, t < T → m ∈ rStep (lo + st * t) hi (st * T) → ((∃ k : Nat, m = lo + st * k) ∧ m < hi) ∧ (rStep (lo + st * t) hi (st * T)).count m = 1) := by
  have hst' : 0 < st * (T : Int) := Int.mul_pos hst (by omega)
  constructor
  · intro h
    obtain ⟨t, ht, hm⟩ := (omp_cover hst hT).1.1 ((mem_rStep hst).2 h)
    exact ⟨t, ⟨ht, hm⟩, fun u hu => (omp_cover hst hT).2 u t hu.1 ht hu.2 hm⟩
  · intro t ht hm
    exact ⟨(mem_rStep hst).1 ((omp_cover hst hT).1.2 ⟨t, ht, hm⟩), List.count_eq_one_of_mem (nodup_rStep hst') hm⟩

theorem exec_none_of {ι σ : Type*} {f : ι → σ → Option σ} (P : σ → Prop) {l : List ι} (hp : ∀ a s s', P s → f a s = some s' → P s')
    {a : ι} (ha : a ∈ l) (hf : ∀ s, P s → f a s = none) {s : σ} (hs : P s) : exec f l s = none := by
  induction l generalizing s with
  | nil => cases ha
  | cons b l ih =>
    rw [exec_cons]
    cases hx : f b s with
    | none => rfl
    | some s' =>
      rw [Option.bind_some]
      rcases List.mem_cons.1 ha with rfl | h
      · rw [hf s hs] at hx; cases hx
      · exact ih h (hp b s s' hs hx)

theorem applyGivens_size {s c : K} {X Y : Int} {A A' : Buf K} (h : applyGivens s c X Y A = some A') : A'.size = A.size := by
  unfold applyGivens at h
  obtain ⟨x, -, h⟩ := Option.bind_eq_some_iff.1 h
  obtain ⟨y, -, h⟩ := Option.bind_eq_some_iff.1 h
  obtain ⟨B, hB, h⟩ := Option.bind_eq_some_iff.1 h
  rw [Buf.wr_eq_some_iff] at hB h
  obtain ⟨-, -, rfl⟩ := hB
  obtain ⟨-, -, rfl⟩ := h
  rfl

theorem applyGivens_oob {s c : K} {X Y : Int} {A : Buf K} (h : (A.size : Int) ≤ X) : applyGivens s c X Y A = none := by
  unfold applyGivens
  rw [Buf.rd_oob (by omega)]; rfl

theorem rot_size {G : Geom} {RP : RotPlan K} {o S k j : Int} {A A' : Buf K} (h : rotAt G RP o S k j A = some A' ∨ rotAtT G RP o S k j A = some A') :
    A'.size = A.size := by
  rcases h with h | h
  · unfold rotAt at h
    obtain ⟨x, -, h⟩ := Option.bind_eq_some_iff.1 h
    obtain ⟨y, -, h⟩ := Option.bind_eq_some_iff.1 h
    exact applyGivens_size h
  · unfold rotAtT at h
    obtain ⟨x, -, h⟩ := Option.bind_eq_some_iff.1 h
    obtain ⟨y, -, h⟩ := Option.bind_eq_some_iff.1 h
    rw [applyGivensT_eq] at h
    exact applyGivens_size h

theorem rot_oob {G : Geom} {RP : RotPlan K} {o k j : Int} {A : Buf K} (hk : 0 ≤ k) (h : (A.size : Int) ≤ o) :
    rotAt G RP o 1 k j A = none ∧ rotAtT G RP o 1 k j A = none := by
  constructor
  · unfold rotAt
    cases RP.s.rd (G.ix RP.n k j) <;> [rfl; cases RP.c.rd (G.ix RP.n k j) <;> [rfl; exact applyGivens_oob (by omega)]]
  · unfold rotAtT
    cases RP.s.rd (G.ix RP.n k j) <;> [rfl; cases RP.c.rd (G.ix RP.n k j) <;> [rfl; (show applyGivensT _ _ _ _ _ = none; rw [applyGivensT_eq]; exact applyGivens_oob (by omega))]]

theorem kern_size {d : Bool} {G : Geom} {RP : RotPlan K} {m1 m2 o S : Int} {A A' : Buf K} (h : kern d G RP m1 m2 o S A = some A') : A'.size = A.size := by
  unfold kern at h
  cases d
  · simp only [Bool.false_eq_true, if_false, kernelLo2hi_exec] at h
    exact exec_preserves (fun B : Buf K => B.size = A.size) rfl (fun a _ s s' hs e => (rot_size (Or.inr e)).trans hs) h
  · simp only [if_true, kernelHi2lo_exec] at h
    exact exec_preserves (fun B : Buf K => B.size = A.size) rfl (fun a _ s s' hs e => (rot_size (Or.inl e)).trans hs) h

/-- A rotation of order `m ≥ 2` (parity kept) of a column behind the end of the array is undefined. -/
theorem kern_oob {d : Bool} {G : Geom} {RP : RotPlan K} {m o : Int} {A : Buf K} (hj : G.jst = 2) (hm : 2 ≤ m) (ht : 0 ≤ G.top RP.n (m % 2))
    (h : (A.size : Int) ≤ o) : kern d G RP (m % 2) m o 1 A = none := by
  unfold kern
  cases d
  · simp only [Bool.false_eq_true, if_false, kernelLo2hi_exec]
    have hmem : (m % 2, 0) ∈ loOps G RP.n (m % 2) m := (mem_loOps (by omega)).2 ⟨⟨0, by omega⟩, by omega, le_refl _, ht⟩
    refine exec_none_of (fun B : Buf K => B.size = A.size) (fun a s s' hs e => (rot_size (Or.inr e)).trans hs) hmem (fun B hB => ?_) rfl
    exact (rot_oob (le_refl _) (by rw [hB]; exact h)).2
  · simp only [if_true, kernelHi2lo_exec]
    have hmem : (m % 2, 0) ∈ hiOps G RP.n (m % 2) m := (mem_hiOps (by omega)).2 ⟨⟨(m / 2 - 1).toNat, by rw [hj]; omega⟩, by omega, le_refl _, ht⟩
    refine exec_none_of (fun B : Buf K => B.size = A.size) (fun a s s' hs e => (rot_size (Or.inl e)).trans hs) hmem (fun B hB => ?_) rfl
    exact (rot_oob (le_refl _) (by rw [hB]; exact h)).1

theorem pairs_oob {d : Bool} {G : Geom} {RP : RotPlan K} {M : Int} {A : Buf K} (hj : G.jst = 2) (hM : 4 ≤ M) (hM2 : M % 2 = 0)
    (ht : 0 ≤ G.top RP.n (M / 2 % 2)) (hA : (A.size : Int) = RP.n * M) :
    (ompThread 2 (M / 2 + 1) 1 1 (fun m => colCalls d G RP 0 (m % 2) m [2 * m - 1, 2 * m]) 0).run A = none := by
  unfold ompThread colCalls
  rw [Prog.run_each_unit (f := fun m => exec (fun c => kern d G RP (m % 2) m (0 + RP.n * c) 1) [2 * m - 1, 2 * m])
    (fun m _ B => Prog.run_each_unit (fun c _ C => (impl_kern d G RP (m % 2) m (0 + RP.n * c) 1).run C) B), Option.map_eq_none_iff]
  refine exec_none_of (fun B : Buf K => B.size = A.size) (fun m s s' hs e => ?_) (a := M / 2) ?_ (fun B hB => ?_) rfl
  · exact exec_preserves (fun B : Buf K => B.size = A.size) hs (fun c _ s s' hs e => (kern_size e).trans hs) e
  · exact (mem_rStep (by omega)).2 ⟨⟨(M / 2 - 2).toNat, by push_cast; omega⟩, by omega⟩
  · refine exec_none_of (fun C : Buf K => C.size = A.size) (fun c s s' hs e => (kern_size e).trans hs) (a := 2 * (M / 2)) (by simp) (fun C hC => ?_) hB
    refine kern_oob hj (by omega) ht ?_
    rw [hC, show 2 * (M / 2) = M by omega, hA]; omega

/-- C10, the condition on `M` is needed: for every even `M ≥ 4` and an array of exactly `N × M` entries, the sphere driver (`N ≥ 4`) and the
disk driver (`N ≥ 3`) address column `M`, outside the array. -/
theorem C10_even_M_out_of_bounds (d : Bool) (RP : RotPlan K) (M : Int) (hM : 4 ≤ M) (hM2 : M % 2 = 0) (A : Buf K) (hA : (A.size : Int) = RP.n * M) :
    (4 ≤ RP.n → (sphThread d RP 0 M 1 0).run A = none) ∧ (3 ≤ RP.n → (diskThread d RP 0 M 1 0).run A = none) := by
  constructor
  · intro hN
    exact pairs_oob rfl hM hM2 (by simp only [geomSph]; omega) hA
  · intro hN
    exact pairs_oob rfl hM hM2 (by simp only [geomDisk]; omega) hA

/-! ## Concrete cases meeting the hypotheses -/

/-- Tables of length 10 for `n = 4`, an array of 4 × 7 entries at offset 3, columns of orders 0, 1, 1, 2, 2, 3, 3. -/
def rpEx : RotPlan ℤ := ⟨⟨10, fun i => i⟩, ⟨10, fun i => 2 * i + 1⟩, 4⟩

example : TablesOK geomSph rpEx ∧ TablesOK geomTri rpEx ∧ TablesOK geomRect rpEx := by unfold TablesOK; decide
example : HoldsCols rpEx.n 3 7 (⟨31, fun i => i⟩ : Buf ℤ) := by unfold HoldsCols; decide
example : (7 : Int) % 2 = 1 ∧ (7 : Int) ≤ 2 * rpEx.n - 1 ∧ (7 : Int) ≤ 4 * rpEx.n - 3 := by decide
example : ordPair 0 = 0 ∧ ordPair 5 = 3 ∧ ordPair 6 = 3 ∧ ordPairV 2 = 0 ∧ ordPairV 6 = 2 := by decide
/-- The rotation is not trivial: column 3 (order 2) changes. -/
example : ((columnwise true geomSph rpEx parity ordPair 3 7 (⟨31, fun i => i⟩ : Buf ℤ)).map fun A => A.toList) ≠
    some (List.map Int.ofNat (List.range 31)) := by decide
/-- Three threads on the orders 2, …, 9: thread 1 takes 3, 6, 9. -/
example : rStep (2 + 1 * (1 : Nat)) 10 (1 * (3 : Nat)) = [3, 6, 9] := by decide
example : ((⟨24, fun i => i⟩ : Buf ℤ).size : Int) = rpEx.n * 6 := by decide

end FT.Props
