import Verif.Lemmas.ColMap
import Verif.Lemmas.Warp
import Verif.Model.Drivers

namespace FT
variable {K : Type*} [CommRing K]

theorem Mapped.extend {F : Int → (Int → K) → Int → K} {N : Int} {pos : Int → Int → Int} {D C C' : Int → Prop} {A B : Buf K}
    (hp : PosInj N pos D) (h : Mapped F N pos C A B) (hsub : ∀ c, C c → C' c) (hD : ∀ c, C' c → D c)
    (hid : ∀ c, C' c → ¬ C c → ∀ x, F c x = x) : Mapped F N pos C' A B := by
  refine ⟨h.1, ?_, fun i hi => h.2.2 i fun c k hc => hi c k (hsub c hc)⟩
  intro c hc k k0 k1
  by_cases hc' : C c
  · exact h.2.1 c hc' k k0 k1
  · rw [hid c hc hc', h.2.2 _ fun c' k' hc'' k0' k1' e => ?_]
    obtain ⟨-, rfl⟩ := hp _ _ _ _ (hD c hc) (hD c' (hsub c' hc'')) k0 k1 k0' k1' e
    exact hc' hc''

/-- Position of entry `(k, c)` of an array with columns of length `N`. -/
def posA (o N : Int) (k c : Int) : Int := o + (k + c * N)

theorem posA_inj (o N : Int) (D : Int → Prop) : PosInj N (posA o N) D := by
  intro k c k' c' _ _ k0 k1 k0' k1' e
  unfold posA at e
  have e1 : N * c + k = N * c' + k' := by rw [Int.mul_comm N c, Int.mul_comm N c']; omega
  have e2 := congrArg (· / N) e1
  have e3 := congrArg (· % N) e1
  simp only [Permute.div_add_mul (by omega : 0 < N) k0 k1, Permute.div_add_mul (by omega : 0 < N) k0' k1'] at e2
  simp only [Permute.mod_add_mul k0 k1, Permute.mod_add_mul k0' k1'] at e3
  exact ⟨e3, e2⟩

section
variable {G : Geom} {RP : RotPlan K} {d : Bool}

/-- The column transforms given by an order for every column. -/
def ordF (d : Bool) (G : Geom) (RP : RotPlan K) (m1 ord : Int → Int) (c : Int) : (Int → K) → Int → K := colF d G RP (m1 c) (ord c)

theorem ordF_congr (hG : GeomOK G) (hI : InB G RP) {m1 ord : Int → Int} (hm : ∀ c, 0 ≤ m1 c) : FCongr (ordF d G RP m1 ord) RP.n :=
  fun c _ _ h => colF_congr hG hI (hm c) h

theorem col_fit {o N M c : Int} {sz : Nat} (hN : 0 ≤ N) (ho : 0 ≤ o) (hs : o + N * M ≤ sz) (h0 : 0 ≤ c) (h1 : c < M) (hN1 : 0 < N ∨ 0 < o + N * c ∨ 0 < sz) :
    0 < (1 : Int) ∧ 0 ≤ o + N * c ∧ o + N * c + (N - 1) * 1 < sz := by
  have a : 0 ≤ N * c := Int.mul_nonneg hN h0
  have b : N * (c + 1) ≤ N * M := Int.mul_le_mul_of_nonneg_left (by omega) hN
  rw [Int.mul_add] at b
  omega

/-- A kernel call on column `c` of the array. -/
theorem progMaps_col (hG : GeomOK G) (hI : InB G RP) {m1 ord : Int → Int} {o M : Int} {sz : Nat} (hN : 0 ≤ RP.n) (ho : 0 ≤ o) (hs : o + RP.n * M ≤ sz)
    {m1' m c : Int} (h0 : 0 ≤ c) (h1 : c < M) (hm : 0 ≤ m1') (e1 : m1 c = m1') (e2 : ord c = m) :
    ProgMaps (ordF d G RP m1 ord) RP.n (posA o RP.n) sz (fun c' => c' = c) (kernP d G RP m1' m (o + RP.n * c) 1) := by
  have a : 0 ≤ RP.n * c := Int.mul_nonneg hN h0
  have b : RP.n * (c + 1) ≤ RP.n * M := Int.mul_le_mul_of_nonneg_left (by omega) hN
  rw [Int.mul_add] at b
  refine progMaps_kern hG hI hm (by unfold ordF; rw [e1, e2]) (fun k => by unfold posA; ring) ⟨by omega, by omega, by omega⟩

theorem progMaps_calls (hG : GeomOK G) (hI : InB G RP) {m1 ord : Int → Int} {o M : Int} {sz : Nat} (hN : 0 ≤ RP.n) (ho : 0 ≤ o) (hs : o + RP.n * M ≤ sz)
    {m1' m : Int} {cs : List Int} (hnd : cs.Nodup) (hc : ∀ c ∈ cs, 0 ≤ c ∧ c < M) (hm : 0 ≤ m1') (e1 : ∀ c ∈ cs, m1 c = m1') (e2 : ∀ c ∈ cs, ord c = m) :
    ProgMaps (ordF d G RP m1 ord) RP.n (posA o RP.n) sz (fun c => c ∈ cs) (colCalls d G RP o m1' m cs) := by
  refine (ProgMaps.each (D := fun _ => True) (posA_inj _ _ _) hnd (C := fun a c => c = a) (fun _ _ _ _ => trivial) ?_ fun c hc' => ?_).congrC ?_
  · rintro a _ b _ hab c rfl; exact hab
  · exact progMaps_col hG hI hN ho hs (hc c hc').1 (hc c hc').2 hm (e1 c hc') (e2 c hc')
  · intro c; simp

/-- The specification: one scalar kernel per column, in order. -/
def colSpec (d : Bool) (G : Geom) (RP : RotPlan K) (m1 ord : Int → Int) (o M : Int) (A : Buf K) : Option (Buf K) :=
  forUp 0 M (fun c => kern d G RP (m1 c) (ord c) (o + RP.n * c) 1) A

theorem nodup_rUp {lo hi : Int} : (rUp lo hi).Nodup := (pairwise_rUp lo hi).imp (fun h => by omega)

theorem colSpec_mapped (hG : GeomOK G) (hI : InB G RP) {m1 ord : Int → Int} (hm : ∀ c, 0 ≤ m1 c) {o M : Int} {A : Buf K} (hN : 0 ≤ RP.n) (ho : 0 ≤ o)
    (hs : o + RP.n * M ≤ A.size) :
    ∃ A', colSpec d G RP m1 ord o M A = some A' ∧ Mapped (ordF d G RP m1 ord) RP.n (posA o RP.n) (fun c => 0 ≤ c ∧ c < M) A A' := by
  have key := ProgMaps.each (F := ordF d G RP m1 ord) (N := RP.n) (pos := posA o RP.n) (sz := A.size) (D := fun _ => True) (posA_inj _ _ _)
    (nodup_rUp (lo := 0) (hi := M)) (C := fun a c => c = a)
    (fun _ _ _ _ => trivial) (by rintro a _ b _ hab c rfl; exact hab)
    (P := fun c => kernP d G RP (m1 c) (ord c) (o + RP.n * c) 1) (fun c hc => progMaps_col hG hI hN ho hs (mem_rUp.1 hc).1 (mem_rUp.1 hc).2 (hm c) rfl rfl)
  obtain ⟨A', e, m⟩ := key.run A rfl
  rw [Prog.run_each_unit (fun c _ => (impl_kern d G RP (m1 c) (ord c) (o + RP.n * c) 1).run)] at e
  unfold colSpec
  rw [forUp_exec]
  refine ⟨A', ?_, m.congrC fun c => by simp [mem_rUp]⟩
  cases hx : exec (fun c => kern d G RP (m1 c) (ord c) (o + RP.n * c) 1) (rUp 0 M) A with
  | none => rw [hx] at e; cases e
  | some B => rw [hx] at e; cases e; rfl

/-- A parallel loop of kernel calls on disjoint columns, where the columns it leaves out have no work to do. -/
theorem driver_default (hG : GeomOK G) (hI : InB G RP) {m1 ord : Int → Int} (hm : ∀ c, 0 ≤ m1 c) {o M : Int} {A : Buf K} (hN : 0 ≤ RP.n) (ho : 0 ≤ o)
    (hs : o + RP.n * M ≤ A.size) {lo hi : Int} {T : Nat} (hT : 0 < T) {m1' : Int → Int} {cols : Int → List Int}
    (hcols : ∀ m ∈ rStep lo hi 1, (cols m).Nodup ∧ ∀ c ∈ cols m, (0 ≤ c ∧ c < M) ∧ m1 c = m1' m ∧ ord c = m)
    (hm1 : ∀ m ∈ rStep lo hi 1, 0 ≤ m1' m)
    (hcov : ∀ c, 0 ≤ c → c < M → (∃ m ∈ rStep lo hi 1, c ∈ cols m) ∨ ord c ≤ m1 c) :
    ∃ A', ParEnds T (ompThread lo hi 1 T fun m => colCalls d G RP o (m1' m) m (cols m)) A A' ∧ colSpec d G RP m1 ord o M A = some A' := by
  obtain ⟨A', e, m⟩ := colSpec_mapped (d := d) hG hI hm (ord := ord) hN ho hs
  obtain ⟨B, p, mB⟩ := ProgMaps.omp (F := ordF d G RP m1 ord) (N := RP.n) (pos := posA o RP.n) (sz := A.size) (D := fun _ => True) (posA_inj _ _ _)
    (lo := lo) (hi := hi) (st := 1) (by omega) hT (C := fun m c => c ∈ cols m) (fun _ _ _ _ => trivial)
    (fun a ha b hb hab c h1 h2 => hab (((hcols a ha).2 c h1).2.2.symm.trans ((hcols b hb).2 c h2).2.2))
    (P := fun m => colCalls d G RP o (m1' m) m (cols m))
    (fun m hm' => progMaps_calls hG hI hN ho hs (hcols m hm').1 (fun c hc => ((hcols m hm').2 c hc).1) (hm1 m hm')
      (fun c hc => ((hcols m hm').2 c hc).2.1) (fun c hc => ((hcols m hm').2 c hc).2.2)) (A := A) rfl
  have mB' := mB.extend (D := fun _ => True) (C' := fun c => 0 ≤ c ∧ c < M) (posA_inj _ _ _)
    (by rintro c ⟨m, hm', hc⟩; exact ((hcols m hm').2 c hc).1) (fun _ _ => trivial)
    (by
      rintro c ⟨h0, h1⟩ hn x
      rcases hcov c h0 h1 with h | h
      · exact absurd h hn
      · exact colF_id h hG.jst x)
  rw [Mapped.unique m mB'] at e
  exact ⟨B, p, e⟩

end

end FT
