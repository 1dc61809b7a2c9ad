import Verif.Lemmas.Fftw

set_option linter.unusedSectionVars false

/-! # Further stages: weights, rows, complex columns, changes of column order -/

namespace FT.Model
open FT
variable {K : Type*} [Field K] [DecidableEq K]

/-! ## Annulus -/

theorem scaleHeads_maps {N M : Int} (hN : 0 < N) (t : K) :
    Maps N M (fun X => forUp 0 M (fun j X => scaleAt (j * N) t X) X) (scaleG fun _ i => if i = 0 then t else 1) := by
  have e : (fun X : Buf K => forUp 0 M (fun j X => scaleAt (j * N) t X) X) = exec (fun j X => scaleAt (j * N) t X) (rUp 0 M) := by
    funext X; exact forUp_exec _ _ _ _
  rw [e]
  refine (scaleList_maps (r := 0) le_rfl hN (rUp 0 M) (fun j => j * N) (fun j _ => by ring) (fun j hj => mem_rUp.1 hj) ?_ t).congr ?_
  · rw [List.nodup_iff_pairwise_ne]; exact (pairwise_rUp _ _).imp fun h => ne_of_lt h
  · intro a c i c0 c1 i0 i1
    unfold scaleG
    congr 1
    dsimp only
    by_cases h : i = 0
    · rw [if_pos h, if_pos ⟨mem_rUp.2 ⟨c0, c1⟩, h⟩]
    · rw [if_neg h, if_neg (fun q => h q.2)]

theorem planAll_maps {f : Line K} {N M : Int} (hN : 0 < N) (hl : Local N f) : Maps N M (planMany f N 1 N M 0) (colG fun _ => f) := by
  have m := planCols (M := M) (d := 1) (cnt := M) (o := 0) hl hN one_pos le_rfl one_pos (fun q _ => by omega)
  rw [zero_mul, one_mul] at m
  refine m.congr ?_
  intro a c i _ _ _ _
  dsimp only
  rw [if_pos (by omega)]; rfl

/-- The pairs (column, row) that `mulW` visits. -/
def wList (N M : Int) : List (Int × Int) := (rStep 1 M 4).flatMap fun j => (rUp 0 N).flatMap fun i => [(j, i), (j + 1, i)]

theorem mem_wList {N M c i : Int} (hM : M % 2 = 1) : (c, i) ∈ wList N M ↔ 1 ≤ c ∧ c < M ∧ (c % 4 = 1 ∨ (c - 1) % 4 = 1) ∧ 0 ≤ i ∧ i < N := by
  unfold wList
  have := mem_pairs (lo := 1) (M := M) (c := c) (by norm_num) (by norm_num) (fun j h0 h1 => by omega)
  simp only [List.mem_flatMap, List.mem_cons, List.not_mem_nil, or_false, mem_rUp, Prod.mk.injEq] at this ⊢
  constructor
  · rintro ⟨j, hj, i', ⟨i0, i1⟩, ⟨rfl, rfl⟩ | ⟨rfl, rfl⟩⟩
    · have := this.1 ⟨c, hj, Or.inl rfl⟩; omega
    · have := this.1 ⟨j, hj, Or.inr rfl⟩; omega
  · rintro ⟨h0, h1, h2, i0, i1⟩
    obtain ⟨j, hj, h | h⟩ := this.2 ⟨h0, h1, h2⟩
    · exact ⟨j, hj, i, ⟨i0, i1⟩, Or.inl ⟨h, rfl⟩⟩
    · exact ⟨j, hj, i, ⟨i0, i1⟩, Or.inr ⟨h, rfl⟩⟩

theorem nodup_wList (N M : Int) : (wList N M).Nodup := by
  unfold wList
  rw [List.nodup_flatMap]
  constructor
  · intro j _
    rw [List.nodup_flatMap]
    refine ⟨fun i _ => by simp, (pairwise_rUp 0 N).imp fun {x y} h => ?_⟩
    rintro ⟨z1, z2⟩ hz hz'
    simp only [List.mem_cons, List.not_mem_nil, or_false, Prod.mk.injEq] at hz hz'
    omega
  · unfold rStep
    rw [List.pairwise_map]
    refine List.pairwise_lt_range.imp fun {x y} h => ?_
    rintro ⟨z1, z2⟩ hz hz'
    simp only [List.mem_flatMap, List.mem_cons, List.not_mem_nil, or_false, Prod.mk.injEq] at hz hz'
    obtain ⟨_, _, h1 | h1⟩ := hz <;> obtain ⟨_, _, h2 | h2⟩ := hz' <;> omega

theorem wLoop_exec (N M : Int) (op : Int → Int → Buf K → Option (Buf K)) (X : Buf K) :
    forStep 1 M 4 (fun j X => forUp 0 N (fun i X => (op j i X).bind (op (j + 1) i)) X) X = exec (fun a => op a.1 a.2) (wList N M) X := by
  unfold wList
  rw [forStep_exec, exec_flatMap]
  refine exec_congr (fun j _ X => ?_) X
  rw [forUp_exec, exec_flatMap]
  refine exec_congr (fun i _ X => ?_) X
  rw [exec_cons]
  congr 1; funext X'
  rw [exec_singleton]

/-- The weight of entry `(c, i)`: columns 1, 2, 5, 6, … carry `w`. -/
def wt (w : Int → K) (c i : Int) : K := if evenCol c then 1 else w i

theorem evenCol_iff {c : Int} (h0 : 0 ≤ c) : evenCol c = false ↔ 1 ≤ c ∧ (c % 4 = 1 ∨ (c - 1) % 4 = 1) := by
  unfold evenCol
  simp only [decide_eq_false_iff_not]
  omega

theorem mulW_maps {N M : Int} (hM : M % 2 = 1) {w : Buf K} (hw : N ≤ w.size) : Maps N M (mulW w N M) (scaleG (wt w.val)) := by
  have e : mulW w N M = exec (fun a : Int × Int => fun X => (w.rd a.2).bind fun t => scaleAt (a.2 + a.1 * N) t X) (wList N M) := by
    funext X; exact wLoop_exec N M (fun j i X => (w.rd i).bind fun t => scaleAt (i + j * N) t X) X
  rw [e]
  have mm : ∀ a ∈ wList N M, 1 ≤ a.1 ∧ a.1 < M ∧ (a.1 % 4 = 1 ∨ (a.1 - 1) % 4 = 1) ∧ 0 ≤ a.2 ∧ a.2 < N := fun a ha => (mem_wList hM).1 ha
  refine (upd_maps (wList N M) Prod.fst Prod.snd (fun a => a.2 + a.1 * N) (fun a x => some (x * w.val a.2)) (fun c i x => x * wt w.val c i) _ ?_ (fun _ _ => rfl) ?_ ?_ ?_ ?_)
  · intro a ha X
    rw [Buf.rd_of (mm a ha).2.2.2.1 (by have := (mm a ha).2.2.2.2; omega)]; rfl
  · intro a ha; have := mm a ha; omega
  · intro a ha x
    have := mm a ha
    unfold wt
    rw [(evenCol_iff (by omega)).2 ⟨this.1, this.2.2.1⟩]; rfl
  · simpa using nodup_wList N M
  · intro c i c0 c1 i0 i1 hno x
    unfold wt
    by_cases hc : evenCol c = true
    · rw [if_pos hc, mul_one]
    · have := (evenCol_iff c0).1 (by simpa using hc)
      exact absurd ⟨rfl, rfl⟩ (hno (c, i) ((mem_wList hM).2 ⟨this.1, c1, this.2, i0, i1⟩))

theorem divW_maps {N M : Int} (hM : M % 2 = 1) {w : Buf K} (hw : N ≤ w.size) (h0 : ∀ i, 0 ≤ i → i < N → w.val i ≠ 0) :
    Maps N M (divW w N M) (scaleG fun c i => (wt w.val c i)⁻¹) := by
  have e : divW w N M = exec (fun a : Int × Int => fun X => (w.rd a.2).bind fun t => divAt (a.2 + a.1 * N) t X) (wList N M) := by
    funext X; exact wLoop_exec N M (fun j i X => (w.rd i).bind fun t => divAt (i + j * N) t X) X
  rw [e]
  have mm : ∀ a ∈ wList N M, 1 ≤ a.1 ∧ a.1 < M ∧ (a.1 % 4 = 1 ∨ (a.1 - 1) % 4 = 1) ∧ 0 ≤ a.2 ∧ a.2 < N := fun a ha => (mem_wList hM).1 ha
  refine (upd_maps (wList N M) Prod.fst Prod.snd (fun a => a.2 + a.1 * N) (fun a x => divC x (w.val a.2)) (fun c i x => x * (wt w.val c i)⁻¹) _ ?_ (fun _ _ => rfl) ?_ ?_ ?_ ?_)
  · intro a ha X
    rw [Buf.rd_of (mm a ha).2.2.2.1 (by have := (mm a ha).2.2.2.2; omega)]; rfl
  · intro a ha; have := mm a ha; omega
  · intro a ha x
    have := mm a ha
    unfold wt
    rw [(evenCol_iff (by omega)).2 ⟨this.1, this.2.2.1⟩, divC_of (h0 _ this.2.2.2.1 this.2.2.2.2), div_eq_mul_inv]; rfl
  · simpa using nodup_wList N M
  · intro c i c0 c1 i0 i1 hno x
    unfold wt
    by_cases hc : evenCol c = true
    · rw [if_pos hc, inv_one, mul_one]
    · have := (evenCol_iff c0).1 (by simpa using hc)
      exact absurd ⟨rfl, rfl⟩ (hno (c, i) ((mem_wList hM).2 ⟨this.1, c1, this.2, i0, i1⟩))

/-! ## Rows -/

theorem planRows_maps {f : Line K} {N M : Int} (hN : 0 < N) (hM : 0 < M) (hl : Local M f) : Maps N M (planMany f M N 1 N 0) (rowG f) := by
  intro X a hX
  have pe : ∀ q i : Int, 0 + 1 * q + N * i = q + i * N := fun q i => by ring
  obtain ⟨X', e, sz, v, u⟩ := planMany_spec (f := f) (n := M) (s := N) (D := 1) (cnt := N) (off := 0) (X := X) hl hN
    (fun q h0 h1 => by
      obtain ⟨b0, b1⟩ := grid_bound (N := N) (M := M) (c := M - 1) (i := q) (by omega) (by omega) h0 h1
      have := pe q (M - 1)
      rw [hX.1]; constructor
      · omega
      · omega)
    (fun q q' i i' h0 h1 h2 h3 h4 h5 h6 h7 e => by
      refine (grid_inj (c := i) (c' := i') h0 h1 h2 h3 ?_).2
      rw [← pe, ← pe]; omega)
  refine ⟨X', e, ⟨by rw [sz]; exact hX.1, ?_⟩, ?_⟩
  · intro c i h0 h1 h2 h3
    have := v i c h2 h3 h0 h1
    simp only [pe] at this
    rw [this]
    exact hl _ _ (fun j g0 g1 => hX.2 j i g0 g1 h2 h3) c h0 h1
  · intro p hp
    refine u p fun q i h0 h1 h2 h3 e => hp ?_
    rw [e, pe, hX.1]
    exact grid_bound h2 h3 h0 h1

/-! ## Rectangularised disk -/

theorem execRectX_maps {P : RectPlan K} {N M : Int} (hN : 0 < N) (h1 : Local N P.x1) (h2 : Local N P.x2) :
    Maps N M (execRectX P N M) (colG fun c => if c % 2 = 0 then P.x1 else P.x2) := by
  have m0 := planCols (M := M) (d := 2) (cnt := (M + 1) / 2) (o := 0) h1 hN (by norm_num) le_rfl (by norm_num) (fun q _ => by omega)
  have m1 := planCols (M := M) (d := 2) (cnt := M / 2) (o := 1) h2 hN (by norm_num) (by norm_num) (by norm_num) (fun q _ => by omega)
  rw [zero_mul] at m0
  rw [one_mul] at m1
  refine (m0.comp m1).congr ?_
  intro a c i c0 c1 i0 i1
  unfold colG
  have : c % 2 = 0 ∨ c % 2 = 1 := by omega
  rcases this with h | h <;> simp [h]

theorem scaleStep_maps {N M lo r : Int} (hlo : lo = 0 ∨ lo = 1) (hr0 : 0 ≤ r) (hr1 : r < N) (pos : Int → Int) (hpos : ∀ j, pos j = r + j * N) (t : K) :
    Maps N M (fun X => forStep lo M 2 (fun j X => scaleAt (pos j) t X) X) (scaleG fun c i => if c % 2 = lo ∧ i = r then t else 1) := by
  have e : (fun X : Buf K => forStep lo M 2 (fun j X => scaleAt (pos j) t X) X) = exec (fun j X => scaleAt (pos j) t X) (rStep lo M 2) := by
    funext X; exact forStep_exec _ _ _ _ _
  rw [e]
  have hm : ∀ c, c ∈ rStep lo M 2 ↔ lo ≤ c ∧ c < M ∧ c % 2 = lo := by
    intro c
    rw [mem_rStep (by norm_num)]
    constructor
    · rintro ⟨⟨k, rfl⟩, h⟩; omega
    · rintro ⟨h0, h1, h2⟩; exact ⟨⟨((c - lo) / 2).toNat, by omega⟩, h1⟩
  refine (scaleList_maps hr0 hr1 (rStep lo M 2) pos (fun j _ => hpos j) (fun j hj => by have := (hm j).1 hj; omega) ?_ t).congr ?_
  · unfold rStep
    rw [List.nodup_iff_pairwise_ne, List.pairwise_map]
    exact List.pairwise_lt_range.imp fun {x y} h => by omega
  · intro a c i c0 c1 i0 i1
    unfold scaleG
    congr 1
    dsimp only
    have := hm c
    by_cases h : c % 2 = lo ∧ i = r
    · rw [if_pos h, if_pos ⟨this.2 ⟨by omega, c1, h.1⟩, h.2⟩]
    · rw [if_neg h, if_neg (fun q => h ⟨(this.1 q.1).2.2, q.2⟩)]

/-! ## Changes of column order -/

/-- Where column `c` of the reordered array comes from: the non-negative frequencies first, then the
negative ones. -/
def swapFrom (M c : Int) : Int := if c = 0 then 0 else if c < (M + 1) / 2 then 2 * c else 2 * (M - c) - 1

/-- Where column `c` goes. -/
def swapTo (M c : Int) : Int := if c % 2 = 0 then c / 2 else M - (c + 1) / 2

theorem copyC_exec (q p : Int) (X Y : Buf K) : copyC q p X Y = exec (cp X) [(2 * q, 2 * p, id), (2 * q + 1, 2 * p + 1, id)] Y := by
  unfold copyC
  rw [exec_cons]
  show ((X.rd (2 * p)).bind fun t => (Y.wr (2 * q) t).bind fun Y => (X.rd (2 * p + 1)).bind fun t => Y.wr (2 * q + 1) t) = ((X.rd (2 * p)).bind fun t => Y.wr (2 * q) t).bind _
  rw [Option.bind_assoc]
  congr 1; funext t
  congr 1; funext Y'
  rw [exec_singleton]; rfl

/-- A change of column order: `d` is where columns are put and `s` where they come from. -/
theorem swap_holds {N M : Int} (hM : M % 2 = 1) (hM0 : 0 < M) {X Y : Buf K} {a : Int → Int → K} (hX : Holds (2 * N) M X a)
    (hY : (Y.size : Int) = 2 * N * M) (d1 s1 d2 s2 : Int → Int) (src : Int → Int)
    (hd1 : ∀ j, 1 ≤ j → j < (M + 1) / 2 → 0 < d1 j ∧ d1 j < M ∧ src (d1 j) = s1 j ∧ 0 ≤ s1 j ∧ s1 j < M)
    (hd2 : ∀ j, 1 ≤ j → j < (M + 1) / 2 → 0 < d2 j ∧ d2 j < M ∧ src (d2 j) = s2 j ∧ 0 ≤ s2 j ∧ s2 j < M)
    (h0 : src 0 = 0) (hsurj : ∀ c, 0 < c → c < M → ∃ j, 1 ≤ j ∧ j < (M + 1) / 2 ∧ (c = d1 j ∨ c = d2 j)) :
    ∃ Y', ((forUp 0 N (fun i Y => copyC i i X Y) Y).bind fun Y => forUp 1 ((M + 1) / 2) (fun j Y =>
        (forUp 0 N (fun i Y => copyC (i + d1 j * N) (i + s1 j * N) X Y) Y).bind fun Y => forUp 0 N (fun i Y => copyC (i + d2 j * N) (i + s2 j * N) X Y) Y) Y) = some Y' ∧
      Holds (2 * N) M Y' (fun c i => a (src c) i) ∧ Out Y Y' := by
  let F0 : Int → List (Int × Int × (K → K)) := fun i => [(2 * i, 2 * i, id), (2 * i + 1, 2 * i + 1, id)]
  let F1 : Int → Int → List (Int × Int × (K → K)) := fun j i => [(2 * (i + d1 j * N), 2 * (i + s1 j * N), id), (2 * (i + d1 j * N) + 1, 2 * (i + s1 j * N) + 1, id)]
  let F2 : Int → Int → List (Int × Int × (K → K)) := fun j i => [(2 * (i + d2 j * N), 2 * (i + s2 j * N), id), (2 * (i + d2 j * N) + 1, 2 * (i + s2 j * N) + 1, id)]
  have eL := cpList_run (N := N) (hi := (M + 1) / 2) X (f0 := F0) (f1 := F1) (f2 := F2) (fun i Y => copyC_exec i i X Y) (fun j i Y => copyC_exec (i + d1 j * N) (i + s1 j * N) X Y)
    (fun j i Y => copyC_exec (i + d2 j * N) (i + s2 j * N) X Y) Y
  rw [eL]
  have hm : ∀ x ∈ cpList N ((M + 1) / 2) F0 F1 F2, ∃ c i, 0 ≤ c ∧ c < M ∧ 0 ≤ src c ∧ src c < M ∧ 0 ≤ i ∧ i < 2 * N ∧ x.1 = i + c * (2 * N) ∧ x.2.1 = i + src c * (2 * N) ∧ x.2.2 = id := by
    intro x hx
    rcases mem_cpList.1 hx with ⟨i, i0, i1, h⟩ | ⟨j, j0, j1, ⟨i, i0, i1, h⟩ | ⟨i, i0, i1, h⟩⟩
    · rcases List.mem_cons.1 h with rfl | h
      · exact ⟨0, 2 * i, le_rfl, hM0, h0.ge, by omega, by omega, by omega, by ring, by rw [h0]; ring, rfl⟩
      · rw [List.mem_singleton] at h; subst h
        exact ⟨0, 2 * i + 1, le_rfl, hM0, h0.ge, by omega, by omega, by omega, by ring, by rw [h0]; ring, rfl⟩
    · obtain ⟨a1, a2, a3, a4, a5⟩ := hd1 j j0 j1
      rcases List.mem_cons.1 h with rfl | h
      · exact ⟨d1 j, 2 * i, a1.le, a2, by omega, by omega, by omega, by omega, by ring, by rw [a3]; ring, rfl⟩
      · rw [List.mem_singleton] at h; subst h
        exact ⟨d1 j, 2 * i + 1, a1.le, a2, by omega, by omega, by omega, by omega, by ring, by rw [a3]; ring, rfl⟩
    · obtain ⟨a1, a2, a3, a4, a5⟩ := hd2 j j0 j1
      rcases List.mem_cons.1 h with rfl | h
      · exact ⟨d2 j, 2 * i, a1.le, a2, by omega, by omega, by omega, by omega, by ring, by rw [a3]; ring, rfl⟩
      · rw [List.mem_singleton] at h; subst h
        exact ⟨d2 j, 2 * i + 1, a1.le, a2, by omega, by omega, by omega, by omega, by ring, by rw [a3]; ring, rfl⟩
  have hbd : ∀ x ∈ cpList N ((M + 1) / 2) F0 F1 F2, 0 ≤ x.1 ∧ x.1 < Y.size ∧ 0 ≤ x.2.1 ∧ x.2.1 < X.size := by
    intro x hx
    obtain ⟨c, i, c0, c1, s0, s1, i0, i1, e1, e2, -⟩ := hm x hx
    rw [e1, e2, hY, hX.1]
    obtain ⟨b0, b1⟩ := grid_bound c0 c1 i0 i1
    obtain ⟨b2, b3⟩ := grid_bound s0 s1 i0 i1
    exact ⟨b0, b1, b2, b3⟩
  obtain ⟨Y', e, sz, v, o⟩ := copyExec X _ Y hbd
    (fun x hx y hy hxy => by
      obtain ⟨c, i, c0, c1, s0, s1, i0, i1, e1, e2, e3⟩ := hm x hx
      obtain ⟨c', i', c0', c1', s0', s1', i0', i1', e1', e2', e3'⟩ := hm y hy
      rw [e1, e1'] at hxy
      obtain ⟨rfl, rfl⟩ := grid_inj i0 i1 i0' i1' hxy
      rw [e2, e3, e2', e3'])
  have key : ∀ c i', 0 ≤ c → c < M → 0 ≤ i' → i' < 2 * N → (i' + c * (2 * N), i' + src c * (2 * N), (id : K → K)) ∈ cpList N ((M + 1) / 2) F0 F1 F2 := by
    intro c i' c0 c1 i0 i1
    rw [mem_cpList]
    have hi : i' = 2 * (i' / 2) ∨ i' = 2 * (i' / 2) + 1 := by omega
    by_cases hc : c = 0
    · subst hc
      refine Or.inl ⟨i' / 2, by omega, by omega, ?_⟩
      rw [h0]
      rcases hi with h | h
      · exact List.mem_cons.2 (Or.inl (by ext <;> first | rfl | (dsimp only; omega)))
      · exact List.mem_cons.2 (Or.inr (List.mem_singleton.2 (by ext <;> first | rfl | (dsimp only; omega))))
    · obtain ⟨j, j0, j1, rfl | rfl⟩ := hsurj c (by omega) c1
      · refine Or.inr ⟨j, j0, j1, Or.inl ⟨i' / 2, by omega, by omega, ?_⟩⟩
        rw [(hd1 j j0 j1).2.2.1]
        have r1 : d1 j * (2 * N) = 2 * (d1 j * N) := by ring
        have r2 : s1 j * (2 * N) = 2 * (s1 j * N) := by ring
        rcases hi with h | h
        · exact List.mem_cons.2 (Or.inl (by ext <;> first | rfl | (dsimp only; omega)))
        · exact List.mem_cons.2 (Or.inr (List.mem_singleton.2 (by ext <;> first | rfl | (dsimp only; omega))))
      · refine Or.inr ⟨j, j0, j1, Or.inr ⟨i' / 2, by omega, by omega, ?_⟩⟩
        rw [(hd2 j j0 j1).2.2.1]
        have r1 : d2 j * (2 * N) = 2 * (d2 j * N) := by ring
        have r2 : s2 j * (2 * N) = 2 * (s2 j * N) := by ring
        rcases hi with h | h
        · exact List.mem_cons.2 (Or.inl (by ext <;> first | rfl | (dsimp only; omega)))
        · exact List.mem_cons.2 (Or.inr (List.mem_singleton.2 (by ext <;> first | rfl | (dsimp only; omega))))
  refine ⟨Y', e, ⟨by rw [sz]; exact hY, ?_⟩, ?_⟩
  · intro c i c0 c1 i0 i1
    rw [v _ (key c i c0 c1 i0 i1)]
    obtain ⟨c', i', c0', c1', s0', s1', i0', i1', e1', e2', e3'⟩ := hm _ (key c i c0 c1 i0 i1)
    obtain ⟨rfl, rfl⟩ := grid_inj i0 i1 i0' i1' e1'
    exact hX.2 (src c) i s0' s1' i0 i1
  · intro p hp
    exact o p fun x hx e => hp (by have := hbd x hx; omega)

theorem colswap_holds {N M : Int} (hM : M % 2 = 1) (hM0 : 0 < M) {X Y : Buf K} {a : Int → Int → K} (hX : Holds (2 * N) M X a) (hY : (Y.size : Int) = 2 * N * M) :
    ∃ Y', colswap N M X Y = some Y' ∧ Holds (2 * N) M Y' (fun c i => a (swapFrom M c) i) ∧ Out Y Y' := by
  refine swap_holds hM hM0 hX hY (fun j => j) (fun j => 2 * j) (fun j => M - j) (fun j => 2 * j - 1) (swapFrom M) ?_ ?_ ?_ ?_
  · intro j j0 j1; unfold swapFrom; split_ifs <;> omega
  · intro j j0 j1; unfold swapFrom; split_ifs <;> omega
  · rfl
  · intro c c0 c1
    by_cases h : c < (M + 1) / 2
    · exact ⟨c, by omega, h, Or.inl rfl⟩
    · exact ⟨M - c, by omega, by omega, Or.inr (by omega)⟩

theorem colswapT_holds {N M : Int} (hM : M % 2 = 1) (hM0 : 0 < M) {X Y : Buf K} {a : Int → Int → K} (hY : Holds (2 * N) M Y a) (hX : (X.size : Int) = 2 * N * M) :
    ∃ X', colswapT N M Y X = some X' ∧ Holds (2 * N) M X' (fun c i => a (swapTo M c) i) ∧ Out X X' := by
  refine swap_holds hM hM0 hY hX (fun j => 2 * j) (fun j => j) (fun j => 2 * j - 1) (fun j => M - j) (swapTo M) ?_ ?_ ?_ ?_
  · intro j j0 j1; unfold swapTo; split_ifs <;> omega
  · intro j j0 j1; unfold swapTo; split_ifs <;> omega
  · rfl
  · intro c c0 c1
    by_cases h : c % 2 = 0
    · exact ⟨c / 2, by omega, by omega, Or.inl (by omega)⟩
    · exact ⟨(c + 1) / 2, by omega, by omega, Or.inr (by omega)⟩

theorem swap_to_from {M c : Int} (hM : M % 2 = 1) (c0 : 0 ≤ c) (c1 : c < M) : swapTo M (swapFrom M c) = c := by
  unfold swapTo swapFrom; split_ifs <;> omega

theorem swap_from_to {M c : Int} (hM : M % 2 = 1) (c0 : 0 ≤ c) (c1 : c < M) : swapFrom M (swapTo M c) = c := by
  unfold swapTo swapFrom; split_ifs <;> omega

/-! ## Complex columns -/

/-- A real transform applied to the real and to the imaginary parts of a complex column. -/
def cplx (f : Line K) : Line K := fun x i => f (fun k => x (2 * k + i % 2)) (i / 2)

theorem planColsC {f : Line K} {N M cnt o b off : Int} (hl : Local N f) (hN : 0 < N) (ho : 0 ≤ o) (ho4 : o < 4) (hb : b = 0 ∨ b = 1) (hoff : off = o * (2 * N) + b)
    (hc : ∀ q, 0 ≤ q → (q < cnt ↔ o + 4 * q < M)) :
    Maps (2 * N) M (fun X => planMany f N 2 (8 * N) cnt off X) (fun a c i => if c % 4 = o ∧ i % 2 = b then cplx f (a c) i else a c i) := by
  intro X a hX
  subst hoff
  have pe : ∀ q i : Int, o * (2 * N) + b + 8 * N * q + 2 * i = (2 * i + b) + (o + 4 * q) * (2 * N) := fun q i => by ring
  obtain ⟨X', e, sz, v, u⟩ := planMany_spec (f := f) (n := N) (s := 2) (D := 8 * N) (cnt := cnt) (off := o * (2 * N) + b) (X := X) hl two_pos
    (fun q h0 h1 => by
      have h2 := (hc q h0).1 h1
      obtain ⟨b0, -⟩ := grid_bound (N := 2 * N) (M := M) (c := o + 4 * q) (i := 2 * 0 + b) (by omega) h2 (by omega) (by omega)
      obtain ⟨-, b1⟩ := grid_bound (N := 2 * N) (M := M) (c := o + 4 * q) (i := 2 * (N - 1) + b) (by omega) h2 (by omega) (by omega)
      have := pe q 0; have := pe q (N - 1)
      rw [hX.1]; constructor <;> omega)
    (fun q q' i i' h0 h1 h2 h3 h4 h5 h6 h7 e => by
      have e' : (2 * i + b) + (o + 4 * q) * (2 * N) = (2 * i' + b) + (o + 4 * q') * (2 * N) := by rw [← pe, ← pe]; omega
      have := (grid_inj (by omega) (by omega) (by omega) (by omega) e').1
      omega)
  refine ⟨X', e, ⟨by rw [sz]; exact hX.1, ?_⟩, ?_⟩
  · intro c i h0 h1 h2 h3
    by_cases hm : c % 4 = o ∧ i % 2 = b
    · have hq : c = o + 4 * (c / 4) := by omega
      have hi : i = 2 * (i / 2) + b := by omega
      have := v (c / 4) (i / 2) (by omega) ((hc _ (by omega)).2 (by omega)) (by omega) (by omega)
      simp only [pe, ← hq, ← hi] at this
      dsimp only
      rw [this, if_pos hm]
      unfold cplx
      rw [hm.2]
      exact hl _ _ (fun j g0 g1 => hX.2 c (2 * j + b) h0 h1 (by omega) (by omega)) (i / 2) (by omega) (by omega)
    · dsimp only
      rw [if_neg hm, u, hX.2 c i h0 h1 h2 h3]
      intro q j g0 g1 g2 g3 e
      rw [pe] at e
      have := grid_inj h2 h3 (by omega) (by omega) e
      apply hm
      omega
  · intro p hp
    refine u p fun q i h0 h1 h2 h3 e => hp ?_
    have h4 := (hc q h0).1 h1
    rw [e, pe, hX.1]
    exact grid_bound (by omega) h4 (by omega) (by omega)

theorem cplx_local {n : Int} {f : Line K} (h : Local n f) : Local (2 * n) (cplx f) := by
  intro x y hxy i i0 i1
  unfold cplx
  exact h _ _ (fun j j0 j1 => hxy _ (by omega) (by omega)) _ (by omega) (by omega)

theorem planColsC2 {f : Line K} {N M cnt o o1 o2 : Int} (hl : Local N f) (hN : 0 < N) (ho : 0 ≤ o) (ho4 : o < 4) (h1 : o1 = o * (2 * N)) (h2 : o2 = o * (2 * N) + 1)
    (hc : ∀ q, 0 ≤ q → (q < cnt ↔ o + 4 * q < M)) :
    Maps (2 * N) M (fun X => (planMany f N 2 (8 * N) cnt o1 X).bind fun X => planMany f N 2 (8 * N) cnt o2 X)
      (fun a c i => if c % 4 = o then cplx f (a c) i else a c i) := by
  refine ((planColsC (b := 0) hl hN ho ho4 (Or.inl rfl) (by rw [h1, add_zero]) hc).comp (planColsC (b := 1) hl hN ho ho4 (Or.inr rfl) h2 hc)).congr ?_
  intro a c i c0 c1 i0 i1
  dsimp only
  by_cases hm : c % 4 = o
  · by_cases hi : i % 2 = 1
    · rw [if_pos ⟨hm, hi⟩, if_pos hm]
      unfold cplx
      refine hl _ _ (fun j j0 j1 => ?_) _ (by omega) (by omega)
      dsimp only
      rw [if_neg (by omega)]
    · rw [if_neg (fun q => hi q.2), if_pos ⟨hm, by omega⟩, if_pos hm]
  · rw [if_neg (fun q => hm q.1), if_neg (fun q => hm q.1), if_neg hm]

theorem execColsC_maps {P : SpinPlan K} {N M : Int} (hN : 0 < N) (h0 : Local N P.f0) (h1 : Local N P.f1) :
    Maps (2 * N) M (execColsC P N M) (colG fun c => cplx (if evenCol c then P.f0 else P.f1)) := by
  have m0 := planColsC2 (M := M) (cnt := (M + 3) / 4) (o := 0) (o1 := 0) (o2 := 1) h0 hN le_rfl (by norm_num) (by ring) (by ring) (fun q _ => by omega)
  have m1 := planColsC2 (M := M) (cnt := (M + 2) / 4) (o := 1) (o1 := 2 * N) (o2 := 2 * N + 1) h1 hN (by norm_num) (by norm_num) (by ring) (by ring) (fun q _ => by omega)
  have m2 := planColsC2 (M := M) (cnt := (M + 1) / 4) (o := 2) (o1 := 4 * N) (o2 := 4 * N + 1) h1 hN (by norm_num) (by norm_num) (by ring) (by ring) (fun q _ => by omega)
  have m3 := planColsC2 (M := M) (cnt := M / 4) (o := 3) (o1 := 6 * N) (o2 := 6 * N + 1) h0 hN (by norm_num) (by norm_num) (by ring) (by ring) (fun q _ => by omega)
  intro X a hX
  obtain ⟨X', e, h, o⟩ := (m0.comp (m1.comp (m2.comp m3))) X a hX
  refine ⟨X', ?_, h.congr ?_, o⟩
  · rw [← e]
    unfold execColsC
    simp only [Option.bind_eq_bind, Option.bind_assoc]
  · intro c i c0 c1 i0 i1
    unfold colG evenCol
    have : c % 4 = 0 ∨ c % 4 = 1 ∨ c % 4 = 2 ∨ c % 4 = 3 := by omega
    rcases this with h | h | h | h <;> simp [h]

/-- Entries `2p`, `2p + 1` of the columns in a list. -/
theorem scaleListC_maps {N M r : Int} (hr0 : 0 ≤ r) (hr1 : r < N) (l : List Int) (pos : Int → Int) (hpos : ∀ j ∈ l, pos j = r + j * N)
    (hl : ∀ j ∈ l, 0 ≤ j ∧ j < M) (nd : l.Nodup) (t : K) :
    Maps (2 * N) M (exec (fun j X => scaleAtC (pos j) t X) l) (scaleG fun c i => if c ∈ l ∧ i / 2 = r then t else 1) := by
  have e : exec (fun j X => scaleAtC (pos j) t X) l = exec (fun (q : Int × Int) X => scaleAt (2 * pos q.1 + q.2) t X) (l.flatMap fun j => [(j, 0), (j, 1)]) := by
    funext X
    rw [exec_flatMap]
    refine exec_congr (fun j _ X => ?_) X
    rw [exec_cons]
    unfold scaleAtC
    simp only [add_zero]
    show (scaleAt (2 * pos j) t X).bind _ = _
    congr 1; funext X'
    rw [exec_singleton]
  rw [e]
  have mm : ∀ q ∈ l.flatMap fun j => [(j, (0:Int)), (j, 1)], q.1 ∈ l ∧ (q.2 = 0 ∨ q.2 = 1) := by
    rintro ⟨q1, q2⟩ hq
    simp only [List.mem_flatMap, List.mem_cons, List.not_mem_nil, or_false, Prod.mk.injEq] at hq
    obtain ⟨j, hj, ⟨rfl, rfl⟩ | ⟨rfl, rfl⟩⟩ := hq
    · exact ⟨hj, Or.inl rfl⟩
    · exact ⟨hj, Or.inr rfl⟩
  refine (upd_maps (l.flatMap fun j => [(j, (0:Int)), (j, 1)]) Prod.fst (fun q => 2 * r + q.2) (fun q => 2 * pos q.1 + q.2) (fun _ x => some (x * t))
    (fun c i x => x * if c ∈ l ∧ i / 2 = r then t else 1) _ ?_ ?_ ?_ ?_ ?_ ?_)
  · intro a _ X; rfl
  · intro q hq; rw [hpos _ (mm q hq).1]; ring
  · intro q hq
    have h1 := mm q hq; have h2 := hl _ h1.1
    exact ⟨h2.1, h2.2, by omega, by omega⟩
  · intro q hq x
    have h1 := mm q hq
    rw [if_pos ⟨h1.1, by omega⟩]
  · rw [List.nodup_iff_pairwise_ne, List.pairwise_map]
    have nd2 : (l.flatMap fun j => [(j, (0:Int)), (j, 1)]).Nodup := by
      rw [List.nodup_flatMap]
      refine ⟨fun j _ => by simp, ?_⟩
      refine List.Pairwise.imp (fun {x y} h => ?_) nd
      rintro ⟨z1, z2⟩ hz hz'
      simp only [List.mem_cons, List.not_mem_nil, or_false, Prod.mk.injEq] at hz hz'
      omega
    refine nd2.imp fun {x y} hxy e => hxy ?_
    have e1 := congrArg Prod.fst e; have e2 := congrArg Prod.snd e
    dsimp only at e1 e2
    ext
    · exact e1
    · omega
  · intro c i c0 c1 i0 i1 hno x
    rw [if_neg, mul_one]
    rintro ⟨hc, hi⟩
    refine hno (c, i % 2) ?_ ⟨rfl, by dsimp only; omega⟩
    simp only [List.mem_flatMap, List.mem_cons, List.not_mem_nil, or_false, Prod.mk.injEq]
    refine ⟨c, hc, ?_⟩
    omega

theorem scaleEndsC_maps {N M r : Int} (e : Bool) (hM : M % 2 = 1) (hM0 : 0 < M) (hr0 : 0 ≤ r) (hr1 : r < N) (pos : Int → Int) (hpos : ∀ j, pos j = r + j * N) (t : K) :
    Maps (2 * N) M (scaleEndsC e M pos t) (scaleG fun c i => markCols e r t c (i / 2)) := by
  have hp : ∀ lo, scalePairsC lo M pos t = exec (fun j X => scaleAtC (pos j) t X) ((rStep lo M 4).flatMap fun j => [j, j + 1]) := by
    intro lo
    funext X
    unfold scalePairsC
    rw [forStep_exec, exec_flatMap]
    refine exec_congr (fun j _ X => ?_) X
    rw [exec_cons]
    show (scaleAtC (pos j) t X).bind _ = _
    congr 1; funext X'
    rw [exec_singleton]
  cases e with
  | true =>
    have he : scaleEndsC true M pos t = exec (fun j X => scaleAtC (pos j) t X) (0 :: (rStep 3 M 4).flatMap fun j => [j, j + 1]) := by
      funext X
      rw [exec_cons, ← hp]; rfl
    rw [he]
    have hm : ∀ c, c ∈ ((rStep 3 M 4).flatMap fun j => [j, j + 1]) ↔ 3 ≤ c ∧ c < M ∧ (c % 4 = 3 ∨ (c - 1) % 4 = 3) :=
      fun c => mem_pairs (by omega) (by omega) (fun j h0 h1 => by omega)
    refine (scaleListC_maps hr0 hr1 _ pos (fun j _ => hpos j) (fun j hj => ?_) (List.nodup_cons.2 ⟨fun h => ?_, nodup_pairs 3 M⟩) t).congr ?_
    · rcases List.mem_cons.1 hj with rfl | hj
      · omega
      · have := (hm j).1 hj; omega
    · have := (hm 0).1 h; omega
    · intro a c i c0 c1 i0 i1
      unfold scaleG
      congr 1
      dsimp only
      unfold markCols evenCol
      simp only [decide_eq_true_eq, List.mem_cons, hm]
      by_cases hi : i / 2 = r
      · by_cases h3 : c % 4 = 0 ∨ c % 4 = 3
        · rw [if_pos ⟨by omega, hi⟩, if_pos ⟨h3, hi⟩]
        · rw [if_neg (by omega), if_neg (fun q => h3 q.1)]
      · rw [if_neg (fun q => hi q.2), if_neg (fun q => hi q.2)]
  | false =>
    have he : scaleEndsC false M pos t = exec (fun j X => scaleAtC (pos j) t X) ((rStep 1 M 4).flatMap fun j => [j, j + 1]) := by
      rw [← hp]; rfl
    rw [he]
    have hm : ∀ c, c ∈ ((rStep 1 M 4).flatMap fun j => [j, j + 1]) ↔ 1 ≤ c ∧ c < M ∧ (c % 4 = 1 ∨ (c - 1) % 4 = 1) :=
      fun c => mem_pairs (by omega) (by omega) (fun j h0 h1 => by omega)
    refine (scaleListC_maps hr0 hr1 _ pos (fun j _ => hpos j) (fun j hj => ?_) (nodup_pairs 1 M) t).congr ?_
    · have := (hm j).1 hj; omega
    · intro a c i c0 c1 i0 i1
      unfold scaleG
      congr 1
      dsimp only
      unfold markCols evenCol
      simp only [decide_eq_false_iff_not, hm]
      by_cases hi : i / 2 = r
      · by_cases h3 : c % 4 = 0 ∨ c % 4 = 3
        · rw [if_neg (by omega), if_neg (fun q => q.1 h3)]
        · rw [if_pos ⟨by omega, hi⟩, if_pos ⟨h3, hi⟩]
      · rw [if_neg (fun q => hi q.2), if_neg (fun q => hi q.2)]

/-- Row `i` of the complex grid `a` (rows `2i` and `2i + 1` of its columns). -/
def rowOf (a : Int → Int → K) (i : Int) : Int → K × K := fun c => (a c (2 * i), a c (2 * i + 1))

/-- The grid whose complex rows are `z`. -/
def ofRows (z : Int → Int → K × K) (c i : Int) : K := if i % 2 = 0 then (z (i / 2) c).1 else (z (i / 2) c).2

/-- A complex transform depends on the row only. -/
def LocalD (M : Int) (D : (Int → K × K) → Int → K × K) : Prop :=
  ∀ z z', (∀ j, 0 ≤ j → j < M → z j = z' j) → ∀ c, 0 ≤ c → c < M → D z c = D z' c

theorem execDft_holds {D : (Int → K × K) → Int → K × K} {clob : Int → K} {N M : Int} (hD : LocalD M D) {src dst : Buf K} {a : Int → Int → K}
    (hs : Holds (2 * N) M src a) (hd : (dst.size : Int) = 2 * N * M) :
    ∃ src' dst', execDft D clob N M src dst = some (src', dst') ∧ src'.size = src.size ∧ Out src src' ∧
      Holds (2 * N) M dst' (ofRows fun i c => D (rowOf a i) c) ∧ Out dst dst' := by
  have e2 : 2 * (N * M) = 2 * N * M := by ring
  refine ⟨⟨src.size, fun q => if 0 ≤ q ∧ q < 2 * (N * M) then clob q else src.val q⟩,
      ⟨dst.size, fun q => if 0 ≤ q ∧ q < 2 * (N * M) then
        (if q % 2 = 0 then (D (rowC N src (q / 2 % N)) (q / 2 / N)).1 else (D (rowC N src (q / 2 % N)) (q / 2 / N)).2) else dst.val q⟩, ?_, rfl, ?_, ⟨hd, ?_⟩, ?_⟩
  · unfold execDft
    rw [if_pos ⟨by have := hs.1; omega, by omega⟩]
  · intro p hp
    dsimp only
    rw [if_neg (by have := hs.1; omega)]
  · intro c i c0 c1 i0 i1
    obtain ⟨b0, b1⟩ := grid_bound c0 c1 i0 i1
    have r : (i + c * (2 * N)) = i + 2 * (c * N) := by ring
    have hq : (i + c * (2 * N)) / 2 = i / 2 + c * N := by omega
    dsimp only
    rw [if_pos ⟨b0, by omega⟩, hq, grid_mod (by omega) (by omega), grid_div (by omega) (by omega)]
    have hloc : D (rowC N src (i / 2)) c = D (rowOf a (i / 2)) c := by
      refine hD _ _ (fun j j0 j1 => ?_) c c0 c1
      unfold rowC rowOf
      have h1 := hs.2 j (2 * (i / 2)) j0 j1 (by omega) (by omega)
      have h2 := hs.2 j (2 * (i / 2) + 1) j0 j1 (by omega) (by omega)
      rw [show 2 * (i / 2 + j * N) = 2 * (i / 2) + j * (2 * N) by ring, h1, show 2 * (i / 2) + j * (2 * N) + 1 = 2 * (i / 2) + 1 + j * (2 * N) by ring, h2]
    unfold ofRows
    rw [hloc]
    by_cases hi : i % 2 = 0
    · rw [if_pos hi, if_pos (by omega)]
    · rw [if_neg hi, if_neg (by omega)]
  · intro p hp
    dsimp only
    rw [if_neg (by omega)]

end FT.Model
