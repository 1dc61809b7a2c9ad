import Verif.Props.Modified

/-!
# C59: recurrence coefficients of modified orthogonal polynomials

`execute_jacobi_similarity` takes the three-term recurrence of a family `p` and the plan that converts to a family `q`; it returns the three-term recurrence of `q`.
-/

set_option linter.unusedSectionVars false

namespace FT.Props
open FT
variable {K : Type*} [Field K] [DecidableEq K]

/-- `x f_j = b_{j-1} f_{j-1} + a_j f_j + b_j f_{j+1}` for the members of the family of index less than `N`. -/
def ThreeTerm {V : Type*} [AddCommGroup V] [Module K V] (X : V →ₗ[K] V) (f : Int → V) (a b : Int → K) (N : Int) : Prop :=
  ∀ j, 0 ≤ j → j < N → X (f j) = (if j = 0 then 0 else b (j - 1) • f (j - 1)) + a j • f j + b j • f (j + 1)

/-- The scalar relations between two recurrences and the conversion between the families. -/
structure Related (c : Int → Int → K) (a b w z : Int → K) (N : Int) : Prop where
  off : ∀ j, 0 ≤ j → j < N → c j j * z j = b j * c (j + 1) (j + 1)
  first : 0 < N → c 0 0 * w 0 = a 0 * c 0 0 + b 0 * c 0 1
  diag : ∀ j, 1 ≤ j → j < N → c (j - 1) j * z (j - 1) + c j j * w j = a j * c j j + b j * c j (j + 1)

theorem sum_one {N j : Int} {f : Int → K} (j0 : 0 ≤ j) (j1 : j < N) (h : ∀ i, 0 ≤ i → i < N → i ≠ j → f i = 0) : ∑ i ∈ Finset.Ico 0 N, f i = f j := by
  refine Finset.sum_eq_single j (fun i hi hne => ?_) fun hn => absurd (Finset.mem_Ico.2 ⟨j0, j1⟩) hn
  rw [Finset.mem_Ico] at hi; exact h i hi.1 hi.2 hne

theorem sum_pair2 {N j : Int} {f : Int → K} (j0 : 1 ≤ j) (j1 : j < N) (h : ∀ i, 0 ≤ i → i < N → i ≠ j → i ≠ j - 1 → f i = 0) : ∑ i ∈ Finset.Ico 0 N, f i = f (j - 1) + f j := by
  have hs : ({j - 1, j} : Finset Int) ⊆ Finset.Ico 0 N := by
    intro i hi; rw [Finset.mem_insert, Finset.mem_singleton] at hi; rw [Finset.mem_Ico]; omega
  rw [← Finset.sum_subset hs fun i hi hn => ?_, Finset.sum_pair (by omega)]
  rw [Finset.mem_insert, Finset.mem_singleton] at hn; rw [Finset.mem_Ico] at hi
  exact h i hi.1 hi.2 (by omega) (by omega)

theorem related_of {V : Type*} [AddCommGroup V] [Module K V] {X : V →ₗ[K] V} {p q : Int → V} {φ : Int → V →ₗ[K] K} {c : Int → Int → K} {a b w z : Int → K} {N : Int}
    (tri : ∀ i j, 0 ≤ j → j < i → i < N → c i j = 0) (hp : ThreeTerm X p a b (N - 1)) (hq : ThreeTerm X q w z (N - 1))
    (hpq : ∀ j, 0 ≤ j → j < N → p j = ∑ i ∈ Finset.Ico 0 N, c i j • q i) (hφ : ∀ i j, 0 ≤ i → i < N → 0 ≤ j → j < N → φ i (q j) = if i = j then 1 else 0) :
    Related c a b w z (N - 1) := by
  -- the coordinates of `p`
  have cp : ∀ i j, 0 ≤ i → i < N → 0 ≤ j → j < N → φ i (p j) = c i j := by
    intro i j i0 i1 j0 j1
    rw [hpq j j0 j1, map_sum, sum_one i0 i1, map_smul, hφ i i i0 i1 i0 i1, if_pos rfl, smul_eq_mul, mul_one]
    intro k k0 k1 hk
    rw [map_smul, hφ i k i0 i1 k0 k1, if_neg (Ne.symm hk), smul_zero]
  -- the coordinates of `x q`
  have cq : ∀ i j, 0 ≤ i → i < N → 0 ≤ j → j < N - 1 → φ i (X (q j)) = (if i = j - 1 then z (j - 1) else 0) + (if i = j then w j else 0) + if i = j + 1 then z j else 0 := by
    intro i j i0 i1 j0 j1
    rw [hq j j0 j1, map_add, map_add, map_smul, map_smul, hφ i j i0 i1 j0 (by omega), hφ i (j + 1) i0 i1 (by omega) (by omega)]
    by_cases hj : j = 0
    · rw [if_pos hj, map_zero, if_neg (by omega : ¬ i = j - 1)]; simp
    · rw [if_neg hj, map_smul, hφ i (j - 1) i0 i1 (by omega) (by omega)]; simp
  -- the coordinates of `x p` in two ways
  have l : ∀ i j, 0 ≤ i → i < N → 0 ≤ j → j < N - 1 →
      φ i (X (p j)) = ∑ k ∈ Finset.Ico 0 (N - 1), c k j * ((if i = k - 1 then z (k - 1) else 0) + (if i = k then w k else 0) + if i = k + 1 then z k else 0) := by
    intro i j i0 i1 j0 j1
    have : X (p j) = ∑ k ∈ Finset.Ico 0 (N - 1), c k j • X (q k) := by
      rw [hpq j j0 (by omega), map_sum, ← Finset.sum_subset (Finset.Ico_subset_Ico_right (by omega : N - 1 ≤ N)) fun k hk hn => ?_]
      · exact Finset.sum_congr rfl fun k _ => map_smul X _ _
      · rw [Finset.mem_Ico] at hk hn; rw [map_smul, tri k j j0 (by omega) (by omega), zero_smul]
    rw [this, map_sum]
    refine Finset.sum_congr rfl fun k hk => ?_
    rw [Finset.mem_Ico] at hk
    rw [map_smul, cq i k i0 i1 hk.1 hk.2, smul_eq_mul]
  have rr : ∀ i j, 0 ≤ i → i < N → 0 ≤ j → j < N - 1 → φ i (X (p j)) = (if j = 0 then 0 else b (j - 1) * c i (j - 1)) + a j * c i j + b j * c i (j + 1) := by
    intro i j i0 i1 j0 j1
    rw [hp j j0 j1, map_add, map_add, map_smul, map_smul, cp i j i0 i1 j0 (by omega), cp i (j + 1) i0 i1 (by omega) (by omega)]
    by_cases hj : j = 0
    · rw [if_pos hj, if_pos hj, map_zero]; rfl
    · rw [if_neg hj, if_neg hj, map_smul, cp i (j - 1) i0 i1 (by omega) (by omega)]; rfl
  refine ⟨fun j j0 j1 => ?_, fun h => ?_, fun j j0 j1 => ?_⟩
  · have e := (l (j + 1) j (by omega) (by omega) j0 j1).symm.trans (rr (j + 1) j (by omega) (by omega) j0 j1)
    rw [sum_one j0 j1, if_neg (by omega), if_neg (by omega), if_pos rfl, zero_add, zero_add, tri (j + 1) j j0 (by omega) (by omega), mul_zero, add_zero] at e
    · rw [e]
      by_cases hj : j = 0
      · rw [if_pos hj, zero_add]
      · rw [if_neg hj, tri (j + 1) (j - 1) (by omega) (by omega) (by omega), mul_zero, zero_add]
    · intro i i0 i1 hi
      by_cases hij : i < j
      · rw [if_neg (by omega), if_neg (by omega), if_neg (by omega)]; ring
      · rw [tri i j j0 (by omega) (by omega), zero_mul]
  · have e := (l 0 0 le_rfl (by omega) le_rfl h).symm.trans (rr 0 0 le_rfl (by omega) le_rfl h)
    rw [sum_one le_rfl h, if_neg (by omega), if_pos rfl, if_neg (by omega), if_pos rfl, zero_add, zero_add, add_zero] at e
    · exact e
    · intro i i0 i1 hi
      rw [tri i 0 le_rfl (by omega) (by omega), zero_mul]
  · have e := (l j j (by omega) (by omega) (by omega) j1).symm.trans (rr j j (by omega) (by omega) (by omega) j1)
    rw [sum_pair2 j0 j1, if_neg (by omega), if_neg (by omega), if_pos (by omega), if_neg (by omega), if_pos rfl, if_neg (by omega), if_neg (by omega),
      tri j (j - 1) (by omega) (by omega) (by omega), mul_zero, zero_add, zero_add, add_zero] at e
    · simpa only [zero_add] using e
    · intro i i0 i1 hi hi'
      by_cases hij : i < j
      · rw [if_neg (by omega), if_neg (by omega), if_neg (by omega)]; ring
      · rw [tri i j (by omega) (by omega) (by omega), zero_mul]

theorem Related.div_off {c a b w z} {N : Int} (h : Related (K := K) c a b w z N) (hc : ∀ j, 0 ≤ j → j < N → c j j ≠ 0) {j : Int} (j0 : 0 ≤ j) (j1 : j < N) :
    c (j + 1) (j + 1) / c j j * b j = z j := by
  have := hc j j0 j1
  field_simp
  linear_combination -(h.off j j0 j1)

theorem Related.div_first {c a b w z} {N : Int} (h : Related (K := K) c a b w z N) (hc : ∀ j, 0 ≤ j → j < N → c j j ≠ 0) (h0 : 0 < N) : a 0 + c 0 1 / c 0 0 * b 0 = w 0 := by
  have := hc 0 le_rfl h0
  field_simp
  linear_combination -(h.first h0)

theorem Related.div_diag {c a b w z} {N : Int} (h : Related (K := K) c a b w z N) (hc : ∀ j, 0 ≤ j → j < N → c j j ≠ 0) {j : Int} (j0 : 1 ≤ j) (j1 : j < N) :
    (c j j * a j + c j (j + 1) * b j - c (j - 1) j * z (j - 1)) / c j j = w j := by
  have := hc j (by omega) j1
  rw [div_eq_iff this]
  linear_combination -(h.diag j j0 j1)

/-! ## The two branches -/

theorem similarityPoly_spec {R : TB K} {n bw N : Int} {r : Int → Int → K} (hR : StoresT R n bw r) (hN : 2 ≤ N) {ap bp aq bq : Buf K} {w z : Int → K}
    (ha : N - 1 ≤ ap.size) (hb : N - 1 ≤ bp.size) (sa : (aq.size : Int) = N - 1) (sb : (bq.size : Int) = N - 2)
    (hd : ∀ j, 0 ≤ j → j < N - 1 → r j j ≠ 0) (hr : Related r ap.val bp.val w z (N - 1)) :
    ∃ aq' bq', similarityPoly R N ap bp aq bq = some (aq', bq') ∧ (aq'.size : Int) = N - 1 ∧ (bq'.size : Int) = N - 2 ∧
      (∀ i, 0 ≤ i → i < N - 1 → aq'.val i = w i) ∧ ∀ i, 0 ≤ i → i < N - 2 → bq'.val i = z i := by
  obtain ⟨B, eB, hB⟩ := forUp_spec (body := fun i bq => (R.get (i + 1) (i + 1)).bind fun r1 => (R.get i i).bind fun r0 => (divC r1 r0).bind fun q => (bp.rd i).bind fun b => bq.wr i (q * b))
    (lo := 0) (hi := N - 2) (s := bq) (fun i B => (B.size : Int) = N - 2 ∧ ∀ k, 0 ≤ k → k < i → B.val k = z k) ⟨sb, fun k _ _ => by omega⟩
    fun i i0 i1 B ⟨s, v⟩ => by
      refine ⟨⟨B.size, Function.update B.val i (z i)⟩, ?_, s, fun k k0 k1 => ?_⟩
      · beta_reduce
        rw [hR.get, hR.get, Option.bind_some, Option.bind_some, divC_of (hd i i0 (by omega)), Option.bind_some, Buf.rd_of i0 (by omega), Option.bind_some, hr.div_off hd i0 (by omega), Buf.wr_of i0 (by omega)]
      · by_cases h : k = i
        · rw [h]; exact Function.update_self ..
        · exact (Function.update_of_ne h _ _).trans (v k k0 (by omega))
  obtain ⟨sB, vB⟩ := hB
  have vB' : ∀ k, 0 ≤ k → k < N - 2 → B.val k = z k := fun k k0 k1 => vB k k0 (by omega)
  obtain ⟨A, eA, sA, vA⟩ := forUp_spec (body := fun i (aq : Buf K) => (R.get i i).bind fun r0 => (ap.rd i).bind fun a => (R.get i (i + 1)).bind fun r1 => (bp.rd i).bind fun b => (R.get (i - 1) i).bind fun rm =>
      (B.rd (i - 1)).bind fun c => (divC (r0 * a + r1 * b - rm * c) r0).bind fun v => aq.wr i v)
    (lo := 1) (hi := N - 1) (s := (⟨aq.size, Function.update aq.val 0 (w 0)⟩ : Buf K)) (fun i A => (A.size : Int) = N - 1 ∧ ∀ k, 0 ≤ k → k < i → A.val k = w k)
    ⟨sa, fun k k0 k1 => by rw [show k = 0 by omega]; exact Function.update_self (0 : Int) (w 0) aq.val⟩
    fun i i0 i1 A ⟨s, v⟩ => by
      refine ⟨⟨A.size, Function.update A.val i (w i)⟩, ?_, s, fun k k0 k1 => ?_⟩
      · beta_reduce
        rw [hR.get, hR.get, hR.get, Option.bind_some, Buf.rd_of (by omega) (by omega), Option.bind_some, Option.bind_some, Buf.rd_of (by omega) (by omega), Option.bind_some, Option.bind_some,
          Buf.rd_of (by omega) (by omega), Option.bind_some, divC_of (hd i (by omega) i1), Option.bind_some, vB' _ (by omega) (by omega), hr.div_diag hd i0 i1, Buf.wr_of (by omega) (by omega)]
      · by_cases h : k = i
        · rw [h]; exact Function.update_self ..
        · exact (Function.update_of_ne h _ _).trans (v k k0 (by omega))
  refine ⟨A, B, ?_, sA, sB, fun i i0 i1 => vA i i0 (by omega), vB'⟩
  unfold similarityPoly
  rw [eB, Option.bind_some, Buf.rd_of le_rfl (by omega), Option.bind_some, hR.get, Option.bind_some, hR.get, Option.bind_some, divC_of (hd 0 le_rfl (by omega)), Option.bind_some,
    Buf.rd_of le_rfl (by omega), Option.bind_some, hr.div_first hd (by omega), Buf.wr_of le_rfl (by omega), Option.bind_some, eA, Option.map_some]

theorem ratioD_eq {Km Lt : TB K} {n b1 b2 : Int} {r k c : Int → Int → K} (hK : StoresT Km n b1 k) (hR : StoresT Lt n b2 r) {i : Int} (hd : r i i ≠ 0) (h : c i i * r i i = k i i) :
    ratioD Km Lt i = some (c i i) := by
  unfold ratioD; rw [hK.get, hR.get, Option.bind_some, Option.bind_some, divC_of hd, ← h, mul_div_cancel_right₀ _ hd]

theorem ratioU_eq {Km Lt : TB K} {n b1 b2 : Int} {r k c : Int → Int → K} (hK : StoresT Km n b1 k) (hR : StoresT Lt n b2 r) {i : Int} (hd : r (i + 1) (i + 1) ≠ 0)
    (h : c i i * r i (i + 1) + c i (i + 1) * r (i + 1) (i + 1) = k i (i + 1)) : ratioU Km Lt (c i i) i = some (c i (i + 1)) := by
  unfold ratioU
  rw [hK.get, hR.get, hR.get, Option.bind_some, Option.bind_some, Option.bind_some, divC_of hd, ← h, add_sub_cancel_left, mul_div_cancel_right₀ _ hd]

theorem similarityRat_spec {Km Lt : TB K} {n b1 b2 N : Int} {r k c : Int → Int → K} (hK : StoresT Km n b1 k) (hR : StoresT Lt n b2 r) (hN : 2 ≤ N) {ap bp aq bq : Buf K} {w z : Int → K}
    (ha : N - 1 ≤ ap.size) (hb : N - 1 ≤ bp.size) (sa : (aq.size : Int) = N - 1) (sb : (bq.size : Int) = N - 2)
    (hrd : ∀ j, 0 ≤ j → j < N → r j j ≠ 0) (hd : ∀ j, 0 ≤ j → j < N - 1 → c j j ≠ 0) (c0 : ∀ i, 0 ≤ i → i < N → c i i * r i i = k i i)
    (c1 : ∀ i, 0 ≤ i → i < N - 1 → c i i * r i (i + 1) + c i (i + 1) * r (i + 1) (i + 1) = k i (i + 1)) (hr : Related c ap.val bp.val w z (N - 1)) :
    ∃ aq' bq', similarityRat Km Lt N ap bp aq bq = some (aq', bq') ∧ (aq'.size : Int) = N - 1 ∧ (bq'.size : Int) = N - 2 ∧
      (∀ i, 0 ≤ i → i < N - 1 → aq'.val i = w i) ∧ ∀ i, 0 ≤ i → i < N - 2 → bq'.val i = z i := by
  have gD : ∀ i, 0 ≤ i → i < N → ratioD Km Lt i = some (c i i) := fun i i0 i1 => ratioD_eq hK hR (hrd i i0 i1) (c0 i i0 i1)
  have gU : ∀ i, 0 ≤ i → i < N - 1 → ratioU Km Lt (c i i) i = some (c i (i + 1)) := fun i i0 i1 => ratioU_eq hK hR (hrd (i + 1) (by omega) (by omega)) (c1 i i0 i1)
  obtain ⟨S, eB, hB⟩ := forUp_spec (body := fun i (s : K × Buf K) => (ratioD Km Lt (i + 1)).bind fun r1 => (divC r1 s.1).bind fun q => (bp.rd i).bind fun b => (s.2.wr i (q * b)).map fun bq => (r1, bq))
    (lo := 0) (hi := N - 2) (s := (c 0 0, bq)) (fun i S => S.1 = c i i ∧ (S.2.size : Int) = N - 2 ∧ ∀ k, 0 ≤ k → k < i → S.2.val k = z k) ⟨rfl, sb, fun k _ _ => by omega⟩
    fun i i0 i1 S ⟨s1, s, v⟩ => by
      refine ⟨(c (i + 1) (i + 1), ⟨S.2.size, Function.update S.2.val i (z i)⟩), ?_, rfl, s, fun k k0 k1 => ?_⟩
      · beta_reduce
        rw [gD (i + 1) (by omega) (by omega), Option.bind_some, s1, divC_of (hd i i0 (by omega)), Option.bind_some, Buf.rd_of i0 (by omega), Option.bind_some, hr.div_off hd i0 (by omega), Buf.wr_of i0 (by omega)]
        rfl
      · by_cases h : k = i
        · rw [h]; exact Function.update_self ..
        · exact (Function.update_of_ne h _ _).trans (v k k0 (by omega))
  obtain ⟨-, sB, vB⟩ := hB
  have vB' : ∀ k, 0 ≤ k → k < N - 2 → S.2.val k = z k := fun k k0 k1 => vB k k0 (by omega)
  obtain ⟨T, eA, -, sA, vA⟩ := forUp_spec (body := fun i (s : K × Buf K) => (ratioD Km Lt i).bind fun rii => (ratioU Km Lt rii i).bind fun ru => (ap.rd i).bind fun a => (bp.rd i).bind fun b => (S.2.rd (i - 1)).bind fun c =>
      (divC (rii * a + ru * b - s.1 * c) rii).bind fun v => (s.2.wr i v).map fun aq => (ru, aq))
    (lo := 1) (hi := N - 1) (σ := K × Buf K) (s := (c 0 1, (⟨aq.size, Function.update aq.val 0 (w 0)⟩ : Buf K))) (fun i A => A.1 = c (i - 1) i ∧ (A.2.size : Int) = N - 1 ∧ ∀ k, 0 ≤ k → k < i → A.2.val k = w k)
    ⟨rfl, sa, fun k k0 k1 => by rw [show k = 0 by omega]; exact Function.update_self (0 : Int) (w 0) aq.val⟩
    fun i i0 i1 A ⟨s1, s, v⟩ => by
      refine ⟨(c i (i + 1), ⟨A.2.size, Function.update A.2.val i (w i)⟩), ?_, by rw [add_sub_cancel_right], s, fun k k0 k1 => ?_⟩
      · beta_reduce
        rw [gD i (by omega) (by omega), Option.bind_some, gU i (by omega) i1, Option.bind_some, Buf.rd_of (by omega) (by omega), Option.bind_some, Buf.rd_of (by omega) (by omega), Option.bind_some,
          Buf.rd_of (by omega) (by omega), Option.bind_some, divC_of (hd i (by omega) i1), Option.bind_some, vB' _ (by omega) (by omega), s1, hr.div_diag hd i0 i1, Buf.wr_of (by omega) (by omega)]
        rfl
      · by_cases h : k = i
        · rw [h]; exact Function.update_self ..
        · exact (Function.update_of_ne h _ _).trans (v k k0 (by omega))
  refine ⟨T.2, S.2, ?_, sA, sB, fun i i0 i1 => vA i i0 (by omega), vB'⟩
  unfold similarityRat
  dsimp only
  have g00 := gU 0 le_rfl (by omega)
  rw [zero_add] at g00
  rw [gD 0 le_rfl (by omega), Option.bind_some, eB, Option.bind_some, Option.bind_some, g00, Option.bind_some, Buf.rd_of le_rfl (by omega), Option.bind_some, divC_of (hd 0 le_rfl (by omega)), Option.bind_some,
    Buf.rd_of le_rfl (by omega), Option.bind_some, hr.div_first hd (by omega), Buf.wr_of le_rfl (by omega), Option.bind_some, eA, Option.map_some]

/-! ## The conversion matrix -/

theorem multiplies_unique {f : Buf K → Option (Buf K)} {n : Int} {a c : Int → Int → K} (ha : Multiplies f n a) (hc : Multiplies f n c) {i j : Int} (i0 : 0 ≤ i) (i1 : i < n) (j0 : 0 ≤ j) (j1 : j < n) :
    a i j = c i j := by
  obtain ⟨y, e, -, v, -⟩ := ha ⟨n.toNat, fun k => if k = j then 1 else 0⟩ (by dsimp only; omega)
  obtain ⟨y', e', -, v', -⟩ := hc ⟨n.toNat, fun k => if k = j then 1 else 0⟩ (by dsimp only; omega)
  rw [e] at e'; cases e'
  have h := (v i i0 i1).symm.trans (v' i i0 i1)
  dsimp only at h
  rw [sum_one j0 j1 fun k _ _ hk => by rw [if_neg hk, mul_zero], sum_one j0 j1 fun k _ _ hk => by rw [if_neg hk, mul_zero], if_pos rfl, mul_one, mul_one] at h
  exact h

variable {P : ModPlan K} {n : Int} {r k c : Int → Int → K}

/-- The conversion matrix times the denominator is the numerator. -/
theorem conv_rat (h : PlanOk P n r k) (hv : 1 ≤ P.nv) (hc : Multiplies (mpsv 'N' P) n c) {i j : Int} (i0 : 0 ≤ i) (i1 : i < n) (j0 : 0 ≤ j) (j1 : j < n) :
    ∑ l ∈ Finset.Ico 0 n, c i l * r l j = k i j := by
  obtain ⟨h1, h2, h3⟩ := h.facts (.inl rfl)
  obtain ⟨A, hA, hK⟩ := h.factsK (by omega)
  obtain ⟨h4, -, -⟩ := hK (.inl rfl)
  obtain ⟨-, -, e3, -⟩ := rat_eqs (by omega) hA
  let e : Buf K := ⟨n.toNat, fun k => if k = j then 1 else 0⟩
  have se : n ≤ e.size := by dsimp only [e]; omega
  obtain ⟨y, ey, sy, vy, -⟩ := h1 e se
  obtain ⟨y', ey', by'⟩ := (h3 e se).1
  rw [ey] at ey'; cases ey'
  obtain ⟨u, eu, -, vu, -⟩ := hc y (by rw [sy]; exact se)
  obtain ⟨u', eu', -, vu', -⟩ := h4 e se
  have : u = u' := by
    rw [e3] at eu; dsimp only at eu; rw [by', Option.bind_some, eu'] at eu; exact (Option.some.inj eu).symm
  subst this
  have hh := (vu i i0 i1).symm.trans (vu' i i0 i1)
  rw [sum_one (f := fun l => opEnt 'N' k i l * e.val l) j0 j1 fun l _ _ hl => by dsimp only [e]; rw [if_neg hl, mul_zero]] at hh
  have e1 : opEnt 'N' k i j * e.val j = k i j := by dsimp only [e]; rw [if_pos rfl, mul_one]; rfl
  rw [← e1, ← hh]
  refine sum_Ico_congr fun l l0 l1 => ?_
  rw [vy l l0 l1, sum_one j0 j1 fun l _ _ hl => by dsimp only [e]; rw [if_neg hl, mul_zero]]
  dsimp only [e]; rw [if_pos rfl, mul_one]; rfl

theorem tri_below {A : TB K} {b : Int} (hR : StoresT A n b r) {i j : Int} (h : j < i) : r i j = 0 := C14_zero_outside_tri hR (by unfold band; omega)

theorem conv_tri (h : PlanOk P n r k) (hc : Multiplies (mpsv 'N' P) n c) : ∀ i j, 0 ≤ j → j < i → i < n → c i j = 0 := by
  obtain ⟨bw, -, hR⟩ := h.R
  by_cases hv : P.nv < 1
  · intro i j j0 ji i1
    obtain ⟨h1, -, -⟩ := h.facts (.inl rfl)
    rw [mpsv_poly hv] at hc
    rw [← multiplies_unique h1 hc (by omega) i1 j0 (by omega)]
    exact tri_below hR ji
  · obtain ⟨A, b', -, -, hK⟩ := h.K (by omega)
    suffices H : ∀ m : Nat, ∀ i j : Int, j < m → 0 ≤ j → j < i → i < n → c i j = 0 from fun i j j0 ji i1 => H (j + 1).toNat i j (by omega) j0 ji i1
    intro m
    induction m with
    | zero => intro i j hm; omega
    | succ m ih =>
      intro i j hm j0 ji i1
      have e := conv_rat h (by omega) hc (by omega) i1 j0 (by omega)
      rw [tri_below hK ji, sum_one j0 (by omega)] at e
      · exact (mul_eq_zero.1 e).resolve_right (h.Rd j j0 (by omega))
      · intro l l0 l1 hl
        by_cases hlj : l < j
        · rw [ih i l (by omega) l0 (by omega) i1, zero_mul]
        · rw [tri_below hR (by omega), mul_zero]

theorem conv_diag (h : PlanOk P n r k) (hv : 1 ≤ P.nv) (hc : Multiplies (mpsv 'N' P) n c) {i : Int} (i0 : 0 ≤ i) (i1 : i < n) : c i i * r i i = k i i := by
  obtain ⟨bw, -, hR⟩ := h.R
  rw [← conv_rat h hv hc i0 i1 i0 i1, sum_one i0 i1]
  intro l l0 l1 hl
  by_cases hli : l < i
  · rw [conv_tri h hc i l l0 hli i1, zero_mul]
  · rw [tri_below hR (by omega), mul_zero]

theorem conv_next (h : PlanOk P n r k) (hv : 1 ≤ P.nv) (hc : Multiplies (mpsv 'N' P) n c) {i : Int} (i0 : 0 ≤ i) (i1 : i + 1 < n) : c i i * r i (i + 1) + c i (i + 1) * r (i + 1) (i + 1) = k i (i + 1) := by
  obtain ⟨bw, -, hR⟩ := h.R
  rw [← conv_rat h hv hc i0 (by omega) (by omega : 0 ≤ i + 1) i1, sum_pair2 (j := i + 1) (by omega) i1, add_sub_cancel_right]
  intro l l0 l1 hl hl'
  by_cases hli : l < i
  · rw [conv_tri h hc i l l0 hli (by omega), zero_mul]
  · rw [tri_below hR (by omega), mul_zero]

theorem conv_ne (h : PlanOk P n r k) (hc : Multiplies (mpsv 'N' P) n c) {i : Int} (i0 : 0 ≤ i) (i1 : i < n) : c i i ≠ 0 := by
  by_cases hv : P.nv < 1
  · obtain ⟨h1, -, -⟩ := h.facts (.inl rfl)
    rw [mpsv_poly hv] at hc
    rw [← multiplies_unique h1 hc i0 i1 i0 i1]
    exact h.Rd i i0 i1
  · intro h0
    have := conv_diag h (by omega) hc i0 i1
    rw [h0, zero_mul] at this
    exact h.Kd (by omega) i i0 i1 this.symm

/-- **C59** Let `p` and `q` be two families of vectors, on which multiplication by `x` acts by three-term recurrences, with `p_j = Σ_i c_ij q_i` where `c` is the matrix by which the plan converts.
Given the recurrence coefficients `a`, `b` of `p`, `execute_jacobi_similarity` returns those of `q`, for polynomial and for rational modifications: one diagonal and two off-diagonal entries fewer than the
smaller of the sizes of the plan and of the recurrence.  `φ_i` reads off the coefficient of `q_i`. -/
theorem C59_recurrence {V : Type*} [AddCommGroup V] [Module K V] {X : V →ₗ[K] V} {p q : Int → V} {φ : Int → V →ₗ[K] K} {w z : Int → K} {m : Int} {ap bp : Buf K} (junk : Int → K)
    (h : PlanOk P n r k) (hn : P.n = n) (hc : Multiplies (mpsv 'N' P) n c) (h2 : 2 ≤ min m n) (ha : m ≤ ap.size) (hb : m - 1 ≤ bp.size)
    (hp : ThreeTerm X p ap.val bp.val (min m n - 1)) (hq : ThreeTerm X q w z (min m n - 1))
    (hpq : ∀ j, 0 ≤ j → j < min m n → p j = ∑ i ∈ Finset.Ico 0 (min m n), c i j • q i) (hφ : ∀ i j, 0 ≤ i → i < min m n → 0 ≤ j → j < min m n → φ i (q j) = if i = j then 1 else 0) :
    ∃ aq bq, similarity P m ap bp junk = some (aq, bq) ∧ (aq.size : Int) = min m n - 1 ∧ (bq.size : Int) = min m n - 2 ∧
      (∀ i, 0 ≤ i → i < min m n - 1 → aq.val i = w i) ∧ ∀ i, 0 ≤ i → i < min m n - 2 → bq.val i = z i := by
  have hr := related_of (fun i j j0 ji i1 => conv_tri h hc i j j0 ji (by omega)) hp hq hpq hφ
  unfold similarity
  rw [hn]
  dsimp only
  rw [if_neg (by omega)]
  obtain ⟨bw, -, hR⟩ := h.R
  by_cases hv : P.nv < 1
  · rw [if_pos hv]
    obtain ⟨h1, -, -⟩ := h.facts (.inl rfl)
    rw [mpsv_poly hv] at hc
    have ec : ∀ i j, 0 ≤ i → i < n → 0 ≤ j → j < n → c i j = r i j := fun i j i0 i1 j0 j1 => (multiplies_unique h1 hc i0 i1 j0 j1).symm
    refine similarityPoly_spec hR h2 (by omega) (by omega) (by dsimp only; omega) (by dsimp only; omega) (fun j j0 j1 => h.Rd j j0 (by omega)) ⟨fun j j0 j1 => ?_, fun h0 => ?_, fun j j0 j1 => ?_⟩
    · rw [← ec _ _ j0 (by omega) j0 (by omega), ← ec _ _ (by omega) (by omega) (by omega) (by omega)]; exact hr.off j j0 j1
    · rw [← ec _ _ le_rfl (by omega) le_rfl (by omega), ← ec _ _ le_rfl (by omega) (by omega) (by omega)]; exact hr.first h0
    · rw [← ec (j - 1) j (by omega) (by omega) (by omega) (by omega), ← ec j j (by omega) (by omega) (by omega) (by omega), ← ec j (j + 1) (by omega) (by omega) (by omega) (by omega)]; exact hr.diag j j0 j1
  · rw [if_neg hv]
    obtain ⟨A, b', hA, -, hK⟩ := h.K (by omega)
    rw [hA, Option.bind_some]
    exact similarityRat_spec hK hR h2 (by omega) (by omega) (by dsimp only; omega) (by dsimp only; omega) (fun j j0 j1 => h.Rd j j0 (by omega)) (fun j j0 j1 => conv_ne h hc j0 (by omega))
      (fun i i0 i1 => conv_diag h (by omega) hc i0 (by omega)) (fun i i0 i1 => conv_next h (by omega) hc i0 (by omega)) hr

/-- **C59** (defect) A plan or a recurrence of size less than two has no result: the code allocates a negative number of entries and writes the first entry of an empty array. -/
theorem C59_small_defect {m : Int} {ap bp : Buf K} {junk : Int → K} (h : min m P.n < 2) : similarity P m ap bp junk = none := by
  unfold similarity; dsimp only; rw [if_pos (by omega)]

/-! ## A concrete instance -/

/-- `[[1, -1, 0], [0, 1, -1], [0, 0, 1]]`. -/
def exS : TB ℚ := ⟨0, 3, 1, .ofList [0, 1, -1, 1, -1, 1]⟩

/-- `x q_j = q_{j-1} + q_{j+1}` on sequences. -/
def exX : (Int → ℚ) →ₗ[ℚ] Int → ℚ where
  toFun v i := if i < 0 then 0 else v (i - 1) + v (i + 1)
  map_add' u v := by funext i; dsimp only [Pi.add_apply]; split_ifs <;> ring
  map_smul' a v := by funext i; simp only [Pi.smul_apply, smul_eq_mul, RingHom.id_apply]; split_ifs <;> ring

theorem exS_ok : PlanOk (⟨3, 2, 0, exS, none⟩ : ModPlan ℚ) 3 exS.ent exS.ent :=
  ⟨⟨1, by norm_num, .mk' (A := exS) ⟨rfl, rfl⟩ (by unfold TB.WF; decide) fun _ _ => rfl⟩, fun i i0 i1 => by interval_cases i <;> decide +kernel, fun h => absurd h (by decide), fun h => absurd h (by decide)⟩

/-- The family with `a = 1, 0, ..` and `b = 1, 1, ..` is modified to that with `a = 0, 0, ..` and `b = 1, 1, ..`. -/
example (junk : Int → ℚ) : ∃ aq bq, similarity (⟨3, 2, 0, exS, none⟩ : ModPlan ℚ) 3 (.ofList [1, 0, 0]) (.ofList [1, 1]) junk = some (aq, bq) ∧ (aq.size : Int) = 2 ∧ (bq.size : Int) = 1 ∧
    (∀ i, 0 ≤ i → i < 2 → aq.val i = 0) ∧ ∀ i, 0 ≤ i → i < 1 → bq.val i = 1 := by
  have hIco : Finset.Ico (0 : Int) 3 = {0, 1, 2} := by decide
  have e : ∀ j, 0 ≤ j → j < 3 → ∑ i ∈ Finset.Ico (0 : Int) 3, exS.ent i j • (Pi.single i (1 : ℚ) : Int → ℚ) = fun l => if l = j then 1 else if l = j - 1 ∧ 1 ≤ j then -1 else 0 := by
    intro j j0 j1
    funext l
    rw [hIco, Finset.sum_insert (by decide), Finset.sum_pair (by decide)]
    simp only [Pi.add_apply, Pi.smul_apply, Pi.single_apply, smul_eq_mul]
    interval_cases j
    · rw [show exS.ent 0 0 = 1 by decide +kernel, show exS.ent 1 0 = 0 by decide +kernel, show exS.ent 2 0 = 0 by decide +kernel]
      split_ifs <;> first | omega | norm_num
    · rw [show exS.ent 0 1 = -1 by decide +kernel, show exS.ent 1 1 = 1 by decide +kernel, show exS.ent 2 1 = 0 by decide +kernel]
      split_ifs <;> first | omega | norm_num
    · rw [show exS.ent 0 2 = 0 by decide +kernel, show exS.ent 1 2 = -1 by decide +kernel, show exS.ent 2 2 = 1 by decide +kernel]
      split_ifs <;> first | omega | norm_num
  refine C59_recurrence (c := exS.ent) (X := exX) (p := fun j => ∑ i ∈ Finset.Ico (0 : Int) 3, exS.ent i j • (Pi.single i (1 : ℚ) : Int → ℚ)) (q := fun j => (Pi.single j (1 : ℚ) : Int → ℚ))
    (φ := fun i => LinearMap.proj i) (w := fun _ => 0) (z := fun _ => 1) junk exS_ok rfl ?_ (by decide) (by decide) (by decide) ?_ ?_ ?_ ?_
  · rw [mpsv_poly (by decide)]; exact (exS_ok.facts (.inl rfl)).1
  · intro j j0 j1
    change 0 ≤ j at j0
    have j1 : j < 2 := j1
    dsimp only
    rw [e j j0 (by omega), e (j + 1) (by omega) (by omega)]
    funext l
    interval_cases j
    · simp [exX, Buf.ofList]; split_ifs <;> first | omega | norm_num
    · rw [e _ (by omega) (by omega)]
      simp [exX, Buf.ofList]; split_ifs <;> first | omega | norm_num
  · intro j j0 j1
    funext l
    by_cases hj : j = 0
    · subst hj; simp [exX, Pi.single_apply]; split_ifs <;> first | omega | norm_num
    · simp [exX, Pi.single_apply, hj]; split_ifs <;> first | omega | norm_num
  · exact fun j _ _ => rfl
  · intro i j _ _ _ _
    simp [Pi.single_apply]

/-- The same numbers from the code, for a polynomial and for a rational plan. -/
example : ((similarity (⟨3, 2, 0, exS, none⟩ : ModPlan ℚ) 3 (.ofList [1, 0, 0]) (.ofList [1, 1]) fun _ => 7).map fun r => (r.1.toList, r.2.toList)) = some ([0, 0], [1]) ∧
    ((similarity (⟨2, 1, 3, exR, some exK⟩ : ModPlan ℚ) 3 (.ofList [1, 2, 3]) (.ofList [6, 7]) fun _ => 7).map fun r => (r.1.toList, r.2.toList)) = some ([15], []) := by decide +kernel

end FT.Props
