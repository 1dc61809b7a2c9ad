import Verif.Model.Hodge
import Verif.Props.QrSolve
import Verif.Lemmas.Accum

/-! # The matrices of the gradient and Helmholtz-Hodge plans -/

set_option linter.unusedSectionVars false

namespace FT.Hodge
open FT FT.Props
variable {K : Type*} [Field K] [LinearOrder K] [IsStrictOrderedRing K]

/-- `sqrt(num/den)`. -/
def rt (sqrt : K → K) (num den : Int) : K := sqrt ((num : K) / (den : K))

theorem rootQ_run {sqrt : K → K} {num den : Int} (h : 0 < den) : rootQ sqrt num den = some (rt sqrt num den) := by
  unfold rootQ divC
  rw [if_neg (by exact_mod_cast h.ne')]
  rfl

/-- The coefficient between the degrees `l` and `l + 1` of order `m`. -/
def cf (sqrt : K → K) (m l : Int) : K := rt sqrt ((l + 1) * (l + 2 * m + 1)) ((2 * l + 2 * m + 1) * (2 * l + 2 * m + 3))

/-- The entries set when the two loops of `sineMul` have run up to `a` and `b`. -/
def sineM (sqrt : K → K) (m a b i j : Int) : K :=
  if j = i ∧ 0 ≤ i ∧ i < a then rt sqrt ((i + 2 * m - 1) * (i + 2 * m)) ((2 * i + 2 * m - 1) * (2 * i + 2 * m + 1))
  else if j = i + 2 ∧ 0 ≤ i ∧ i < b then -rt sqrt ((i + 1) * (i + 2)) ((2 * i + 2 * m + 1) * (2 * i + 2 * m + 3)) else 0

theorem sine_run {sqrt : K → K} {n m : Int} (hm : 1 ≤ m) (hn : m ≤ n) : ∃ T, sineMul sqrt n m = some T ∧ StoresT T (n + 1 - m) 2 (sineM sqrt m (n + 1 - m) (n - 1 - m)) := by
  obtain ⟨T1, e1, h1⟩ := forUp_spec (lo := 0) (hi := n + 1 - m) (s := (callocTB (n + 1 - m) 2 : TB K))
    (body := fun l T => (rootQ sqrt ((l + 2 * m - 1) * (l + 2 * m)) ((2 * l + 2 * m - 1) * (2 * l + 2 * m + 1))).bind fun c => T.set c l l)
    (fun a T => StoresT T (n + 1 - m) 2 (sineM sqrt m a 0))
    (by
      have : StoresT (callocTB (n + 1 - m) 2 : TB K) (n + 1 - m) 2 fun _ _ => 0 :=
        .mk' ⟨rfl, rfl⟩ (by unfold TB.WF callocTB callocB; simp only; omega) fun i j => by unfold TB.ent callocTB callocB; simp
      convert this using 1
      funext i j
      unfold sineM
      rw [if_neg (by omega), if_neg (by omega)])
    fun l l0 l1 T hT => by
      obtain ⟨T', e, h⟩ := C14_set_tri hT (rt sqrt ((l + 2 * m - 1) * (l + 2 * m)) ((2 * l + 2 * m - 1) * (2 * l + 2 * m + 1))) l l
      refine ⟨T', ?_, ?_⟩
      · beta_reduce
        rw [rootQ_run (by apply mul_pos <;> omega)]
        exact e
      · convert h using 1
        funext p q
        unfold sineM band
        by_cases hp : p = l ∧ q = l
        · obtain ⟨rfl, rfl⟩ := hp
          rw [if_pos (by omega), if_pos (by omega)]
        · rw [if_neg (c := (p = l ∧ q = l) ∧ _) (by tauto)]
          by_cases hq : q = p
          · subst hq
            have : (q < l + 1) = (q < l) := propext (by omega)
            simp only [this]
          · rw [if_neg (by tauto), if_neg (c := q = p ∧ 0 ≤ p ∧ p < l) (by tauto)]
  obtain ⟨T2, e2, h2⟩ := forUp_spec (lo := 0) (hi := n - 1 - m) (s := T1)
    (body := fun l T => (rootQ sqrt ((l + 1) * (l + 2)) ((2 * l + 2 * m + 1) * (2 * l + 2 * m + 3))).bind fun c => T.set (-c) l (l + 2))
    (fun b T => StoresT T (n + 1 - m) 2 (sineM sqrt m (n + 1 - m) b))
    (by rwa [max_eq_right (by omega)] at h1)
    fun l l0 l1 T hT => by
      obtain ⟨T', e, h⟩ := C14_set_tri hT (-rt sqrt ((l + 1) * (l + 2)) ((2 * l + 2 * m + 1) * (2 * l + 2 * m + 3))) l (l + 2)
      refine ⟨T', ?_, ?_⟩
      · beta_reduce
        rw [rootQ_run (by apply mul_pos <;> omega)]
        exact e
      · convert h using 1
        funext p q
        unfold sineM band
        by_cases hp : p = l ∧ q = l + 2
        · obtain ⟨rfl, rfl⟩ := hp
          rw [if_neg (by omega), if_pos (by omega), if_pos (by omega)]
        · rw [if_neg (c := (p = l ∧ q = l + 2) ∧ _) (by tauto)]
          by_cases hq : q = p + 2
          · have : (p < l + 1) = (p < l) := propext (by omega)
            simp only [this]
          · rw [if_neg (c := q = p + 2 ∧ 0 ≤ p ∧ p < l + 1) (by tauto), if_neg (c := q = p + 2 ∧ 0 ≤ p ∧ p < l) (by tauto)]
  refine ⟨T2, ?_, ?_⟩
  · show (forUp _ _ _ _).bind _ = _
    rw [e1]
    exact e2
  · convert h2 using 1
    funext i j
    unfold sineM
    have : (j = i + 2 ∧ 0 ≤ i ∧ i < n - 1 - m) = (j = i + 2 ∧ 0 ≤ i ∧ i < max 0 (n - 1 - m)) := propext (by omega)
    simp only [this]

/-- The entries set when the two loops of `thetaDer` have run up to `a` and `b`. -/
def thetaM (sqrt : K → K) (m a b i j : Int) : K :=
  if i = j + 1 ∧ 0 ≤ j ∧ j + 1 < a then ((m + j : Int) : K) * cf sqrt m j
  else if j = i + 1 ∧ 0 ≤ i ∧ i < b then ((-(m + i + 2) : Int) : K) * cf sqrt m i else 0

theorem theta_run {sqrt : K → K} {n m : Int} (hm : 1 ≤ m) (hn : m ≤ n) : ∃ B, thetaDer sqrt n m = some B ∧ Stores B (n + 1 - m) (n + 1 - m) 1 1 (thetaM sqrt m (n + 1 - m) (n - m)) := by
  obtain ⟨T1, e1, h1⟩ := forUp_spec (lo := 1) (hi := n + 1 - m) (s := (callocBanded (n + 1 - m) (n + 1 - m) 1 1 : Banded K))
    (body := fun l B => (rootQ sqrt (l * (l + 2 * m)) ((2 * l + 2 * m - 1) * (2 * l + 2 * m + 1))).bind fun c => B.set (((l + m - 1 : Int) : K) * c) l (l - 1))
    (fun a T => Stores T (n + 1 - m) (n + 1 - m) 1 1 (thetaM sqrt m a 0))
    (by
      have := C14_calloc (K := K) (n + 1 - m) (n + 1 - m) 1 1
      convert this using 1
      funext i j
      unfold thetaM
      rw [if_neg (by omega), if_neg (by omega)])
    fun l l0 l1 T hT => by
      obtain ⟨T', e, h⟩ := C14_set hT (((l + m - 1 : Int) : K) * rt sqrt (l * (l + 2 * m)) ((2 * l + 2 * m - 1) * (2 * l + 2 * m + 1))) l (l - 1)
      refine ⟨T', ?_, ?_⟩
      · beta_reduce
        rw [rootQ_run (by apply mul_pos <;> omega)]
        exact e
      · convert h using 1
        funext p q
        unfold thetaM band
        by_cases hp : p = l ∧ q = l - 1
        · obtain ⟨rfl, rfl⟩ := hp
          rw [if_pos (by omega), if_pos (by omega)]
          unfold cf
          rw [show m + (p - 1) = p + m - 1 by ring, show p - 1 + 1 = p by ring, show p - 1 + 2 * m + 1 = p + 2 * m by ring, show 2 * (p - 1) + 2 * m + 1 = 2 * p + 2 * m - 1 by ring,
            show 2 * (p - 1) + 2 * m + 3 = 2 * p + 2 * m + 1 by ring]
        · rw [if_neg (c := (p = l ∧ q = l - 1) ∧ _) (by tauto)]
          by_cases hq : p = q + 1
          · have : (q + 1 < l + 1) = (q + 1 < l) := propext (by omega)
            simp only [this]
          · rw [if_neg (by tauto), if_neg (c := p = q + 1 ∧ 0 ≤ q ∧ q + 1 < l) (by tauto)]
  obtain ⟨T2, e2, h2⟩ := forUp_spec (lo := 0) (hi := n - m) (s := T1)
    (body := fun l B => (rootQ sqrt ((l + 1) * (l + 2 * m + 1)) ((2 * l + 2 * m + 1) * (2 * l + 2 * m + 3))).bind fun c => B.set (((-(l + m + 2) : Int) : K) * c) l (l + 1))
    (fun b T => Stores T (n + 1 - m) (n + 1 - m) 1 1 (thetaM sqrt m (n + 1 - m) b))
    (by rwa [max_eq_right (by omega)] at h1)
    fun l l0 l1 T hT => by
      obtain ⟨T', e, h⟩ := C14_set hT (((-(l + m + 2) : Int) : K) * rt sqrt ((l + 1) * (l + 2 * m + 1)) ((2 * l + 2 * m + 1) * (2 * l + 2 * m + 3))) l (l + 1)
      refine ⟨T', ?_, ?_⟩
      · beta_reduce
        rw [rootQ_run (by apply mul_pos <;> omega)]
        exact e
      · convert h using 1
        funext p q
        unfold thetaM band
        by_cases hp : p = l ∧ q = l + 1
        · obtain ⟨rfl, rfl⟩ := hp
          rw [if_neg (by omega), if_pos (by omega), if_pos (by omega), add_comm m p]
          rfl
        · rw [if_neg (c := (p = l ∧ q = l + 1) ∧ _) (by tauto)]
          by_cases hq : q = p + 1
          · have : (p < l + 1) = (p < l) := propext (by omega)
            simp only [this]
          · rw [if_neg (c := q = p + 1 ∧ 0 ≤ p ∧ p < l + 1) (by tauto), if_neg (c := q = p + 1 ∧ 0 ≤ p ∧ p < l) (by tauto)]
  refine ⟨T2, ?_, ?_⟩
  · show (forUp _ _ _ _).bind _ = _
    rw [e1]
    exact e2
  · rwa [max_eq_right (by omega)] at h2

/-- The entries set when the two loops of `hodgeConv` have run up to `a` and `b`. -/
def hodgeM (sqrt : K → K) (m a b i j : Int) : K :=
  if i = j + 2 ∧ 0 ≤ j ∧ j < 2 * a then ((m + j / 2 : Int) : K) * cf sqrt m (j / 2)
  else if j = i + 2 ∧ 0 ≤ i ∧ i < 2 * b then ((-(m + i / 2 + 2) : Int) : K) * cf sqrt m (i / 2)
  else if i / 2 = j / 2 ∧ i ≠ j ∧ 0 ≤ j ∧ j < 2 * a then (m : K) else 0

theorem hodge_run {sqrt : K → K} {n m : Int} (hm : 1 ≤ m) (hn : m ≤ n) :
    ∃ A, hodgeConv sqrt n m = some A ∧ Stores A (2 * n + 4 - 2 * m) (2 * n + 2 - 2 * m) 2 2 (hodgeM sqrt m (n + 1 - m) (n - m)) := by
  obtain ⟨T1, e1, h1⟩ := forUp_spec (lo := 0) (hi := n + 1 - m) (s := (callocBanded (2 * n + 4 - 2 * m) (2 * n + 2 - 2 * m) 2 2 : Banded K))
    (body := fun l A => (A.set (m : K) (2 * l + 1) (2 * l)).bind fun A => (A.set (m : K) (2 * l) (2 * l + 1)).bind fun A =>
      (rootQ sqrt ((l + 1) * (l + 2 * m + 1)) ((2 * l + 2 * m + 1) * (2 * l + 2 * m + 3))).bind fun c =>
      (A.set (((m + l : Int) : K) * c) (2 * l + 3) (2 * l + 1)).bind fun A => A.set (((m + l : Int) : K) * c) (2 * l + 2) (2 * l))
    (fun a T => Stores T (2 * n + 4 - 2 * m) (2 * n + 2 - 2 * m) 2 2 (hodgeM sqrt m a 0))
    (by
      have := C14_calloc (K := K) (2 * n + 4 - 2 * m) (2 * n + 2 - 2 * m) 2 2
      convert this using 1
      funext i j
      unfold hodgeM
      rw [if_neg (by omega), if_neg (by omega), if_neg (by omega)])
    fun l l0 l1 T hT => by
      obtain ⟨A1, e1, h1⟩ := C14_set hT (m : K) (2 * l + 1) (2 * l)
      obtain ⟨A2, e2, h2⟩ := C14_set h1 (m : K) (2 * l) (2 * l + 1)
      obtain ⟨A3, e3, h3⟩ := C14_set h2 (((m + l : Int) : K) * cf sqrt m l) (2 * l + 3) (2 * l + 1)
      obtain ⟨A4, e4, h4⟩ := C14_set h3 (((m + l : Int) : K) * cf sqrt m l) (2 * l + 2) (2 * l)
      refine ⟨A4, ?_, ?_⟩
      · beta_reduce
        rw [e1]
        show (A1.set _ _ _).bind _ = _
        rw [e2]
        show (rootQ _ _ _).bind _ = _
        rw [rootQ_run (by apply mul_pos <;> omega)]
        show (A2.set _ _ _).bind _ = _
        rw [show rt sqrt ((l + 1) * (l + 2 * m + 1)) ((2 * l + 2 * m + 1) * (2 * l + 2 * m + 3)) = cf sqrt m l from rfl, e3]
        exact e4
      · convert h4 using 1
        funext p q
        unfold hodgeM band
        by_cases ha : p = 2 * l + 2 ∧ q = 2 * l
        · obtain ⟨rfl, rfl⟩ := ha
          rw [if_pos (by omega), if_pos (by omega), show 2 * l / 2 = l by omega]
        rw [if_neg (c := (p = 2 * l + 2 ∧ q = 2 * l) ∧ _) (by tauto)]
        by_cases hb : p = 2 * l + 3 ∧ q = 2 * l + 1
        · obtain ⟨rfl, rfl⟩ := hb
          rw [if_pos (by omega), if_pos (by omega), show (2 * l + 1) / 2 = l by omega]
        rw [if_neg (c := (p = 2 * l + 3 ∧ q = 2 * l + 1) ∧ _) (by tauto)]
        by_cases hc : p = 2 * l ∧ q = 2 * l + 1
        · obtain ⟨rfl, rfl⟩ := hc
          rw [if_neg (by omega), if_neg (by omega), if_pos (by omega), if_pos (by omega)]
        rw [if_neg (c := (p = 2 * l ∧ q = 2 * l + 1) ∧ _) (by tauto)]
        by_cases hd : p = 2 * l + 1 ∧ q = 2 * l
        · obtain ⟨rfl, rfl⟩ := hd
          rw [if_neg (by omega), if_neg (by omega), if_pos (by omega), if_pos (by omega)]
        rw [if_neg (c := (p = 2 * l + 1 ∧ q = 2 * l) ∧ _) (by tauto)]
        have t1 : (p = q + 2 ∧ 0 ≤ q ∧ q < 2 * (l + 1)) = (p = q + 2 ∧ 0 ≤ q ∧ q < 2 * l) := propext (by omega)
        have t2 : (p / 2 = q / 2 ∧ p ≠ q ∧ 0 ≤ q ∧ q < 2 * (l + 1)) = (p / 2 = q / 2 ∧ p ≠ q ∧ 0 ≤ q ∧ q < 2 * l) := propext (by omega)
        simp only [t1, t2]
  obtain ⟨T2, e2, h2⟩ := forUp_spec (lo := 0) (hi := n - m) (s := T1)
    (body := fun l A => (rootQ sqrt ((l + 1) * (l + 2 * m + 1)) ((2 * l + 2 * m + 1) * (2 * l + 2 * m + 3))).bind fun c =>
      (A.set (((-(m + l + 2) : Int) : K) * c) (2 * l) (2 * l + 2)).bind fun A => A.set (((-(m + l + 2) : Int) : K) * c) (2 * l + 1) (2 * l + 3))
    (fun b T => Stores T (2 * n + 4 - 2 * m) (2 * n + 2 - 2 * m) 2 2 (hodgeM sqrt m (n + 1 - m) b))
    (by rwa [max_eq_right (by omega)] at h1)
    fun l l0 l1 T hT => by
      obtain ⟨A1, e1, h1⟩ := C14_set hT (((-(m + l + 2) : Int) : K) * cf sqrt m l) (2 * l) (2 * l + 2)
      obtain ⟨A2, e2, h2⟩ := C14_set h1 (((-(m + l + 2) : Int) : K) * cf sqrt m l) (2 * l + 1) (2 * l + 3)
      refine ⟨A2, ?_, ?_⟩
      · beta_reduce
        rw [rootQ_run (by apply mul_pos <;> omega)]
        show (T.set _ _ _).bind _ = _
        rw [show rt sqrt ((l + 1) * (l + 2 * m + 1)) ((2 * l + 2 * m + 1) * (2 * l + 2 * m + 3)) = cf sqrt m l from rfl, e1]
        exact e2
      · convert h2 using 1
        funext p q
        unfold hodgeM band
        by_cases ha : p = 2 * l + 1 ∧ q = 2 * l + 3
        · obtain ⟨rfl, rfl⟩ := ha
          rw [if_neg (by omega), if_pos (by omega), if_pos (by omega), show (2 * l + 1) / 2 = l by omega]
        rw [if_neg (c := (p = 2 * l + 1 ∧ q = 2 * l + 3) ∧ _) (by tauto)]
        by_cases hb : p = 2 * l ∧ q = 2 * l + 2
        · obtain ⟨rfl, rfl⟩ := hb
          rw [if_neg (by omega), if_pos (by omega), if_pos (by omega), show 2 * l / 2 = l by omega]
        rw [if_neg (c := (p = 2 * l ∧ q = 2 * l + 2) ∧ _) (by tauto)]
        have t1 : (q = p + 2 ∧ 0 ≤ p ∧ p < 2 * (l + 1)) = (q = p + 2 ∧ 0 ≤ p ∧ p < 2 * l) := propext (by omega)
        simp only [t1]
  refine ⟨T2, ?_, ?_⟩
  · show (forUp _ _ _ _).bind _ = _
    rw [e1]
    exact e2
  · rwa [max_eq_right (by omega)] at h2

theorem rt_pos {sqrt : K → K} (hs : IsSqrt sqrt) {num den : Int} (h : 0 < num) (h' : 0 < den) : 0 < rt sqrt num den :=
  sqrt_pos hs (div_pos (by exact_mod_cast h) (by exact_mod_cast h'))

theorem cf_pos {sqrt : K → K} (hs : IsSqrt sqrt) {m l : Int} (hm : 1 ≤ m) (hl : 0 ≤ l) : 0 < cf sqrt m l :=
  rt_pos hs (by apply mul_pos <;> omega) (by apply mul_pos <;> omega)

theorem sine_diag {sqrt : K → K} (hs : IsSqrt sqrt) {n m : Int} (hm : 1 ≤ m) : ∀ i, 0 ≤ i → i < n + 1 - m → sineM sqrt m (n + 1 - m) (n - 1 - m) i i ≠ 0 := fun i i0 i1 => by
  unfold sineM
  rw [if_pos (by omega)]
  exact (rt_pos hs (by apply mul_pos <;> omega) (by apply mul_pos <;> omega)).ne'

/-- Row `l` of the colatitude derivative of order `m`, on the degrees below `n + 1`. -/
def row (sqrt : K → K) (n m l : Int) (u : Int → K) : K :=
  (if 0 < l then ((m + (l - 1) : Int) : K) * cf sqrt m (l - 1) * u (l - 1) else 0) + if l < n - m then ((-(m + l + 2) : Int) : K) * cf sqrt m l * u (l + 1) else 0

theorem sum_pick {n k : Int} (c : K) (u : Int → K) : ∑ j ∈ Finset.Ico 0 n, (if j = k then c else 0) * u j = if 0 ≤ k ∧ k < n then c * u k else 0 := by
  simp only [ite_mul, zero_mul, Finset.sum_ite_eq', Finset.mem_Ico]

theorem theta_row {sqrt : K → K} {n m l : Int} (l0 : 0 ≤ l) (l1 : l < n + 1 - m) (u : Int → K) : ∑ k ∈ Finset.Ico 0 (n + 1 - m), thetaM sqrt m (n + 1 - m) (n - m) l k * u k = row sqrt n m l u := by
  rw [sum_Ico_congr (g := fun k => (if k = l - 1 then ((m + (l - 1) : Int) : K) * cf sqrt m (l - 1) else 0) * u k + (if k = l + 1 then (if l < n - m then ((-(m + l + 2) : Int) : K) * cf sqrt m l else 0) else 0) * u k)
    fun k k0 k1 => ?_, Finset.sum_add_distrib, sum_pick, sum_pick]
  · unfold row
    congr 1
    · have : (0 ≤ l - 1 ∧ l - 1 < n + 1 - m) = (0 < l) := propext (by omega)
      simp only [this]
    · by_cases h : l < n - m
      · rw [if_pos (by omega), if_pos h, if_pos h]
      · rw [if_neg h, if_neg h]; split_ifs <;> simp
  · unfold thetaM
    by_cases ha : k = l - 1
    · subst ha
      rw [if_pos (by omega), if_pos rfl, if_neg (by omega), zero_mul, add_zero]
    · rw [if_neg (by omega), if_neg ha, zero_mul, zero_add]
      by_cases hb : k = l + 1
      · subst hb
        rw [if_pos rfl]
        congr 1
        split_ifs <;> first | rfl | omega
      · rw [if_neg (by tauto), if_neg hb]

theorem hodge_even {sqrt : K → K} {n m l : Int} (l0 : 0 ≤ l) (l1 : l < n + 1 - m) (x : Int → K) :
    ∑ c ∈ Finset.Ico 0 (2 * n + 2 - 2 * m), hodgeM sqrt m (n + 1 - m) (n - m) (2 * l) c * x c = row sqrt n m l (fun k => x (2 * k)) + (m : K) * x (2 * l + 1) := by
  rw [sum_Ico_congr (g := fun k => (if k = 2 * (l - 1) then ((m + (l - 1) : Int) : K) * cf sqrt m (l - 1) else 0) * x k +
      (if k = 2 * (l + 1) then (if l < n - m then ((-(m + l + 2) : Int) : K) * cf sqrt m l else 0) else 0) * x k + (if k = 2 * l + 1 then (m : K) else 0) * x k)
    fun k k0 k1 => ?_, Finset.sum_add_distrib, Finset.sum_add_distrib, sum_pick, sum_pick, sum_pick]
  · unfold row
    rw [if_pos (c := 0 ≤ 2 * l + 1 ∧ _) (by omega)]
    congr 2
    · have : (0 ≤ 2 * (l - 1) ∧ 2 * (l - 1) < 2 * n + 2 - 2 * m) = (0 < l) := propext (by omega)
      simp only [this]
    · by_cases h : l < n - m
      · rw [if_pos (by omega), if_pos h, if_pos h]
      · rw [if_neg h, if_neg h]; split_ifs <;> simp
  · unfold hodgeM
    by_cases ha : k = 2 * (l - 1)
    · subst ha
      rw [if_pos (by omega), if_pos rfl, if_neg (by omega), if_neg (by omega), zero_mul, add_zero, add_zero, show 2 * (l - 1) / 2 = l - 1 by omega]
    · rw [if_neg (by omega), if_neg ha, zero_mul, zero_add]
      by_cases hb : k = 2 * (l + 1)
      · subst hb
        rw [if_pos rfl, if_neg (c := 2 * (l + 1) = 2 * l + 1) (by omega), zero_mul, add_zero, show 2 * l / 2 = l by omega]
        congr 1
        by_cases h : l < n - m
        · rw [if_pos (by omega), if_pos h]
        · rw [if_neg (by omega), if_neg (by omega), if_neg h]
      · rw [if_neg (by omega), if_neg hb, zero_mul, zero_add]
        congr 1
        have : (2 * l / 2 = k / 2 ∧ 2 * l ≠ k ∧ 0 ≤ k ∧ k < 2 * (n + 1 - m)) = (k = 2 * l + 1) := propext (by omega)
        simp only [this]

theorem hodge_odd {sqrt : K → K} {n m l : Int} (l0 : 0 ≤ l) (l1 : l < n + 1 - m) (x : Int → K) :
    ∑ c ∈ Finset.Ico 0 (2 * n + 2 - 2 * m), hodgeM sqrt m (n + 1 - m) (n - m) (2 * l + 1) c * x c = row sqrt n m l (fun k => x (2 * k + 1)) + (m : K) * x (2 * l) := by
  rw [sum_Ico_congr (g := fun k => (if k = 2 * (l - 1) + 1 then ((m + (l - 1) : Int) : K) * cf sqrt m (l - 1) else 0) * x k +
      (if k = 2 * (l + 1) + 1 then (if l < n - m then ((-(m + l + 2) : Int) : K) * cf sqrt m l else 0) else 0) * x k + (if k = 2 * l then (m : K) else 0) * x k)
    fun k k0 k1 => ?_, Finset.sum_add_distrib, Finset.sum_add_distrib, sum_pick, sum_pick, sum_pick]
  · unfold row
    rw [if_pos (c := 0 ≤ 2 * l ∧ _) (by omega)]
    congr 2
    · have : (0 ≤ 2 * (l - 1) + 1 ∧ 2 * (l - 1) + 1 < 2 * n + 2 - 2 * m) = (0 < l) := propext (by omega)
      simp only [this]
    · by_cases h : l < n - m
      · rw [if_pos (by omega), if_pos h, if_pos h]
      · rw [if_neg h, if_neg h]; split_ifs <;> simp
  · unfold hodgeM
    by_cases ha : k = 2 * (l - 1) + 1
    · subst ha
      rw [if_pos (by omega), if_pos rfl, if_neg (by omega), if_neg (by omega), zero_mul, add_zero, add_zero, show (2 * (l - 1) + 1) / 2 = l - 1 by omega]
    · rw [if_neg (by omega), if_neg ha, zero_mul, zero_add]
      by_cases hb : k = 2 * (l + 1) + 1
      · subst hb
        rw [if_pos rfl, if_neg (c := 2 * (l + 1) + 1 = 2 * l) (by omega), zero_mul, add_zero, show (2 * l + 1) / 2 = l by omega]
        congr 1
        by_cases h : l < n - m
        · rw [if_pos (by omega), if_pos h]
        · rw [if_neg (by omega), if_neg (by omega), if_neg h]
      · rw [if_neg (by omega), if_neg hb, zero_mul, zero_add]
        congr 1
        have : ((2 * l + 1) / 2 = k / 2 ∧ 2 * l + 1 ≠ k ∧ 0 ≤ k ∧ k < 2 * (n + 1 - m)) = (k = 2 * l) := propext (by omega)
        simp only [this]

/-- The two rows below. -/
theorem hodge_last {sqrt : K → K} {n m e : Int} (hn : m ≤ n) (e0 : 0 ≤ e) (e1 : e < 2) (x : Int → K) :
    ∑ c ∈ Finset.Ico 0 (2 * n + 2 - 2 * m), hodgeM sqrt m (n + 1 - m) (n - m) (2 * n + 2 - 2 * m + e) c * x c = (n : K) * cf sqrt m (n - m) * x (2 * (n - m) + e) := by
  rw [sum_Ico_congr (g := fun k => (if k = 2 * (n - m) + e then (n : K) * cf sqrt m (n - m) else 0) * x k) fun k k0 k1 => ?_, sum_pick, if_pos (by omega)]
  unfold hodgeM
  congr 1
  by_cases h : k = 2 * (n - m) + e
  · rw [if_pos (by omega), if_pos h, show k / 2 = n - m by omega, show m + (n - m) = n by ring]
  · rw [if_neg (by omega), if_neg (by omega), if_neg (by omega), if_neg h]

/-- The columns of the conversion matrix are independent. -/
theorem hodge_indep {sqrt : K → K} (hs : IsSqrt sqrt) {n m : Int} (hm : 1 ≤ m) (hn : m ≤ n) : Independent (2 * n + 4 - 2 * m) (2 * n + 2 - 2 * m) (hodgeM sqrt m (n + 1 - m) (n - m)) := by
  intro x hx
  have top : ∀ e, 0 ≤ e → e < 2 → x (2 * (n - m) + e) = 0 := fun e e0 e1 => by
    have := hx (2 * n + 2 - 2 * m + e) (by omega) (by omega)
    rw [hodge_last hn e0 e1] at this
    rcases mul_eq_zero.1 this with h | h
    · rcases mul_eq_zero.1 h with h | h
      · exact absurd h (by exact_mod_cast (show n ≠ 0 by omega))
      · exact absurd h (cf_pos hs hm (by omega)).ne'
    · exact h
  have key : ∀ k : ℕ, ∀ l, n - m - k ≤ l → l ≤ n - m → 0 ≤ l → x (2 * l) = 0 ∧ x (2 * l + 1) = 0 := fun k => by
    induction k with
    | zero =>
      intro l a b c
      obtain rfl : l = n - m := by simp at a; omega
      exact ⟨by simpa using top 0 le_rfl (by decide), top 1 (by decide) (by decide)⟩
    | succ k ih =>
      intro l a b c
      rcases lt_or_ge l (n - m - k) with h | h
      · have z1 := ih (l + 1) (by push_cast at a; omega) (by omega) (by omega)
        have z2 : ∀ e, 0 ≤ e → e < 2 → l + 1 < n - m → x (2 * (l + 1 + 1) + e) = 0 := fun e e0 e1 h' => by
          have := ih (l + 1 + 1) (by push_cast at a; omega) (by omega) (by omega)
          rcases (show e = 0 ∨ e = 1 by omega) with rfl | rfl
          · rw [add_zero]; exact this.1
          · exact this.2
        have p : ((m + (l + 1 - 1) : Int) : K) * cf sqrt m (l + 1 - 1) ≠ 0 := mul_ne_zero (by exact_mod_cast (show m + (l + 1 - 1) ≠ 0 by omega)) (cf_pos hs hm (by omega)).ne'
        have q1 := hx (2 * (l + 1)) (by omega) (by omega)
        have q2 := hx (2 * (l + 1) + 1) (by omega) (by omega)
        rw [hodge_even (by omega) (by omega), z1.2, mul_zero, add_zero] at q1
        rw [hodge_odd (by omega) (by omega), z1.1, mul_zero, add_zero] at q2
        unfold row at q1 q2
        rw [if_pos (by omega)] at q1 q2
        rw [show l + 1 - 1 = l by ring] at q1 q2 p
        have r1 : (if l + 1 < n - m then ((-(m + (l + 1) + 2) : Int) : K) * cf sqrt m (l + 1) * x (2 * (l + 1 + 1)) else 0) = 0 := by
          split_ifs with h'
          · have := z2 0 le_rfl (by decide) h'
            rw [add_zero] at this
            rw [this, mul_zero]
          · rfl
        have r2 : (if l + 1 < n - m then ((-(m + (l + 1) + 2) : Int) : K) * cf sqrt m (l + 1) * x (2 * (l + 1 + 1) + 1) else 0) = 0 := by
          split_ifs with h'
          · rw [z2 1 (by decide) (by decide) h', mul_zero]
          · rfl
        rw [r1, add_zero] at q1
        rw [r2, add_zero] at q2
        exact ⟨(mul_eq_zero.1 q1).resolve_left p, (mul_eq_zero.1 q2).resolve_left p⟩
      · exact ih l h b c
  intro c c0 c1
  have := key (n - m).toNat (c / 2) (by omega) (by omega) (by omega)
  rcases (show c = 2 * (c / 2) ∨ c = 2 * (c / 2) + 1 by omega) with h | h
  · rw [h]; exact this.1
  · rw [h]; exact this.2

end FT.Hodge
