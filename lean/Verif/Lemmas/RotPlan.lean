import Verif.Lemmas.Sqrt
import Verif.Lemmas.Rotations
import Mathlib.Algebra.Order.Field.Basic
import Mathlib.Tactic.Positivity
import Mathlib.Tactic.FieldSimp

namespace FT

/-! ## Table positions -/

/-- Column offsets that grow by the column lengths. -/
theorem offs_le {D rows : Int → Int} {M : Int} (hD : ∀ m, 0 ≤ m → m < M → D (m + 1) = D m + rows m)
    (hr : ∀ m, 0 ≤ m → m < M → 0 ≤ rows m) {m m' : Int} (h0 : 0 ≤ m) (h : m ≤ m') (h1 : m' ≤ M) : D m ≤ D m' := by
  obtain ⟨t, rfl⟩ : ∃ t : Nat, m' = m + t := ⟨(m' - m).toNat, by omega⟩
  clear h
  induction t with
  | zero => simp
  | succ t ih =>
    have := ih (by push_cast at h1; omega)
    push_cast at h1
    have e := hD (m + t) (by omega) (by omega)
    have e' := hr (m + t) (by omega) (by omega)
    push_cast
    rw [← add_assoc, e]; omega

theorem offs_inj {D rows : Int → Int} {M : Int} (hD : ∀ m, 0 ≤ m → m < M → D (m + 1) = D m + rows m)
    (hr : ∀ m, 0 ≤ m → m < M → 0 ≤ rows m) {l m l' m' : Int} (h0 : 0 ≤ m) (h1 : m < M) (h0' : 0 ≤ m') (h1' : m' < M)
    (hl0 : 0 ≤ l) (hl : l < rows m) (hl0' : 0 ≤ l') (hl' : l' < rows m') (e : l + D m = l' + D m') :
    l = l' ∧ m = m' := by
  have hne : ¬ m < m' := by
    intro hlt
    have := offs_le hD hr (m := m + 1) (m' := m') (by omega) (by omega) (by omega)
    rw [hD m h0 h1] at this
    omega
  have hne' : ¬ m' < m := by
    intro hlt
    have := offs_le hD hr (m := m' + 1) (m' := m) (by omega) (by omega) (by omega)
    rw [hD m' h0' h1'] at this
    omega
  have : m = m' := by omega
  subst this
  exact ⟨by omega, rfl⟩

theorem offs_range {D rows : Int → Int} {M : Int} (hD : ∀ m, 0 ≤ m → m < M → D (m + 1) = D m + rows m)
    (hr : ∀ m, 0 ≤ m → m < M → 0 ≤ rows m) {l m : Int} (h0 : 0 ≤ m) (h1 : m < M)
    (hl0 : 0 ≤ l) (hl : l < rows m) : D 0 ≤ l + D m ∧ l + D m < D M := by
  have a := offs_le hD hr (m := 0) (m' := m) (by omega) h0 (by omega)
  have b := offs_le hD hr (m := m + 1) (m' := M) (by omega) (by omega) (by omega)
  rw [hD m h0 h1] at b
  omega

theorem offs_surj {D rows : Int → Int} {M : Int} (hM : 0 ≤ M) (hD : ∀ m, 0 ≤ m → m < M → D (m + 1) = D m + rows m)
    {i : Int} (h0 : D 0 ≤ i) (h1 : i < D M) : ∃ l m, 0 ≤ m ∧ m < M ∧ 0 ≤ l ∧ l < rows m ∧ i = l + D m := by
  obtain ⟨t, rfl⟩ : ∃ t : Nat, M = t := ⟨M.toNat, by omega⟩
  clear hM
  induction t with
  | zero => exfalso; push_cast at h1; omega
  | succ t ih =>
    by_cases h : i < D t
    · obtain ⟨l, m, a, b, c, d, e⟩ := ih (fun m a b => hD m a (by push_cast; omega)) h
      exact ⟨l, m, a, by push_cast; omega, c, d, e⟩
    · have e := hD t (by omega) (by push_cast; omega)
      push_cast at h1
      exact ⟨i - D t, t, by omega, by push_cast; omega, by omega, by omega, by omega⟩

theorem tri_even (n m : Int) : m * (2 * n + 1 - m) = 2 * (m * (2 * n + 1 - m) / 2) := by
  have h : (2 : Int) ∣ m * (2 * n + 1 - m) := by
    rcases Int.even_or_odd m with ⟨a, rfl⟩ | ⟨a, rfl⟩
    · exact ⟨a * (2 * n + 1 - (a + a)), by ring⟩
    · exact ⟨(2 * a + 1) * (n - a), by ring⟩
  exact (Int.mul_ediv_cancel' h).symm

theorem tri_off (n m : Int) : (m + 1) * (2 * n + 1 - (m + 1)) / 2 = m * (2 * n + 1 - m) / 2 + (n - m) := by
  have a := tri_even n m
  have b := tri_even n (m + 1)
  have : (m + 1) * (2 * n + 1 - (m + 1)) = m * (2 * n + 1 - m) + 2 * (n - m) := by ring
  omega

theorem sIdx_range {n l m : Int} (h0 : 0 ≤ m) (h1 : m < n) (hl0 : 0 ≤ l) (hl : l < n - m) :
    0 ≤ sIdx n l m ∧ sIdx n l m < n * (n + 1) / 2 := by
  have := offs_range (D := fun m => m * (2 * n + 1 - m) / 2) (rows := fun m => n - m) (M := n)
    (fun m _ _ => tri_off n m) (fun m _ h => by omega) h0 h1 hl0 hl
  unfold sIdx
  simp only [zero_mul, Int.zero_ediv] at this
  rw [show n * (2 * n + 1 - n) = n * (n + 1) by ring] at this
  exact this

theorem sIdx_inj {n l m l' m' : Int} (h0 : 0 ≤ m) (h1 : m < n) (hl0 : 0 ≤ l) (hl : l < n - m)
    (h0' : 0 ≤ m') (h1' : m' < n) (hl0' : 0 ≤ l') (hl' : l' < n - m') (e : sIdx n l m = sIdx n l' m') :
    l = l' ∧ m = m' :=
  offs_inj (D := fun m => m * (2 * n + 1 - m) / 2) (rows := fun m => n - m) (M := n)
    (fun m _ _ => tri_off n m) (fun m _ h => by omega) h0 h1 h0' h1' hl0 hl hl0' hl' e

theorem disk_off (n m : Int) : (m + 1) * n - ((m + 1) / 2) * ((m + 1 + 1) / 2) =
    m * n - (m / 2) * ((m + 1) / 2) + (n - (m + 1) / 2) := by
  have : (m + 1 + 1) / 2 = m / 2 + 1 := by omega
  rw [this]; ring

theorem sdIdx_range {n l m : Int} (h0 : 0 ≤ m) (h1 : m < 2 * n - 1) (hl0 : 0 ≤ l) (hl : l < n - (m + 1) / 2) :
    0 ≤ sdIdx n l m ∧ sdIdx n l m < n * n := by
  have := offs_range (D := fun m => m * n - (m / 2) * ((m + 1) / 2)) (rows := fun m => n - (m + 1) / 2)
    (M := 2 * n - 1) (fun m _ _ => disk_off n m) (fun m _ h => by omega) h0 h1 hl0 hl
  unfold sdIdx
  have e1 : (2 * n - 1) / 2 = n - 1 := by omega
  have e2 : (2 * n - 1 + 1) / 2 = n := by omega
  simp only [e1, e2, zero_mul, Int.zero_ediv, sub_zero] at this
  rw [show (2 * n - 1) * n - (n - 1) * n = n * n by ring] at this
  omega

theorem sdIdx_inj {n l m l' m' : Int} (h0 : 0 ≤ m) (h1 : m < 2 * n - 1) (hl0 : 0 ≤ l) (hl : l < n - (m + 1) / 2)
    (h0' : 0 ≤ m') (h1' : m' < 2 * n - 1) (hl0' : 0 ≤ l') (hl' : l' < n - (m' + 1) / 2)
    (e : sdIdx n l m = sdIdx n l' m') : l = l' ∧ m = m' := by
  refine offs_inj (D := fun m => m * n - (m / 2) * ((m + 1) / 2)) (rows := fun m => n - (m + 1) / 2)
    (M := 2 * n - 1) (fun m _ _ => disk_off n m) (fun m _ h => by omega) h0 h1 h0' h1' hl0 hl hl0' hl' ?_
  unfold sdIdx at e; omega

/-! ## Filling tables -/

section
variable {K ι : Type*}

/-- A run of writes to a pair of tables. -/
theorem exec_writes2 {l : List ι} (ix : ι → Int) (u v : ι → K) {t : Buf K × Buf K}
    (hb : ∀ a ∈ l, 0 ≤ ix a ∧ ix a < t.1.size ∧ ix a < t.2.size)
    (hinj : ∀ a ∈ l, ∀ b ∈ l, ix a = ix b → a = b) :
    ∃ t' : Buf K × Buf K, exec (fun a (t : Buf K × Buf K) => (t.1.wr (ix a) (u a)).bind fun s =>
        (t.2.wr (ix a) (v a)).map fun c => (s, c)) l t = some t' ∧
      (t'.1.size = t.1.size ∧ t'.2.size = t.2.size) ∧
      (∀ a ∈ l, t'.1.val (ix a) = u a ∧ t'.2.val (ix a) = v a) ∧
      (∀ i, (∀ a ∈ l, ix a ≠ i) → t'.1.val i = t.1.val i ∧ t'.2.val i = t.2.val i) := by
  induction l generalizing t with
  | nil => exact ⟨t, rfl, ⟨rfl, rfl⟩, by simp, by simp⟩
  | cons a l ih =>
    obtain ⟨h0, h1, h2⟩ := hb a (by simp)
    obtain ⟨t', e, ⟨hs, hc⟩, hw, hf⟩ := ih
      (t := (⟨t.1.size, Function.update t.1.val (ix a) (u a)⟩, ⟨t.2.size, Function.update t.2.val (ix a) (v a)⟩))
      (fun b hb' => hb b (by simp [hb'])) (fun b hb' c hc' => hinj b (by simp [hb']) c (by simp [hc']))
    refine ⟨t', ?_, ⟨hs, hc⟩, ?_, ?_⟩
    · rw [exec_cons, Buf.wr_of h0 h1, Option.bind_some, Buf.wr_of h0 h2, Option.map_some, Option.bind_some]
      exact e
    · intro b hb'
      rcases List.mem_cons.1 hb' with rfl | hb'
      · by_cases hmem : b ∈ l
        · exact hw b hmem
        · have := hf (ix b) (fun c hc' e' => hmem (by
            have := hinj c (by simp [hc']) b (by simp) e'
            exact this ▸ hc'))
          simp only [Function.update_self] at this
          exact this
      · exact hw b hb'
    · intro i hi
      have := hf i (fun b hb' => hi b (by simp [hb']))
      have hne : i ≠ ix a := fun e => hi a (by simp) e.symm
      simp only [Function.update_of_ne hne] at this
      exact this

theorem fillTables_spec {K : Type*} [Field K] {mMax : Int} {rows : Int → Int} {ix : Int → Int → Int} (sv cv : Int → Int → K)
    {t : Buf K × Buf K}
    (hb : ∀ l m, 0 ≤ m → m < mMax → 0 ≤ l → l < rows m → 0 ≤ ix l m ∧ ix l m < t.1.size ∧ ix l m < t.2.size)
    (hinj : ∀ l m l' m', 0 ≤ m → m < mMax → 0 ≤ l → l < rows m → 0 ≤ m' → m' < mMax → 0 ≤ l' → l' < rows m' →
      ix l m = ix l' m' → l = l' ∧ m = m') :
    ∃ t' : Buf K × Buf K, fillTables mMax rows ix sv cv t = some t' ∧
      (t'.1.size = t.1.size ∧ t'.2.size = t.2.size) ∧
      (∀ l m, 0 ≤ m → m < mMax → 0 ≤ l → l < rows m → t'.1.val (ix l m) = sv l m ∧ t'.2.val (ix l m) = cv l m) ∧
      (∀ i, (∀ l m, 0 ≤ m → m < mMax → 0 ≤ l → l < rows m → ix l m ≠ i) →
        t'.1.val i = t.1.val i ∧ t'.2.val i = t.2.val i) := by
  have hmem : ∀ a : Int × Int, a ∈ ((rUp 0 mMax).flatMap fun m => (rUp 0 (rows m)).map fun l => (l, m)) ↔
      0 ≤ a.2 ∧ a.2 < mMax ∧ 0 ≤ a.1 ∧ a.1 < rows a.2 := by
    rintro ⟨l, m⟩
    simp only [List.mem_flatMap, List.mem_map, mem_rUp, Prod.mk.injEq]
    constructor
    · rintro ⟨m, ⟨h1, h2⟩, l, ⟨h3, h4⟩, rfl, rfl⟩; exact ⟨h1, h2, h3, h4⟩
    · rintro ⟨h1, h2, h3, h4⟩; exact ⟨m, ⟨h1, h2⟩, l, ⟨h3, h4⟩, rfl, rfl⟩
  obtain ⟨t', e, hs, hw, hf⟩ := exec_writes2 (K := K) (l := (rUp 0 mMax).flatMap fun m => (rUp 0 (rows m)).map fun l => (l, m))
    (fun a => ix a.1 a.2) (fun a => sv a.1 a.2) (fun a => cv a.1 a.2) (t := t)
    (fun a ha => by obtain ⟨h1, h2, h3, h4⟩ := (hmem a).1 ha; exact hb _ _ h1 h2 h3 h4)
    (fun a ha b hb' e => by
      obtain ⟨h1, h2, h3, h4⟩ := (hmem a).1 ha
      obtain ⟨g1, g2, g3, g4⟩ := (hmem b).1 hb'
      obtain ⟨x, y⟩ := hinj _ _ _ _ h1 h2 h3 h4 g1 g2 g3 g4 e
      exact Prod.ext x y)
  refine ⟨t', ?_, hs, ?_, ?_⟩
  · unfold fillTables
    rw [forUp_exec]
    rw [exec_flatMap] at e
    rw [← e]
    apply exec_congr
    intro m _ t
    rw [forUp_exec, exec_map]
  · intro l m h1 h2 h3 h4
    exact hw (l, m) ((hmem _).2 ⟨h1, h2, h3, h4⟩)
  · intro i hi
    apply hf
    intro a ha
    obtain ⟨h1, h2, h3, h4⟩ := (hmem a).1 ha
    exact hi _ _ h1 h2 h3 h4

end

/-! ## The planners -/

section
variable {K : Type*} [Field K] [LinearOrder K] [IsStrictOrderedRing K]

theorem unit_of_sqrt {sqrt : K → K} (hq : IsSqrt sqrt) {a b d : K} (ha : 0 ≤ a) (hb : 0 ≤ b) (hd : 0 < d) (h : a + b = d) :
    sqrt (a / d) * sqrt (a / d) + sqrt (b / d) * sqrt (b / d) = 1 := by
  rw [(hq _ (div_nonneg ha hd.le)).2, (hq _ (div_nonneg hb hd.le)).2, ← add_div, h, div_self hd.ne']

/-- The tables of a plan: entry `(l,m)` for `m < n`, `l < n-m` of the triangular layout. -/
structure TriTables (n : Int) (RP : RotPlan K) (sv cv : Int → Int → K) : Prop where
  hn : RP.n = n
  ssz : (RP.s.size : Int) = n * (n + 1) / 2
  csz : (RP.c.size : Int) = n * (n + 1) / 2
  val : ∀ l m, 0 ≤ m → m < n → 0 ≤ l → l < n - m → RP.s.val (sIdx n l m) = sv l m ∧ RP.c.val (sIdx n l m) = cv l m

theorem planTri_spec (n : Int) (hn : 0 ≤ n) (sv cv : Int → Int → K) (junk : Int → K) :
    ∃ RP : RotPlan K, (fillTables n (fun m => n - m) (sIdx n) sv cv
      (malloc (n*(n+1)/2) junk, malloc (n*(n+1)/2) junk)).map (fun t => (⟨t.1, t.2, n⟩ : RotPlan K)) = some RP ∧
      TriTables n RP sv cv := by
  have hnn : 0 ≤ n * (n + 1) / 2 := Int.ediv_nonneg (Int.mul_nonneg hn (by omega)) (by omega)
  have hsz : ((malloc (n*(n+1)/2) junk : Buf K).size : Int) = n * (n + 1) / 2 := by
    simp only [malloc]; exact Int.toNat_of_nonneg hnn
  obtain ⟨t', e, ⟨h1, h2⟩, h3, -⟩ := fillTables_spec (mMax := n) (rows := fun m => n - m) (ix := sIdx n) sv cv
    (t := (malloc (n*(n+1)/2) junk, malloc (n*(n+1)/2) junk))
    (fun l m a b c d => by
      have := sIdx_range a b c d
      rw [hsz]; exact ⟨this.1, this.2, this.2⟩)
    (fun l m l' m' a b c d a' b' c' d' e => sIdx_inj a b c d a' b' c' d' e)
  refine ⟨⟨t'.1, t'.2, n⟩, by rw [e]; rfl, rfl, ?_, ?_, h3⟩
  · show (t'.1.size : Int) = _
    rw [h1]; exact hsz
  · show (t'.2.size : Int) = _
    rw [h2]; exact hsz

theorem TriTables.good {n : Int} {RP : RotPlan K} {sv cv : Int → Int → K} (h : TriTables n RP sv cv) {G : Geom}
    (hix : G.ix = sIdx) (htop : ∀ j k, 0 ≤ j → 0 ≤ k → k ≤ G.top n j → j < n ∧ k < n - j)
    (hu : ∀ l m, 0 ≤ m → m < n → 0 ≤ l → l < n - m → sv l m * sv l m + cv l m * cv l m = 1) : Good G RP := by
  refine ⟨⟨?_⟩, ?_⟩
  · intro k j hj hk hk'
    rw [h.hn] at hk' ⊢
    obtain ⟨a, b⟩ := htop j k hj hk hk'
    rw [hix, h.ssz, h.csz]
    have := sIdx_range hj a hk b
    exact ⟨this.1, this.2, this.2⟩
  · intro k j hj hk hk'
    rw [h.hn] at hk' ⊢
    obtain ⟨a, b⟩ := htop j k hj hk hk'
    rw [hix, (h.val k j hj a hk b).1, (h.val k j hj a hk b).2]
    exact hu k j hj a hk b

/-- The tables of a disk plan. -/
structure DiskTables (n : Int) (RP : RotPlan K) (sv cv : Int → Int → K) : Prop where
  hn : RP.n = n
  ssz : (RP.s.size : Int) = n * n
  csz : (RP.c.size : Int) = n * n
  val : ∀ l m, 0 ≤ m → m < 2 * n - 1 → 0 ≤ l → l < n - (m + 1) / 2 →
    RP.s.val (sdIdx n l m) = sv l m ∧ RP.c.val (sdIdx n l m) = cv l m

theorem planDisk_spec (n : Int) (hn : 0 ≤ n) (sv cv : Int → Int → K) (junk : Int → K) :
    ∃ RP : RotPlan K, (fillTables (2 * n - 1) (fun m => n - (m + 1) / 2) (sdIdx n) sv cv
      (malloc (n*n) junk, malloc (n*n) junk)).map (fun t => (⟨t.1, t.2, n⟩ : RotPlan K)) = some RP ∧
      DiskTables n RP sv cv := by
  have hnn : 0 ≤ n * n := Int.mul_nonneg hn hn
  have hsz : ((malloc (n*n) junk : Buf K).size : Int) = n * n := by
    simp only [malloc]; exact Int.toNat_of_nonneg hnn
  obtain ⟨t', e, ⟨h1, h2⟩, h3, -⟩ := fillTables_spec (mMax := 2 * n - 1) (rows := fun m => n - (m + 1) / 2) (ix := sdIdx n) sv cv
    (t := (malloc (n*n) junk, malloc (n*n) junk))
    (fun l m a b c d => by
      have := sdIdx_range a b c d
      rw [hsz]; exact ⟨this.1, this.2, this.2⟩)
    (fun l m l' m' a b c d a' b' c' d' e => sdIdx_inj a b c d a' b' c' d' e)
  refine ⟨⟨t'.1, t'.2, n⟩, by rw [e]; rfl, rfl, ?_, ?_, h3⟩
  · show (t'.1.size : Int) = _
    rw [h1]; exact hsz
  · show (t'.2.size : Int) = _
    rw [h2]; exact hsz

theorem DiskTables.good {n : Int} {RP : RotPlan K} {sv cv : Int → Int → K} (h : DiskTables n RP sv cv)
    (hu : ∀ l m, 0 ≤ m → m < 2 * n - 1 → 0 ≤ l → l < n - (m + 1) / 2 → sv l m * sv l m + cv l m * cv l m = 1) :
    Good geomDisk RP := by
  have htop : ∀ j k : Int, 0 ≤ j → 0 ≤ k → k ≤ n - 2 - (j + 1) / 2 → j < 2 * n - 1 ∧ k < n - (j + 1) / 2 := by
    intro j k _ _ _; omega
  refine ⟨⟨?_⟩, ?_⟩
  · intro k j hj hk hk'
    simp only [geomDisk] at hk' ⊢
    rw [h.hn] at hk' ⊢
    obtain ⟨a, b⟩ := htop j k hj hk hk'
    rw [h.ssz, h.csz]
    have := sdIdx_range hj a hk b
    exact ⟨this.1, this.2, this.2⟩
  · intro k j hj hk hk'
    simp only [geomDisk] at hk' ⊢
    rw [h.hn] at hk' ⊢
    obtain ⟨a, b⟩ := htop j k hj hk hk'
    rw [(h.val k j hj a hk b).1, (h.val k j hj a hk b).2]
    exact hu k j hj a hk b

end
end FT
