import Verif.Lemmas.Permute2

namespace FT.Permute
variable {α : Type*}

/-- Contents after exchanging the `n` elements from `a` with the `n` elements from `b`. -/
def swapVal (v : Int → α) (a b n i : Int) : α :=
  if a ≤ i ∧ i < a + n then v (i - a + b)
  else if b ≤ i ∧ i < b + n then v (i - b + a) else v i

theorem swapVal_zero (v : Int → α) (a b : Int) : swapVal v a b 0 = v := by
  funext i; unfold swapVal; rw [if_neg (by omega), if_neg (by omega)]

theorem swapVal_add (v : Int → α) {a b t s n : Int} (ht : 0 ≤ t) (hs : 0 ≤ s) (hn : t + s ≤ n)
    (hd : a + n ≤ b ∨ b + n ≤ a) :
    swapVal (swapVal v a b t) (a + t) (b + t) s = swapVal v a b (t + s) := by
  funext i
  unfold swapVal
  split_ifs <;> first | rfl | omega | (congr 1 <;> omega)

theorem swapVal_left (v : Int → α) {a b n k i : Int} (hi : i = a + k) (h0 : 0 ≤ k) (h1 : k < n) :
    swapVal v a b n i = v (b + k) := by
  unfold swapVal; rw [if_pos (by omega)]; congr 1; omega

theorem swapVal_right (v : Int → α) {a b n k i : Int} (hi : i = b + k) (h0 : 0 ≤ k) (h1 : k < n)
    (hd : a + n ≤ b ∨ b + n ≤ a) : swapVal v a b n i = v (a + k) := by
  unfold swapVal; rw [if_neg (by omega), if_pos (by omega)]; congr 1; omega

theorem swapVal_out (v : Int → α) {a b n i : Int} (h1 : i < a ∨ a + n ≤ i) (h2 : i < b ∨ b + n ≤ i) :
    swapVal v a b n i = v i := by
  unfold swapVal; rw [if_neg (by omega), if_neg (by omega)]

/-- Preservation rule: whatever every iteration preserves holds in the final state. -/
theorem loop_preserves {σ : Type*} {body : Nat → σ → Option σ} {n : Nat} {s s' : σ} (P : σ → Prop)
    (h0 : P s) (hstep : ∀ k s s', P s → body k s = some s' → P s') (h : loop body n s = some s') : P s' := by
  induction n generalizing s' with
  | zero => simp only [loop, Option.some.injEq] at h; rwa [← h]
  | succ n ih =>
    rw [loop_succ] at h
    cases hl : loop body n s with
    | none => rw [hl] at h; cases h
    | some s1 => rw [hl] at h; exact hstep n s1 s' (ih hl) h

theorem swapVec_size {A A' : Buf α} {a b i : Int} {W : Nat} (h : swapVec W A a b i = some A') :
    A'.size = A.size := by
  unfold swapVec vload vstore at h
  split_ifs at h <;> simp_all
  rw [← h]

theorem swapOne_spec (A : Buf α) {a b i : Int} (ha : 0 ≤ a + i) (ha' : a + i < A.size)
    (hb : 0 ≤ b + i) (hb' : b + i < A.size) (hab : a ≠ b) :
    swapOne A a b i = some ⟨A.size, swapVal A.val (a + i) (b + i) 1⟩ := by
  unfold swapOne
  rw [Buf.rd_of ha ha', Option.bind_some, Buf.rd_of hb hb', Option.bind_some, Buf.wr_of ha ha',
    Option.bind_some, Buf.wr_of (by exact hb) (by exact hb')]
  congr 2
  funext j
  simp only [swapVal, Function.update_apply]
  split_ifs <;> first | rfl | omega | (subst_vars; rfl) | (congr 1 <;> omega)

theorem swapVec_spec (A : Buf α) {a b i : Int} {W : Nat} (ha : 0 ≤ a + i) (ha' : a + i + W ≤ A.size)
    (hb : 0 ≤ b + i) (hb' : b + i + W ≤ A.size) (hab : a + W ≤ b ∨ b + W ≤ a) :
    swapVec W A a b i = some ⟨A.size, swapVal A.val (a + i) (b + i) W⟩ := by
  unfold swapVec vload vstore
  rw [if_pos ⟨ha, ha'⟩, Option.bind_some, if_pos ⟨hb, hb'⟩, Option.bind_some, if_pos ⟨ha, ha'⟩,
    Option.bind_some, if_pos ⟨hb, hb'⟩]
  congr 2
  funext j
  unfold swapVal
  simp only
  split_ifs <;> first | rfl | omega | (congr 1 <;> omega)

/-- A loop that swaps elements `t0, t0+1, …`. -/
theorem swapTail_spec (A0 : Buf α) {a b N t0 : Int} (ha : 0 ≤ a) (ha' : a + N ≤ A0.size)
    (hb : 0 ≤ b) (hb' : b + N ≤ A0.size) (hd : a + N ≤ b ∨ b + N ≤ a) (ht0 : 0 ≤ t0) (htN : t0 ≤ N) :
    forUp t0 N (fun i A => swapOne A a b i) ⟨A0.size, swapVal A0.val a b t0⟩ =
      some ⟨A0.size, swapVal A0.val a b N⟩ := by
  unfold forUp
  obtain ⟨A', h1, h2⟩ := loop_spec (body := fun k A => swapOne A a b (t0 + k)) (n := (N - t0).toNat)
    (s := ⟨A0.size, swapVal A0.val a b t0⟩)
    (fun k A => A = ⟨A0.size, swapVal A0.val a b (t0 + k)⟩) (by simp) (by
      intro k hk A hA
      subst hA
      refine ⟨_, swapOne_spec _ (by omega) (by simp only; omega) (by omega) (by simp only; omega) (by omega), ?_⟩
      congr 1
      rw [swapVal_add (n := N) _ (by omega) (by omega) (by omega) hd]
      congr 1; push_cast; ring)
  rw [h1, h2]
  congr 2; congr 1; omega

theorem swapDefault_spec (A : Buf α) {a b N : Int} (hN : 0 ≤ N) (ha : 0 ≤ a) (ha' : a + N ≤ A.size)
    (hb : 0 ≤ b) (hb' : b + N ≤ A.size) (hd : a + N ≤ b ∨ b + N ≤ a) :
    swapDefault A a b N = some ⟨A.size, swapVal A.val a b N⟩ := by
  have := swapTail_spec A ha ha' hb hb' hd (le_refl 0) hN
  rwa [swapVal_zero] at this

theorem swapKernel_spec (A : Buf α) {S L : Nat} (hS : 0 < S) (hL : 0 < L) {a b N : Int} (hN : 0 ≤ N)
    (ha : 0 ≤ a) (ha' : a + N ≤ A.size)
    (hb : 0 ≤ b) (hb' : b + N ≤ A.size) (hd : a + N ≤ b ∨ b + N ≤ a) :
    swapKernel S L S A a b N = some ⟨A.size, swapVal A.val a b N⟩ := by
  unfold swapKernel
  have hSL : (0 : Int) < S * L := by positivity
  set cnt := stepCount 0 (N + 1 - S * L) (S * L) with hcnt
  have hmem : ∀ k : Nat, k < cnt → (S * L : Int) * (k + 1) ≤ N := by
    intro k hk
    have := (mem_stepCount hSL k).1 hk
    nlinarith
  have hcntN : (S * L : Int) * cnt ≤ N := by
    rcases Nat.eq_zero_or_pos cnt with h | h
    · rw [h]; simpa using hN
    · have := hmem (cnt - 1) (by omega)
      have e : ((cnt - 1 : Nat) : Int) + 1 = cnt := by omega
      rwa [e] at this
  have main : forStep 0 (N + 1 - S * L) (S * L) (fun i A =>
      forUp 0 L (fun l A => swapVec S A a b (i + S * l)) A) A =
      some ⟨A.size, swapVal A.val a b (S * L * cnt)⟩ := by
    unfold forStep
    rw [← hcnt]
    obtain ⟨A', h1, h2⟩ := loop_spec
      (body := fun k A => forUp 0 L (fun l A => swapVec S A a b (0 + (S * L : Int) * k + S * l)) A) (n := cnt)
      (s := A) (fun k A' => A' = ⟨A.size, swapVal A.val a b (S * L * k)⟩)
      (by cases A; simp [swapVal_zero]) (by
        intro k hk A1 hA1
        subst hA1
        have hk' := hmem k hk
        have h0 : (0 : Int) ≤ S * L * k := by positivity
        unfold forUp
        obtain ⟨A2, g1, g2⟩ := loop_spec
          (body := fun l A => swapVec S A a b (0 + (S * L : Int) * k + S * (0 + (l : Int)))) (n := ((L : Int) - 0).toNat)
          (s := ⟨A.size, swapVal A.val a b (S * L * k)⟩)
          (fun l A' => A' = ⟨A.size, swapVal A.val a b (S * L * k + S * l)⟩)
          (by simp) (by
            intro l hl A3 hA3
            subst hA3
            have hl' : (S : Int) * (l + 1) ≤ S * L := by
              apply Int.mul_le_mul_of_nonneg_left <;> omega
            have h00 : (0 : Int) ≤ S * l := by positivity
            have hx : (S * L * k : Int) + S * l + S ≤ N := by nlinarith
            have e : (0 : Int) + S * L * k + S * (0 + l) = S * L * k + S * l := by ring
            rw [e]
            refine ⟨_, swapVec_spec _ (by omega) (by simp only; omega) (by omega) (by simp only; omega) (by omega), ?_⟩
            congr 1
            rw [swapVal_add (n := N) _ (by omega) (by omega) (by omega) hd]
            congr 1; push_cast; ring)
        refine ⟨A2, g1, ?_⟩
        rw [g2]
        have : ((((L : Int) - 0).toNat : Nat) : Int) = L := by omega
        rw [this]
        have e : (S * L * k + S * L : Int) = S * L * ((k + 1 : Nat) : Int) := by push_cast; ring
        rw [e])
    rw [h1, h2]
  rw [main, Option.bind_some]
  exact swapTail_spec A ha ha' hb hb' hd (by positivity) hcntN

theorem swapWarp_spec (isa : Isa) (A : Buf α) {a b N : Int} (hN : 0 ≤ N) (ha : 0 ≤ a) (ha' : a + N ≤ A.size)
    (hb : 0 ≤ b) (hb' : b + N ≤ A.size) (hd : a + N ≤ b ∨ b + N ≤ a) :
    swapWarp isa A a b N = some ⟨A.size, swapVal A.val a b N⟩ := by
  cases isa <;> unfold swapWarp <;> simp only <;>
    first
    | exact swapDefault_spec A hN ha ha' hb hb' hd
    | exact swapKernel_spec A (by omega) (by omega) hN ha ha' hb hb' hd

/-! ### Stages of `warp` as column permutations -/

/-- Column permutation of stage `j`: inside every group of `4j` columns (counted from column `h`) the second and
third quarter are exchanged. -/
def colPerm (h j c : Int) : Int :=
  if c < h then c
  else if j ≤ (c - h) % (4 * j) ∧ (c - h) % (4 * j) < 2 * j then c + j
  else if 2 * j ≤ (c - h) % (4 * j) ∧ (c - h) % (4 * j) < 3 * j then c - j
  else c

/-- `A'` is the `N × M` array `A` (at offset `o`) with column `π c` of `A` moved to column `c`. -/
def ColMove (π : Int → Int) (A A' : Buf α) (o N M : Int) : Prop :=
  A'.size = A.size ∧
  (∀ r c, 0 ≤ r → r < N → 0 ≤ c → c < M → A'.val (o + (r + c * N)) = A.val (o + (r + π c * N))) ∧
  (∀ i, (i < o ∨ o + N * M ≤ i) → A'.val i = A.val i)

theorem ColMove.comp {π ρ : Int → Int} {A A' A'' : Buf α} {o N M : Int}
    (h1 : ColMove π A A' o N M) (h2 : ColMove ρ A' A'' o N M)
    (hρ : ∀ c, 0 ≤ c → c < M → 0 ≤ ρ c ∧ ρ c < M) : ColMove (fun c => π (ρ c)) A A'' o N M := by
  refine ⟨h2.1.trans h1.1, ?_, ?_⟩
  · intro r c hr0 hr1 hc0 hc1
    obtain ⟨a, b⟩ := hρ c hc0 hc1
    rw [h2.2.1 r c hr0 hr1 hc0 hc1, h1.2.1 r (ρ c) hr0 hr1 a b]
  · intro i hi
    rw [h2.2.2 i hi, h1.2.2 i hi]

theorem ColMove.id (A : Buf α) (o N M : Int) : ColMove (fun c => c) A A o N M :=
  ⟨rfl, fun _ _ _ _ _ _ => rfl, fun _ _ => rfl⟩

theorem ColMove.congr {π ρ : Int → Int} {A A' : Buf α} {o N M : Int}
    (h : ColMove π A A' o N M) (hπ : ∀ c, 0 ≤ c → c < M → π c = ρ c) : ColMove ρ A A' o N M :=
  ⟨h.1, fun r c a b d e => by rw [h.2.1 r c a b d e, hπ c d e], h.2.2⟩

theorem mod_unique {x q w k : Int} (hx : x = k * q + w) (h0 : 0 ≤ w) (h1 : w < k) : x % k = w := by
  rw [hx]; exact mod_add_mul h0 h1

theorem colPerm_range {h j M c : Int} (hj : 0 < j) (hh : 0 ≤ h) (hM : 4 * j ∣ M - h) (hc0 : 0 ≤ c)
    (hc1 : c < M) : 0 ≤ colPerm h j c ∧ colPerm h j c < M := by
  unfold colPerm
  obtain ⟨k, hk⟩ := hM
  have e := Int.mul_ediv_add_emod (c - h) (4 * j)
  have e0 := Int.emod_nonneg (c - h) (b := 4 * j) (by omega)
  have e1 := Int.emod_lt_of_pos (c - h) (b := 4 * j) (by omega)
  split_ifs with h1 h2 h3
  · omega
  · have : (c - h) / (4 * j) < k := Int.ediv_lt_of_lt_mul (by omega) (by rw [Int.mul_comm]; omega)
    have : (4 * j) * ((c - h) / (4 * j) + 1) ≤ 4 * j * k := Int.mul_le_mul_of_nonneg_left this (by omega)
    constructor
    · omega
    · rw [Int.mul_add] at this; omega
  · have : 0 ≤ (c - h) / (4 * j) := Int.ediv_nonneg (by omega) (by omega)
    have : 0 ≤ 4 * j * ((c - h) / (4 * j)) := by positivity
    omega
  · omega

theorem colPerm_invol {h j c : Int} (hj : 0 < j) : colPerm h j (colPerm h j c) = c := by
  have e := Int.mul_ediv_add_emod (c - h) (4 * j)
  have e0 := Int.emod_nonneg (c - h) (b := 4 * j) (by omega)
  have e1 := Int.emod_lt_of_pos (c - h) (b := 4 * j) (by omega)
  by_cases h1 : c < h
  · simp [colPerm, h1]
  · have hq : 0 ≤ 4 * j * ((c - h) / (4 * j)) := by
      have : 0 ≤ (c - h) / (4 * j) := Int.ediv_nonneg (by omega) (by omega)
      positivity
    by_cases h2 : j ≤ (c - h) % (4 * j) ∧ (c - h) % (4 * j) < 2 * j
    · have hc : colPerm h j c = c + j := by simp [colPerm, h1, h2]
      have hm : (c + j - h) % (4 * j) = (c - h) % (4 * j) + j :=
        mod_unique (q := (c - h) / (4 * j)) (by omega) (by omega) (by omega)
      rw [hc]; unfold colPerm
      rw [if_neg (by omega), hm, if_neg (by omega), if_pos (by omega)]; omega
    · by_cases h3 : 2 * j ≤ (c - h) % (4 * j) ∧ (c - h) % (4 * j) < 3 * j
      · have hc : colPerm h j c = c - j := by simp [colPerm, h1, h2, h3]
        have hm : (c - j - h) % (4 * j) = (c - h) % (4 * j) - j :=
          mod_unique (q := (c - h) / (4 * j)) (by omega) (by omega) (by omega)
        rw [hc]; unfold colPerm
        rw [if_neg (by omega), hm, if_pos (by omega)]; omega
      · have hc : colPerm h j c = c := by simp only [colPerm, h1, h2, h3, if_false]
        rw [hc, hc]

/-- `r + c*N` lies in the columns `a .. b-1` iff `c` does. -/
theorem col_block {N r c a b : Int} (hr0 : 0 ≤ r) (hr1 : r < N) :
    (a * N ≤ r + c * N ∧ r + c * N < b * N) ↔ (a ≤ c ∧ c < b) := by
  have hN : 0 < N := by omega
  constructor
  · rintro ⟨h1, h2⟩
    constructor
    · by_contra h
      have : c + 1 ≤ a := by omega
      nlinarith
    · by_contra h
      have : b ≤ c := by omega
      nlinarith
  · rintro ⟨h1, h2⟩
    constructor <;> nlinarith

theorem warpStage_spec (isa : Isa) (A : Buf α) {o N M L j : Int} (ho : 0 ≤ o) (hN : 0 ≤ N) (hM : 0 ≤ M)
    (hL : 0 < L) (hj : 0 < j) (hjL : j ∣ L) (hA : o + N * M ≤ A.size) :
    ∃ A', warpStage isa N M L j o A = some A' ∧ ColMove (colPerm (M % (4 * L)) j) A A' o N M := by
  have hh0 := Int.emod_nonneg M (b := 4 * L) (by omega)
  have hhM := emod_le_self' (k := 4 * L) hM (by omega)
  have hdvd : 4 * j ∣ M - M % (4 * L) := by
    have h1 : 4 * j ∣ 4 * L := Int.mul_dvd_mul_left 4 hjL
    exact h1.trans (by
      have := Int.mul_ediv_add_emod M (4 * L)
      exact ⟨M / (4 * L), by omega⟩)
  set h := M % (4 * L) with hh
  obtain ⟨K, hK⟩ := hdvd
  unfold warpStage forStep
  have hcnt : ∀ k : Nat, k < stepCount h M (4 * j) → h + 4 * j * (k + 1) ≤ M := by
    intro k hk
    have h1 := (mem_stepCount (by omega) k).1 hk
    have : (k : Int) < K := by
      by_contra hc
      have : K ≤ k := by omega
      nlinarith
    have h2 : 4 * j * ((k : Int) + 1) ≤ 4 * j * K := Int.mul_le_mul_of_nonneg_left (by omega) (by omega)
    omega
  rw [← hh]
  obtain ⟨A', h1, h2⟩ := loop_spec
    (body := fun k A => swapWarp isa A (o + (h + 4 * j * k + j) * N) (o + (h + 4 * j * k + 2 * j) * N) (j * N))
    (n := stepCount h M (4 * j)) (s := A)
    (fun k A' => ColMove (fun c => if c < h + 4 * j * k then colPerm h j c else c) A A' o N M)
    (by
      refine (ColMove.id A o N M).congr ?_
      intro c hc0 hc1
      simp only [Nat.cast_zero, Int.mul_zero, Int.add_zero]
      split
      · next hc => simp [colPerm, hc]
      · rfl)
    (by
      intro k hk A1 hA1
      have hk' := hcnt k hk
      have hjN : 0 ≤ j * N := by positivity
      have hi0 : 0 ≤ 4 * j * (k : Int) := by positivity
      have hkM : (h + 4 * j * k + 3 * j) * N ≤ N * M := by nlinarith
      have e1 : (h + 4 * j * k + j) * N + j * N = (h + 4 * j * k + 2 * j) * N := by ring
      have e2 : (h + 4 * j * k + 2 * j) * N + j * N = (h + 4 * j * k + 3 * j) * N := by ring
      have hp : 0 ≤ (h + 4 * j * k + j) * N := by positivity
      refine ⟨_, swapWarp_spec isa A1 hjN (by omega) (by rw [hA1.1]; omega) (by omega) (by rw [hA1.1]; omega)
        (by omega), ?_⟩
      refine ⟨hA1.1, ?_, ?_⟩
      · intro r c hr0 hr1 hc0 hc1
        have b1 := @col_block N r c (h + 4 * j * k + j) (h + 4 * j * k + 2 * j) hr0 hr1
        have b2 := @col_block N r c (h + 4 * j * k + 2 * j) (h + 4 * j * k + 3 * j) hr0 hr1
        simp only [swapVal]
        push_cast
        have ek : h + 4 * j * ((k : Int) + 1) = h + 4 * j * k + 4 * j := by ring
        rw [ek]
        have hmod : h + 4 * j * k ≤ c → c < h + 4 * j * k + 4 * j →
            (c - h) % (4 * j) = c - (h + 4 * j * k) := by
          intro ha hb
          exact mod_unique (q := k) (by ring) (by omega) (by omega)
        by_cases c1 : h + 4 * j * k + j ≤ c ∧ c < h + 4 * j * k + 2 * j
        · have p1 := b1.2 c1
          rw [if_pos (by omega)]
          have hc' : colPerm h j c = c + j := by
            unfold colPerm
            rw [if_neg (by omega), hmod (by omega) (by omega), if_pos (by omega)]
          rw [if_pos (by omega), hc']
          have e3 : o + (r + c * N) - (o + (h + 4 * j * k + j) * N) + (o + (h + 4 * j * k + 2 * j) * N) =
            o + (r + (c + j) * N) := by ring
          rw [e3, hA1.2.1 r (c + j) hr0 hr1 (by omega) (by omega)]
          simp only
          rw [if_neg (by omega)]
        · by_cases c2 : h + 4 * j * k + 2 * j ≤ c ∧ c < h + 4 * j * k + 3 * j
          · have p2 := b2.2 c2
            rw [if_neg (by intro hx; exact c1 (b1.1 (by omega))), if_pos (by omega)]
            have hc' : colPerm h j c = c - j := by
              unfold colPerm
              rw [if_neg (by omega), hmod (by omega) (by omega), if_neg (by omega), if_pos (by omega)]
            rw [if_pos (by omega), hc']
            have e3 : o + (r + c * N) - (o + (h + 4 * j * k + 2 * j) * N) + (o + (h + 4 * j * k + j) * N) =
              o + (r + (c - j) * N) := by ring
            rw [e3, hA1.2.1 r (c - j) hr0 hr1 (by omega) (by omega)]
            simp only
            rw [if_neg (by omega)]
          · rw [if_neg (by intro hx; exact c1 (b1.1 (by omega))),
              if_neg (by intro hx; exact c2 (b2.1 (by omega))),
              hA1.2.1 r c hr0 hr1 hc0 hc1]
            simp only
            by_cases c3 : c < h + 4 * j * k
            · rw [if_pos c3, if_pos (by omega)]
            · rw [if_neg c3]
              by_cases c4 : c < h + 4 * j * k + 4 * j
              · rw [if_pos c4]
                have : colPerm h j c = c := by
                  unfold colPerm
                  rw [if_neg (by omega), hmod (by omega) (by omega), if_neg (by omega), if_neg (by omega)]
                rw [this]
              · rw [if_neg c4]
      · intro i hi
        simp only [swapVal]
        rw [if_neg (by omega), if_neg (by omega)]
        exact hA1.2.2 i hi)
  refine ⟨A', h1, h2.congr ?_⟩
  intro c hc0 hc1
  split
  · rfl
  · next hc =>
    exfalso
    have := (mem_stepCount (lo := h) (hi := M) (st := 4 * j) (by omega) (stepCount h M (4 * j))).not.1 (lt_irrefl _)
    omega

/-- Column permutation of the stages `2^k, 2^(k+1), …, 2^(k+n-1)` of `warp` (in this order). -/
def warpCols (h : Int) (k : Nat) : Nat → Int → Int
  | 0, c => c
  | n+1, c => colPerm h (2 ^ k) (warpCols h (k+1) n c)

/-- Column permutation of the stages `2^(k+n-1), …, 2^k` of `warp_t` (in this order). -/
def warpColsT (h : Int) (k : Nat) : Nat → Int → Int
  | 0, c => c
  | n+1, c => warpColsT h (k+1) n (colPerm h (2 ^ k) c)

theorem pow_dvd_mod {e k : Nat} (hk : k ≤ e) (M : Int) : 4 * (2 : Int) ^ k ∣ M - M % (4 * 2 ^ e) := by
  have h1 : 4 * (2 : Int) ^ k ∣ 4 * 2 ^ e := Int.mul_dvd_mul_left 4 (pow_dvd_pow 2 hk)
  refine h1.trans ?_
  have := Int.mul_ediv_add_emod M (4 * 2 ^ e)
  exact ⟨M / (4 * 2 ^ e), by omega⟩

theorem warpCols_range {M : Int} (e k n : Nat) (hk : k + n ≤ e + 1) {c : Int} (hc0 : 0 ≤ c)
    (hc1 : c < M) : 0 ≤ warpCols (M % (4 * 2 ^ e)) k n c ∧ warpCols (M % (4 * 2 ^ e)) k n c < M := by
  induction n generalizing k with
  | zero => exact ⟨hc0, hc1⟩
  | succ n ih =>
    obtain ⟨a, b⟩ := ih (k+1) (by omega)
    exact colPerm_range (by positivity) (Int.emod_nonneg _ (by positivity)) (pow_dvd_mod (by omega) M) a b

theorem warpColsT_range {M : Int} (e k n : Nat) (hk : k + n ≤ e + 1) {c : Int} (hc0 : 0 ≤ c)
    (hc1 : c < M) : 0 ≤ warpColsT (M % (4 * 2 ^ e)) k n c ∧ warpColsT (M % (4 * 2 ^ e)) k n c < M := by
  induction n generalizing k c with
  | zero => exact ⟨hc0, hc1⟩
  | succ n ih =>
    obtain ⟨a, b⟩ := colPerm_range (h := M % (4 * 2 ^ e)) (j := 2 ^ k) (by positivity)
      (Int.emod_nonneg _ (by positivity)) (pow_dvd_mod (by omega) M) hc0 hc1
    exact ih (k+1) (by omega) a b

theorem warpCols_inv (h : Int) (k n : Nat) (c : Int) : warpCols h k n (warpColsT h k n c) = c := by
  induction n generalizing k c with
  | zero => rfl
  | succ n ih =>
    show colPerm h (2 ^ k) (warpCols h (k+1) n (warpColsT h (k+1) n (colPerm h (2 ^ k) c))) = c
    rw [ih, colPerm_invol (by positivity)]

theorem warpColsT_inv (h : Int) (k n : Nat) (c : Int) : warpColsT h k n (warpCols h k n c) = c := by
  induction n generalizing k c with
  | zero => rfl
  | succ n ih =>
    show warpColsT h (k+1) n (colPerm h (2 ^ k) (colPerm h (2 ^ k) (warpCols h (k+1) n c))) = c
    rw [colPerm_invol (by positivity), ih]

theorem warpColsT_last (h : Int) (k n : Nat) (c : Int) :
    warpColsT h k (n+1) c = colPerm h (2 ^ (k+n)) (warpColsT h k n c) := by
  induction n generalizing k c with
  | zero => rfl
  | succ n ih =>
    show warpColsT h (k+1) (n+1) (colPerm h (2 ^ k) c) = _
    rw [ih]
    have : k + 1 + n = k + (n + 1) := by omega
    rw [this]; rfl

theorem two_pow_ge (e : Nat) : e ≤ ((2 : Int) ^ e).toNat := by
  have h : ((2 : Int) ^ e).toNat = 2 ^ e := by
    rw [← Int.toNat_natCast (2 ^ e)]; congr 1
  rw [h]; exact Nat.lt_two_pow_self.le

theorem warp_spec (isa : Isa) (A : Buf α) (e : Nat) {o N M : Int} (ho : 0 ≤ o) (hN : 0 ≤ N) (hM : 0 ≤ M)
    (hA : o + N * M ≤ A.size) :
    ∃ A', warp isa A o N M (2 ^ e) = some A' ∧
      ColMove (warpCols (M % (4 * 2 ^ e)) 1 e) A A' o N M := by
  have key : ∀ n k : Nat, 1 ≤ k → k + n = e + 1 → ∀ A : Buf α, o + N * M ≤ A.size →
      ∃ A', whileF (fun s : Int × Buf α => decide (s.1 ≤ 2 ^ e))
        (fun s => (warpStage isa N M (2 ^ e) s.1 o s.2).map fun A => (2 * s.1, A)) n (2 ^ k, A) =
          some (2 ^ (e+1), A') ∧ ColMove (warpCols (M % (4 * 2 ^ e)) k n) A A' o N M := by
    intro n
    induction n with
    | zero =>
      intro k _ hk A _
      refine ⟨A, ?_, ColMove.id _ _ _ _⟩
      have : k = e + 1 := by omega
      subst this
      apply whileF_done
      simp only [decide_eq_false_iff_not, not_le]
      have : (0 : Int) < 2 ^ e := by positivity
      rw [pow_succ]; omega
    | succ n ih =>
      intro k hk1 hk A hA
      have hle : (2 : Int) ^ k ≤ 2 ^ e := pow_le_pow_right₀ (by omega) (by omega)
      obtain ⟨A1, s1, m1⟩ := warpStage_spec isa A (L := 2 ^ e) (j := 2 ^ k) ho hN hM (by positivity) (by positivity)
        (pow_dvd_pow 2 (by omega)) hA
      obtain ⟨A2, s2, m2⟩ := ih (k+1) (by omega) (by omega) A1 (by rw [m1.1]; exact hA)
      refine ⟨A2, ?_, ?_⟩
      · rw [whileF_step (by simpa using hle)]
        simp only [s1, Option.map_some, Option.bind_some]
        have : 2 * (2 : Int) ^ k = 2 ^ (k+1) := by rw [pow_succ]; ring
        rw [this]; exact s2
      · exact m1.comp m2 (fun c h0 h1 => warpCols_range e (k+1) n (by omega) h0 h1)
  obtain ⟨A', s, m⟩ := key e 1 (by omega) (by omega) A hA
  refine ⟨A', ?_, m⟩
  unfold warp
  rw [pow_one] at s
  rw [whileF_mono (two_pow_ge e) s]; rfl

theorem warp_t_spec (isa : Isa) (A : Buf α) (e : Nat) {o N M : Int} (ho : 0 ≤ o) (hN : 0 ≤ N) (hM : 0 ≤ M)
    (hA : o + N * M ≤ A.size) :
    ∃ A', warp_t isa A o N M (2 ^ e) = some A' ∧
      ColMove (warpColsT (M % (4 * 2 ^ e)) 1 e) A A' o N M := by
  have key : ∀ n : Nat, n ≤ e → ∀ A : Buf α, o + N * M ≤ A.size →
      ∃ A', whileF (fun s : Int × Buf α => decide (2 ≤ s.1))
        (fun s => (warpStage isa N M (2 ^ e) s.1 o s.2).map fun A => (s.1 / 2, A)) n (2 ^ n, A) =
          some (1, A') ∧ ColMove (warpColsT (M % (4 * 2 ^ e)) 1 n) A A' o N M := by
    intro n
    induction n with
    | zero =>
      intro _ A _
      refine ⟨A, ?_, ColMove.id _ _ _ _⟩
      apply whileF_done
      simp
    | succ n ih =>
      intro hk A hA
      have hge : (2 : Int) ≤ 2 ^ (n+1) := by
        have : (0 : Int) < 2 ^ n := by positivity
        rw [pow_succ]; omega
      obtain ⟨A1, s1, m1⟩ := warpStage_spec isa A (L := 2 ^ e) (j := 2 ^ (n+1)) ho hN hM (by positivity) (by positivity)
        (pow_dvd_pow 2 (by omega)) hA
      obtain ⟨A2, s2, m2⟩ := ih (by omega) A1 (by rw [m1.1]; exact hA)
      refine ⟨A2, ?_, ?_⟩
      · rw [whileF_step (by simpa using hge)]
        simp only [s1, Option.map_some, Option.bind_some]
        have : (2 : Int) ^ (n+1) / 2 = 2 ^ n := by
          rw [pow_succ, Int.mul_ediv_cancel _ (by omega)]
        rw [this]; exact s2
      · have := m1.comp m2 (fun c h0 h1 => warpColsT_range e 1 n (by omega) h0 h1)
        refine this.congr ?_
        intro c _ _
        rw [warpColsT_last]
        have : 1 + n = n + 1 := by omega
        rw [this]
  obtain ⟨A', s, m⟩ := key e le_rfl A hA
  refine ⟨A', ?_, m⟩
  unfold warp_t
  rw [whileF_mono (two_pow_ge e) s]; rfl

end FT.Permute
