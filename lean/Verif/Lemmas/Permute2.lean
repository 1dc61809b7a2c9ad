import Verif.Lemmas.Permute

namespace FT.Permute
variable {α : Type*}

theorem emod_le_self' {M k : Int} (hM : 0 ≤ M) (hk : 0 < k) : M % k ≤ M := by
  have := Int.mul_ediv_add_emod M k
  have := Int.ediv_nonneg hM hk.le
  nlinarith

theorem lane_surj {N L M p : Int} (hL : 0 < L) (hM : L ∣ M) (hp0 : 0 ≤ p) (hp1 : p < N * M) (hN : 0 ≤ N) :
    ∃ r c, 0 ≤ r ∧ r < N ∧ 0 ≤ c ∧ c < M ∧ lane N L r c = p := by
  obtain ⟨k, rfl⟩ := hM
  have hN' : 0 < N := by
    rcases hN.lt_or_eq with h | h
    · exact h
    · subst h; simp at hp1; omega
  have hLN : 0 < L * N := by positivity
  have e1 := Int.mul_ediv_add_emod p (L * N)
  have q0 := Int.ediv_nonneg hp0 hLN.le
  have q1 : p / (L * N) < k := Int.ediv_lt_of_lt_mul hLN (by nlinarith)
  have r0 := Int.emod_nonneg p hLN.ne'
  have r1 := Int.emod_lt_of_pos p hLN
  set q := p / (L * N)
  set m := p % (L * N)
  have e2 := Int.mul_ediv_add_emod m L
  have s0 := Int.ediv_nonneg r0 hL.le
  have s1 : m / L < N := Int.ediv_lt_of_lt_mul hL (by rw [Int.mul_comm]; exact r1)
  have t0 := Int.emod_nonneg m hL.ne'
  have t1 := Int.emod_lt_of_pos m hL
  refine ⟨m / L, L * q + m % L, s0, s1, by positivity, ?_, ?_⟩
  · nlinarith
  · unfold lane
    rw [div_add_mul hL t0 t1, mod_add_mul t0 t1]
    linarith [Int.mul_comm (m / L) L, Int.mul_comm q (L * N)]

/-- Layout of an array whose first `h` columns are copied and whose other columns are packed `L` at a time. -/
def laneFrom (h N L r c : Int) : Int := if c < h then r + c * N else h * N + lane N L r (c - h)

theorem laneFrom_range {h N L M r c : Int} (hL : 0 < L) (hh : 0 ≤ h) (hM : L ∣ M - h) (hhM : h ≤ M)
    (hr0 : 0 ≤ r) (hr1 : r < N) (hc0 : 0 ≤ c) (hc1 : c < M) :
    0 ≤ laneFrom h N L r c ∧ laneFrom h N L r c < N * M := by
  unfold laneFrom
  split
  · next hc => constructor
               · have : 0 ≤ c * N := Int.mul_nonneg hc0 (by omega)
                 omega
               · nlinarith
  · next hc =>
    have a := lane_nonneg (N := N) (L := L) (r := r) (c := c - h) (by omega) hL hr0 (by omega)
    have b := lane_lt (N := N) (L := L) (r := r) (c := c - h) (M := M - h) hL hr1 (by omega) (by omega) hM
    constructor
    · have : 0 ≤ h * N := Int.mul_nonneg hh (by omega)
      omega
    · nlinarith

theorem laneFrom_inj {h N L r c r' c' : Int} (hL : 0 < L)
    (hr0 : 0 ≤ r) (hr1 : r < N) (hr0' : 0 ≤ r') (hr1' : r' < N)
    (e : laneFrom h N L r c = laneFrom h N L r' c') : r = r' ∧ c = c' := by
  have hN : 0 < N := by omega
  unfold laneFrom at e
  have small : ∀ r c, r < N → c < h → r + c * N < h * N := by
    intro r c hr hc; nlinarith
  split at e <;> split at e
  · have e' : N * c + r = N * c' + r' := by linarith [Int.mul_comm N c, Int.mul_comm N c']
    have e1 := congrArg (· / N) e'
    have e2 := congrArg (· % N) e'
    simp only [div_add_mul hN hr0 hr1, div_add_mul hN hr0' hr1'] at e1
    simp only [mod_add_mul hr0 hr1, mod_add_mul hr0' hr1'] at e2
    exact ⟨e2, e1⟩
  · next h1 h2 =>
    have := small r c hr1 h1
    have := lane_nonneg (N := N) (L := L) (r := r') (c := c' - h) (by omega) hL hr0' (by omega)
    omega
  · next h1 h2 =>
    have := small r' c' hr1' h2
    have := lane_nonneg (N := N) (L := L) (r := r) (c := c - h) (by omega) hL hr0 (by omega)
    omega
  · obtain ⟨a, b⟩ := lane_inj hL hr0 hr1 hr0' hr1' (Int.add_left_cancel e)
    exact ⟨a, by omega⟩

theorem laneFrom_surj {h N L M p : Int} (hL : 0 < L) (hh : 0 ≤ h) (hM : L ∣ M - h)
    (hp0 : 0 ≤ p) (hp1 : p < N * M) (hN : 0 ≤ N) (hhM : h ≤ M) :
    ∃ r c, 0 ≤ r ∧ r < N ∧ 0 ≤ c ∧ c < M ∧ laneFrom h N L r c = p := by
  have hN' : 0 < N := by
    rcases hN.lt_or_eq with h | h
    · exact h
    · subst h; simp at hp1; omega
  by_cases hp : p < h * N
  · refine ⟨p % N, p / N, Int.emod_nonneg _ hN'.ne', Int.emod_lt_of_pos _ hN', Int.ediv_nonneg hp0 hN, ?_, ?_⟩
    · have : p / N < h := Int.ediv_lt_of_lt_mul hN' hp
      omega
    · have : p / N < h := Int.ediv_lt_of_lt_mul hN' hp
      unfold laneFrom; rw [if_pos this]
      have := Int.mul_ediv_add_emod p N
      linarith [Int.mul_comm N (p / N)]
  · obtain ⟨r, c, a, b, c0, c1, e⟩ := lane_surj (N := N) (L := L) (M := M - h) (p := p - h * N) hL hM
      (by omega) (by nlinarith) hN
    refine ⟨r, c + h, a, b, by omega, by omega, ?_⟩
    unfold laneFrom
    rw [if_neg (by omega)]
    have : c + h - h = c := by omega
    rw [this]; omega

/-- `B` holds a copy of the `N × M` array at `A + o`, with the entry of row `r`, column `c` at `lay r c`. -/
def PackedAs (lay : Int → Int → Int) (A B : Buf α) (o N M : Int) : Prop :=
  ∀ r c, 0 ≤ r → r < N → 0 ≤ c → c < M → B.val (o + lay r c) = A.val (o + (r + c * N))

/-- `B'` differs from `B` only inside the `n` elements from `o`. -/
def OnlyWithin (B B' : Buf α) (o n : Int) : Prop :=
  B'.size = B.size ∧ ∀ i, (i < o ∨ o + n ≤ i) → B'.val i = B.val i

theorem packFrom_spec (A B : Buf α) {o N M L h : Int} (ho : 0 ≤ o) (hN : 0 ≤ N) (hL : 0 < L)
    (hh : 0 ≤ h) (hhM : h ≤ M) (hM : L ∣ M - h) (hA : o + N * M ≤ A.size) (hB : o + N * M ≤ B.size) :
    ∃ B', ((copyPrefix A B o (h * N)).bind fun B => permute A B (o + h * N) N (M - h) L) = some B' ∧
      PackedAs (laneFrom h N L) A B' o N M ∧ OnlyWithin B B' o (N * M) := by
  have hhN : 0 ≤ h * N := by positivity
  have hle : h * N ≤ N * M := by nlinarith
  obtain ⟨B1, e1, s1, v1, u1⟩ := copyPrefix_spec A B (o := o) (n := h * N) ho hhN (by omega) (by omega)
  have hsz : (o + h * N) + N * (M - h) = o + N * M := by ring
  obtain ⟨B2, e2, s2, v2, u2⟩ := permute_spec A B1 (o := o + h * N) (N := N) (M := M - h) (L := L)
    (by omega) hN hL hM (by omega) (by omega) (by rw [s1]; omega)
  refine ⟨B2, by rw [e1]; exact e2, ?_, by omega, ?_⟩
  · intro r c hr0 hr1 hc0 hc1
    unfold laneFrom
    split
    · next hc =>
      have hlt : r + c * N < h * N := by nlinarith
      rw [u2 _ (by omega), v1 _ (by positivity) hlt]
    · next hc =>
      have := v2 r (c - h) hr0 hr1 (by omega) (by omega)
      rw [← Int.add_assoc, this]
      congr 1; ring
  · intro i hi
    rw [u2 i (by omega), u1 i (by omega)]

theorem unpackFrom_spec (A B : Buf α) {o N M L h : Int} (ho : 0 ≤ o) (hN : 0 ≤ N) (hL : 0 < L)
    (hh : 0 ≤ h) (hhM : h ≤ M) (hM : L ∣ M - h) (hA : o + N * M ≤ A.size) (hB : o + N * M ≤ B.size) :
    ∃ A', ((copyPrefix B A o (h * N)).bind fun A => permute_t A B (o + h * N) N (M - h) L) = some A' ∧
      PackedAs (laneFrom h N L) A' B o N M ∧ OnlyWithin A A' o (N * M) := by
  have hhN : 0 ≤ h * N := by positivity
  have hle : h * N ≤ N * M := by nlinarith
  obtain ⟨B1, e1, s1, v1, u1⟩ := copyPrefix_spec B A (o := o) (n := h * N) ho hhN (by omega) (by omega)
  have hsz : (o + h * N) + N * (M - h) = o + N * M := by ring
  obtain ⟨B2, e2, s2, v2, u2⟩ := permute_t_spec B1 B (o := o + h * N) (N := N) (M := M - h) (L := L)
    (by omega) hN hL hM (by omega) (by omega) (by omega)
  refine ⟨B2, by rw [e1]; exact e2, ?_, by omega, ?_⟩
  · intro r c hr0 hr1 hc0 hc1
    unfold laneFrom
    split
    · next hc =>
      have hlt : r + c * N < h * N := by nlinarith
      rw [u2 _ (by omega), v1 _ (by positivity) hlt]
    · next hc =>
      have := v2 r (c - h) hr0 hr1 (by omega) (by omega)
      rw [← Int.add_assoc (o : Int), ← this]
      congr 1; ring
  · intro i hi
    rw [u2 i (by omega), u1 i (by omega)]

/-- Two arrays packed in the same buffer with the same layout are equal. -/
theorem PackedAs.unique {lay : Int → Int → Int} {A A' B : Buf α} {o N M : Int} (hN : 0 ≤ N)
    (h : PackedAs lay A B o N M) (h' : PackedAs lay A' B o N M) (i : Int) (hi0 : o ≤ i)
    (hi1 : i < o + N * M) : A'.val i = A.val i := by
  have hlt : i - o < N * M := by omega
  have hN' : 0 < N := by
    rcases hN.lt_or_eq with h | h
    · exact h
    · subst h; simp at hlt; omega
  have e := Int.mul_ediv_add_emod (i - o) N
  have q0 := Int.ediv_nonneg (a := i - o) (b := N) (by omega) hN
  have q1 : (i - o) / N < M := Int.ediv_lt_of_lt_mul hN' (by rw [Int.mul_comm]; exact hlt)
  have r0 := Int.emod_nonneg (i - o) hN'.ne'
  have r1 := Int.emod_lt_of_pos (i - o) hN'
  have a := h _ _ r0 r1 q0 q1
  have b := h' _ _ r0 r1 q0 q1
  have : o + ((i - o) % N + (i - o) / N * N) = i := by
    linarith [Int.mul_comm ((i - o) / N) N]
  rw [this] at a b
  rw [← a, ← b]

theorem laneFrom_zero {N L r c : Int} (hc : 0 ≤ c) : laneFrom 0 N L r c = lane N L r c := by
  unfold laneFrom; rw [if_neg (by omega)]; simp

/-! ### `old_permute_tri` -/

/-- Layout of `old_permute_tri` with `L = 2^(e+1)`. -/
def layOld (N : Int) : Nat → Int → Int → Int → Int
  | 0, M, r, c => laneFrom (M % 2) N 2 r c
  | e+1, M, r, c =>
    let L : Int := 2 ^ (e + 2)
    if c < M % (2 * L) then layOld N e (M % (2 * L)) r c else laneFrom (M % (2 * L)) N L r c

theorem modTwo {M : Int} : M % 2 = 0 ∨ M % 2 = 1 := by omega

theorem dvd_sub_mod (L M k : Int) : L ∣ M - M % (k * L) := by
  have := Int.mul_ediv_add_emod M (k * L)
  exact ⟨k * (M / (k * L)), by linarith [Int.mul_comm k L, Int.mul_assoc L k (M / (k * L)), Int.mul_comm L k, Int.mul_assoc k L (M / (k * L)), show L * (k * (M / (k * L))) = k * L * (M / (k * L)) by ring]⟩

theorem layOld_range {N : Int} (e : Nat) {M r c : Int} (hM : 0 ≤ M) (hr0 : 0 ≤ r) (hr1 : r < N)
    (hc0 : 0 ≤ c) (hc1 : c < M) : 0 ≤ layOld N e M r c ∧ layOld N e M r c < N * M := by
  induction e generalizing M r c with
  | zero =>
    have h2 : (2 : Int) ∣ M - M % 2 := by omega
    exact laneFrom_range (by omega) (by omega) h2 (by omega) hr0 hr1 hc0 hc1
  | succ e ih =>
    have hL : (0 : Int) < 2 ^ (e + 2) := by positivity
    have hm0 := Int.emod_nonneg M (b := 2 * 2 ^ (e + 2)) (by positivity)
    have hmle : M % (2 * 2 ^ (e + 2)) ≤ M := emod_le_self' hM (by positivity)
    unfold layOld
    simp only
    split
    · next hc =>
      obtain ⟨a, b⟩ := ih hm0 hr0 hr1 hc0 hc
      exact ⟨a, by nlinarith⟩
    · exact laneFrom_range hL hm0 (dvd_sub_mod _ _ _) hmle hr0 hr1 hc0 hc1

theorem laneFrom_ge {h N L r c : Int} (hL : 0 < L) (hN : 0 ≤ N) (hr : 0 ≤ r) (hc : h ≤ c) :
    h * N ≤ laneFrom h N L r c := by
  unfold laneFrom; rw [if_neg (by omega)]
  have := lane_nonneg (N := N) (L := L) (r := r) (c := c - h) hN hL hr (by omega)
  omega

theorem layOld_inj {N : Int} (e : Nat) {M r c r' c' : Int} (hM : 0 ≤ M) (hr0 : 0 ≤ r) (hr1 : r < N)
    (hr0' : 0 ≤ r') (hr1' : r' < N) (hc0 : 0 ≤ c) (hc0' : 0 ≤ c')
    (h : layOld N e M r c = layOld N e M r' c') : r = r' ∧ c = c' := by
  induction e generalizing M with
  | zero => exact laneFrom_inj (by omega) hr0 hr1 hr0' hr1' h
  | succ e ih =>
    have hL : (0 : Int) < 2 ^ (e + 2) := by positivity
    have hm0 := Int.emod_nonneg M (b := 2 * 2 ^ (e + 2)) (by positivity)
    unfold layOld at h
    simp only at h
    split at h <;> split at h
    · exact ih hm0 h
    · next h1 h2 =>
      have a := (layOld_range e hm0 hr0 hr1 hc0 h1).2
      have b := laneFrom_ge (h := M % (2 * 2 ^ (e + 2))) (N := N) hL (by omega) hr0' (show _ ≤ c' by omega)
      nlinarith
    · next h1 h2 =>
      have a := (layOld_range e hm0 hr0' hr1' hc0' h2).2
      have b := laneFrom_ge (h := M % (2 * 2 ^ (e + 2))) (N := N) hL (by omega) hr0 (show _ ≤ c by omega)
      nlinarith
    · exact laneFrom_inj hL hr0 hr1 hr0' hr1' h

theorem old_permute_tri_spec (A B : Buf α) (e : Nat) {o N M : Int} (ho : 0 ≤ o) (hN : 0 ≤ N) (hM : 0 ≤ M)
    (hA : o + N * M ≤ A.size) (hB : o + N * M ≤ B.size) :
    ∃ B', old_permute_tri A e B o N M = some B' ∧ PackedAs (layOld N e M) A B' o N M ∧
      OnlyWithin B B' o (N * M) := by
  induction e generalizing M B with
  | zero =>
    have h2 : (2 : Int) ∣ M - M % 2 := by omega
    obtain ⟨B', e1, p, w⟩ := packFrom_spec A B (L := 2) (h := M % 2) ho hN (by omega) (by omega) (by omega)
      h2 hA hB
    refine ⟨B', ?_, p, w⟩
    unfold old_permute_tri
    rcases @modTwo M with h | h
    · rw [if_neg (by omega)]
      rw [h] at e1
      simpa [copyPrefix, forUp] using e1
    · rw [if_pos (by omega)]
      rw [h] at e1
      simpa using e1
  | succ e ih =>
    have hL : (0 : Int) < 2 ^ (e + 2) := by positivity
    have hm0 := Int.emod_nonneg M (b := 2 * 2 ^ (e + 2)) (by positivity)
    have hmle : M % (2 * 2 ^ (e + 2)) ≤ M := emod_le_self' hM (by positivity)
    have hle : N * (M % (2 * 2 ^ (e + 2))) ≤ N * M := by nlinarith
    have hmN : 0 ≤ N * (M % (2 * 2 ^ (e + 2))) := by positivity
    obtain ⟨B1, e1, p1, s1, w1⟩ := ih B hm0 (by omega) (by omega)
    have hsz : (o + M % (2 * 2 ^ (e + 2)) * N) + N * (M - M % (2 * 2 ^ (e + 2))) = o + N * M := by ring
    obtain ⟨B2, e2, s2, v2, u2⟩ := permute_spec A B1 (o := o + M % (2 * 2 ^ (e + 2)) * N) (N := N)
      (M := M - M % (2 * 2 ^ (e + 2))) (L := 2 ^ (e + 2)) (by rw [Int.mul_comm]; omega) hN hL
      (dvd_sub_mod _ _ _) (by omega) (by omega) (by rw [s1]; omega)
    refine ⟨B2, by unfold old_permute_tri; simp only; rw [e1]; exact e2, ?_, by omega, ?_⟩
    · intro r c hr0 hr1 hc0 hc1
      unfold layOld
      simp only
      split
      · next hc =>
        have hb := (layOld_range e hm0 hr0 hr1 hc0 hc).2
        rw [u2 _ (by left; rw [Int.mul_comm (M % _) N]; omega)]
        exact p1 r c hr0 hr1 hc0 hc
      · next hc =>
        unfold laneFrom
        rw [if_neg hc]
        have := v2 r (c - M % (2 * 2 ^ (e + 2))) hr0 hr1 (by omega) (by omega)
        rw [← Int.add_assoc, this]
        congr 1; ring
    · intro i hi
      rw [u2 i (by rcases hi with h | h
                   · left; rw [Int.mul_comm (M % _) N]; omega
                   · right; omega), w1 i (by omega)]

theorem old_permute_t_tri_spec (A B : Buf α) (e : Nat) {o N M : Int} (ho : 0 ≤ o) (hN : 0 ≤ N) (hM : 0 ≤ M)
    (hA : o + N * M ≤ A.size) (hB : o + N * M ≤ B.size) :
    ∃ A', old_permute_t_tri B e A o N M = some A' ∧ PackedAs (layOld N e M) A' B o N M ∧
      OnlyWithin A A' o (N * M) := by
  induction e generalizing M A with
  | zero =>
    have h2 : (2 : Int) ∣ M - M % 2 := by omega
    obtain ⟨B', e1, p, w⟩ := unpackFrom_spec A B (L := 2) (h := M % 2) ho hN (by omega) (by omega) (by omega)
      h2 hA hB
    refine ⟨B', ?_, p, w⟩
    unfold old_permute_t_tri
    rcases @modTwo M with h | h
    · rw [if_neg (by omega)]
      rw [h] at e1
      simpa [copyPrefix, forUp] using e1
    · rw [if_pos (by omega)]
      rw [h] at e1
      simpa using e1
  | succ e ih =>
    have hL : (0 : Int) < 2 ^ (e + 2) := by positivity
    have hm0 := Int.emod_nonneg M (b := 2 * 2 ^ (e + 2)) (by positivity)
    have hmle : M % (2 * 2 ^ (e + 2)) ≤ M := emod_le_self' hM (by positivity)
    have hle : N * (M % (2 * 2 ^ (e + 2))) ≤ N * M := by nlinarith
    have hmN : 0 ≤ N * (M % (2 * 2 ^ (e + 2))) := by positivity
    obtain ⟨B1, e1, p1, s1, w1⟩ := ih A hm0 (by omega) (by omega)
    have hsz : (o + M % (2 * 2 ^ (e + 2)) * N) + N * (M - M % (2 * 2 ^ (e + 2))) = o + N * M := by ring
    obtain ⟨B2, e2, s2, v2, u2⟩ := permute_t_spec B1 B (o := o + M % (2 * 2 ^ (e + 2)) * N) (N := N)
      (M := M - M % (2 * 2 ^ (e + 2))) (L := 2 ^ (e + 2)) (by rw [Int.mul_comm]; omega) hN hL
      (dvd_sub_mod _ _ _) (by omega) (by rw [s1]; omega) (by omega)
    refine ⟨B2, by unfold old_permute_t_tri; simp only; rw [e1]; exact e2, ?_, by omega, ?_⟩
    · intro r c hr0 hr1 hc0 hc1
      unfold layOld
      simp only
      split
      · next hc =>
        have hlt : r + c * N < N * (M % (2 * 2 ^ (e + 2))) := by nlinarith
        rw [u2 _ (by left; rw [Int.mul_comm (M % _) N]; omega)]
        exact p1 r c hr0 hr1 hc0 hc
      · next hc =>
        unfold laneFrom
        rw [if_neg hc]
        have := v2 r (c - M % (2 * 2 ^ (e + 2))) hr0 hr1 (by omega) (by omega)
        rw [← Int.add_assoc (o : Int), ← this]
        congr 1; ring
    · intro i hi
      rw [u2 i (by rcases hi with h | h
                   · left; rw [Int.mul_comm (M % _) N]; omega
                   · right; omega), w1 i (by omega)]

end FT.Permute
