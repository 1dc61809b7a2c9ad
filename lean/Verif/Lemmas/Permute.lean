import Verif.Model.Permute
import Verif.Lemmas.Loop

namespace FT.Permute
variable {α : Type*}

/-- Specification of the packed layout: column `c` lives in lane `c % L` of panel `c / L`. -/
def lane (N L r c : Int) : Int := (c / L) * (L * N) + r * L + c % L

theorem slot_eq {N L i : Int} (hN : 0 < N) (hL : 0 < L) : slot N L i = (i % N) * L + i / N := by
  unfold slot
  rw [Int.mul_emod_mul_of_pos _ _ hL, Int.mul_ediv_mul_of_pos _ _ hL]; ring

theorem div_add_mul {L a k : Int} (hL : 0 < L) (h0 : 0 ≤ a) (h1 : a < L) : (L * k + a) / L = k := by
  rw [Int.add_comm, Int.add_mul_ediv_left _ _ (by omega), Int.ediv_eq_zero_of_lt h0 h1]; omega

theorem mod_add_mul {L a k : Int} (h0 : 0 ≤ a) (h1 : a < L) : (L * k + a) % L = a := by
  rw [Int.add_comm, Int.add_mul_emod_self_left, Int.emod_eq_of_lt h0 h1]

theorem div_lt_of {N L i : Int} (hN : 0 < N) (h : i < L * N) : i / N < L :=
  Int.ediv_lt_of_lt_mul hN h

theorem slot_add {N L i k : Int} (hN : 0 < N) (hL : 0 < L) (h0 : 0 ≤ i) (h1 : i < L * N) :
    slot N L i + L * k * N = lane N L (i % N) (L * k + i / N) := by
  have a0 : 0 ≤ i / N := Int.ediv_nonneg h0 hN.le
  have a1 : i / N < L := div_lt_of hN h1
  unfold lane
  rw [slot_eq hN hL, div_add_mul hL a0 a1, mod_add_mul a0 a1]; ring

theorem lane_nonneg {N L r c : Int} (hN : 0 ≤ N) (hL : 0 < L) (hr : 0 ≤ r) (hc : 0 ≤ c) :
    0 ≤ lane N L r c := by
  unfold lane
  have := Int.ediv_nonneg hc hL.le
  have := Int.emod_nonneg c hL.ne'
  positivity

theorem lane_lt {N L r c M : Int} (hL : 0 < L) (hr1 : r < N) (hN : 0 < N)
    (hc1 : c < M) (hM : L ∣ M) : lane N L r c < N * M := by
  obtain ⟨k, rfl⟩ := hM
  unfold lane
  have h1 : c / L < k := Int.ediv_lt_of_lt_mul hL (by rw [Int.mul_comm]; exact hc1)
  have h2 : c % L < L := Int.emod_lt_of_pos c hL
  have h3 : c / L + 1 ≤ k := h1
  have h4 : r * L + c % L < N * L := by nlinarith
  have h5 : (c / L + 1) * (L * N) ≤ k * (L * N) := Int.mul_le_mul_of_nonneg_right h3 (by positivity)
  nlinarith

theorem lane_inj {N L r c r' c' : Int} (hL : 0 < L) (hr0 : 0 ≤ r) (hr1 : r < N) (hr0' : 0 ≤ r')
    (hr1' : r' < N) (h : lane N L r c = lane N L r' c') : r = r' ∧ c = c' := by
  unfold lane at h
  have a0 := Int.emod_nonneg c hL.ne'
  have a1 := Int.emod_lt_of_pos c hL
  have b0 := Int.emod_nonneg c' hL.ne'
  have b1 := Int.emod_lt_of_pos c' hL
  have e1 : c / L * (L * N) + r * L + c % L = L * (c / L * N + r) + c % L := by ring
  have e2 : c' / L * (L * N) + r' * L + c' % L = L * (c' / L * N + r') + c' % L := by ring
  rw [e1, e2] at h
  have hd := congrArg (· / L) h
  have hm := congrArg (· % L) h
  simp only [div_add_mul hL a0 a1, div_add_mul hL b0 b1] at hd
  simp only [mod_add_mul a0 a1, mod_add_mul b0 b1] at hm
  have hN : 0 < N := by omega
  rw [Int.mul_comm _ N, Int.mul_comm _ N] at hd
  have hd1 := congrArg (· / N) hd
  have hd2 := congrArg (· % N) hd
  simp only [div_add_mul hN hr0 hr1, div_add_mul hN hr0' hr1'] at hd1
  simp only [mod_add_mul hr0 hr1, mod_add_mul hr0' hr1'] at hd2
  refine ⟨hd2, ?_⟩
  rw [← Int.mul_ediv_add_emod c L, ← Int.mul_ediv_add_emod c' L, hd1, hm]

theorem stepCount_of_dvd {M L : Int} (hL : 0 < L) (hM : L ∣ M) (hM0 : 0 ≤ M) :
    (stepCount 0 M L : Int) = M / L := by
  obtain ⟨k, rfl⟩ := hM
  unfold stepCount
  have hk : 0 ≤ k := by
    by_contra h
    have : k ≤ -1 := by omega
    nlinarith
  have : L * k - 0 + L - 1 = L * k + (L - 1) := by ring
  rw [this, div_add_mul hL (by omega) (by omega), Int.mul_ediv_cancel_left _ hL.ne']
  omega

/-- Flattened form shared by `permute` and `permute_t`. -/
theorem nest_flat (F : Int → Int → Buf α → Option (Buf α)) {N M L : Int} (hN : 0 ≤ N) (hL : 0 < L)
    (hM : L ∣ M) (hM0 : 0 ≤ M) (s : Buf α)
    (G : Nat → Buf α → Option (Buf α))
    (hG : ∀ k i : Nat, (k : Int) < M / L → (i : Int) < L * N → G (k * (L * N).toNat + i) = F (L * k) i) :
    forStep 0 M L (fun j s => forUp 0 (L * N) (F j) s) s = loop G (N * M).toNat s := by
  have hLN : 0 ≤ L * N := by positivity
  unfold forStep forUp
  rw [Int.sub_zero]
  rw [loop_nested (fun k i => F (0 + L * k) (0 + i))]
  have hT : stepCount 0 M L * (L * N).toNat = (N * M).toNat := by
    have h := stepCount_of_dvd hL hM hM0
    obtain ⟨q, rfl⟩ := hM
    rw [Int.mul_ediv_cancel_left _ hL.ne'] at h
    have : ((stepCount 0 (L * q) L * (L * N).toNat : Nat) : Int) = N * (L * q) := by
      push_cast; rw [h, Int.toNat_of_nonneg hLN]; ring
    omega
  rw [hT]
  apply loop_congr
  intro t ht s
  have hpos : 0 < (L * N).toNat := by
    rcases Nat.eq_zero_or_pos (L * N).toNat with h | h
    · rw [← hT, h] at ht; simp at ht
    · exact h
  have h1 : t / (L * N).toNat < stepCount 0 M L := by
    rw [← hT] at ht; exact Nat.div_lt_of_lt_mul (by rw [Nat.mul_comm]; exact ht)
  have h2 := Nat.mod_lt t hpos
  have h3 := stepCount_of_dvd hL hM hM0
  have h4 := hG (t / (L * N).toNat) (t % (L * N).toNat) (by omega) (by omega)
  rw [Nat.mul_comm, Nat.div_add_mod] at h4
  rw [h4]; simp

theorem flat_index {N M L : Int} (hN : 0 < N) (hL : 0 < L) (k i : Nat)
    (hi : (i : Int) < L * N) :
    (((k * (L * N).toNat + i : Nat) : Int) / N = L * k + i / N) ∧
    (((k * (L * N).toNat + i : Nat) : Int) % N = i % N) := by
  have hLN : 0 ≤ L * N := by positivity
  have : ((k * (L * N).toNat + i : Nat) : Int) = N * (L * k) + i := by
    push_cast; rw [Int.toNat_of_nonneg hLN]; ring
  rw [this]
  constructor
  · rw [Int.add_comm, Int.add_mul_ediv_left _ _ (by omega)]; ring
  · rw [Int.add_comm, Int.add_mul_emod_self_left]

theorem flat_range {N M : Int} (hN : 0 ≤ N) (t : Nat) (ht : t < (N * M).toNat) :
    0 < N ∧ 0 ≤ (t : Int) / N ∧ (t : Int) / N < M ∧ 0 ≤ (t : Int) % N ∧ (t : Int) % N < N := by
  have hN' : 0 < N := by
    rcases hN.lt_or_eq with h | h
    · exact h
    · subst h; simp at ht
  refine ⟨hN', Int.ediv_nonneg (by omega) hN, ?_, Int.emod_nonneg _ hN'.ne', Int.emod_lt_of_pos _ hN'⟩
  exact Int.ediv_lt_of_lt_mul hN' (by rw [Int.mul_comm]; omega)

theorem permute_spec (A B : Buf α) {o N M L : Int} (ho : 0 ≤ o) (hN : 0 ≤ N) (hL : 0 < L) (hM : L ∣ M)
    (hM0 : 0 ≤ M) (hA : o + N * M ≤ A.size) (hB : o + N * M ≤ B.size) :
    ∃ B', permute A B o N M L = some B' ∧ B'.size = B.size ∧
      (∀ r c, 0 ≤ r → r < N → 0 ≤ c → c < M → B'.val (o + lane N L r c) = A.val (o + (r + c * N))) ∧
      (∀ i, (i < o ∨ o + N * M ≤ i) → B'.val i = B.val i) := by
  have hNM : 0 ≤ N * M := by positivity
  unfold permute
  rw [nest_flat _ hN hL hM hM0 B
    (fun t B => (A.rd (o + t)).bind fun v => B.wr (o + lane N L ((t : Int) % N) ((t : Int) / N)) v)
    (by
      intro k i hk hi
      funext B
      have hN' : 0 < N := by
        rcases hN.lt_or_eq with h | h
        · exact h
        · subst h; simp at hi; omega
      obtain ⟨e1, e2⟩ := flat_index (M := M) hN' hL k i hi
      rw [e1, e2, ← slot_add hN' hL (by omega) hi]
      have : ((k * (L * N).toNat + i : Nat) : Int) = i + L * k * N := by
        push_cast; rw [Int.toNat_of_nonneg (by positivity)]; ring
      rw [this])]
  obtain ⟨B', h1, h2, h3, h4⟩ := scatter_spec A B
    (fun t => o + lane N L ((t : Int) % N) ((t : Int) / N)) (fun t => o + t) (N * M).toNat
    (by intro t ht; constructor <;> omega)
    (by
      intro t ht
      obtain ⟨p, q1, q2, q3, q4⟩ := flat_range hN t ht
      have := lane_nonneg hN hL q3 q1
      have := lane_lt hL q4 p q2 hM
      constructor <;> omega)
    (by
      intro t u ht hu h
      obtain ⟨p, q1, q2, q3, q4⟩ := flat_range hN t ht
      obtain ⟨p, q1', q2', q3', q4'⟩ := flat_range hN u hu
      obtain ⟨a, b⟩ := lane_inj hL q3 q4 q3' q4' (Int.add_left_cancel h)
      have := Int.mul_ediv_add_emod t N
      have := Int.mul_ediv_add_emod u N
      rw [a, b] at *
      omega)
  refine ⟨B', h1, h2, ?_, ?_⟩
  · intro r c hr0 hr1 hc0 hc1
    have hlt : r + c * N < N * M := by nlinarith
    have h0 : 0 ≤ r + c * N := by positivity
    have := h3 (r + c * N).toNat (by omega)
    rw [Int.toNat_of_nonneg h0] at this
    have e : r + c * N = N * c + r := by ring
    rw [e, div_add_mul (by omega) hr0 hr1, mod_add_mul hr0 hr1, ← e] at this
    exact this
  · intro i hi
    apply h4
    intro t ht
    obtain ⟨p, q1, q2, q3, q4⟩ := flat_range hN t ht
    have := lane_nonneg hN hL q3 q1
    have := lane_lt hL q4 p q2 hM
    omega

theorem permute_t_spec (A B : Buf α) {o N M L : Int} (ho : 0 ≤ o) (hN : 0 ≤ N) (hL : 0 < L) (hM : L ∣ M)
    (hM0 : 0 ≤ M) (hA : o + N * M ≤ A.size) (hB : o + N * M ≤ B.size) :
    ∃ A', permute_t A B o N M L = some A' ∧ A'.size = A.size ∧
      (∀ r c, 0 ≤ r → r < N → 0 ≤ c → c < M → A'.val (o + (r + c * N)) = B.val (o + lane N L r c)) ∧
      (∀ i, (i < o ∨ o + N * M ≤ i) → A'.val i = A.val i) := by
  have hNM : 0 ≤ N * M := by positivity
  unfold permute_t
  rw [nest_flat _ hN hL hM hM0 A
    (fun t A => (B.rd (o + lane N L ((t : Int) % N) ((t : Int) / N))).bind fun v => A.wr (o + t) v)
    (by
      intro k i hk hi
      funext B
      have hN' : 0 < N := by
        rcases hN.lt_or_eq with h | h
        · exact h
        · subst h; simp at hi; omega
      obtain ⟨e1, e2⟩ := flat_index (M := M) hN' hL k i hi
      rw [e1, e2, ← slot_add hN' hL (by omega) hi]
      have : ((k * (L * N).toNat + i : Nat) : Int) = i + L * k * N := by
        push_cast; rw [Int.toNat_of_nonneg (by positivity)]; ring
      rw [this])]
  obtain ⟨A', h1, h2, h3, h4⟩ := scatter_spec B A (fun t => o + t)
    (fun t => o + lane N L ((t : Int) % N) ((t : Int) / N)) (N * M).toNat
    (by
      intro t ht
      obtain ⟨p, q1, q2, q3, q4⟩ := flat_range hN t ht
      have := lane_nonneg hN hL q3 q1
      have := lane_lt hL q4 p q2 hM
      constructor <;> omega)
    (by intro t ht; constructor <;> omega)
    (by intro t u _ _ h; omega)
  refine ⟨A', h1, h2, ?_, ?_⟩
  · intro r c hr0 hr1 hc0 hc1
    have hlt : r + c * N < N * M := by nlinarith
    have h0 : 0 ≤ r + c * N := by positivity
    have := h3 (r + c * N).toNat (by omega)
    rw [Int.toNat_of_nonneg h0] at this
    have e : r + c * N = N * c + r := by ring
    rw [e, div_add_mul (by omega) hr0 hr1, mod_add_mul hr0 hr1, ← e] at this
    exact this
  · intro i hi
    apply h4
    intro t ht
    omega

theorem copyPrefix_spec (A B : Buf α) {o n : Int} (ho : 0 ≤ o) (hn : 0 ≤ n) (hA : o + n ≤ A.size)
    (hB : o + n ≤ B.size) :
    ∃ B', copyPrefix A B o n = some B' ∧ B'.size = B.size ∧
      (∀ i, 0 ≤ i → i < n → B'.val (o + i) = A.val (o + i)) ∧
      (∀ i, (i < o ∨ o + n ≤ i) → B'.val i = B.val i) := by
  unfold copyPrefix forUp
  obtain ⟨B', h1, h2, h3, h4⟩ := scatter_spec A B (fun t => o + (0 + (t : Int)))
    (fun t => o + (0 + (t : Int))) (n - 0).toNat
    (by intro t ht; constructor <;> omega) (by intro t ht; constructor <;> omega)
    (by intro t u _ _ h; omega)
  refine ⟨B', h1, h2, ?_, ?_⟩
  · intro i hi0 hi1
    have := h3 i.toNat (by omega)
    rwa [Int.toNat_of_nonneg hi0, Int.zero_add] at this
  · intro i hi
    apply h4
    intro t ht
    omega

end FT.Permute
