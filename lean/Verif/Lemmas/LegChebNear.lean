import Verif.Lemmas.LegChebFar

/-! # The near field and the sum of both -/

namespace FT.Props.Lc
open FT FT.Poly FT.Model.Lc
variable {K : Type*} [Field K] [CharZero K] [DecidableEq K]

/-! ## Additions to the entries of an array at a stride -/

/-- `g i` at the position of the entry `i`. -/
def spread (bo st N : Int) (g : Int → K) (q : Int) : K := if (q - bo) % st = 0 ∧ 0 ≤ (q - bo) / st ∧ (q - bo) / st < N then g ((q - bo) / st) else 0

theorem pos_div {bo st i : Int} (h : 1 ≤ st) : (bo + i * st - bo) % st = 0 ∧ (bo + i * st - bo) / st = i := by
  rw [show bo + i * st - bo = i * st by ring]
  exact ⟨Int.mul_emod_left _ _, Int.mul_ediv_cancel _ (by omega)⟩

omit [CharZero K] [DecidableEq K] in
theorem spread_at {bo st N i : Int} (h : 1 ≤ st) (g : Int → K) (i0 : 0 ≤ i) (i1 : i < N) : spread bo st N g (bo + i * st) = g i := by
  unfold spread
  rw [(pos_div h).1, (pos_div h).2, if_pos ⟨rfl, i0, i1⟩]

omit [CharZero K] [DecidableEq K] in
theorem spread_out {bo st N q : Int} (h : 1 ≤ st) (g : Int → K) (hq : ∀ i, 0 ≤ i → i < N → q ≠ bo + i * st) : spread bo st N g q = 0 := by
  unfold spread
  refine if_neg fun ⟨a, b, c⟩ => hq _ b c ?_
  have := Int.mul_ediv_add_emod (q - bo) st
  rw [a, add_zero, mul_comm] at this
  omega

omit [CharZero K] [DecidableEq K] in
theorem spread_sum {bo st N lo hi : Int} (γ : Int → Int → K) (q : Int) : ∑ i ∈ Finset.Ico lo hi, spread bo st N (γ i) q = spread bo st N (fun j => ∑ i ∈ Finset.Ico lo hi, γ i j) q := by
  unfold spread
  split_ifs
  · rfl
  · exact Finset.sum_const_zero

omit [CharZero K] [DecidableEq K] in
theorem spread_add {bo st N : Int} (g f : Int → K) (q : Int) : spread bo st N g q + spread bo st N f q = spread bo st N (fun j => g j + f j) q := by
  unfold spread
  split_ifs
  · rfl
  · exact add_zero _

omit [CharZero K] [DecidableEq K] in
theorem spread_congr {bo st N : Int} {g f : Int → K} (h : ∀ i, 0 ≤ i → i < N → g i = f i) : spread bo st N g = spread bo st N f := by
  funext q
  unfold spread
  split_ifs with c
  · exact h _ c.2.1 c.2.2
  · rfl

theorem addAt_spread {b : Buf K} {bo st N i : Int} {v : K} (h : Room b bo st N) (i0 : 0 ≤ i) (i1 : i < N) :
    addAt b (bo + i * st) v = some (bump b (spread bo st N fun j => if j = i then v else 0)) := by
  have p := h.pos i0 i1
  rw [addAt_eq p.1 p.2]
  refine congrArg some (bump_congr fun q => ?_)
  split_ifs with c
  · subst c; rw [spread_at h.stride _ i0 i1, if_pos rfl]
  · unfold spread
    by_cases c1 : (q - bo) % st = 0 ∧ 0 ≤ (q - bo) / st ∧ (q - bo) / st < N
    · rw [if_pos c1]
      refine (if_neg fun c2 => c ?_).symm
      have := Int.mul_ediv_add_emod (q - bo) st
      rw [c1.1, add_zero, mul_comm, c2] at this
      omega
    · rw [if_neg c1]

omit [CharZero K] in
theorem forUp_spread {lo hi bo st N : Int} {body : Int → Buf K → Option (Buf K)} {b : Buf K} {γ : Int → Int → K} (h : Room b bo st N)
    (hb : ∀ i Z, lo ≤ i → i < hi → Room Z bo st N → body i Z = some (bump Z (spread bo st N (γ i)))) :
    forUp lo hi body b = some (bump b (spread bo st N fun j => ∑ i ∈ Finset.Ico lo hi, γ i j)) := by
  rw [forUp_bump fun i Z i0 i1 sZ => hb i Z i0 i1 ⟨h.start, h.stride, by rw [sZ]; exact h.last⟩]
  exact congrArg some (bump_congr fun q => spread_sum _ _)

omit [CharZero K] in
theorem forStep_spread {lo hi bo st N : Int} {body : Int → Buf K → Option (Buf K)} {b : Buf K} {γ : Int → Int → K} (hlo : lo ≤ hi + 1) (h : Room b bo st N)
    (hb : ∀ i Z, 0 ≤ i → lo + 2 * i < hi → Room Z bo st N → body (lo + 2 * i) Z = some (bump Z (spread bo st N (γ i)))) :
    forStep lo hi 2 body b = some (bump b (spread bo st N fun j => ∑ i ∈ Finset.Ico 0 ((hi - lo + 1) / 2), γ i j)) := by
  rw [forStep_bump hlo fun i Z i0 i1 sZ => hb i Z i0 i1 ⟨h.start, h.stride, by rw [sZ]; exact h.last⟩]
  exact congrArg some (bump_congr fun q => spread_sum _ _)

/-- A loop that adds to the entries from `i0 + lo` to `i0 + hi`. -/
theorem forUp_adds {lo hi bo st N i0 : Int} {body : Int → Buf K → Option (Buf K)} {b : Buf K} {v : Int → K} (h : Room b bo st N) (h0 : 0 ≤ i0 + lo) (h1 : i0 + hi ≤ N)
    (hb : ∀ i Z, lo ≤ i → i < hi → Room Z bo st N → body i Z = addAt Z (bo + (i0 + i) * st) (v (i0 + i))) :
    forUp lo hi body b = some (bump b (spread bo st N fun j => if i0 + lo ≤ j ∧ j < i0 + hi then v j else 0)) := by
  rw [forUp_spread h fun i Z i0' i1 hZ => by rw [hb i Z i0' i1 hZ, addAt_spread hZ (by omega) (by omega)]]
  refine congrArg some (congrArg _ (spread_congr fun j j0 j1 => ?_))
  split_ifs with c
  · rw [sum_Ico_congr (g := fun i => if i = j - i0 then v j else 0) fun i _ _ => by
      by_cases e : j = i0 + i
      · rw [if_pos e, if_pos (by omega), e]
      · rw [if_neg e, if_neg (by omega)]]
    exact sum_Ico_delta (f := fun _ => v j) (by omega) (by omega)
  · exact Finset.sum_eq_zero fun i hi => by rw [Finset.mem_Ico] at hi; exact if_neg (by omega)

omit [CharZero K] [DecidableEq K] in
theorem Room.bump {b : Buf K} {bo st N : Int} {δ : Int → K} (h : Room b bo st N) : Room (bump b δ) bo st N := ⟨h.start, h.stride, h.last⟩

/-! ## Shapes -/

/-- The numbers in a plan with at least one level. -/
structure Shape (P : Plan K) : Prop where
  L1 : 1 ≤ P.L
  s : P.s = leaf P.N P.L
  Nn : P.Nn = P.s * 2 ^ (P.L + 2)
  big : 2 ^ (P.L + 1) < P.N
  even : P.N % 2 = 0
  small : P.N < 2 ^ 31

omit [CharZero K] [DecidableEq K] in
theorem Shape.facts {P : Plan K} (h : Shape P) : 1 ≤ P.s ∧ 4 * P.s ≤ P.N ∧ P.N ≤ P.Nn ∧ P.N ≤ 2 * ((P.N / (2 * P.s) - 1) * (2 * P.s)) + 2 := by
  have a : (8 : Int) ≤ 2 ^ (P.L + 2) := by
    have := pow_le_pow_right₀ (show (1 : Int) ≤ 2 by norm_num) (show 3 ≤ P.L + 2 by have := h.L1; omega)
    norm_num at this ⊢; exact this
  have b : (2 : Int) ^ (P.L + 2) = 2 * 2 ^ (P.L + 1) := by rw [pow_succ (2 : Int) (P.L + 1)]; ring
  have c := h.big
  have e := h.even
  have hsv := h.s
  have hNn := h.Nn
  unfold leaf at hsv
  generalize (2 : Int) ^ (P.L + 2) = t at *
  generalize (2 : Int) ^ (P.L + 1) = t' at *
  generalize P.N = N at *
  generalize P.Nn = Nn at *
  generalize P.s = s at *
  clear h
  have q := Int.mul_ediv_add_emod (N + t - 1) t
  have q0 := Int.emod_nonneg (N + t - 1) (show t ≠ 0 by omega)
  have q1 := Int.emod_lt_of_pos (N + t - 1) (show 0 < t by omega)
  rw [← hsv] at q
  have s1 : 1 ≤ s := by nlinarith
  have lo : t * (s - 1) + 1 ≤ N := by nlinarith
  have hi : N ≤ t * s := by nlinarith
  have r := Int.mul_ediv_add_emod N (2 * s)
  have r0 := Int.emod_nonneg N (show 2 * s ≠ 0 by omega)
  have r1 := Int.emod_lt_of_pos N (show 0 < 2 * s by omega)
  have f : (N / (2 * s) - 1) * (2 * s) = 2 * s * (N / (2 * s)) - 2 * s := by ring
  rw [f]
  have lo8 : 8 * (s - 1) + 1 ≤ N := by nlinarith
  refine ⟨s1, ?_, by rw [hNn, mul_comm]; exact hi, ?_⟩
  · by_cases h1 : s = 1
    · omega
    · omega
  · by_cases h1 : s = 1
    · subst h1; omega
    by_cases h2 : s = 2
    · subst h2; omega
    by_cases h3 : s = 3
    · subst h3; omega
    · have n3 : 3 ≤ N / (2 * s) := (Int.le_ediv_iff_mul_le (by omega)).2 (by omega)
      by_cases n4 : N / (2 * s) = 3
      · rw [n4] at r f ⊢; omega
      · have := Int.mul_le_mul_of_nonneg_left (show 4 ≤ N / (2 * s) by omega) (show 0 ≤ 2 * s by omega)
        omega

theorem sz_of {x : Int} (h0 : 0 ≤ x) (h1 : x < 2 ^ 64) : sz x = x := Int.emod_eq_of_lt h0 h1

/-! ## The near field -/

/-- The number of entries of the row `i`, every other one from the diagonal on, in the near field. -/
def nu (s N i : Int) : Int := (min N ((i / (2 * s) + 2) * (2 * s)) - i + 1) / 2

omit [CharZero K] [DecidableEq K] in
/-- The blocks contribute to the rows of all blocks but the last. -/
theorem block_sum {s N j : Int} (s1 : 1 ≤ s) (j0 : 0 ≤ j) {n0 : Int} (n00 : 0 ≤ n0) (n01 : n0 ≤ 1) (g : Int → K) (m : Int) (hm : m = N / (2 * s) - 1) :
    ∑ block ∈ Finset.Ico 0 m, ∑ n ∈ Finset.Ico n0 (2 * s),
      (if block * (2 * s) + 0 ≤ j ∧ j < block * (2 * s) + (if 2 * n < 2 * s then 2 * s else 2 * (2 * s) - 2 * n) then g n else 0) =
    if j < m * (2 * s) then ∑ n ∈ Finset.Ico n0 (nu s N j), g n else 0 := by
  have r := Int.mul_ediv_add_emod N (2 * s)
  have r0 := Int.emod_nonneg N (show 2 * s ≠ 0 by omega)
  have r1 := Int.emod_lt_of_pos N (show 0 < 2 * s by omega)
  have u := Int.mul_ediv_add_emod j (2 * s)
  have u0 := Int.emod_nonneg j (show 2 * s ≠ 0 by omega)
  have u1 := Int.emod_lt_of_pos j (show 0 < 2 * s by omega)
  have fb : 0 ≤ j / (2 * s) := Int.ediv_nonneg j0 (by omega)
  have other : ∀ block n, block ≠ j / (2 * s) → ¬ (block * (2 * s) + 0 ≤ j ∧ j < block * (2 * s) + (if 2 * n < 2 * s then 2 * s else 2 * (2 * s) - 2 * n)) := by
    rintro block n hb ⟨a, b⟩
    apply hb
    refine (div_block (by omega) (by omega) ?_).symm
    have : (block + 1) * (2 * s) = block * (2 * s) + 2 * s := by ring
    split_ifs at b <;> omega
  split_ifs with c
  · have lt : j / (2 * s) < m := Int.ediv_lt_of_lt_mul (by omega) c
    rw [Finset.sum_eq_single (j / (2 * s))]
    · have nuv : nu s N j = (2 * (2 * s) - j % (2 * s) + 1) / 2 := by
        unfold nu
        have : (j / (2 * s) + 2) * (2 * s) ≤ (N / (2 * s)) * (2 * s) := by
          have := Int.mul_le_mul_of_nonneg_right (show j / (2 * s) + 2 ≤ N / (2 * s) by omega) (show 0 ≤ 2 * s by omega)
          exact this
        have f2 : (j / (2 * s) + 2) * (2 * s) = 2 * s * (j / (2 * s)) + 2 * (2 * s) := by ring
        have f3 : (N / (2 * s)) * (2 * s) = 2 * s * (N / (2 * s)) := by ring
        rw [min_eq_right (by omega)]
        congr 1; omega
      have f4 : j / (2 * s) * (2 * s) = 2 * s * (j / (2 * s)) := by ring
      rw [sum_Ico_shrink (lo' := n0) (hi' := nu s N j) (fun n a b h => if_neg ?_) le_rfl (by rw [nuv]; omega)]
      · refine sum_Ico_congr fun n a b => if_pos ?_
        rw [nuv] at b
        split_ifs <;> omega
      · rw [nuv] at h
        split_ifs <;> omega
    · intro block _ hb
      exact Finset.sum_eq_zero fun n _ => if_neg (other block n hb)
    · intro h; exact absurd (Finset.mem_Ico.2 ⟨fb, lt⟩) h
  · refine Finset.sum_eq_zero fun block hb => Finset.sum_eq_zero fun n _ => if_neg (other block n ?_)
    rw [Finset.mem_Ico] at hb
    rintro rfl
    apply c
    have := Int.mul_le_mul_of_nonneg_right (show j / (2 * s) + 1 ≤ m by omega) (show 0 ≤ 2 * s by omega)
    have f2 : (j / (2 * s) + 1) * (2 * s) = 2 * s * (j / (2 * s)) + 2 * s := by ring
    omega

theorem nu_last {s N j : Int} (s1 : 1 ≤ s) (j1 : j < N) (c : (N / (2 * s) - 1) * (2 * s) ≤ j) : nu s N j = (N - j + 1) / 2 := by
  unfold nu
  have r := Int.mul_ediv_add_emod N (2 * s)
  have r1 := Int.emod_lt_of_pos N (show 0 < 2 * s by omega)
  have : N / (2 * s) - 1 ≤ j / (2 * s) := (Int.le_ediv_iff_mul_le (by omega)).2 c
  have := Int.mul_le_mul_of_nonneg_right (show N / (2 * s) + 1 ≤ j / (2 * s) + 2 by omega) (show 0 ≤ 2 * s by omega)
  have f : (N / (2 * s) + 1) * (2 * s) = 2 * s * (N / (2 * s)) + 2 * s := by ring
  rw [min_eq_left (by omega)]

theorem directM_spec {F : Lib K} {P : Plan K} (h : Shape P) (ha : (P.D.a.size : Int) = P.N) {inp out : Buf K} {bi bo st : Int} (hi : Room inp bi st P.N) (ho : Room out bo st P.N) :
    ∃ out', directM F P inp bi out bo st = some out' ∧ Keeps out out' bo st P.N ∧ ∀ i, 0 ≤ i → i < P.N →
      at' out' bo st i = (at' out bo st i + ∑ n ∈ Finset.Ico 0 (nu P.s P.N i), P.D.a.val n * P.D.a.val (n + i) * at' inp bi st (i + 2 * n)) * F.m2pi * (if i = 0 then 1 / 2 else 1) := by
  obtain ⟨s1, s4, -, -⟩ := h.facts
  have hev := h.even
  have hsm := h.small
  have p31 : (2 : Int) ^ 31 = 2147483648 := by norm_num
  have p64 : (2 : Int) ^ 64 = 18446744073709551616 := by norm_num
  obtain ⟨m, hm⟩ : ∃ m, m = P.N / (2 * P.s) - 1 := ⟨_, rfl⟩
  have r := Int.mul_ediv_add_emod P.N (2 * P.s)
  have r0 := Int.emod_nonneg P.N (show 2 * P.s ≠ 0 by omega)
  have r1 := Int.emod_lt_of_pos P.N (show 0 < 2 * P.s by omega)
  have q1 : 2 ≤ P.N / (2 * P.s) := (Int.le_ediv_iff_mul_le (by omega)).2 (by omega)
  have q2 : P.N / (2 * P.s) ≤ P.N := Int.ediv_le_self _ (by omega)
  have szm : sz (P.N / (2 * P.s) - 1) = m := by rw [sz_of (by omega) (by omega), hm]
  have fm : m * (2 * P.s) = 2 * P.s * (P.N / (2 * P.s)) - 2 * P.s := by rw [hm]; ring
  unfold directM
  dsimp only
  rw [szm]
  obtain ⟨i0, hi0⟩ : ∃ i0, i0 = m * (2 * P.s) := ⟨_, rfl⟩
  have i00 : 0 ≤ i0 := by rw [hi0]; exact Int.mul_nonneg (by omega) (by omega)
  have i0e : i0 % 2 = 0 := by rw [hi0, show m * (2 * P.s) = m * P.s * 2 by ring, Int.mul_emod_left]
  rw [forUp_spread (γ := fun block j => ∑ n ∈ Finset.Ico 0 (2 * P.s),
      (if block * (2 * P.s) + 0 ≤ j ∧ j < block * (2 * P.s) + (if 2 * n < 2 * P.s then 2 * P.s else 2 * (2 * P.s) - 2 * n) then P.D.a.val n * P.D.a.val (n + j) * at' inp bi st (j + 2 * n) else 0)) ho
    (fun block Z b0 b1 hZ => by
      have bb : 0 ≤ block * (2 * P.s) := Int.mul_nonneg b0 (by omega)
      have bb' : (block + 2) * (2 * P.s) ≤ P.N := by
        have := Int.mul_le_mul_of_nonneg_right (show block + 2 ≤ P.N / (2 * P.s) by omega) (show 0 ≤ 2 * P.s by omega)
        have f : P.N / (2 * P.s) * (2 * P.s) = 2 * P.s * (P.N / (2 * P.s)) := by ring
        omega
      have fb : (block + 2) * (2 * P.s) = block * (2 * P.s) + 4 * P.s := by ring
      rw [forStep_spread (by omega) hZ fun n Y n0 n1 hY => by
        rw [zero_add] at n1 ⊢
        exact forUp_adds (i0 := block * (2 * P.s)) (v := fun j => P.D.a.val n * P.D.a.val (n + j) * at' inp bi st (j + 2 * n)) hY (by omega) (by split_ifs <;> omega)
          (fun i X i0 i1 hX => by
            have lt : 2 * n + i < 4 * P.s := by split_ifs at i1 <;> omega
            have pr := hi.pos (i := block * (2 * P.s) + 2 * n + i) (by omega) (by omega)
            rw [show 2 * n / 2 = n by omega, Buf.rd_of n0 (by omega), Option.bind_some, Buf.rd_of (by omega) (by omega), Option.bind_some, Buf.rd_of pr.1 pr.2, Option.bind_some]
            unfold at'
            rw [show n + (block * (2 * P.s) + i) = block * (2 * P.s) + n + i by ring, show block * (2 * P.s) + i + 2 * n = block * (2 * P.s) + 2 * n + i by ring])]
      rw [show (4 * P.s - 0 + 1) / 2 = 2 * P.s by omega]), Option.bind_some]
  rw [← hi0, sz_of (show 0 ≤ P.N - i0 by omega) (by omega)]
  obtain ⟨⟨fl, Z⟩, e, p⟩ := forUp_spec (lo := 0) (hi := P.N - i0)
    (s := (false, bump out (spread bo st P.N fun j => ∑ block ∈ Finset.Ico 0 m, ∑ n ∈ Finset.Ico 0 (2 * P.s),
      (if block * (2 * P.s) + 0 ≤ j ∧ j < block * (2 * P.s) + (if 2 * n < 2 * P.s then 2 * P.s else 2 * (2 * P.s) - 2 * n) then P.D.a.val n * P.D.a.val (n + j) * at' inp bi st (j + 2 * n) else 0))))
    (body := lastM P inp bi bo st i0)
    (fun J r => r.1 = decide ((P.N - i0) / 2 < J) ∧ r.2 = bump (bump out (spread bo st P.N fun j => ∑ block ∈ Finset.Ico 0 m, ∑ n ∈ Finset.Ico 0 (2 * P.s),
      (if block * (2 * P.s) + 0 ≤ j ∧ j < block * (2 * P.s) + (if 2 * n < 2 * P.s then 2 * P.s else 2 * (2 * P.s) - 2 * n) then P.D.a.val n * P.D.a.val (n + j) * at' inp bi st (j + 2 * n) else 0)))
      (spread bo st P.N fun j => ∑ n ∈ Finset.Ico 0 (min J ((P.N - i0) / 2)), if i0 + 0 ≤ j ∧ j < i0 + (P.N - i0 - 2 * n) then P.D.a.val n * P.D.a.val (n + j) * at' inp bi st (j + 2 * n) else 0))
    ⟨by simp; omega, by
      refine (bump_zero fun q => ?_).symm
      unfold spread
      rw [min_eq_left (by omega), Finset.Ico_self]
      simp⟩
    (fun J J0 J1 r ⟨hr1, hr2⟩ => by
      obtain ⟨fl, Z⟩ := r
      dsimp only at hr1 hr2
      unfold lastM
      dsimp only
      by_cases c : (P.N - i0) / 2 < J
      · rw [decide_eq_true c] at hr1
        rw [if_pos hr1]
        refine ⟨_, rfl, by rw [hr1, decide_eq_true (by omega)], ?_⟩
        rw [hr2, min_eq_right (by omega), min_eq_right (by omega)]
      · rw [decide_eq_false c] at hr1
        rw [if_neg (by rw [hr1]; simp), sz_of (show 0 ≤ P.N - (2 * J + i0) by omega) (by omega)]
        by_cases c' : (P.N - i0) / 2 = J
        · rw [if_pos (by omega)]
          refine ⟨_, rfl, by rw [decide_eq_true (by omega)], ?_⟩
          dsimp only
          rw [hr2, min_eq_right (by omega), min_eq_right (by omega)]
        · rw [if_neg (by omega), hr2]
          rw [forUp_adds (i0 := i0) (lo := 0) (hi := P.N - (2 * J + i0)) (N := P.N) (bo := bo) (st := st) (v := fun j => P.D.a.val J * P.D.a.val (J + j) * at' inp bi st (j + 2 * J)) ho.bump.bump (by omega) (by omega)
            (fun i X i0' i1 hX => by
              have pr := hi.pos (i := i0 + 2 * J + i) (by omega) (by omega)
              rw [Buf.rd_of J0 (by omega), Option.bind_some, Buf.rd_of (by omega) (by omega), Option.bind_some, Buf.rd_of pr.1 pr.2, Option.bind_some]
              unfold at'
              rw [show J + (i0 + i) = J + i0 + i by ring, show i0 + i + 2 * J = i0 + 2 * J + i by ring]), Option.bind_some]
          refine ⟨_, rfl, by rw [decide_eq_false (by omega)], ?_⟩
          dsimp only
          rw [bump_bump (bump out _)]
          refine bump_congr fun q => ?_
          rw [spread_add, min_eq_left (by omega), min_eq_left (by omega)]
          congr 1
          funext j
          rw [sum_Ico_succ J0, show P.N - (2 * J + i0) = P.N - i0 - 2 * J by ring])
  rw [e, Option.bind_some]
  obtain ⟨-, p⟩ := p
  dsimp only at p ⊢
  rw [max_eq_right (by omega), min_eq_right (by omega)] at p
  have hZ : Room Z bo st P.N := by rw [p]; exact ho.bump.bump
  obtain ⟨Y, e1, sY, vY, kY⟩ := forUp_mulAt (lo := 0) (hi := P.N) (f := fun i => bo + i * st) (v := fun _ => F.m2pi) (b := Z) (fun i i0 i1 => hZ.pos i0 i1) (stride_inj ho.stride)
  rw [e1, Option.bind_some]
  have p0 := ho.pos (i := 0) le_rfl (by omega)
  rw [zero_mul, add_zero] at p0
  have sZ : Z.size = out.size := by rw [p]; rfl
  rw [mulAt_eq p0.1 (by rw [sY, sZ]; exact p0.2)]
  refine ⟨_, rfl, ⟨by show Y.size = _; rw [sY, sZ], fun q hq => ?_⟩, fun i i00' i1 => ?_⟩
  · have h0 := hq 0 le_rfl (by omega)
    rw [zero_mul, add_zero] at h0
    show (if q = bo then _ else Y.val q) = _
    rw [if_neg h0, kY q hq, p]
    show out.val q + _ + _ = _
    rw [spread_out ho.stride _ hq, spread_out ho.stride _ hq, add_zero, add_zero]
  · have val : Y.val (bo + i * st) = (at' out bo st i + ∑ n ∈ Finset.Ico 0 (nu P.s P.N i), P.D.a.val n * P.D.a.val (n + i) * at' inp bi st (i + 2 * n)) * F.m2pi := by
      rw [vY i i00' i1, p]
      show (out.val _ + spread bo st P.N _ _ + spread bo st P.N _ _) * _ = _
      rw [spread_at ho.stride _ i00' i1, spread_at ho.stride _ i00' i1, block_sum s1 i00' le_rfl (by omega) _ m hm, ← hi0, add_assoc]
      congr 2
      by_cases c : i < i0
      · rw [if_pos c]
        refine (congrArg _ (Finset.sum_eq_zero fun n _ => if_neg (by omega))).trans (add_zero _)
      · rw [if_neg c, zero_add, nu_last s1 i1 (by rw [← hm, ← hi0]; omega), sum_Ico_shrink (lo' := 0) (hi' := (P.N - i + 1) / 2) (fun n a b h => if_neg (by omega)) le_rfl (by omega)]
        exact sum_Ico_congr fun n a b => if_pos (by omega)
    show (if bo + i * st = bo then Y.val (bo + i * st) * _ else Y.val (bo + i * st)) = _
    rw [val]
    by_cases c : i = 0
    · subst c; rw [if_pos (by ring), if_pos rfl]
    · rw [if_neg fun e => c (stride_inj ho.stride i 0 (by rw [e]; ring)), if_neg c, mul_one]

end FT.Props.Lc
