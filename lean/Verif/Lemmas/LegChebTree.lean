import Verif.Lemmas.LegChebPoly2
import Verif.Model.LegCheb

/-! # Expansions in the blocks of the tree -/

namespace FT.Props.Lc
open FT FT.Poly FT.Model.Lc
variable {K : Type*} [Field K] [CharZero K]

/-- Half the number of rows of a block of a level. -/
def hs (s : Int) (L lev : ℕ) : Int := s * 2 ^ (L - 1 - lev)

theorem hs_pos {s : Int} (h : 1 ≤ s) (L lev : ℕ) : 1 ≤ hs s L lev := by
  unfold hs
  have : (1 : Int) ≤ 2 ^ (L - 1 - lev) := one_le_pow₀ (by norm_num)
  nlinarith

theorem hs_step {s : Int} {L lev : ℕ} (h : lev + 1 < L) : hs s L lev = 2 * hs s L (lev + 1) := by
  unfold hs
  rw [show L - 1 - lev = (L - 1 - (lev + 1)) + 1 by omega, pow_succ]; ring

theorem hs_last {s : Int} {L : ℕ} : hs s L (L - 1) = s := by unfold hs; rw [Nat.sub_self, pow_zero, mul_one]

theorem hs_tot {s : Int} {L lev : ℕ} (h : lev < L) : hs s L lev * 2 ^ (lev + 2) = s * 2 ^ (L + 1) := by
  unfold hs
  rw [mul_assoc, ← pow_add, show L - 1 - lev + (lev + 2) = L + 1 by omega]

theorem div_step {s P : Int} {L lev : ℕ} (hs1 : 1 ≤ s) (h : lev + 1 < L) : P / hs s L lev = P / hs s L (lev + 1) / 2 := by
  rw [Int.ediv_ediv_of_nonneg (by have := hs_pos hs1 L (lev + 1); omega), hs_step h, mul_comm]

theorem div_lt {s P : Int} {L lev : ℕ} (hs1 : 1 ≤ s) (h : lev < L) (hP : P < s * 2 ^ (L + 1)) : P / hs s L lev < 2 ^ (lev + 2) :=
  Int.ediv_lt_of_lt_mul (by have := hs_pos hs1 L lev; omega) (by rw [mul_comm, hs_tot h]; exact hP)

/-- The position of the entry `2P + odd` in its block, scaled to the interval from -1 to 1. -/
def xc (s : Int) (L : ℕ) (odd : Int) (lev : ℕ) (P : Int) : K := -1 + ((2 * P + odd - 2 * (P / hs s L lev * hs s L lev) : Int) : K) / (hs s L lev : Int)

theorem xc_step {s P odd : Int} {L lev : ℕ} (hs1 : 1 ≤ s) (h : lev + 1 < L) :
    xc (K := K) s L odd lev P = (xc s L odd (lev + 1) P - 1 + 2 * ((P / hs s L (lev + 1) % 2 : Int) : K)) / 2 := by
  unfold xc
  rw [div_step hs1 h, hs_step h]
  obtain ⟨η, hη⟩ : ∃ η, η = hs s L (lev + 1) := ⟨_, rfl⟩
  have p := hs_pos hs1 L (lev + 1)
  rw [← hη] at p ⊢
  obtain ⟨ρ, hρ⟩ : ∃ ρ, ρ = P / η := ⟨_, rfl⟩
  rw [← hρ]
  obtain ⟨τ, hτ⟩ : ∃ τ, τ = ρ / 2 := ⟨_, rfl⟩
  obtain ⟨e, he⟩ : ∃ e, e = ρ % 2 := ⟨_, rfl⟩
  rw [← hτ, ← he]
  have hr : ρ = 2 * τ + e := by omega
  rw [hr]
  have := icast_ne (K := K) (show η ≠ 0 by omega)
  push_cast
  field_simp
  ring

/-- Re-expansion of the functions of a block in those of its halves. -/
def ReExp (M : Int) (φ : Int → K → K) (R : Int → Int → Int → K) : Prop :=
  ∀ (e k : Int) (x : K), (e = 0 ∨ e = 1) → 0 ≤ k → k < M → φ k ((x - 1 + 2 * (e : K)) / 2) = ∑ j ∈ Finset.Ico 0 M, R e k j * φ j x

/-- The moments of a block. -/
def mom (φ : Int → K → K) (s : Int) (L : ℕ) (odd : Int) (ia : Int → K) (lev : ℕ) (κ k : Int) : K :=
  ∑ P ∈ Finset.Ico (κ * hs s L lev) ((κ + 1) * hs s L lev), ia P * φ k (xc s L odd lev P)

theorem div_block {h κ P : Int} (h0 : 1 ≤ h) (a : κ * h ≤ P) (b : P < (κ + 1) * h) : P / h = κ := by
  refine le_antisymm ?_ ?_
  · exact Int.lt_add_one_iff.1 (Int.ediv_lt_of_lt_mul (by omega) (by linarith))
  · exact (Int.le_ediv_iff_mul_le (by omega)).2 a

theorem mom_step {M s odd : Int} {L lev : ℕ} {φ : Int → K → K} {R : Int → Int → Int → K} (hR : ReExp M φ R) (hs1 : 1 ≤ s) (h : lev + 1 < L) (ia : Int → K) (κ : Int) {k : Int} (k0 : 0 ≤ k)
    (k1 : k < M) : mom φ s L odd ia lev κ k =
      ∑ j ∈ Finset.Ico 0 M, R 0 k j * mom φ s L odd ia (lev + 1) (2 * κ) j + ∑ j ∈ Finset.Ico 0 M, R 1 k j * mom φ s L odd ia (lev + 1) (2 * κ + 1) j := by
  unfold mom
  have p := hs_pos hs1 L (lev + 1)
  have key : ∀ e κ', (e = 0 ∨ e = 1) → κ' % 2 = e → ∑ P ∈ Finset.Ico (κ' * hs s L (lev + 1)) ((κ' + 1) * hs s L (lev + 1)), ia P * φ k (xc s L odd lev P) =
      ∑ j ∈ Finset.Ico 0 M, R e k j * ∑ P ∈ Finset.Ico (κ' * hs s L (lev + 1)) ((κ' + 1) * hs s L (lev + 1)), ia P * φ j (xc s L odd (lev + 1) P) := by
    intro e κ' he hκ
    simp only [Finset.mul_sum]
    rw [Finset.sum_comm]
    refine sum_Ico_congr fun P a b => ?_
    rw [xc_step hs1 h, div_block p a b, hκ, hR e k _ he k0 k1, Finset.mul_sum]
    exact sum_Ico_congr fun j _ _ => by ring
  rw [hs_step h, ← key 0 (2 * κ) (Or.inl rfl) (by omega), ← key 1 (2 * κ + 1) (Or.inr rfl) (by omega)]
  rw [sum_split (lo := κ * (2 * hs s L (lev + 1))) (mid := (2 * κ + 1) * hs s L (lev + 1)) (by nlinarith) (by nlinarith)]
  rw [show κ * (2 * hs s L (lev + 1)) = 2 * κ * hs s L (lev + 1) by ring, show (κ + 1) * (2 * hs s L (lev + 1)) = (2 * κ + 1 + 1) * hs s L (lev + 1) by ring]

/-- The blocks `ρ` and `κ` of a level interact. -/
def far (ρ κ : Int) : Prop := ρ + 2 ≤ κ ∧ κ / 2 ≤ ρ / 2 + 1
instance (ρ κ : Int) : Decidable (far ρ κ) := by unfold far; infer_instance

/-- The number of the matrix of a pair of blocks. -/
def subm (lev : ℕ) (ρ κ : Int) : Int := 3 * (totalBlocks lev + ρ / 2) + (κ % 2 + ρ % 2)

/-- What the blocks of a level contribute to the expansion in the block `ρ`. -/
def acr (M : Int) (A : Int → K) (φ : Int → K → K) (s : Int) (L : ℕ) (odd : Int) (ia : Int → K) (lev : ℕ) (ρ k : Int) : K :=
  ∑ κ ∈ Finset.Ico 0 (2 ^ (lev + 2) : Int), if far ρ κ then ∑ n ∈ Finset.Ico 0 M, A (subm lev ρ κ * (M * M) + k * M + n) * mom φ s L odd ia lev κ n else 0

/-- The expansion in the block `ρ` with the contributions of all coarser levels. -/
def loc (M : Int) (A : Int → K) (φ : Int → K → K) (R : Int → Int → Int → K) (s : Int) (L : ℕ) (odd : Int) (ia : Int → K) : ℕ → Int → Int → K
  | 0, ρ, k => acr M A φ s L odd ia 0 ρ k
  | lev + 1, ρ, k => acr M A φ s L odd ia (lev + 1) ρ k + ∑ j ∈ Finset.Ico 0 M, R (ρ % 2) j k * loc M A φ R s L odd ia lev (ρ / 2) j

/-- The value of the expansions of a level at an entry. -/
def lval (M : Int) (A : Int → K) (φ : Int → K → K) (s : Int) (L : ℕ) (odd : Int) (ia : Int → K) (lev : ℕ) (P : Int) : K :=
  ∑ k ∈ Finset.Ico 0 M, acr M A φ s L odd ia lev (P / hs s L lev) k * φ k (xc s L odd lev P)

theorem loc_val {M s odd : Int} {L : ℕ} {φ : Int → K → K} {R : Int → Int → Int → K} {A ia : Int → K} (hR : ReExp M φ R) (hs1 : 1 ≤ s) (P : Int) (lev : ℕ) (h : lev < L) :
    ∑ k ∈ Finset.Ico 0 M, loc M A φ R s L odd ia lev (P / hs s L lev) k * φ k (xc s L odd lev P) = ∑ l ∈ Finset.range (lev + 1), lval M A φ s L odd ia l P := by
  induction lev with
  | zero => rw [Finset.sum_range_one]; rfl
  | succ lev ih =>
    rw [Finset.sum_range_succ, ← ih (by omega)]
    simp only [loc, add_mul]
    rw [Finset.sum_add_distrib, add_comm]
    congr 1
    simp only [Finset.sum_mul]
    rw [Finset.sum_comm]
    refine sum_Ico_congr fun j j0 j1 => ?_
    rw [xc_step hs1 h, hR _ j _ (by omega) j0 j1, Finset.mul_sum, div_step hs1 h]
    exact sum_Ico_congr fun k _ _ => by ring

/-- The interpolant of the plan for a pair of entries at a level. -/
def interp (M : Int) (A : Int → K) (φ : Int → K → K) (s : Int) (L : ℕ) (odd : Int) (lev : ℕ) (P Q : Int) : K :=
  ∑ k ∈ Finset.Ico 0 M, ∑ n ∈ Finset.Ico 0 M, A (subm lev (P / hs s L lev) (Q / hs s L lev) * (M * M) + k * M + n) * φ k (xc s L odd lev P) * φ n (xc s L odd lev Q)

/-- Sum over blocks of sums over the entries of a block. -/
theorem sum_blocks {A : Type*} [AddCommMonoid A] {h : Int} (h0 : 1 ≤ h) (n : ℕ) (f : Int → A) :
    ∑ κ ∈ Finset.Ico 0 (n : Int), ∑ P ∈ Finset.Ico (κ * h) ((κ + 1) * h), f P = ∑ P ∈ Finset.Ico 0 (n * h), f P := by
  induction n with
  | zero => simp
  | succ n ih =>
    push_cast
    have : Finset.Ico (0 : Int) (n + 1) = insert (n : Int) (Finset.Ico 0 (n : Int)) := by ext x; simp only [Finset.mem_insert, Finset.mem_Ico]; omega
    rw [this, Finset.sum_insert (by simp), ih, sum_split (lo := 0) (mid := n * h) (hi := (n + 1) * h) (by positivity) (by nlinarith), add_comm]

theorem lval_eq {M s odd : Int} {L lev : ℕ} {φ : Int → K → K} {A ia : Int → K} (hs1 : 1 ≤ s) (h : lev < L) (P : Int) :
    lval M A φ s L odd ia lev P = ∑ Q ∈ Finset.Ico 0 (s * 2 ^ (L + 1)), if far (P / hs s L lev) (Q / hs s L lev) then interp M A φ s L odd lev P Q * ia Q else 0 := by
  have p := hs_pos hs1 L lev
  have tot : s * 2 ^ (L + 1) = ((2 ^ (lev + 2) : ℕ) : Int) * hs s L lev := by push_cast; rw [← hs_tot h, mul_comm]
  rw [tot, ← sum_blocks p]
  unfold lval acr
  simp only [Finset.sum_mul]
  rw [Finset.sum_comm, show ((2 : Int) ^ (lev + 2)) = ((2 ^ (lev + 2) : ℕ) : Int) by push_cast; rfl]
  refine sum_Ico_congr fun κ _ _ => ?_
  by_cases hf : far (P / hs s L lev) κ
  · simp only [if_pos hf]
    unfold mom
    rw [sum_Ico_congr (g := fun Q => interp M A φ s L odd lev P Q * ia Q) (lo := κ * hs s L lev) fun Q a b => by rw [div_block p a b, if_pos hf]]
    simp only [Finset.mul_sum, Finset.sum_mul]
    rw [Finset.sum_congr rfl fun k _ => Finset.sum_comm, Finset.sum_comm]
    refine sum_Ico_congr fun Q a b => ?_
    unfold interp
    rw [Finset.sum_mul]
    refine sum_Ico_congr fun k _ _ => ?_
    rw [Finset.sum_mul]
    refine sum_Ico_congr fun n _ _ => ?_
    rw [div_block p a b]
    ring
  · simp only [if_neg hf, zero_mul, Finset.sum_const_zero]
    exact (Finset.sum_eq_zero fun Q hQ => by rw [Finset.mem_Ico] at hQ; rw [div_block p hQ.1 hQ.2, if_neg hf]).symm

/-! ## Every pair of entries at exactly one level -/

theorem near_mono {s P Q : Int} {L lev : ℕ} (hs1 : 1 ≤ s) (h : lev + 1 < L) (n : Q / hs s L (lev + 1) ≤ P / hs s L (lev + 1) + 1) : Q / hs s L lev ≤ P / hs s L lev + 1 := by
  rw [div_step hs1 h, div_step hs1 h]; omega

theorem near_last {s P Q : Int} {L : ℕ} (hs1 : 1 ≤ s) : ∀ d lev, lev + d + 1 = L → Q / s ≤ P / s + 1 → Q / hs s L lev ≤ P / hs s L lev + 1 := by
  intro d
  induction d with
  | zero => intro lev e n; obtain rfl : lev = L - 1 := by omega
            rwa [hs_last]
  | succ d ih => intro lev e n; exact near_mono hs1 (by omega) (ih (lev + 1) (by omega) n)

theorem not_far {s P Q : Int} {L lev : ℕ} (hs1 : 1 ≤ s) (h : lev < L) (n : Q / s ≤ P / s + 1) : ¬ far (P / hs s L lev) (Q / hs s L lev) := by
  have := near_last (L := L) hs1 (L - 1 - lev) lev (by omega) n
  unfold far; omega

/-- Pairs that are not near are far at exactly one level. -/
theorem far_unique {s P Q : Int} {L : ℕ} (hL : 1 ≤ L) (hs1 : 1 ≤ s) (hP : 0 ≤ P) (hQ : Q < s * 2 ^ (L + 1)) (n : P / s + 2 ≤ Q / s) :
    ∃ lev, lev < L ∧ far (P / hs s L lev) (Q / hs s L lev) ∧ ∀ l, l < L → far (P / hs s L l) (Q / hs s L l) → l = lev := by
  have ex : ∃ lev, lev < L ∧ P / hs s L lev + 2 ≤ Q / hs s L lev := ⟨L - 1, by omega, by rw [hs_last]; exact n⟩
  classical
  obtain ⟨lev, ⟨h1, h2⟩, mn⟩ : ∃ lev, (lev < L ∧ P / hs s L lev + 2 ≤ Q / hs s L lev) ∧ ∀ l < lev, ¬ (l < L ∧ P / hs s L l + 2 ≤ Q / hs s L l) := ⟨Nat.find ex, Nat.find_spec ex, fun l hl => Nat.find_min ex hl⟩
  have up : ∀ d l, l + d < L → P / hs s L l + 2 ≤ Q / hs s L l → P / hs s L (l + d) + 2 ≤ Q / hs s L (l + d) := by
    intro d
    induction d with
    | zero => intro l _ h; exact h
    | succ d ih =>
      intro l hl h
      have := ih l (by omega) h
      by_contra c
      have := near_mono (lev := l + d) (P := P) (Q := Q) hs1 (by omega) (by rw [show l + d + 1 = l + (d + 1) by omega]; omega)
      omega
  refine ⟨lev, h1, ⟨h2, ?_⟩, fun l hl f => ?_⟩
  · cases lev with
    | zero =>
      have a : 0 ≤ P / hs s L 0 := Int.ediv_nonneg hP (by have := hs_pos hs1 L 0; omega)
      have b := div_lt (lev := 0) hs1 hL hQ
      norm_num at b
      omega
    | succ lev =>
      have := mn lev (by omega)
      rw [← div_step hs1 h1, ← div_step hs1 h1]
      have h : lev < L := by omega
      by_contra c
      exact this ⟨h, by omega⟩
  · rcases lt_trichotomy l lev with c | c | c
    · exact absurd ⟨hl, f.1⟩ (mn l c)
    · exact c
    · exfalso
      obtain ⟨d, rfl⟩ : ∃ d, l = lev + d + 1 := ⟨l - lev - 1, by omega⟩
      have := up d lev (by omega) h2
      have f2 := f.2
      rw [← div_step hs1 hl, ← div_step hs1 hl] at f2
      omega

end FT.Props.Lc
