import Verif.Props.LegChebFmmSpec
import Verif.Lemmas.LegChebTri

/-! # Interpolation at the Chebyshev points -/

namespace FT.Props.Lc
open Polynomial FT FT.Poly FT.Model.Lc
variable {K : Type*} [Field K] [CharZero K]

theorem hf_ne (k : Int) : hf (K := K) k ≠ 0 := by unfold hf; split_ifs <;> norm_num

omit [CharZero K] in
theorem card_Ico {M : Int} : (Finset.Ico 0 M).card = M.toNat := by rw [Int.card_Ico, sub_zero]

theorem NodesOk.inj {X : Nodes K} {M : Int} (h : NodesOk X M) : Set.InjOn (X.xj M) (Finset.Ico 0 M) := by
  intro i hi j hj e
  rw [Finset.coe_Ico, Set.mem_Ico] at hi hj
  by_contra c
  have a := h.compl i i hi.1 hi.2 hi.1 hi.2
  have b := h.compl i j hi.1 hi.2 hj.1 hj.2
  rw [← e, a, if_pos rfl, if_neg c] at b
  have : (M : K) ≠ 0 := by exact_mod_cast (show M ≠ 0 by omega)
  exact this (by linear_combination 2 * b)

theorem cheb_deg {k : Int} (h : 0 ≤ k) : (Chebyshev.T K k).natDegree = k.toNat := by
  rw [Chebyshev.natDegree_T]
  congr 1
  omega

/-- A polynomial of degree less than `M` is given by its values at the points. -/
theorem NodesOk.lagr_poly {X : Nodes K} {M : Int} (h : NodesOk X M) (p : K[X]) (hp : p.degree < M.toNat) (t : K) : p.eval t = ∑ j ∈ Finset.Ico 0 M, p.eval (X.xj M j) * lagr M (X.xj M) j t := by
  conv_lhs => rw [Lagrange.eq_interpolate (f := p) h.inj (by rw [card_Ico]; exact hp)]
  rw [Lagrange.interpolate_apply, eval_finsetSum]
  refine Finset.sum_congr rfl fun j _ => ?_
  rw [eval_mul, eval_C]; rfl

omit [CharZero K] in
theorem poly_lt {p : K[X]} {k M : Int} (k0 : 0 ≤ k) (k1 : k < M) (h : p.natDegree ≤ k.toNat) : p.degree < M.toNat :=
  lt_of_le_of_lt degree_le_natDegree (by exact_mod_cast (show p.natDegree < M.toNat by omega))

/-- The cardinal polynomials in the Chebyshev basis. -/
theorem NodesOk.lagr_eq {X : Nodes K} {M : Int} (h : NodesOk X M) {i : Int} (i0 : 0 ≤ i) (i1 : i < M) (t : K) :
    ∑ k ∈ Finset.Ico 0 M, 2 / (M : K) * hf k * cheb k (X.xj M i) * cheb k t = lagr M (X.xj M) i t := by
  have hM : (M : K) ≠ 0 := by exact_mod_cast (show M ≠ 0 by omega)
  have ev : ∀ t, (∑ k ∈ Finset.Ico 0 M, C (2 / (M : K) * hf k * cheb k (X.xj M i)) * Chebyshev.T K k).eval t = ∑ k ∈ Finset.Ico 0 M, 2 / (M : K) * hf k * cheb k (X.xj M i) * cheb k t := fun t => by
    rw [eval_finsetSum]
    refine Finset.sum_congr rfl fun k _ => ?_
    rw [eval_mul, eval_C]; rfl
  rw [← ev, h.lagr_poly _ ?_ t]
  · rw [Finset.sum_eq_single i]
    · rw [ev, sum_Ico_congr (g := fun k => 2 / (M : K) * (hf k * (cheb k (X.xj M i) * cheb k (X.xj M i)))) fun k _ _ => by ring, ← Finset.mul_sum, h.compl i i i0 i1 i0 i1, if_pos rfl]
      field_simp
    · intro j hj ne
      rw [Finset.mem_Ico] at hj
      rw [ev, sum_Ico_congr (g := fun k => 2 / (M : K) * (hf k * (cheb k (X.xj M i) * cheb k (X.xj M j)))) fun k _ _ => by ring, ← Finset.mul_sum, h.compl i j i0 i1 hj.1 hj.2, if_neg (Ne.symm ne), mul_zero, zero_mul]
    · intro hn; exact absurd (Finset.mem_Ico.2 ⟨i0, i1⟩) hn
  · refine (degree_sum_le _ _).trans_lt ?_
    rw [Finset.sup_lt_iff (by exact_mod_cast WithBot.bot_lt_coe _)]
    intro k hk
    rw [Finset.mem_Ico] at hk
    exact poly_lt hk.1 hk.2 ((natDegree_C_mul_le _ _).trans (cheb_deg hk.1).le)

/-- Barycentric interpolation. -/
theorem NodesOk.bary {X : Nodes K} {M : Int} (h : NodesOk X M) {t : K} (ht : ∀ j, 0 ≤ j → j < M → t - X.xj M j ≠ 0) {i : Int} (i0 : 0 ≤ i) (i1 : i < M) :
    ∑ j ∈ Finset.Ico 0 M, (if j % 2 = 0 then 1 else -1) * X.wj M j / (t - X.xj M j) ≠ 0 ∧
    ((if i % 2 = 0 then 1 else -1) * X.wj M i / (t - X.xj M i)) / ∑ j ∈ Finset.Ico 0 M, (if j % 2 = 0 then 1 else -1) * X.wj M j / (t - X.xj M j) = lagr M (X.xj M) i t := by
  obtain ⟨c, hc, hw⟩ := h.wt
  obtain ⟨D, hD⟩ : ∃ D, D = (Lagrange.nodal (Finset.Ico 0 M) (X.xj M)).eval t := ⟨_, rfl⟩
  have D0 : D ≠ 0 := by
    rw [hD, Lagrange.eval_nodal, Finset.prod_ne_zero_iff]
    intro j hj
    rw [Finset.mem_Ico] at hj
    exact ht j hj.1 hj.2
  have key : ∀ j, 0 ≤ j → j < M → (if j % 2 = 0 then 1 else -1) * X.wj M j / (t - X.xj M j) = c / D * lagr M (X.xj M) j t := by
    intro j j0 j1
    unfold lagr
    rw [hw j j0 j1, Lagrange.eval_basis_not_at_node (Finset.mem_Ico.2 ⟨j0, j1⟩) (sub_ne_zero.1 (ht j j0 j1)), ← hD]
    field_simp
  have sum1 : ∑ j ∈ Finset.Ico 0 M, lagr M (X.xj M) j t = 1 := by
    unfold lagr
    rw [← eval_finsetSum, Lagrange.sum_basis h.inj ⟨i, Finset.mem_Ico.2 ⟨i0, i1⟩⟩, eval_one]
  rw [sum_Ico_congr fun j j0 j1 => key j j0 j1, ← Finset.mul_sum, sum1, mul_one, key i i0 i1]
  have cd : c / D ≠ 0 := div_ne_zero hc D0
  exact ⟨cd, by rw [mul_div_assoc, mul_comm, div_mul_cancel₀ _ cd]⟩

/-! ## The coefficients of `T_k((x - 1) / 2)` -/

/-- The coefficients of `x` times a Chebyshev series. -/
def xmul (c : Int → K) (j : Int) : K := if j < 0 then 0 else if j = 0 then c 1 / 2 else (if j = 1 then c 0 else c (j - 1) / 2) + c (j + 1) / 2

/-- The coefficients of `T_k((x - 1) / 2)`. -/
def cH : ℕ → Int → K
  | 0 => fun j => if j = 0 then 1 else 0
  | 1 => fun j => if j = 0 then -1 / 2 else if j = 1 then 1 / 2 else 0
  | k + 2 => fun j => xmul (cH (k + 1)) j - cH (k + 1) j - cH k j

omit [CharZero K] in
theorem cH_zero (k : ℕ) : (∀ j, (k : Int) < j → cH (K := K) k j = 0) ∧ (∀ j, (k + 1 : Int) < j → cH (K := K) (k + 1) j = 0) := by
  induction k with
  | zero =>
    refine ⟨fun j hj => if_neg (by omega), fun j hj => ?_⟩
    unfold cH
    rw [if_neg (by omega), if_neg (by omega)]
  | succ k ih =>
    refine ⟨fun j hj => ih.2 j (by push_cast at hj; omega), fun j hj => ?_⟩
    push_cast at hj
    unfold cH xmul
    rw [if_neg (by omega), if_neg (by omega), if_neg (by omega), ih.2 _ (by omega), ih.2 _ (by omega), ih.2 _ (by omega), ih.1 _ (by omega)]
    ring

omit [CharZero K] in
theorem cH_out {k : ℕ} {j : Int} (h : (k : Int) < j) : cH (K := K) k j = 0 := (cH_zero k).1 j h

theorem xmul_sum {c : Int → K} {n : Int} (n0 : 1 ≤ n) (hc : ∀ j, n ≤ j → c j = 0) (x : K) :
    ∑ j ∈ Finset.Ico 0 (n + 1), xmul c j * cheb j x = x * ∑ j ∈ Finset.Ico 0 (n + 1), c j * cheb j x := by
  have rc : ∀ j : Int, cheb (j + 2) x = 2 * x * cheb (j + 1) x - cheb j x := fun j => by
    unfold cheb
    rw [Chebyshev.T_add_two]; simp [mul_assoc]
  have key : ∀ m : Int, 1 ≤ m → ∑ j ∈ Finset.Ico 0 (m + 1), xmul c j * cheb j x = x * ∑ j ∈ Finset.Ico 0 (m + 1), c j * cheb j x + c (m + 1) / 2 * cheb m x - c m / 2 * cheb (m + 1) x := by
    intro m hm
    induction m, hm using Int.le_induction with
    | base =>
      have e0 : cheb 0 x = (1 : K) := by unfold cheb; simp
      have e1 : cheb 1 x = x := by unfold cheb; simp
      rw [sum_Ico_succ (by norm_num), sum_Ico_succ (by norm_num), show (1 : Int) = 0 + 1 by norm_num, sum_Ico_succ le_rfl, sum_Ico_succ le_rfl]
      unfold xmul
      simp only [zero_add, Finset.Ico_self, Finset.sum_empty, lt_irrefl, if_false, if_true, if_neg (show ¬ ((1 : Int) < 0) by norm_num), if_neg (show ¬ ((1 : Int) = 0) by norm_num)]
      rw [show (1 : Int) + 1 = 0 + 2 by norm_num, rc 0, e0, zero_add, zero_add, e1]
      ring
    | succ m hm ih =>
      rw [sum_Ico_succ (by omega), sum_Ico_succ (lo := 0) (i := m + 1) (by omega), ih]
      unfold xmul
      rw [if_neg (by omega), if_neg (by omega), if_neg (by omega), show m + 1 + 1 = m + 2 by ring, rc m, show m + 1 - 1 = m by ring]
      ring
  rw [key n n0, hc n le_rfl, hc (n + 1) (by omega)]
  ring

theorem cH_eq (k : ℕ) (x : K) : cheb k ((x - 1) / 2) = ∑ j ∈ Finset.Ico 0 ((k : Int) + 1), cH k j * cheb j x := by
  have e0 : ∀ y, cheb 0 y = (1 : K) := fun y => by unfold cheb; simp
  have e1 : ∀ y : K, cheb 1 y = y := fun y => by unfold cheb; simp
  have main : ∀ k : ℕ, cheb k ((x - 1) / 2) = ∑ j ∈ Finset.Ico 0 ((k : Int) + 1), cH k j * cheb j x ∧ cheb (k + 1 : ℕ) ((x - 1) / 2) = ∑ j ∈ Finset.Ico 0 ((k + 1 : ℕ) + 1 : Int), cH (k + 1) j * cheb j x := by
    intro k
    induction k with
    | zero =>
      constructor
      · have : Finset.Ico (0 : Int) (((0 : ℕ) : Int) + 1) = {0} := rfl
        rw [this, Finset.sum_singleton]
        unfold cH
        simp [e0]
      · have : Finset.Ico (0 : Int) (((0 + 1 : ℕ) : Int) + 1) = {0, 1} := rfl
        rw [this, Finset.sum_pair (by norm_num)]
        unfold cH
        simp [e0, e1]
        ring
    | succ k ih =>
      refine ⟨ih.2, ?_⟩
      have rc : cheb ((k : Int) + 2) ((x - 1) / 2) = 2 * ((x - 1) / 2) * cheb ((k : Int) + 1) ((x - 1) / 2) - cheb (k : Int) ((x - 1) / 2) := by
        unfold cheb
        rw [Chebyshev.T_add_two]; simp [mul_assoc]
      have i2 := ih.2
      push_cast at i2 ⊢
      rw [show (k : Int) + 1 + 1 = k + 2 by ring, rc, i2, ih.1]
      have ext1 : ∑ j ∈ Finset.Ico 0 ((k : Int) + 1 + 1), cH (K := K) (k + 1) j * cheb j x = ∑ j ∈ Finset.Ico 0 ((k : Int) + 2 + 1), cH (k + 1) j * cheb j x := by
        rw [sum_Ico_succ (i := (k : Int) + 2) (by omega), cH_out (by push_cast; omega), zero_mul, add_zero]; ring_nf
      have ext0 : ∑ j ∈ Finset.Ico 0 ((k : Int) + 1), cH (K := K) k j * cheb j x = ∑ j ∈ Finset.Ico 0 ((k : Int) + 2 + 1), cH k j * cheb j x := by
        rw [sum_Ico_succ (i := (k : Int) + 2) (by omega), cH_out (by omega), zero_mul, add_zero, show (k : Int) + 2 = k + 1 + 1 by ring, sum_Ico_succ (i := (k : Int) + 1) (by omega), cH_out (by omega), zero_mul, add_zero]
      rw [ext1, ext0]
      have := xmul_sum (c := cH (K := K) (k + 1)) (n := (k : Int) + 2) (by omega) (fun j hj => cH_out (by push_cast; omega)) x
      rw [show 2 * ((x - 1) / 2) = x - 1 by ring, sub_mul, one_mul, ← this, ← Finset.sum_sub_distrib, ← Finset.sum_sub_distrib]
      refine Finset.sum_congr rfl fun j _ => ?_
      conv_rhs => unfold cH
      ring
  exact (main k).1

end FT.Props.Lc
