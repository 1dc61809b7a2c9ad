import Verif.Lemmas.PlansRun
import Verif.Lemmas.TbEigScale
import Verif.Props.PlansSpec

/-!
# Scalings of plans
-/

set_option linter.unusedSectionVars false

namespace FT.Poly
open Polynomial FT FT.Model FT.Fmm FT.Props FT.Props.Hier FT.Props.TbEig FT.Props.Eig FT.Props.Ops FT.Props.Plan
variable {K : Type*} [Field K] [LinearOrder K] [IsStrictOrderedRing K] {F : Libm K} {n : Int} {junk : Int → K} {lam : K}

theorem connects_rows {M N : Int → Int → K} {p q q' : Int → K[X]} {c : Int → K} (h : Connects n M p q) (hq : ∀ i, 0 ≤ i → i < n → q i = C (c i) * q' i)
    (hN : ∀ i j, 0 ≤ i → i < n → 0 ≤ j → j < n → N i j = c i * M i j) : Connects n N p q' := fun j j0 j1 => by
  rw [h j j0 j1]
  exact sum_Ico_congr fun i i0 i1 => by rw [hq i i0 i1, hN i j i0 i1 j0 j1, C_mul]; ring

theorem connects_cols {M N : Int → Int → K} {p p' q : Int → K[X]} {c : Int → K} (h : Connects n M p q) (hp : ∀ j, 0 ≤ j → j < n → p' j = C (c j) * p j)
    (hN : ∀ i j, 0 ≤ i → i < n → 0 ≤ j → j < n → N i j = c j * M i j) : Connects n N p' q := fun j j0 j1 => by
  rw [hp j j0 j1, h j j0 j1, Finset.mul_sum]
  exact sum_Ico_congr fun i i0 i1 => by rw [hN i j i0 i1 j0 j1, C_mul]; ring

/-! ## Parity -/

theorem monic_parity (b : Int → K) {i : Int} (hi : 0 ≤ i) : (monic (fun _ => 0) b i).comp (-X) = C ((-1) ^ i.toNat) * monic (fun _ => 0) b i := by
  refine two_step (P := fun i => (monic (fun _ => 0) b i).comp (-X) = C ((-1) ^ i.toNat) * monic (fun _ => 0) b i) ?_ (fun n n0 ih ih' => ?_) hi
  · rw [monic_zero]; simp
  · rw [monic_succ n0, sub_comp, mul_comp, mul_comp, ih, show (n + 1).toNat = n.toNat + 1 by omega]
    rcases eq_or_lt_of_le n0 with h | h
    · rw [monic_neg (show n - 1 < 0 by omega)]
      simp only [map_zero, sub_zero, X_comp, zero_comp, mul_zero, pow_succ, C_mul, map_neg, map_one]
      ring
    · rw [ih' (by omega)]
      obtain ⟨k, hk⟩ : ∃ k : ℕ, n.toNat = k + 1 := ⟨n.toNat - 1, by omega⟩
      rw [show (n - 1).toNat = k by omega, hk]
      simp only [map_zero, sub_zero, X_comp, C_comp, pow_succ, C_mul, map_neg, map_one]
      ring

/-- The entries between polynomials of different parity vanish. -/
theorem connects_parity {M : Int → Int → K} {p q : Int → K[X]} {s : Int → K} (h : Connects n M p q) (hq : Graded q s) (pp : ∀ j, 0 ≤ j → (p j).comp (-X) = C ((-1) ^ j.toNat) * p j)
    (pq : ∀ j, 0 ≤ j → (q j).comp (-X) = C ((-1) ^ j.toNat) * q j) {i j : Int} (i0 : 0 ≤ i) (i1 : i < n) (j0 : 0 ≤ j) (j1 : j < n) (hij : (i + j) % 2 = 1) : M i j = 0 := by
  have e := congrArg (fun r => r.comp (-X)) (h j j0 j1)
  rw [pp j j0, ← coe_compRingHom_apply, map_sum, h j j0 j1, Finset.mul_sum] at e
  have z : ∑ i ∈ Finset.Ico 0 n, C (((-1) ^ j.toNat - (-1) ^ i.toNat) * M i j) * q i = 0 := by
    rw [← sub_eq_zero, ← Finset.sum_sub_distrib] at e
    rw [← e]
    refine sum_Ico_congr fun i i0 i1 => ?_
    rw [coe_compRingHom_apply, mul_comp, C_comp, pq i i0]
    simp only [C_mul, map_sub]
    ring
  have := hq.indep z i i0 i1
  rcases mul_eq_zero.1 this with h | h
  · exfalso
    rcases Nat.even_or_odd i.toNat with hi | hi <;> rcases Nat.even_or_odd j.toNat with hj | hj
    · obtain ⟨a, ha⟩ := hi; obtain ⟨b, hb⟩ := hj; omega
    · rw [hi.neg_one_pow, hj.neg_one_pow] at h; norm_num at h
    · rw [hi.neg_one_pow, hj.neg_one_pow] at h; norm_num at h
    · obtain ⟨a, ha⟩ := hi; obtain ⟨b, hb⟩ := hj; omega
  · exact h

theorem sym_parity {a : K} {s : Int → K} {j : Int} (hj : 0 ≤ j) : (scaled s (jacobi a a) j).comp (-X) = C ((-1) ^ j.toNat) * scaled s (jacobi a a) j := by
  have e : jacA a a = fun _ => 0 := by funext n; unfold jacA; simp
  unfold scaled jacobi
  rw [e, mul_comp, C_comp, monic_parity _ hj]
  ring

/-! ## Quotients of families -/

section
variable (hF : IsLibm F)
include hF

theorem symR_div (hm : -1 / 2 < lam) (h0 : lam ≠ 0) {i : Int} (hi : 1 ≤ i) : jacR (lam - 1 / 2) (lam - 1 / 2) (i - 1) / ultR lam (i - 1) = (lam + i - 1 / 2) / (2 * lam + i - 1) := by
  obtain ⟨h1, h2, -, h3, h4⟩ := ult_nz hm h0 hi
  unfold jacR ultR
  split_ifs with h
  · obtain rfl : i = 1 := by omega
    push_cast
    rw [show 2 * ((0 : K) + lam) / (0 + 1) = 2 * lam by ring, show 2 * lam + (1 : K) - 1 = 2 * lam by ring, show (lam - 1 / 2 + (lam - 1 / 2) + 2) / 2 = lam + 1 - 1 / 2 by ring]
  · have : (2 : K) ≤ i := by exact_mod_cast (show 2 ≤ i by omega)
    push_cast
    rw [show 2 * ((i : K) - 1) + (lam - 1 / 2) + (lam - 1 / 2) + 1 = 2 * (i - 1 + lam) by ring, show 2 * ((i : K) - 1) + (lam - 1 / 2) + (lam - 1 / 2) + 2 = 2 * (lam + i - 1 / 2) by ring,
      show (i : K) - 1 + (lam - 1 / 2) + (lam - 1 / 2) + 1 = i - 1 + 2 * lam by ring, show (i : K) - 1 + 1 = i by ring, show 2 * lam + (i : K) - 1 = i - 1 + 2 * lam by ring]
    have := h4.ne'
    field_simp

/-- The factor between the standard Jacobi and ultraspherical polynomials. -/
def ultQ (lam : K) (i : Int) : K := lead (jacR (lam - 1 / 2) (lam - 1 / 2)) i / lead (ultR lam) i

omit hF in
theorem ultQ_ne (hm : -1 / 2 < lam) (h0 : lam ≠ 0) (i : Int) : ultQ lam i ≠ 0 :=
  div_ne_zero (lead_ne (fun _ h => (jacR_pos (by linarith) (by linarith) h).ne') i) (lead_ne (fun _ h => ultR_ne hm h0 h) i)

theorem jac_ult (hm : -1 / 2 < lam) (h0 : lam ≠ 0) (i : Int) : Jac F false (lam - 1 / 2) (lam - 1 / 2) i = C (ultQ lam i) * Ult F false lam i := by
  unfold Jac Ult scaled
  rw [← mul_assoc, ← C_mul]
  congr 2
  show lead _ i = ultQ lam i * lead (ultR lam) i
  unfold ultQ
  rw [div_mul_cancel₀ _ (lead_ne (fun _ h => ultR_ne hm h0 h) i)]

theorem ult_jac (hm : -1 / 2 < lam) (h0 : lam ≠ 0) (i : Int) : Ult F false lam i = C (1 / ultQ lam i) * Jac F false (lam - 1 / 2) (lam - 1 / 2) i := by
  rw [jac_ult hF hm h0, ← mul_assoc, ← C_mul, one_div_mul_cancel (ultQ_ne hm h0 i), map_one, one_mul]

theorem ultRow_run (hm : -1 / 2 < lam) (h0 : lam ≠ 0) : ∃ x, ultRow F junk n lam = some x ∧ x.size = n.toNat ∧ ∀ i, 0 ≤ i → i < n → x.val i = ultQ lam i := by
  obtain ⟨x, e, f⟩ := diag_fill1 (n := n) (inc := 1) (D := (⟨n.toNat, junk⟩ : Buf K)) (r := ultQ lam) (v := 1) (g := fun i d => F.div (lam + i - 1 / 2) (2 * lam + i - 1) * d) le_rfl
    (fun i i0 i1 => by show i * 1 < ((n.toNat : Nat) : Int); omega) (by unfold ultQ; rw [lead_zero, lead_zero, div_one])
    (fun i hi => by
      have := (ult_nz hm h0 hi).2.1
      rw [hF.div _ _ (by intro h; exact this (by rw [← h]; ring)), ← symR_div hF hm h0 hi]
      exact ratio_step (fun n hn => lead_succ _ hn) (fun n hn => lead_succ _ hn) hi)
  exact ⟨x, e, f.size, fun i i0 i1 => by have := f.val i i0 i1; rwa [mul_one] at this⟩

theorem ultCol_run (hm : -1 / 2 < lam) (h0 : lam ≠ 0) : ∃ x, ultCol F junk n lam = some x ∧ x.size = n.toNat ∧ ∀ i, 0 ≤ i → i < n → x.val i = 1 / ultQ lam i := by
  obtain ⟨x, e, f⟩ := diag_fill1 (n := n) (inc := 1) (D := (⟨n.toNat, junk⟩ : Buf K)) (r := fun i => 1 / ultQ lam i) (v := 1) (g := fun i d => F.div (2 * lam + i - 1) (lam + i - 1 / 2) * d) le_rfl
    (fun i i0 i1 => by show i * 1 < ((n.toNat : Nat) : Int); omega) (by unfold ultQ; rw [lead_zero, lead_zero, div_one, div_one])
    (fun i hi => by
      have h1 : (1 : K) ≤ i := by exact_mod_cast hi
      rw [hF.div _ _ (by linarith)]
      have := symR_div hF hm h0 hi
      rw [← inv_div (lam + (i : K) - 1 / 2), ← this]
      have q := ratio_step (s := lead (jacR (lam - 1 / 2) (lam - 1 / 2))) (t := lead (ultR lam)) (fun n hn => lead_succ _ hn) (fun n hn => lead_succ _ hn) hi
      show 1 / (lead _ i / lead _ i) = _
      rw [q, ← one_div_mul_one_div, one_div (jacR _ _ _ / _)]
      rfl)
  exact ⟨x, e, f.size, fun i i0 i1 => by have := f.val i i0 i1; rwa [mul_one] at this⟩

/-- The factor between the normalised and the standard Chebyshev polynomials. -/
def cheQ (F : Libm K) (i : Int) : K := if i = 0 then 1 / F.gamma (1 / 2) else F.sqrt 2 / F.gamma (1 / 2)

theorem cheQ_ne (i : Int) : cheQ F i ≠ 0 := by
  have hg := (hF.gamma_pos (1 / 2) (by norm_num)).ne'
  have h2 := (sqrt_pos hF.sqrt (show (0 : K) < 2 by norm_num)).ne'
  unfold cheQ
  split_ifs
  · exact one_div_ne_zero hg
  · exact div_ne_zero h2 hg

theorem jac_che : Jac F true (-1 / 2) (-1 / 2) = Che F true := by
  have g : jacG F (-1 / 2) (-1 / 2) = F.gamma (1 / 2) * F.gamma (1 / 2) := by
    unfold jacG
    rw [show (-1 / 2 : K) + -1 / 2 + 1 = 0 by norm_num, hF.pow2_zero, show (-1 / 2 : K) + 1 = 1 / 2 by norm_num, show (-1 / 2 : K) + -1 / 2 + 2 = 1 by norm_num, hF.gamma_one, one_mul, div_one]
  have hg := hF.gamma_pos (1 / 2) (by norm_num)
  funext i
  unfold Jac Che scaled
  congr 2
  unfold jacS cheS
  rw [g, scale_posS hF.sqrt (mul_pos hg hg) (fun _ h => jacB_pos (by norm_num) (by norm_num) h) (Finset.prod_pos fun k hk => jacR_pos (by norm_num) (by norm_num) (Finset.mem_Ico.1 hk).1),
    scale_posS hF.sqrt (mul_pos hg hg) (fun _ h => jacB_pos (by norm_num) (by norm_num) h) (Finset.prod_pos fun k _ => by unfold chebR; split_ifs <;> norm_num)]

theorem jac_che_false {i : Int} (hi : 0 ≤ i) : Jac F true (-1 / 2) (-1 / 2) i = C (cheQ F i) * Che F false i := by
  rw [jac_che hF]
  unfold Che scaled
  rw [← mul_assoc, ← C_mul, cheS_true hF hi]
  congr 2
  rw [mul_comm]
  rfl

theorem che_jac_false {i : Int} (hi : 0 ≤ i) : Che F false i = C (1 / cheQ F i) * Jac F true (-1 / 2) (-1 / 2) i := by
  rw [jac_che_false hF hi, ← mul_assoc, ← C_mul, one_div_mul_cancel (cheQ_ne hF i), map_one, one_mul]

end

/-! ## Scales for Chebyshev polynomials -/

omit [LinearOrder K] [IsStrictOrderedRing K] in
theorem chebScl_run (x y : K) : ∃ s, chebScl junk n x y = some s ∧ s.size = n.toNat ∧ ∀ i, 0 ≤ i → i < n → s.val i = if i = 0 then x else y := by
  obtain ⟨s, e, p1, p2⟩ := forUp_spec (lo := 0) (hi := n) (s := (⟨n.toNat, junk⟩ : Buf K)) (body := fun i s => s.wr i (if i ≠ 0 then y else x))
    (fun k s => s.size = n.toNat ∧ ∀ i, 0 ≤ i → i < k → i < n → s.val i = if i = 0 then x else y) ⟨rfl, fun i _ _ _ => by omega⟩ (by
      intro k k0 k1 s ⟨h1, h2⟩
      refine ⟨_, Buf.wr_of k0 (by omega), h1, fun i i0 i1 i2 => ?_⟩
      dsimp only
      by_cases h : i = k
      · rw [h, Function.update_self, ite_not]
      · rw [Function.update_of_ne h, h2 i i0 (by omega) i2])
  exact ⟨s, e, p1, fun i i0 i1 => p2 i i0 (by omega) i1⟩

theorem chebScl'_run (x y : K) : ∃ s, chebScl' junk n x y = some s ∧ s.size = n.toNat ∧ ∀ i, 0 ≤ i → i < n → s.val i = if i = 0 then x else y := by
  obtain ⟨s, e, f⟩ := diag0_fill (n := n) (inc := 1) (D := (⟨n.toNat, junk⟩ : Buf K)) (r := fun i => if i = 0 then x else y) (v := x) le_rfl
    (fun i i0 i1 => by show i * 1 < ((n.toNat : Nat) : Int); omega) (if_pos rfl)
  obtain ⟨s', e', p1, p2⟩ := forUp_spec (lo := 1) (hi := n) (s := s) (body := fun i s => s.wr i y)
    (fun k s => s.size = n.toNat ∧ ∀ i, 0 ≤ i → i < k → i < n → s.val i = if i = 0 then x else y)
    ⟨f.size, fun i i0 i1 i2 => by have := f.val i i0 (by omega); rwa [mul_one] at this⟩ (by
      intro k k0 k1 s ⟨h1, h2⟩
      refine ⟨_, Buf.wr_of (by omega) (by omega), h1, fun i i0 i1 i2 => ?_⟩
      dsimp only
      by_cases h : i = k
      · rw [h, Function.update_self, if_neg (by omega)]
      · rw [Function.update_of_ne h, h2 i i0 (by omega) i2])
  exact ⟨s', by unfold chebScl'; rw [e]; exact e', p1, fun i i0 i1 => p2 i i0 (by omega) i1⟩

/-! ## Scaling dense matrices -/

omit [LinearOrder K] [IsStrictOrderedRing K] in
theorem scaleDense_run [DecidableEq K] {idx : Int → Int → Int} {x V : Buf K} (hV : V.size = (n * n).toNat) (hx : x.size = n.toNat) (hi : ∀ i j, 0 ≤ i → i ≤ j → j < n → 0 ≤ idx i j ∧ idx i j < n) :
    ∃ V', scaleDense n idx x V = some V' ∧ V'.size = V.size ∧
      ∀ i j, 0 ≤ i → i < n → 0 ≤ j → j < n → V'.val (i + j * n) = if i ≤ j then x.val (idx i j) * V.val (i + j * n) else V.val (i + j * n) := by
  obtain ⟨V', e, s, v⟩ := grid_run (m := n) (n := n) (w := fun j => j + 1) (A := V) (step := fun i j V => (V.rd (i + j * n)).bind fun v => (x.rd (idx i j)).bind fun c => V.wr (i + j * n) (v * c))
    (g := fun i j a => x.val (idx i j) * a) (fun j _ _ => by omega) (by
      intro i j i0 i1 j0 j1 B hB
      obtain ⟨b0, b1⟩ := ij_lt2 i0 (show i < n by omega) j0 j1
      have h := hi i j i0 (by omega) j1
      rw [Buf.rd_of (b := B) b0 (by rw [hB, hV]; omega), Option.bind_some, Buf.rd_of h.1 (by rw [hx]; omega), Option.bind_some, mul_comm (x.val _)]
      exact Buf.wr_of (b := B) b0 (by rw [hB, hV]; omega))
  refine ⟨V', e, s, fun i j i0 i1 j0 j1 => ?_⟩
  rw [v i j i0 i1 j0 j1]
  exact if_congr (by omega) rfl rfl

omit [LinearOrder K] [IsStrictOrderedRing K] in
theorem scaleDense2_run {idx : Int → Int → Int} {x V : Buf K} (hV : V.size = (n * n).toNat) (hx : x.size = n.toNat) (hi : ∀ i j, 0 ≤ i → i ≤ j → j < n → 0 ≤ idx i j ∧ idx i j < n) :
    ∃ V', scaleDense2 n idx x V = some V' ∧ V'.size = V.size ∧
      ∀ i j, 0 ≤ i → i < n → 0 ≤ j → j < n → V'.val (i + j * n) = if i ≤ j ∧ (i + j) % 2 = 0 then x.val (idx i j) * V.val (i + j * n) else V.val (i + j * n) := by
  obtain ⟨V', e, s, v⟩ := forUp_spec (lo := 0) (hi := n) (s := V)
    (body := fun j V => forUp 0 (j / 2 + 1) (fun k V => (V.rd (j - 2 * k + j * n)).bind fun v => (x.rd (idx (j - 2 * k) j)).bind fun c => V.wr (j - 2 * k + j * n) (v * c)) V)
    (fun k V' => V'.size = V.size ∧ ∀ i j, 0 ≤ i → i < n → 0 ≤ j → j < n → V'.val (i + j * n) = if j < k ∧ i ≤ j ∧ (i + j) % 2 = 0 then x.val (idx i j) * V.val (i + j * n) else V.val (i + j * n))
    ⟨rfl, fun i j _ _ _ _ => by rw [if_neg (by omega)]⟩ (by
      intro l l0 l1 A ⟨h1, h2⟩
      obtain ⟨A', e, s, v⟩ := forUp_spec (lo := 0) (hi := l / 2 + 1) (s := A)
        (body := fun k V => (V.rd (l - 2 * k + l * n)).bind fun v => (x.rd (idx (l - 2 * k) l)).bind fun c => V.wr (l - 2 * k + l * n) (v * c))
        (fun k V' => V'.size = V.size ∧ ∀ i j, 0 ≤ i → i < n → 0 ≤ j → j < n → V'.val (i + j * n) = if (j < l ∧ i ≤ j ∧ (i + j) % 2 = 0) ∨ (j = l ∧ i ≤ j ∧ l < i + 2 * k ∧ (i + j) % 2 = 0) then x.val (idx i j) * V.val (i + j * n) else V.val (i + j * n))
        ⟨h1, fun i j i0 i1 j0 j1 => by rw [h2 i j i0 i1 j0 j1]; exact if_congr (by omega) rfl rfl⟩ (by
          intro k k0 k1 B ⟨q1, q2⟩
          obtain ⟨b0, b1⟩ := ij_lt2 (show 0 ≤ l - 2 * k by omega) (show l - 2 * k < n by omega) l0 l1
          have h := hi (l - 2 * k) l (by omega) (by omega) l1
          refine ⟨⟨B.size, Function.update B.val (l - 2 * k + l * n) (B.val (l - 2 * k + l * n) * x.val (idx (l - 2 * k) l))⟩, ?_, q1, ?_⟩
          · rw [Buf.rd_of (b := B) b0 (by rw [q1, hV]; omega), Option.bind_some, Buf.rd_of h.1 (by rw [hx]; omega), Option.bind_some]
            exact Buf.wr_of (b := B) b0 (by rw [q1, hV]; omega)
          · intro i j i0 i1 j0 j1
            dsimp only
            rw [q2 _ l (by omega) (by omega) l0 l1, if_neg (by omega)]
            by_cases hik : i = l - 2 * k ∧ j = l
            · obtain ⟨rfl, rfl⟩ := hik
              rw [Function.update_self, if_pos (by omega), mul_comm]
            · rw [Function.update_of_ne (fun h => hik (rc_inj' i0 i1 (by omega) (by omega) h)), q2 i j i0 i1 j0 j1]
              exact if_congr (by omega) rfl rfl)
      refine ⟨A', e, s, fun i j i0 i1 j0 j1 => ?_⟩
      rw [v i j i0 i1 j0 j1]
      exact if_congr (by omega) rfl rfl)
  refine ⟨V', e, s, fun i j i0 i1 j0 j1 => ?_⟩
  rw [v i j i0 i1 j0 j1]
  exact if_congr (by omega) rfl rfl

section
variable {p q p' q' : Int → K[X]} {V x : Buf K} {c : Int → K}

theorem dense_rows (h : Dense n V p q) (hx : x.size = n.toNat) (hc : ∀ i, 0 ≤ i → i < n → x.val i = c i) (hq : ∀ i, 0 ≤ i → i < n → q i = C (c i) * q' i) :
    ∃ V', scaleDense n (fun i _ => i) x V = some V' ∧ Dense n V' p q' := by
  obtain ⟨V', e, s, v⟩ := scaleDense_run (idx := fun i _ => i) h.size hx fun i j i0 ij j1 => ⟨i0, by omega⟩
  refine ⟨V', e, s.trans h.size, fun i j j0 ij i1 => by rw [v i j (by omega) i1 j0 (by omega), if_neg (by omega), h.upper i j j0 ij i1], connects_rows h.conn hq fun i j i0 i1 j0 j1 => ?_⟩
  beta_reduce
  rw [v i j i0 i1 j0 j1]
  split_ifs with hij
  · rw [hc i i0 i1]
  · rw [h.upper i j j0 (by omega) i1, mul_zero]

theorem dense_cols (h : Dense n V p q) (hx : x.size = n.toNat) (hc : ∀ i, 0 ≤ i → i < n → x.val i = c i) (hp : ∀ i, 0 ≤ i → i < n → p' i = C (c i) * p i) :
    ∃ V', scaleDense n (fun _ j => j) x V = some V' ∧ Dense n V' p' q := by
  obtain ⟨V', e, s, v⟩ := scaleDense_run (idx := fun _ j => j) h.size hx fun i j i0 ij j1 => ⟨by omega, j1⟩
  refine ⟨V', e, s.trans h.size, fun i j j0 ij i1 => by rw [v i j (by omega) i1 j0 (by omega), if_neg (by omega), h.upper i j j0 ij i1], connects_cols h.conn hp fun i j i0 i1 j0 j1 => ?_⟩
  beta_reduce
  rw [v i j i0 i1 j0 j1]
  split_ifs with hij
  · rw [hc j j0 j1]
  · rw [h.upper i j j0 (by omega) i1, mul_zero]

/-- Entries whose indices have an odd sum are zero. -/
def Even (n : Int) (V : Buf K) : Prop := ∀ i j, 0 ≤ i → i < n → 0 ≤ j → j < n → (i + j) % 2 = 1 → V.val (i + j * n) = 0

theorem dense_rows2 (h : Dense n V p q) (ev : Even n V) (hx : x.size = n.toNat) (hc : ∀ i, 0 ≤ i → i < n → x.val i = c i) (hq : ∀ i, 0 ≤ i → i < n → q i = C (c i) * q' i) :
    ∃ V', scaleDense2 n (fun i _ => i) x V = some V' ∧ Dense n V' p q' := by
  obtain ⟨V', e, s, v⟩ := scaleDense2_run (idx := fun i _ => i) h.size hx fun i j i0 ij j1 => ⟨i0, by omega⟩
  refine ⟨V', e, s.trans h.size, fun i j j0 ij i1 => by rw [v i j (by omega) i1 j0 (by omega), if_neg (by omega), h.upper i j j0 ij i1], connects_rows h.conn hq fun i j i0 i1 j0 j1 => ?_⟩
  beta_reduce
  rw [v i j i0 i1 j0 j1]
  split_ifs with hij
  · rw [hc i i0 i1]
  · have : V.val (i + j * n) = 0 := by
      rcases lt_or_ge j i with g | g
      · exact h.upper i j j0 g i1
      · exact ev i j i0 i1 j0 j1 (by omega)
    rw [this, mul_zero]

theorem dense_cols2 (h : Dense n V p q) (ev : Even n V) (hx : x.size = n.toNat) (hc : ∀ i, 0 ≤ i → i < n → x.val i = c i) (hp : ∀ i, 0 ≤ i → i < n → p' i = C (c i) * p i) :
    ∃ V', scaleDense2 n (fun _ j => j) x V = some V' ∧ Dense n V' p' q := by
  obtain ⟨V', e, s, v⟩ := scaleDense2_run (idx := fun _ j => j) h.size hx fun i j i0 ij j1 => ⟨by omega, j1⟩
  refine ⟨V', e, s.trans h.size, fun i j j0 ij i1 => by rw [v i j (by omega) i1 j0 (by omega), if_neg (by omega), h.upper i j j0 ij i1], connects_cols h.conn hp fun i j i0 i1 j0 j1 => ?_⟩
  beta_reduce
  rw [v i j i0 i1 j0 j1]
  split_ifs with hij
  · rw [hc j j0 j1]
  · have : V.val (i + j * n) = 0 := by
      rcases lt_or_ge j i with g | g
      · exact h.upper i j j0 g i1
      · exact ev i j i0 i1 j0 j1 (by omega)
    rw [this, mul_zero]

/-! ## Scaling factorisations -/

variable {BS th top : Int} {G : TbEig K}

theorem fast_rows (h : Fast BS th n G top p q) (hx : x.size = n.toNat) (hc : ∀ i, 0 ≤ i → i < n → x.val i = c i) (h0 : ∀ i, c i ≠ 0) (hq : ∀ i, 0 ≤ i → i < n → q i = C (c i) * q' i) :
    ∃ G', scaleRowsTb BS 1 x G 0 = some G' ∧ Fast BS th n G' top p q' ∧ (NoSparse G → NoSparse G') := by
  have n0 : 0 ≤ n := by rw [← h.size]; cases hG : G with
    | leaf n V => have := h.sized; rw [hG] at this; exact this.1
    | node n c F1 F2 => have := h.sized; rw [hG] at this; exact this.1
  obtain ⟨G', e, s⟩ := scaleRowsTb_run 1 x h.sized le_rfl (by rw [h.size, hx]; omega)
  have m : ∀ i j, 0 ≤ i → i < n → 0 ≤ j → j < n → mat G' i j = c i * mat G i j := fun i j i0 i1 j0 j1 => by
    rw [s.mat i j i0 (by rw [h.size]; exact i1) j0 (by rw [h.size]; exact j1), one_mul, zero_add, hc i i0 i1]
  refine ⟨G', e, ⟨s.n.trans h.size, s.sized, (regular_iff s.sized).2 fun i i0 i1 => ?_, by rw [s.arrs]; exact h.placed, fun i j j0 ij i1 => ?_, connects_rows h.conn hq m⟩, s.sparse⟩
  · rw [s.n] at i1
    rw [m i i i0 (by rw [← h.size]; exact i1) i0 (by rw [← h.size]; exact i1)]
    exact mul_ne_zero (h0 i) ((regular_iff h.sized).1 h.regular i i0 i1)
  · rw [m i j (by omega) i1 j0 (by omega), h.upper i j j0 ij i1, mul_zero]

theorem fast_cols (h : Fast BS th n G top p q) (hs : NoSparse G) (hx : x.size = n.toNat) (hc : ∀ i, 0 ≤ i → i < n → x.val i = c i) (h0 : ∀ i, c i ≠ 0) (hp : ∀ i, 0 ≤ i → i < n → p' i = C (c i) * p i) :
    ∃ G', scaleColsTb BS 1 x G 0 = some G' ∧ Fast BS th n G' top p' q ∧ NoSparse G' := by
  have n0 : 0 ≤ n := by rw [← h.size]; cases hG : G with
    | leaf n V => have := h.sized; rw [hG] at this; exact this.1
    | node n c F1 F2 => have := h.sized; rw [hG] at this; exact this.1
  obtain ⟨G', e, s⟩ := scaleColsTb_run 1 x h.sized hs le_rfl (by rw [h.size, hx]; omega) (fun i i0 i1 => by rw [zero_add, hc i i0 (by rw [← h.size]; exact i1)]; exact h0 i)
  have m : ∀ i j, 0 ≤ i → i < n → 0 ≤ j → j < n → mat G' i j = c j * mat G i j := fun i j i0 i1 j0 j1 => by
    rw [s.mat i j i0 (by rw [h.size]; exact i1) j0 (by rw [h.size]; exact j1), one_mul, zero_add, hc j j0 j1]
  refine ⟨G', e, ⟨s.n.trans h.size, s.sized, (regular_iff s.sized).2 fun i i0 i1 => ?_, by rw [s.arrs]; exact h.placed, fun i j j0 ij i1 => ?_, connects_cols h.conn hp m⟩, s.sparse hs⟩
  · rw [s.n] at i1
    rw [m i i i0 (by rw [← h.size]; exact i1) i0 (by rw [← h.size]; exact i1)]
    exact mul_ne_zero (h0 i) ((regular_iff h.sized).1 h.regular i i0 i1)
  · rw [m i j (by omega) i1 j0 (by omega), h.upper i j j0 ij i1, mul_zero]

end
end FT.Poly
