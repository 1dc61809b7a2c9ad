import Verif.Lemmas.Factor
import Verif.Props.Tri

/-! # C19: the banded LU and Cholesky factorisations multiply back to the matrix -/

namespace FT.Props
open FT
variable {K : Type*}

/-- The unit lower triangular matrix with the strictly lower entries of `f`. -/
def unitLower [Zero K] [One K] (f : Int → Int → K) (i j : Int) : K := if j < i then f i j else if j = i then 1 else 0

/-- The entries of a matrix as seen by the factorisations. -/
theorem ent_bval [Zero K] {A : Banded K} {n l u : Int} {D : Buf K} (d : A = ⟨n, n, l, u, D⟩) {r c : Int} (r0 : 0 ≤ r) (rn : r < n) (c0 : 0 ≤ c) (cn : c < n) : A.ent r c = bval l u D r c := by
  subst d
  unfold Banded.ent FT.bval sl
  by_cases h : -u ≤ r - c ∧ r - c ≤ l
  · rw [if_pos h, if_pos (show (⟨n, n, l, u, D⟩ : Banded K).InBand r c by unfold Banded.InBand; simp only; omega)]
    show D.val _ = D.val _
    congr 1; ring
  · rw [if_neg h, if_neg (show ¬ (⟨n, n, l, u, D⟩ : Banded K).InBand r c by unfold Banded.InBand; simp only; omega)]

theorem Stores.eq [Zero K] {A : Banded K} {m n l u a} (h : Stores A m n l u a) : A = ⟨m, n, l, u, A.D⟩ := by
  obtain ⟨rfl, rfl, rfl, rfl⟩ := h.dims; rfl

theorem Stores.bval [Zero K] {A : Banded K} {n l u a} (h : Stores A n n l u a) {r c : Int} (r0 : 0 ≤ r) (rn : r < n) (c0 : 0 ≤ c) (cn : c < n) : FT.bval l u A.D r c = a r c := by
  rw [← ent_bval h.eq r0 rn c0 cn, h.ent]

/-- The state after elimination stores some matrix. -/
theorem stores_self [Zero K] {n l u : Int} {D : Buf K} (hs : n * (l + u + 1) ≤ D.size) : ∃ f, Stores (⟨n, n, l, u, D⟩ : Banded K) n n l u f ∧
    ∀ r c, 0 ≤ r → r < n → 0 ≤ c → c < n → f r c = FT.bval l u D r c :=
  ⟨(⟨n, n, l, u, D⟩ : Banded K).ent, .mk' ⟨rfl, rfl, rfl, rfl⟩ hs fun _ _ => rfl, fun _ _ r0 rn c0 cn => ent_bval rfl r0 rn c0 cn⟩

section LU
variable [Field K] [DecidableEq K]

/-- What the partially eliminated matrix represents after `j` steps. -/
noncomputable def luT (M : Int → Int → K) (j r c : Int) : K :=
  (∑ k ∈ Finset.Ico 0 (min j (min r c)), M r k * M k c) + if c < j ∧ c < r then M r c * M c c else M r c

omit [DecidableEq K] in
theorem luT_step {n : Int} {M M' : Int → Int → K} {j : Int} (j0 : 0 ≤ j) (jn : j < n) (hM : ∀ r c, 0 ≤ r → r < n → 0 ≤ c → c < n → M' r c = luF M j r c)
    (hp : M j j ≠ 0 ∨ ∀ r, j < r → M r j = 0) {r c : Int} (r0 : 0 ≤ r) (rn : r < n) (c0 : 0 ≤ c) (cn : c < n) : luT M' (j + 1) r c = luT M j r c := by
  have e1 : ∀ {r c}, 0 ≤ r → r < n → 0 ≤ c → c < n → (r ≤ j ∨ c < j) → M' r c = M r c := fun {r c} r0 rn c0 cn h => by
    rw [hM r c r0 rn c0 cn]; unfold luF
    by_cases h1 : r ≤ j
    · rw [if_pos h1]
    · rw [if_neg h1, if_neg (by omega), if_neg (by omega)]
  have e2 : ∀ {r}, 0 ≤ r → r < n → j < r → M' r j = M r j / M j j := fun {r} r0 rn h => by
    rw [hM r j r0 rn j0 jn]; unfold luF; rw [if_neg (by omega), if_pos rfl]
  have e3 : ∀ {r c}, 0 ≤ r → r < n → 0 ≤ c → c < n → j < r → j < c → M' r c = M r c - M r j / M j j * M j c := fun {r c} r0 rn c0 cn h h' => by
    rw [hM r c r0 rn c0 cn]; unfold luF; rw [if_neg (by omega), if_neg (by omega), if_pos h']
  have hsum : ∀ t, t ≤ j → t ≤ r → t ≤ c → ∑ k ∈ Finset.Ico 0 t, M' r k * M' k c = ∑ k ∈ Finset.Ico 0 t, M r k * M k c := fun t t1 t2 t3 =>
    sum_Ico_congr fun k k0 k1 => by rw [e1 r0 rn k0 (by omega) (Or.inr (by omega)), e1 k0 (by omega) c0 cn (Or.inl (by omega))]
  unfold luT
  by_cases h1 : min r c < j
  · rw [show min (j + 1) (min r c) = min j (min r c) by omega, hsum _ (by omega) (by omega) (by omega), e1 r0 rn c0 cn (by omega)]
    congr 1
    by_cases h2 : c < j ∧ c < r
    · rw [if_pos h2, if_pos (by omega), e1 c0 cn c0 cn (by omega)]
    · rw [if_neg h2, if_neg (by omega)]
  by_cases h2 : r = j
  · subst h2
    rw [show min (r + 1) (min r c) = r by omega, show min r (min r c) = r by omega, hsum _ (by omega) (by omega) (by omega), e1 r0 rn c0 cn (Or.inl (le_refl _)), if_neg (by omega), if_neg (by omega)]
  by_cases h3 : c = j
  · subst h3
    rw [show min (c + 1) (min r c) = c by omega, show min c (min r c) = c by omega, hsum _ (by omega) (by omega) (by omega), if_pos (by omega), if_neg (by omega), e2 r0 rn (by omega),
      e1 c0 cn c0 cn (Or.inl (le_refl _))]
    congr 1
    rcases hp with hp | hp
    · exact div_mul_cancel₀ _ hp
    · rw [hp r (by omega), zero_div, zero_mul]
  · rw [show min (j + 1) (min r c) = j + 1 by omega, show min j (min r c) = j by omega, sum_Ico_succ j0, hsum _ (by omega) (by omega) (by omega), if_neg (by omega), if_neg (by omega),
      e2 r0 rn (by omega), e1 j0 jn c0 cn (Or.inl (le_refl _)), e3 r0 rn c0 cn (by omega) (by omega)]
    ring

/-- **C19 (banded LU, soundness).** Whenever the factorisation returns, the unit lower and the upper triangle it leaves in place multiply to the given matrix. -/
theorem C19_lu {A F : Banded K} {n l u a} (hA : Stores A n n l u a) (hl : 0 ≤ l) (hu : 0 ≤ u) (h : lufact A = some F) :
    ∃ f, Stores F n n l u f ∧ ∀ r c, 0 ≤ r → r < n → 0 ≤ c → c < n → ∑ k ∈ Finset.Ico 0 n, unitLower f r k * upperPart f k c = a r c := by
  obtain ⟨d1, d2, d3, d4⟩ := hA.dims
  unfold lufact at h
  rw [d1, d2, d3, d4, if_neg (by simp)] at h
  obtain ⟨D, e, hF⟩ := Option.map_eq_some_iff.1 h
  have := forUp_inv (fun j (D : Buf K) => D.size = A.D.size ∧ ∀ r c, 0 ≤ r → r < n → 0 ≤ c → c < n → luT (FT.bval l u D) j r c = a r c)
    ⟨rfl, fun r c r0 rn c0 cn => by unfold luT; rw [show min 0 (min r c) = 0 by omega, Finset.Ico_self, Finset.sum_empty, zero_add, if_neg (by omega), hA.bval r0 rn c0 cn]⟩
    (fun j j0 jn D D' ⟨s, p⟩ e => by
      have hp := luStep_pivot hl hu jn e
      obtain ⟨D'', e', s', p'⟩ := luStep_eq hl hu j0 jn (by rw [s]; exact hA.alloc) hp
      rw [e] at e'; injection e' with e'; subst e'
      refine ⟨s'.trans s, fun r c r0 rn c0 cn => ?_⟩
      rw [luT_step j0 jn p' (by
        rcases hp with h | h
        · right; intro r hr; unfold FT.bval; rw [if_neg (by omega)]
        · exact Or.inl h) r0 rn c0 cn]
      exact p r c r0 rn c0 cn) e
  obtain ⟨s, p⟩ := this
  obtain ⟨f, hf, hv⟩ := stores_self (n := n) (l := l) (u := u) (D := D) (by rw [s]; exact hA.alloc)
  refine ⟨f, by rw [← hF]; exact hf, fun r c r0 rn c0 cn => ?_⟩
  rw [max_eq_right (by omega)] at p
  rw [← p r c r0 rn c0 cn]
  unfold luT
  rw [show min n (min r c) = min r c by omega, sum_Ico_shrink (lo' := 0) (hi' := min r c + 1) (fun k k0 kn hk => by
      unfold unitLower upperPart
      by_cases h : r < k
      · rw [if_neg (by omega), if_neg (by omega), zero_mul]
      · rw [if_neg (show ¬ k ≤ c by omega), mul_zero]) (le_refl _) (by omega), sum_Ico_succ (by omega)]
  congr 1
  · refine sum_Ico_congr fun k k0 k1 => ?_
    unfold unitLower upperPart
    rw [if_pos (by omega), if_pos (by omega), hv r k r0 rn k0 (by omega), hv k c k0 (by omega) c0 cn]
  · unfold unitLower upperPart
    by_cases h : c < r
    · rw [min_eq_right (by omega), if_pos h, if_pos (le_refl _), if_pos (by omega), hv r c r0 rn c0 cn, hv c c c0 cn c0 cn]
    · rw [min_eq_left (by omega), if_neg (by omega), if_pos rfl, if_pos (by omega), if_neg (by omega), one_mul, hv r c r0 rn c0 cn]

/-- **C19 (banded LU, totality and uniqueness).** If the matrix has a factorisation `L U` with unit lower triangular `L` and upper triangular `U` with nonzero diagonal (equivalently, no
zero pivot is met), the routine returns - no access out of bounds, no division by zero - and leaves exactly this `L` and `U`. -/
theorem C19_lu_total {A : Banded K} {n l u a} (hA : Stores A n n l u a) (hl : 0 ≤ l) (hu : 0 ≤ u) {L U : Int → Int → K}
    (hL : ∀ i, L i i = 1) (hL' : ∀ i j, i < j → L i j = 0) (hU : ∀ i, 0 ≤ i → i < n → U i i ≠ 0) (hU' : ∀ i j, j < i → U i j = 0)
    (hLU : ∀ r c, 0 ≤ r → r < n → 0 ≤ c → c < n → ∑ k ∈ Finset.Ico 0 n, L r k * U k c = a r c) :
    ∃ F f, lufact A = some F ∧ Stores F n n l u f ∧ ∀ r c, 0 ≤ r → r < n → 0 ≤ c → c < n → f r c = if c < r then L r c else U r c := by
  obtain ⟨d1, d2, d3, d4⟩ := hA.dims
  obtain ⟨D, e, s, p⟩ := forUp_spec (body := luStep n l u) (lo := 0) (hi := n) (s := A.D)
    (fun j D => D.size = A.D.size ∧ ∀ r c, 0 ≤ r → r < n → 0 ≤ c → c < n → FT.bval l u D r c = if min r c < j then (if c < r then L r c else U r c) else ∑ k ∈ Finset.Ico j n, L r k * U k c)
    ⟨rfl, fun r c r0 rn c0 cn => by rw [if_neg (by omega), hLU r c r0 rn c0 cn, hA.bval r0 rn c0 cn]⟩
    (fun j j0 jn D ⟨s, p⟩ => by
      have row : ∀ c, j ≤ c → c < n → FT.bval l u D j c = U j c := fun c c0 cn => by
        rw [p j c j0 jn (by omega) cn, if_neg (by omega), sum_Ico_pred jn, hL, one_mul, Finset.sum_eq_zero, add_zero]
        intro k hk; rw [Finset.mem_Ico] at hk; rw [hL' j k (by omega), zero_mul]
      have col : ∀ r, j < r → r < n → FT.bval l u D r j = L r j * U j j := fun r r0 rn => by
        rw [p r j (by omega) rn j0 jn, if_neg (by omega), sum_Ico_pred jn, Finset.sum_eq_zero, add_zero]
        intro k hk; rw [Finset.mem_Ico] at hk; rw [hU' k j (by omega), mul_zero]
      have piv : FT.bval l u D j j = U j j := row j (le_refl _) jn
      obtain ⟨D', e', s', p'⟩ := luStep_eq hl hu j0 jn (by rw [s]; exact hA.alloc) (Or.inr (by rw [piv]; exact hU j j0 jn))
      refine ⟨D', e', s'.trans s, fun r c r0 rn c0 cn => ?_⟩
      rw [p' r c r0 rn c0 cn]
      unfold luF
      by_cases h1 : r ≤ j
      · rw [if_pos h1]
        by_cases h2 : min r c < j
        · rw [p r c r0 rn c0 cn, if_pos h2, if_pos (show min r c < j + 1 by omega)]
        · have : r = j := by omega
          subst this
          rw [row c (by omega) cn, if_pos (show min r c < r + 1 by omega), if_neg (by omega)]
      rw [if_neg h1]
      by_cases h2 : c = j
      · subst h2
        rw [if_pos rfl, if_pos (show min r c < c + 1 by omega), if_pos (by omega), col r (by omega) rn, piv, mul_div_cancel_right₀ _ (hU c c0 cn)]
      rw [if_neg h2]
      by_cases h3 : j < c
      · rw [if_pos h3, if_neg (by omega), p r c r0 rn c0 cn, if_neg (by omega), col r (by omega) rn, piv, mul_div_cancel_right₀ _ (hU j j0 jn), row c (by omega) cn, sum_Ico_pred jn]; ring
      · rw [if_neg h3, p r c r0 rn c0 cn, if_pos (show min r c < j by omega), if_pos (show min r c < j + 1 by omega)])
  obtain ⟨f, hf, hv⟩ := stores_self (n := n) (l := l) (u := u) (D := D) (by rw [s]; exact hA.alloc)
  refine ⟨⟨n, n, l, u, D⟩, f, ?_, hf, fun r c r0 rn c0 cn => ?_⟩
  · unfold lufact
    rw [d1, d2, d3, d4, if_neg (by simp), e]; rfl
  · rw [hv r c r0 rn c0 cn, p r c r0 rn c0 cn, if_pos (show min r c < max 0 n by omega)]

end LU

section Chol
variable [Field K] [LinearOrder K] [IsStrictOrderedRing K]

/-- What the partially eliminated symmetric matrix represents after `j` steps, for `r ≤ c`. -/
noncomputable def cholT (M : Int → Int → K) (j r c : Int) : K :=
  (∑ k ∈ Finset.Ico 0 (min j r), M k r * M k c) + if r < j then M r r * M r c else M r c

/-- The invariant of the symmetric elimination. -/
structure CholInv (n : Int) (a M : Int → Int → K) (j : Int) : Prop where
  rep : ∀ r c, 0 ≤ r → r ≤ c → c < n → cholT M j r c = a r c
  sym : ∀ r c, j ≤ r → j ≤ c → r < n → c < n → M r c = M c r

theorem cholF_step {sqrt : K → K} (hs : IsSqrt sqrt) {n : Int} {a M M' : Int → Int → K} {j : Int} (j0 : 0 ≤ j) (jn : j < n) (hI : CholInv n a M j)
    (hM : ∀ r c, 0 ≤ r → r < n → 0 ≤ c → c < n → M' r c = cholF sqrt M j r c) (hp : 0 ≤ M j j) (hp' : M j j ≠ 0 ∨ ∀ r c, r < n → c < n → r ≠ c → M r c = 0) : CholInv n a M' (j + 1) := by
  have e0 : ∀ {r c}, 0 ≤ r → r < n → 0 ≤ c → c < n → r < j → M' r c = M r c := fun {r c} r0 rn c0 cn h => by
    rw [hM r c r0 rn c0 cn]; unfold cholF luF; rw [if_neg (by omega), if_neg (by omega), if_pos (by omega)]
  have e1 : M' j j = sqrt (M j j) := by rw [hM j j j0 jn j0 jn]; unfold cholF; rw [if_pos ⟨rfl, rfl⟩]
  have e2 : ∀ {c}, j < c → c < n → M' j c = M j c / sqrt (M j j) := fun {c} h cn => by
    rw [hM j c j0 jn (by omega) cn]; unfold cholF; rw [if_neg (by omega), if_pos ⟨rfl, h⟩]
  have e3 : ∀ {r c}, r < n → c < n → j < r → j < c → M' r c = M r c - M r j / M j j * M j c := fun {r c} rn cn h h' => by
    rw [hM r c (by omega) rn (by omega) cn]; unfold cholF luF; rw [if_neg (by omega), if_neg (by omega), if_neg (by omega), if_neg (by omega), if_pos h']
  have sq := hs _ hp
  have sne : M j j ≠ 0 → sqrt (M j j) ≠ 0 := fun h => ne_of_gt (sqrt_pos hs (lt_of_le_of_ne hp h.symm))
  have hsum : ∀ {t r c}, t ≤ j → 0 ≤ r → r < n → 0 ≤ c → c < n → ∑ k ∈ Finset.Ico 0 t, M' k r * M' k c = ∑ k ∈ Finset.Ico 0 t, M k r * M k c := fun {t r c} ht r0 rn c0 cn =>
    sum_Ico_congr fun k k0 k1 => by rw [e0 k0 (by omega) r0 rn (by omega), e0 k0 (by omega) c0 cn (by omega)]
  refine ⟨fun r c r0 rc cn => ?_, fun r c hr hc rn cn => ?_⟩
  · rw [← hI.rep r c r0 rc cn]
    unfold cholT
    rcases lt_trichotomy r j with h | h | h
    · rw [show min (j + 1) r = r by omega, show min j r = r by omega, hsum (by omega) r0 (by omega) (by omega) cn, if_pos (by omega), if_pos h, e0 r0 (by omega) r0 (by omega) h, e0 r0 (by omega) (by omega) cn h]
    · subst h
      rw [show min (r + 1) r = r by omega, min_self, hsum (le_refl _) r0 (by omega) (by omega) cn, if_pos (by omega), if_neg (by omega)]
      congr 1
      by_cases hc : c = r
      · subst hc; rw [e1, sq.2]
      · rw [e1, e2 (by omega) cn]
        rcases hp' with h | h
        · exact mul_div_cancel₀ _ (sne h)
        · rw [h r c jn cn (by omega), zero_div, mul_zero]
    · rw [show min (j + 1) r = j + 1 by omega, show min j r = j by omega, sum_Ico_succ j0, hsum (le_refl _) r0 (by omega) (by omega) cn, if_neg (by omega), if_neg (by omega), e2 h (by omega), e2 (by omega) cn,
        e3 (by omega) cn h (by omega)]
      rw [add_assoc]; congr 1
      rcases hp' with hz | hz
      · rw [hI.sym r j (by omega) (le_refl _) (by omega) jn, div_mul_div_comm, sq.2]; ring
      · rw [hz j r jn (by omega) (by omega), hz r j (by omega) jn (by omega)]; ring
  · rw [e3 rn cn (by omega) (by omega), e3 cn rn (by omega) (by omega), hI.sym r c (by omega) (by omega) rn cn, hI.sym r j (by omega) (le_refl _) rn jn, hI.sym c j (by omega) (le_refl _) cn jn]
    ring

omit [IsStrictOrderedRing K] [LinearOrder K] in
theorem cholInv_end {n : Int} {a M : Int → Int → K} (hI : CholInv n a M n) (ha : ∀ r c, a r c = a c r) {r c : Int} (r0 : 0 ≤ r) (rn : r < n) (c0 : 0 ≤ c) (cn : c < n) :
    ∑ k ∈ Finset.Ico 0 n, upperPart M k r * upperPart M k c = a r c := by
  have key : ∀ {r c}, 0 ≤ r → r ≤ c → c < n → ∑ k ∈ Finset.Ico 0 n, upperPart M k r * upperPart M k c = a r c := fun {r c} r0 rc cn => by
    rw [← hI.rep r c r0 rc cn]
    unfold cholT
    rw [sum_Ico_shrink (lo' := 0) (hi' := r + 1) (fun k k0 kn hk => by unfold upperPart; rw [if_neg (by omega), zero_mul]) (le_refl _) (by omega), sum_Ico_succ r0, show min n r = r by omega, if_pos (by omega)]
    unfold upperPart
    rw [if_pos (le_refl _), if_pos rc]
    congr 1
    exact sum_Ico_congr fun k k0 k1 => by rw [if_pos (by omega), if_pos (by omega)]
  rcases le_total r c with h | h
  · exact key r0 h cn
  · rw [ha, ← key c0 h rn]; exact Finset.sum_congr rfl fun k _ => mul_comm _ _

omit [IsStrictOrderedRing K] [LinearOrder K] in
theorem cholInv_start {n b : Int} {A : Banded K} {a : Int → Int → K} (hA : Stores A n n b b a) (ha : ∀ r c, a r c = a c r) : CholInv n a (FT.bval b b A.D) 0 :=
  ⟨fun r c r0 rc cn => by unfold cholT; rw [show min 0 r = 0 by omega, Finset.Ico_self, Finset.sum_empty, zero_add, if_neg (by omega), hA.bval r0 (by omega) (by omega) cn],
   fun r c r0 c0 rn cn => by rw [hA.bval r0 rn c0 cn, hA.bval c0 cn r0 rn, ha]⟩

/-- **C19 (banded Cholesky, soundness).** Whenever the factorisation of a symmetric matrix returns, the upper triangle `R` it leaves in place satisfies `RᵀR = A`. -/
theorem C19_chol {sqrt : K → K} (hs : IsSqrt sqrt) {A F : Banded K} {n b a} (hA : Stores A n n b b a) (hb : 0 ≤ b) (ha : ∀ r c, a r c = a c r) (h : cholfact sqrt A = some F) :
    ∃ f, Stores F n n b b f ∧ ∀ r c, 0 ≤ r → r < n → 0 ≤ c → c < n → ∑ k ∈ Finset.Ico 0 n, upperPart f k r * upperPart f k c = a r c := by
  obtain ⟨d1, d2, d3, d4⟩ := hA.dims
  unfold cholfact at h
  rw [d1, d2, d3, d4, if_neg (by simp), if_neg (by simp)] at h
  obtain ⟨D, e, hF⟩ := Option.map_eq_some_iff.1 h
  have := forUp_inv (fun j (D : Buf K) => D.size = A.D.size ∧ CholInv n a (FT.bval b b D) j) ⟨rfl, cholInv_start hA ha⟩
    (fun j j0 jn D D' ⟨s, p⟩ e => by
      have hsz : n * (b + b + 1) ≤ D.size := by rw [s]; exact hA.alloc
      obtain ⟨hp, hp'⟩ := cholStep_pivot hb hb j0 jn hsz e
      obtain ⟨D'', e', s', p'⟩ := cholStep_eq hs hb hb j0 jn hsz hp (by rcases hp' with h | h; exact Or.inl ⟨h, h⟩; exact Or.inr h)
      rw [e] at e'; injection e' with e'; subst e'
      refine ⟨s'.trans s, cholF_step hs j0 jn p p' hp ?_⟩
      rcases hp' with h | h
      · right; intro r c _ _ hne; unfold FT.bval; rw [if_neg (by omega)]
      · exact Or.inl h) e
  obtain ⟨s, p⟩ := this
  obtain ⟨f, hf, hv⟩ := stores_self (n := n) (l := b) (u := b) (D := D) (by rw [s]; exact hA.alloc)
  refine ⟨f, by rw [← hF]; exact hf, fun r c r0 rn c0 cn => ?_⟩
  rw [max_eq_right (by omega)] at p
  rw [← cholInv_end p ha r0 rn c0 cn]
  refine sum_Ico_congr fun k k0 kn => ?_
  unfold upperPart
  rw [hv k r k0 kn r0 rn, hv k c k0 kn c0 cn]

/-- A homogeneous upper triangular system of `j` equations in `j + 1` unknowns has a solution whose last component is one. -/
theorem triNull {R : Int → Int → K} {j : Int} (j0 : 0 ≤ j) (hR : ∀ k, 0 ≤ k → k < j → R k k ≠ 0) :
    ∃ x : Int → K, x j = 1 ∧ ∀ k, 0 ≤ k → k < j → ∑ i ∈ Finset.Ico k (j + 1), R k i * x i = 0 := by
  have : ∀ t : Nat, (t : Int) ≤ j → ∃ x : Int → K, x j = 1 ∧ ∀ k, j - t ≤ k → k < j → ∑ i ∈ Finset.Ico k (j + 1), R k i * x i = 0 := by
    intro t
    induction t with
    | zero => exact fun _ => ⟨fun _ => 1, rfl, fun k h1 h2 => by simp only [Nat.cast_zero] at h1; omega⟩
    | succ t ih =>
      intro ht
      obtain ⟨x, x1, hx⟩ := ih (by omega)
      have ht' : ((t + 1 : Nat) : Int) = t + 1 := by omega
      rw [ht'] at ht ⊢
      generalize hk0 : j - (t + 1) = k0
      have hne := hR k0 (by omega) (by omega)
      refine ⟨Function.update x k0 (-(∑ i ∈ Finset.Ico (k0 + 1) (j + 1), R k0 i * x i) / R k0 k0), by rw [Function.update_of_ne (by omega)]; exact x1, fun k h1 h2 => ?_⟩
      have rest : ∀ k, k0 < k → ∑ i ∈ Finset.Ico k (j + 1), R k i * Function.update x k0 (-(∑ i ∈ Finset.Ico (k0 + 1) (j + 1), R k0 i * x i) / R k0 k0) i = ∑ i ∈ Finset.Ico k (j + 1), R k i * x i := fun k hk =>
        sum_Ico_congr fun i i0 i1 => by rw [Function.update_of_ne (by omega)]
      by_cases hk : k = k0
      · subst hk
        rw [sum_Ico_pred (by omega), Function.update_self]
        have : ∑ i ∈ Finset.Ico (k + 1) (j + 1), R k i * Function.update x k (-(∑ i ∈ Finset.Ico (k + 1) (j + 1), R k i * x i) / R k k) i = ∑ i ∈ Finset.Ico (k + 1) (j + 1), R k i * x i :=
          sum_Ico_congr fun i i0 i1 => by rw [Function.update_of_ne (by omega)]
        rw [this, mul_div_cancel₀ _ hne]; ring
      · rw [rest k (by omega)]; exact hx k (by omega) h2
  obtain ⟨x, x1, hx⟩ := this j.toNat (by omega)
  exact ⟨x, x1, fun k k0 k1 => hx k (by omega) k1⟩

/-- Positive definiteness of the leading `n × n` matrix. -/
def PosDef (n : Int) (a : Int → Int → K) : Prop := ∀ x : Int → K, (∃ i, 0 ≤ i ∧ i < n ∧ x i ≠ 0) → 0 < ∑ r ∈ Finset.Ico 0 n, ∑ c ∈ Finset.Ico 0 n, x r * a r c * x c

/-- The pivot of step `j` is the value of the quadratic form at a nonzero vector. -/
theorem pivot_pos {n : Int} {a M : Int → Int → K} {j : Int} (j0 : 0 ≤ j) (jn : j < n) (hI : CholInv n a M j) (ha : ∀ r c, a r c = a c r) (hd : PosDef n a) (hM : ∀ k, 0 ≤ k → k < j → M k k ≠ 0) :
    0 < M j j := by
  obtain ⟨x, x1, hx⟩ := triNull j0 hM
  have hrep : ∀ r c, 0 ≤ r → r ≤ j → 0 ≤ c → c ≤ j → a r c = (∑ k ∈ Finset.Ico 0 j, upperPart M k r * upperPart M k c) + if r = j ∧ c = j then M j j else 0 := by
    have key : ∀ r c, 0 ≤ r → r ≤ c → c ≤ j → a r c = (∑ k ∈ Finset.Ico 0 j, upperPart M k r * upperPart M k c) + if r = j ∧ c = j then M j j else 0 := fun r c r0 rc cj => by
      rw [← hI.rep r c r0 rc (by omega)]
      unfold cholT
      by_cases h : r < j
      · rw [if_pos h, if_neg (by omega), add_zero, show min j r = r by omega,
          sum_Ico_shrink (lo' := 0) (hi' := r + 1) (f := fun k => upperPart M k r * upperPart M k c) (fun k k0 kn hk => by unfold upperPart; rw [if_neg (by omega), zero_mul]) (le_refl _) (by omega), sum_Ico_succ r0]
        unfold upperPart
        rw [if_pos (le_refl _), if_pos rc]
        congr 1
        exact sum_Ico_congr fun k k0 k1 => by rw [if_pos (by omega), if_pos (by omega)]
      · have h1 : r = j := by omega
        have h2 : c = j := by omega
        subst h1 h2
        rw [if_neg h, if_pos ⟨rfl, rfl⟩, min_self]
        congr 1
        exact sum_Ico_congr fun k k0 k1 => by unfold upperPart; rw [if_pos (by omega)]
    intro r c r0 rj c0 cj
    rcases le_total r c with h | h
    · exact key r c r0 h cj
    · rw [ha, key c r c0 h rj]
      congr 1
      · exact Finset.sum_congr rfl fun k _ => mul_comm _ _
      · exact if_congr and_comm rfl rfl
  have hy := hd (fun i => if i ≤ j then x i else 0) ⟨j, j0, jn, by rw [if_pos (le_refl _), x1]; exact one_ne_zero⟩
  have hcalc : ∑ r ∈ Finset.Ico 0 n, ∑ c ∈ Finset.Ico 0 n, (if r ≤ j then x r else 0) * a r c * (if c ≤ j then x c else 0) = M j j := by
    rw [sum_Ico_shrink (lo' := 0) (hi' := j + 1) (fun r r0 rn hr => by
      rw [if_neg (by omega)]; exact Finset.sum_eq_zero fun c _ => by rw [zero_mul, zero_mul]) (le_refl _) (by omega)]
    have h1 : ∀ r, 0 ≤ r → r < j + 1 → ∑ c ∈ Finset.Ico 0 n, (if r ≤ j then x r else 0) * a r c * (if c ≤ j then x c else 0) =
        (∑ k ∈ Finset.Ico 0 j, x r * upperPart M k r * ∑ c ∈ Finset.Ico 0 (j + 1), upperPart M k c * x c) + if r = j then M j j else 0 := fun r r0 r1 => by
      rw [sum_Ico_shrink (lo' := 0) (hi' := j + 1) (fun c c0 cn hc => by rw [if_neg (show ¬ c ≤ j by omega), mul_zero]) (le_refl _) (by omega), if_pos (by omega)]
      have h2 : ∀ c, 0 ≤ c → c < j + 1 → x r * a r c * (if c ≤ j then x c else 0) =
          (∑ k ∈ Finset.Ico 0 j, x r * upperPart M k r * (upperPart M k c * x c)) + if c = j then (if r = j then M j j else 0) else 0 := fun c c0 c1 => by
        rw [if_pos (by omega), hrep r c r0 (by omega) c0 (by omega), mul_add, add_mul, Finset.mul_sum, Finset.sum_mul]
        congr 1
        · exact Finset.sum_congr rfl fun k _ => by ring
        · by_cases hr : r = j
          · by_cases hc : c = j
            · rw [if_pos ⟨hr, hc⟩, if_pos hc, if_pos hr, hr, hc, x1]; ring
            · rw [if_neg (fun h => hc h.2), if_neg hc]; ring
          · rw [if_neg (fun h => hr h.1), if_neg hr, ite_self]; ring
      rw [sum_Ico_congr h2, Finset.sum_add_distrib, sum_Ico_delta j0 (by omega), Finset.sum_comm]
      congr 1
      exact Finset.sum_congr rfl fun k _ => by rw [Finset.mul_sum]
    rw [sum_Ico_congr h1, Finset.sum_add_distrib, sum_Ico_delta j0 (by omega) (fun _ => M j j), Finset.sum_eq_zero, zero_add]
    intro r _
    refine Finset.sum_eq_zero fun k hk => ?_
    rw [Finset.mem_Ico] at hk
    rw [sum_Ico_shrink (lo' := k) (hi' := j + 1) (fun i i0 i1 hi => by unfold upperPart; rw [if_neg (by omega), zero_mul]) hk.1 (le_refl _),
      sum_Ico_congr (g := fun i => M k i * x i) (fun i i0 i1 => by unfold upperPart; rw [if_pos i0]), hx k hk.1 hk.2, mul_zero]
  rw [← hcalc]; exact hy

/-- **C19 (banded Cholesky, totality).** For every symmetric positive definite banded matrix the factorisation returns, without an access out of bounds, a division by zero or a square root of a
negative number, and the factor has a positive diagonal. -/
theorem C19_chol_total {sqrt : K → K} (hs : IsSqrt sqrt) {A : Banded K} {n b a} (hA : Stores A n n b b a) (hb : 0 ≤ b) (ha : ∀ r c, a r c = a c r) (hd : PosDef n a) :
    ∃ F f, cholfact sqrt A = some F ∧ Stores F n n b b f ∧ (∀ i, 0 ≤ i → i < n → 0 < f i i) ∧
      ∀ r c, 0 ≤ r → r < n → 0 ≤ c → c < n → ∑ k ∈ Finset.Ico 0 n, upperPart f k r * upperPart f k c = a r c := by
  obtain ⟨d1, d2, d3, d4⟩ := hA.dims
  obtain ⟨D, e, s, p, hpos⟩ := forUp_spec (body := cholStep sqrt n b b) (lo := 0) (hi := n) (s := A.D)
    (fun j D => D.size = A.D.size ∧ CholInv n a (FT.bval b b D) j ∧ ∀ k, 0 ≤ k → k < j → 0 < FT.bval b b D k k)
    ⟨rfl, cholInv_start hA ha, fun k _ _ => by omega⟩
    (fun j j0 jn D ⟨s, p, q⟩ => by
      have hp := pivot_pos j0 jn p ha hd fun k k0 kj => ne_of_gt (q k k0 kj)
      obtain ⟨D', e', s', p'⟩ := cholStep_eq hs hb hb j0 jn (by rw [s]; exact hA.alloc) (le_of_lt hp) (Or.inr (ne_of_gt hp))
      refine ⟨D', e', s'.trans s, cholF_step hs j0 jn p p' (le_of_lt hp) (Or.inl (ne_of_gt hp)), fun k k0 kj => ?_⟩
      rw [p' k k k0 (by omega) k0 (by omega)]
      unfold cholF luF
      by_cases hk : k = j
      · rw [if_pos ⟨hk, hk⟩]; exact sqrt_pos hs hp
      · rw [if_neg (by omega), if_neg (by omega), if_pos (by omega)]; exact q k k0 (by omega))
  have hc : cholfact sqrt A = some ⟨n, n, b, b, D⟩ := by
    unfold cholfact
    rw [d1, d2, d3, d4, if_neg (by simp), if_neg (by simp), e]; rfl
  obtain ⟨f, hf, hv⟩ := C19_chol hs hA hb ha hc
  refine ⟨_, f, hc, hf, fun i i0 i1 => ?_, hv⟩
  rw [← hf.bval i0 i1 i0 i1]
  exact hpos i i0 (by omega)

/-- Matrices that are not square, or of different bandwidths, are rejected. -/
theorem C19_rejects {sqrt : K → K} {A : Banded K} (h : A.m ≠ A.n ∨ A.l ≠ A.u) : (A.m ≠ A.n → lufact A = none) ∧ cholfact sqrt A = none := by
  unfold lufact cholfact
  refine ⟨fun h => if_pos h, ?_⟩
  by_cases h1 : A.m ≠ A.n
  · rw [if_pos h1]
  · rw [if_neg h1, if_pos (h.resolve_left h1)]

end Chol

/-! ## Concrete instances -/

/-- `[[2, 1], [4, 5]]` factors into `[[1,0],[2,1]]` and `[[2,1],[0,3]]`. -/
example : ∃ F f, lufact (⟨2, 2, 1, 1, .ofList [0, 2, 4, 1, 5, 0]⟩ : Banded Rat) = some F ∧ Stores F 2 2 1 1 f ∧ f 1 0 = 2 ∧ f 1 1 = 3 := by
  obtain ⟨F, f, e, h, hf⟩ := C19_lu_total (A := (⟨2, 2, 1, 1, .ofList [0, 2, 4, 1, 5, 0]⟩ : Banded Rat)) (n := 2) (l := 1) (u := 1) (.mk' ⟨rfl, rfl, rfl, rfl⟩ (by unfold Banded.WF; decide) fun _ _ => rfl)
    (by decide) (by decide) (L := fun i j => if i = j then 1 else if j < i then 2 else 0) (U := fun i j => if j < i then 0 else if i = 0 ∧ j = 0 then 2 else if i = 1 ∧ j = 1 then 3 else 1)
    (fun i => if_pos rfl) (fun i j h => by rw [if_neg (by omega), if_neg (by omega)]) (fun i _ _ => by rw [if_neg (by omega)]; split_ifs <;> decide)
    (fun i j h => if_pos h) (fun r c r0 rn c0 cn => by
      have e : (Finset.Ico 0 2 : Finset Int) = {0, 1} := by decide
      have hr : r = 0 ∨ r = 1 := by omega
      have hc : c = 0 ∨ c = 1 := by omega
      rw [e, Finset.sum_pair (by decide)]
      rcases hr with rfl | rfl <;> rcases hc with rfl | rfl <;> simp [Banded.ent, Banded.InBand, Buf.ofList] <;> norm_num)
  exact ⟨F, f, e, h, hf 1 0 (by decide) (by decide) (by decide) (by decide), hf 1 1 (by decide) (by decide) (by decide) (by decide)⟩

/-- The matrix `[[4, 2], [2, 10]]` is symmetric and positive definite. -/
example : PosDef 2 (fun r c => if r = 0 ∧ c = 0 then 4 else if r = 1 ∧ c = 1 then 10 else 2 : Int → Int → Rat) := by
  intro x ⟨i, i0, i1, hi⟩
  have e : (Finset.Ico 0 2 : Finset Int) = {0, 1} := by decide
  rw [e]
  simp
  have h : x 0 ≠ 0 ∨ x 1 ≠ 0 := by
    have : i = 0 ∨ i = 1 := by omega
    rcases this with h | h <;> subst h <;> [exact Or.inl hi; exact Or.inr hi]
  rcases h with h | h
  · have := mul_self_pos.2 h; nlinarith [mul_self_nonneg (x 0 + 4 * x 1), mul_self_nonneg (x 0 + x 1), mul_self_nonneg (x 1)]
  · have := mul_self_pos.2 h; nlinarith [mul_self_nonneg (x 0 + x 1), mul_self_nonneg (x 0)]

end FT.Props
