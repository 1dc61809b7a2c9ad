import Verif.Lemmas.PencilFill

/-!
# Filling strided arrays with diagonal connection coefficients
-/

namespace FT.Poly
open FT
variable {K : Type*}

theorem Filled.nil {n inc : Int} (h : n ≤ 0) {D : Buf K} {r : Int → K} : Filled n inc D D r := ⟨rfl, fun i i0 i1 => by omega, fun _ _ => rfl⟩

theorem Filled.next {n inc : Int} (hi : 1 ≤ inc) {D D' : Buf K} {r : Int → K} (h : Filled n inc D D' r) (hn : 0 ≤ n) (hs : n * inc < D.size) :
    ∃ D'', D'.wr (n * inc) (r n) = some D'' ∧ Filled (n + 1) inc D D'' r := by
  have h0 : 0 ≤ n * inc := mul_nonneg hn (by omega)
  have inj : ∀ i, i ≠ n → i * inc ≠ n * inc := fun i hi h => hi (mul_right_cancel₀ (by omega) h)
  refine ⟨_, Buf.wr_of h0 (by rw [h.size]; exact hs), h.size, fun i i0 i1 => ?_, fun q hq => ?_⟩
  · by_cases e : i = n
    · subst e; exact Function.update_self _ _ _
    · exact (Function.update_of_ne (inj i e) _ _).trans (h.val i i0 (by omega))
  · exact (Function.update_of_ne (hq n hn (by omega)) _ _).trans (h.keep q fun i i0 i1 => hq i i0 (by omega))

section
variable {n inc : Int} {D : Buf K} {r : Int → K}

theorem diag0_fill (hinc : 1 ≤ inc) (hs : ∀ i, 0 ≤ i → i < n → i * inc < D.size) {v : K} (h : r 0 = v) : ∃ D', diag0 n v D = some D' ∧ Filled (min 1 n) inc D D' r := by
  unfold diag0
  split_ifs with hn
  · obtain ⟨D', e, f⟩ := (Filled.nil (le_refl 0)).next (r := r) hinc (D := D) le_rfl (hs 0 le_rfl hn)
    rw [zero_mul, h] at e
    exact ⟨D', e, by rw [min_eq_left (by omega)]; exact f⟩
  · exact ⟨D, rfl, .nil (by omega)⟩

theorem diag1_fill (hinc : 1 ≤ inc) (hs : ∀ i, 0 ≤ i → i < n → i * inc < D.size) {D' : Buf K} (hf : Filled (min 1 n) inc D D' r) {g : K → K} (h : r 1 = g (r 0)) :
    ∃ D'', diag1 n inc g D' = some D'' ∧ Filled (min 2 n) inc D D'' r := by
  unfold diag1
  split_ifs with hn
  · rw [min_eq_left (by omega)] at hf ⊢
    obtain ⟨D'', e, f⟩ := hf.next hinc (by omega) (hs 1 (by omega) hn)
    rw [one_mul, h] at e
    have v := hf.val 0 le_rfl (by omega)
    rw [zero_mul] at v
    have s := hs 0 le_rfl (by omega)
    rw [zero_mul] at s
    refine ⟨D'', ?_, f⟩
    rw [Buf.rd_of le_rfl (by rw [hf.size]; exact s), Option.bind_some, v]
    exact e
  · exact ⟨D', rfl, by rw [min_eq_right (by omega)] at hf ⊢; exact hf⟩

theorem diagLoop_fill (hinc : 1 ≤ inc) (hs : ∀ i, 0 ≤ i → i < n → i * inc < D.size) {lo : Int} (hlo : 1 ≤ lo) {D' : Buf K} (hf : Filled (min lo n) inc D D' r) {g : Int → K → K}
    (h : ∀ i, lo ≤ i → r i = g i (r (i - 1))) : ∃ D'', diagLoop lo n inc g D' = some D'' ∧ Filled n inc D D'' r := by
  unfold diagLoop
  obtain ⟨D'', e, f⟩ := forUp_spec (lo := lo) (hi := n) (s := D') (body := fun i D => (D.rd ((i - 1) * inc)).bind fun d => D.wr (i * inc) (g i d)) (fun i s => Filled (min i n) inc D s r) hf
    (fun i i0 i1 s f => by
      rw [min_eq_left (by omega)] at f ⊢
      obtain ⟨s', e', f'⟩ := f.next hinc (by omega) (hs i (by omega) i1)
      refine ⟨s', ?_, f'⟩
      rw [Buf.rd_of (mul_nonneg (by omega) (by omega)) (by rw [f.size]; exact hs (i - 1) (by omega) (by omega)), Option.bind_some, f.val (i - 1) (by omega) (by omega), ← h i i0]
      exact e')
  exact ⟨D'', e, by rw [min_eq_right (by omega)] at f; exact f⟩

/-- The first two entries are set apart. -/
theorem diag_fill2 (hinc : 1 ≤ inc) (hs : ∀ i, 0 ≤ i → i < n → i * inc < D.size) {v : K} {g1 : K → K} {g : Int → K → K} (h0 : r 0 = v) (h1 : r 1 = g1 (r 0)) (h : ∀ i, 2 ≤ i → r i = g i (r (i - 1))) :
    ∃ D', (do let D ← diag0 n v D; let D ← diag1 n inc g1 D; diagLoop 2 n inc g D) = some D' ∧ Filled n inc D D' r := by
  obtain ⟨D1, e1, f1⟩ := diag0_fill (r := r) hinc hs h0
  obtain ⟨D2, e2, f2⟩ := diag1_fill hinc hs f1 h1
  obtain ⟨D3, e3, f3⟩ := diagLoop_fill hinc hs (by norm_num) f2 h
  exact ⟨D3, by show (diag0 n v D).bind _ = _; rw [e1]; show (diag1 n inc g1 D1).bind _ = _; rw [e2]; exact e3, f3⟩

/-- The first entry is set apart. -/
theorem diag_fill1 (hinc : 1 ≤ inc) (hs : ∀ i, 0 ≤ i → i < n → i * inc < D.size) {v : K} {g : Int → K → K} (h0 : r 0 = v) (h : ∀ i, 1 ≤ i → r i = g i (r (i - 1))) :
    ∃ D', (do let D ← diag0 n v D; diagLoop 1 n inc g D) = some D' ∧ Filled n inc D D' r := by
  obtain ⟨D1, e1, f1⟩ := diag0_fill (r := r) hinc hs h0
  obtain ⟨D3, e3, f3⟩ := diagLoop_fill hinc hs (by norm_num) f1 h
  exact ⟨D3, by show (diag0 n v D).bind _ = _; rw [e1]; exact e3, f3⟩

/-- All entries are set without reading. -/
theorem diag_fill0 (hinc : 1 ≤ inc) (hs : ∀ i, 0 ≤ i → i < n → i * inc < D.size) : ∃ D', forUp 0 n (fun i D => D.wr (i * inc) (r i)) D = some D' ∧ Filled n inc D D' r := by
  obtain ⟨D'', e, f⟩ := forUp_spec (lo := 0) (hi := n) (s := D) (body := fun i D => D.wr (i * inc) (r i)) (fun i s => Filled (min i n) inc D s r) (.nil (by omega))
    (fun i i0 i1 s f => by
      rw [min_eq_left (by omega)] at f ⊢
      exact f.next hinc (by omega) (hs i (by omega) i1))
  exact ⟨D'', e, by rw [min_eq_right (by omega)] at f; exact f⟩

end

section roots
variable [Field K] [LinearOrder K] [IsStrictOrderedRing K] {sqrt : K → K}

theorem sqrt_inv (hs : IsSqrt sqrt) {a : K} (ha : 0 < a) : sqrt (1 / a) = 1 / sqrt a := by
  have h := hs a (le_of_lt ha)
  have p := sqrt_pos hs ha
  exact sqrt_unique hs (by positivity) (by positivity) (by rw [div_mul_div_comm, h.2, one_mul])

theorem sqrt_div (hs : IsSqrt sqrt) {a b : K} (ha : 0 ≤ a) (hb : 0 < b) : sqrt (a / b) = sqrt a / sqrt b := by
  rw [div_eq_mul_one_div, sqrt_mul hs ha (by positivity), sqrt_inv hs hb, mul_one_div]

/-- Quotients of two families follow quotients of their steps. -/
theorem ratio_step {s t σ τ : Int → K} (hs : ∀ n, 0 ≤ n → s (n + 1) = s n * σ n) (ht : ∀ n, 0 ≤ n → t (n + 1) = t n * τ n) {i : Int} (hi : 1 ≤ i) :
    s i / t i = σ (i - 1) / τ (i - 1) * (s (i - 1) / t (i - 1)) := by
  have h1 := hs (i - 1) (by omega)
  have h2 := ht (i - 1) (by omega)
  rw [sub_add_cancel] at h1 h2
  rw [h1, h2, mul_comm (σ _ / _), div_mul_div_comm]

end roots

end FT.Poly
