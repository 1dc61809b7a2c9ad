import Verif.Props.Qr
import Verif.Props.Tri

/-!
# C20: solving with a banded QR factorisation

`ft_bqmv('T', F, x)` followed by `ft_brsv('N', F, x)` solves the least-squares problem of a matrix with independent columns, and a consistent system exactly.
-/

namespace FT.Props
open FT
variable {K : Type*} [Field K] [LinearOrder K] [IsStrictOrderedRing K]

/-- The columns of the `m × n` matrix `a` are independent. -/
def Independent (m n : Int) (a : Int → Int → K) : Prop := ∀ x : Int → K, (∀ r, 0 ≤ r → r < m → ∑ c ∈ Finset.Ico 0 n, a r c * x c = 0) → ∀ c, 0 ≤ c → c < n → x c = 0

section
variable {F : BandedQ K} {m n : Int} {R a : Int → Int → K}

omit [IsStrictOrderedRing K] in
theorem qr_inner (hO : Orthogonal F m) (hR : Reproduces F m n R a) (hm : 0 ≤ m) {b y : Buf K} (hb : m ≤ b.size) (hy : bqmv 'T' F b = some y) {c : Int} (c0 : 0 ≤ c) (c1 : c < n) :
    ∑ r ∈ Finset.Ico 0 m, y.val r * R r c = ∑ r ∈ Finset.Ico 0 m, b.val r * a r c := by
  obtain ⟨w, e, hw⟩ := hR c c0 c1 ⟨m.toNat, fun r => R r c⟩ (by show m ≤ ((m.toNat : Nat) : Int); omega) fun _ _ _ => rfl
  obtain ⟨w', w'', e1, -, s, u, -, -⟩ := hO 'N' 'T' (.inl ⟨rfl, rfl⟩) ⟨m.toNat, fun r => R r c⟩ ⟨m.toNat, fun r => R r c⟩ (by show m ≤ ((m.toNat : Nat) : Int); omega) (by show m ≤ ((m.toNat : Nat) : Int); omega)
  obtain rfl : w = w' := by rw [e] at e1; exact Option.some.inj e1
  obtain ⟨y1, y2, e2, e3, -, -, -, i⟩ := hO 'T' 'N' (.inr ⟨rfl, rfl⟩) b w hb (by rw [s]; show m ≤ ((m.toNat : Nat) : Int); omega)
  obtain rfl : y = y1 := by rw [hy] at e2; exact Option.some.inj e2
  obtain rfl : ⟨m.toNat, fun r => R r c⟩ = y2 := by rw [u] at e3; exact Option.some.inj e3
  refine i.trans (sum_Ico_congr fun r r0 r1 => by rw [hw r r0 r1])

omit [IsStrictOrderedRing K] in
theorem qr_gram (hO : Orthogonal F m) (hR : Reproduces F m n R a) (hm : 0 ≤ m) {c d : Int} (c0 : 0 ≤ c) (c1 : c < n) (d0 : 0 ≤ d) (d1 : d < n) :
    ∑ r ∈ Finset.Ico 0 m, R r d * R r c = ∑ r ∈ Finset.Ico 0 m, a r d * a r c := by
  obtain ⟨w, e, hw⟩ := hR d d0 d1 ⟨m.toNat, fun r => R r d⟩ (by show m ≤ ((m.toNat : Nat) : Int); omega) fun _ _ _ => rfl
  obtain ⟨w', w'', e1, -, s, u, -, -⟩ := hO 'N' 'T' (.inl ⟨rfl, rfl⟩) ⟨m.toNat, fun r => R r d⟩ ⟨m.toNat, fun r => R r d⟩ (by show m ≤ ((m.toNat : Nat) : Int); omega) (by show m ≤ ((m.toNat : Nat) : Int); omega)
  obtain rfl : w = w' := by rw [e] at e1; exact Option.some.inj e1
  rw [qr_inner hO hR hm (b := w) (y := ⟨m.toNat, fun r => R r d⟩) (by rw [s]; show m ≤ ((m.toNat : Nat) : Int); omega) u c0 c1]
  exact sum_Ico_congr fun r r0 r1 => by rw [hw r r0 r1]

omit [LinearOrder K] [IsStrictOrderedRing K] in
theorem sq_expand (g : Int → Int → K) (z : Int → K) : ∑ r ∈ Finset.Ico 0 m, (∑ k ∈ Finset.Ico 0 n, g r k * z k) * (∑ k ∈ Finset.Ico 0 n, g r k * z k) =
    ∑ k ∈ Finset.Ico 0 n, ∑ l ∈ Finset.Ico 0 n, z k * z l * ∑ r ∈ Finset.Ico 0 m, g r k * g r l := by
  have e : ∀ r, (∑ k ∈ Finset.Ico 0 n, g r k * z k) * (∑ k ∈ Finset.Ico 0 n, g r k * z k) = ∑ k ∈ Finset.Ico 0 n, ∑ l ∈ Finset.Ico 0 n, z k * z l * (g r k * g r l) := fun r => by
    rw [Finset.sum_mul]
    refine Finset.sum_congr rfl fun k _ => ?_
    rw [Finset.mul_sum]
    exact Finset.sum_congr rfl fun l _ => by ring
  simp only [e, Finset.mul_sum]
  rw [Finset.sum_comm]
  refine Finset.sum_congr rfl fun k _ => ?_
  rw [Finset.sum_comm]

theorem sq_zero {v : Int → K} (h : ∑ r ∈ Finset.Ico 0 m, v r * v r = 0) : ∀ r, 0 ≤ r → r < m → v r = 0 := fun r r0 r1 => by
  have := (Finset.sum_eq_zero_iff_of_nonneg fun i _ => mul_self_nonneg (v i)).1 h r (Finset.mem_Ico.2 ⟨r0, r1⟩)
  exact mul_self_eq_zero.1 this

theorem qr_regular (hO : Orthogonal F m) (hR : Reproduces F m n R a) (hm : 0 ≤ m) (hu : ∀ i k, k < i → R i k = 0) (hi : Independent m n a) (k : ℕ) : ∀ j : Int, 0 ≤ j → j < n → j < k → R j j ≠ 0 := by
  induction k with
  | zero => intro j j0 _ j1; omega
  | succ k ih =>
    intro j j0 j1 jk hz
    obtain ⟨y, hy⟩ := tri_exists (n := j) (x := (⟨j.toNat, fun i => -R i j⟩ : Buf K)) (c := R) (by show j ≤ ((j.toNat : Nat) : Int); omega)
      (fun i i0 i1 => ih i i0 (by omega) (by omega)) fun i l _ _ _ h => hu i l h
    have z0 : ∀ r, 0 ≤ r → r < m → ∑ c ∈ Finset.Ico 0 n, R r c * (if c < j then y c else if c = j then 1 else 0) = 0 := fun r r0 r1 => by
      rw [sum_Ico_shrink (f := fun c => R r c * (if c < j then y c else if c = j then 1 else 0)) (lo := 0) (hi := n) (lo' := 0) (hi' := j + 1)
        (fun c c0 c1 hc => by rw [if_neg (by omega), if_neg (by omega), mul_zero]) le_rfl (by omega), sum_Ico_succ (f := fun c => R r c * (if c < j then y c else if c = j then 1 else 0)) (show (0 : Int) ≤ j by omega), if_neg (lt_irrefl j), if_pos rfl, mul_one]
      rw [sum_Ico_congr (g := fun c => R r c * y c) fun c _ c1 => by rw [if_pos c1]]
      rcases lt_trichotomy r j with h | h | h
      · have := hy r r0 h
        rw [this]
        exact neg_add_cancel _
      · rw [h, hz, add_zero]
        exact Finset.sum_eq_zero fun c hc => by rw [hu j c (Finset.mem_Ico.1 hc).2, zero_mul]
      · rw [hu r j h, add_zero]
        exact Finset.sum_eq_zero fun c hc => by rw [hu r c (by have := (Finset.mem_Ico.1 hc).2; omega), zero_mul]
    have q : ∑ r ∈ Finset.Ico 0 m, (∑ c ∈ Finset.Ico 0 n, a r c * (if c < j then y c else if c = j then 1 else 0)) * (∑ c ∈ Finset.Ico 0 n, a r c * (if c < j then y c else if c = j then 1 else 0)) = 0 := by
      rw [sq_expand]
      rw [sum_Ico_congr (g := fun k => ∑ l ∈ Finset.Ico 0 n, (if k < j then y k else if k = j then 1 else 0) * (if l < j then y l else if l = j then 1 else 0) * ∑ r ∈ Finset.Ico 0 m, R r k * R r l)
        fun k k0 k1 => sum_Ico_congr fun l l0 l1 => by rw [qr_gram hO hR hm l0 l1 k0 k1], ← sq_expand]
      exact Finset.sum_eq_zero fun r hr => by rw [z0 r (Finset.mem_Ico.1 hr).1 (Finset.mem_Ico.1 hr).2, mul_zero]
    have := hi _ (sq_zero q) j j0 j1
    rw [if_neg (lt_irrefl j), if_pos rfl] at this
    exact one_ne_zero this

end

/-- `a z` is the closest to `b`: the residual is orthogonal to every column. -/
def LeastSquares (m n : Int) (a : Int → Int → K) (b z : Int → K) : Prop := ∀ c, 0 ≤ c → c < n → ∑ r ∈ Finset.Ico 0 m, a r c * (b r - ∑ k ∈ Finset.Ico 0 n, a r k * z k) = 0

/-- **C20** With the QR factorisation of a matrix with independent columns, applying `Qᵀ` and solving with `R` gives the least-squares solution for every right-hand side. -/
theorem C20_least_squares {sqrt : K → K} (hs : IsSqrt sqrt) {A : Banded K} {m n l u a} (hA : Stores A m n l u a) (hn : 0 ≤ n) (hm : n ≤ m) (hl : 0 ≤ l) (hu : 0 ≤ u) (hi : Independent m n a) :
    ∃ F, qrfact sqrt A = some F ∧ ∀ b : Buf K, m ≤ b.size → ∃ y z, bqmv 'T' F b = some y ∧ brsv 'N' F.factors y = some z ∧ z.size = b.size ∧ LeastSquares m n a b.val z.val ∧
      ∀ i, ¬ (0 ≤ i ∧ i < m) → z.val i = b.val i := by
  obtain ⟨F, f, e, hf, hO, hR⟩ := C20_qr hs hA (by omega) hn hl hu
  have m0 : 0 ≤ m := by omega
  have up : ∀ i k, k < i → upperPart f i k = 0 := fun i k h => if_neg (by omega)
  have reg : ∀ i, 0 ≤ i → i < n → f i i ≠ 0 := fun i i0 i1 => by
    have := qr_regular hO hR m0 up hi (i.toNat + 1) i i0 i1 (by omega)
    unfold upperPart at this
    rwa [if_pos le_rfl] at this
  refine ⟨F, e, fun b hb => ?_⟩
  obtain ⟨y, -, ey, -, sy, -, oy, -⟩ := hO 'T' 'N' (.inr ⟨rfl, rfl⟩) b b hb hb
  obtain ⟨z, ez, sz, vz, oz⟩ := (C18_brsv hf hm hl (by omega) reg (tr := 'N') (.inl rfl)).1 y (by rw [sy]; omega)
  refine ⟨y, z, ey, ez, sz.trans sy, fun c c0 c1 => ?_, fun i h => by rw [oz i (by omega), oy i h]⟩
  have e1 : ∑ r ∈ Finset.Ico 0 m, a r c * (b.val r - ∑ k ∈ Finset.Ico 0 n, a r k * z.val k) = ∑ r ∈ Finset.Ico 0 m, b.val r * a r c - ∑ k ∈ Finset.Ico 0 n, z.val k * ∑ r ∈ Finset.Ico 0 m, a r c * a r k := by
    simp only [mul_sub, Finset.sum_sub_distrib, Finset.mul_sum]
    congr 1
    · exact Finset.sum_congr rfl fun _ _ => mul_comm _ _
    · rw [Finset.sum_comm]
      exact Finset.sum_congr rfl fun _ _ => Finset.sum_congr rfl fun _ _ => by ring
  have e2 : ∑ r ∈ Finset.Ico 0 m, upperPart f r c * (y.val r - ∑ k ∈ Finset.Ico 0 n, upperPart f r k * z.val k) =
      ∑ r ∈ Finset.Ico 0 m, y.val r * upperPart f r c - ∑ k ∈ Finset.Ico 0 n, z.val k * ∑ r ∈ Finset.Ico 0 m, upperPart f r c * upperPart f r k := by
    simp only [mul_sub, Finset.sum_sub_distrib, Finset.mul_sum]
    congr 1
    · exact Finset.sum_congr rfl fun _ _ => mul_comm _ _
    · rw [Finset.sum_comm]
      exact Finset.sum_congr rfl fun _ _ => Finset.sum_congr rfl fun _ _ => by ring
  rw [e1, ← qr_inner hO hR m0 hb ey c0 c1, sum_Ico_congr (f := fun k => z.val k * ∑ r ∈ Finset.Ico 0 m, a r c * a r k) (g := fun k => z.val k * ∑ r ∈ Finset.Ico 0 m, upperPart f r c * upperPart f r k) fun k k0 k1 => by rw [qr_gram hO hR m0 k0 k1 c0 c1], ← e2]
  refine Finset.sum_eq_zero fun r hr => ?_
  rw [Finset.mem_Ico] at hr
  rcases lt_or_ge r n with h | h
  · have := vz r hr.1 h
    rw [show (∑ k ∈ Finset.Ico 0 n, upperPart f r k * z.val k) = y.val r from this, sub_self, mul_zero]
  · rw [up r c (by omega), zero_mul]

/-- **C20** A consistent system is solved exactly. -/
theorem C20_qr_solve {sqrt : K → K} (hs : IsSqrt sqrt) {A : Banded K} {m n l u a} (hA : Stores A m n l u a) (hn : 0 ≤ n) (hm : n ≤ m) (hl : 0 ≤ l) (hu : 0 ≤ u) (hi : Independent m n a) :
    ∃ F, qrfact sqrt A = some F ∧ ∀ (b : Buf K) (x : Int → K), m ≤ b.size → (∀ r, 0 ≤ r → r < m → ∑ c ∈ Finset.Ico 0 n, a r c * x c = b.val r) →
      ∃ y z, bqmv 'T' F b = some y ∧ brsv 'N' F.factors y = some z ∧ z.size = b.size ∧ (∀ c, 0 ≤ c → c < n → z.val c = x c) ∧ ∀ i, ¬ (0 ≤ i ∧ i < m) → z.val i = b.val i := by
  obtain ⟨F, e, h⟩ := C20_least_squares hs hA hn hm hl hu hi
  refine ⟨F, e, fun b x hb hx => ?_⟩
  obtain ⟨y, z, ey, ez, sz, lz, oz⟩ := h b hb
  refine ⟨y, z, ey, ez, sz, fun c c0 c1 => ?_, oz⟩
  have d : ∀ r, 0 ≤ r → r < m → b.val r - ∑ k ∈ Finset.Ico 0 n, a r k * z.val k = ∑ k ∈ Finset.Ico 0 n, a r k * (x k - z.val k) := fun r r0 r1 => by
    rw [← hx r r0 r1, ← Finset.sum_sub_distrib]
    exact Finset.sum_congr rfl fun _ _ => by ring
  have q : ∑ r ∈ Finset.Ico 0 m, (∑ k ∈ Finset.Ico 0 n, a r k * (x k - z.val k)) * (∑ k ∈ Finset.Ico 0 n, a r k * (x k - z.val k)) = 0 := by
    have : ∀ r, (∑ k ∈ Finset.Ico 0 n, a r k * (x k - z.val k)) * (∑ k ∈ Finset.Ico 0 n, a r k * (x k - z.val k)) =
        ∑ c ∈ Finset.Ico 0 n, (x c - z.val c) * (a r c * ∑ k ∈ Finset.Ico 0 n, a r k * (x k - z.val k)) := fun r => by
      rw [Finset.sum_mul]
      exact Finset.sum_congr rfl fun _ _ => by ring
    simp only [this]
    rw [Finset.sum_comm]
    refine Finset.sum_eq_zero fun c hc => ?_
    rw [Finset.mem_Ico] at hc
    rw [← Finset.mul_sum, sum_Ico_congr (g := fun r => a r c * (b.val r - ∑ k ∈ Finset.Ico 0 n, a r k * z.val k)) fun r r0 r1 => by rw [d r r0 r1], lz c hc.1 hc.2, mul_zero]
  exact (sub_eq_zero.1 (hi _ (sq_zero q) c c0 c1)).symm

/-! ## Concrete instance -/

/-- A tall bidiagonal real matrix, with columns `(3, 4, 0)` and `(0, 1, 2)`, and a consistent right-hand side. -/
example : ∃ F y z, qrfact Real.sqrt (⟨3, 2, 1, 0, .ofList [3, 4, 1, 2]⟩ : Banded ℝ) = some F ∧ bqmv 'T' F (.ofList [3, 6, 4]) = some y ∧ brsv 'N' F.factors y = some z ∧ z.val 0 = 1 ∧ z.val 1 = 2 := by
  have hS : Stores (⟨3, 2, 1, 0, .ofList [3, 4, 1, 2]⟩ : Banded ℝ) 3 2 1 0 (⟨3, 2, 1, 0, .ofList [3, 4, 1, 2]⟩ : Banded ℝ).ent := .mk' ⟨rfl, rfl, rfl, rfl⟩ (show (2 : Int) * (1 + 0 + 1) ≤ 4 by decide) fun _ _ => rfl
  have a00 : (⟨3, 2, 1, 0, .ofList [3, 4, 1, 2]⟩ : Banded ℝ).ent 0 0 = 3 := rfl
  have a10 : (⟨3, 2, 1, 0, .ofList [3, 4, 1, 2]⟩ : Banded ℝ).ent 1 0 = 4 := rfl
  have a20 : (⟨3, 2, 1, 0, .ofList [3, 4, 1, 2]⟩ : Banded ℝ).ent 2 0 = 0 := rfl
  have a01 : (⟨3, 2, 1, 0, .ofList [3, 4, 1, 2]⟩ : Banded ℝ).ent 0 1 = 0 := rfl
  have a11 : (⟨3, 2, 1, 0, .ofList [3, 4, 1, 2]⟩ : Banded ℝ).ent 1 1 = 1 := rfl
  have a21 : (⟨3, 2, 1, 0, .ofList [3, 4, 1, 2]⟩ : Banded ℝ).ent 2 1 = 2 := rfl
  have i2 : ∀ g : Int → ℝ, ∑ c ∈ Finset.Ico 0 (2 : Int), g c = g 0 + g 1 := fun g => by
    rw [show (2 : Int) = 0 + 1 + 1 by decide, sum_Ico_succ (by decide), sum_Ico_succ (by decide)]
    simp
  obtain ⟨F, e, h⟩ := C20_qr_solve real_isSqrt hS (by decide) (by decide) (by decide) (by decide) fun x hx c c0 c1 => by
    have r0 := hx 0 (by decide) (by decide)
    have r1 := hx 1 (by decide) (by decide)
    rw [i2, a00, a01] at r0
    rw [i2, a10, a11] at r1
    rcases (show c = 0 ∨ c = 1 by omega) with rfl | rfl <;> linarith
  obtain ⟨y, z, e1, e2, -, hz, -⟩ := h (.ofList [3, 6, 4]) (fun c => if c = 0 then 1 else 2) (by decide) fun r r0 r1 => by
    rw [i2]
    rcases (show r = 0 ∨ r = 1 ∨ r = 2 by omega) with rfl | rfl | rfl
    · rw [a00, a01]; show _ = (3 : ℝ); norm_num
    · rw [a10, a11]; show _ = (6 : ℝ); norm_num
    · rw [a20, a21]; show _ = (4 : ℝ); norm_num
  exact ⟨F, y, z, e, e1, e2, (hz 0 (by decide) (by decide)).trans (if_pos rfl), (hz 1 (by decide) (by decide)).trans (if_neg (by decide))⟩

end FT.Props
