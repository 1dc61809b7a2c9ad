import Verif.Lemmas.BaryCheb
import Mathlib.Algebra.BigOperators.Field
import Mathlib.Tactic.IntervalCases

/-!
# C50: barycentric interpolation matrices reproduce polynomials

`Interpolates A x m y n`: the matrix with `m` rows stored by columns in `A` is finite, its rows sum to one, and it maps the values at the nodes `y` of any polynomial of degree below `n` to
its values at the targets `x`.
-/

set_option linter.unusedSectionVars false

namespace FT.Props.Bary
open FT Polynomial
variable {K : Type*} [Field K] [DecidableEq K]

/-- The specification. -/
def Interpolates (A : Buf (Option K)) (x : Int → K) (m : Int) (y : Int → K) (n : Int) : Prop :=
  ∃ W : Int → Int → K, (∀ i j, 0 ≤ i → i < m → 0 ≤ j → j < n → A.val (i + m * j) = some (W i j)) ∧
    (∀ i, 0 ≤ i → i < m → ∑ j ∈ Finset.Ico 0 n, W i j = 1) ∧
    (∀ i k, 0 ≤ i → i < m → 0 ≤ k → k < n → x i = y k → ∀ j, 0 ≤ j → j < n → W i j = if j = k then 1 else 0) ∧
    ∀ p : K[X], (p.natDegree : Int) < n → ∀ i, 0 ≤ i → i < m → ∑ j ∈ Finset.Ico 0 n, W i j * p.eval (y j) = p.eval (x i)

/-- Nothing outside the matrix changes. -/
def OnlyMatrix (A A' : Buf (Option K)) (m n : Int) : Prop := A'.size = A.size ∧ ∀ q, (∀ i j, 0 ≤ i → i < m → 0 ≤ j → j < n → q ≠ i + m * j) → A'.val q = A.val q

/-- **C50** Whatever the weights: a row whose target is a node is the unit vector of the first such node; every other row is finite and sums to one, unless its weighted sum vanishes. -/
theorem C50_rows {m n : Int} {x y l : Buf K} (hx : m ≤ x.size) (hy : n ≤ y.size) (hl : n ≤ l.size) {A : Buf (Option K)} (hA : m * n ≤ A.size)
    (hs : ∀ i, 0 ≤ i → i < m → (∀ j, 0 ≤ j → j < n → x.val i ≠ y.val j) → ∑ j ∈ Finset.Ico 0 n, l.val j / (x.val i - y.val j) ≠ 0) :
    ∃ A', baryMatrix A x m y l n = some A' ∧ OnlyMatrix A A' m n ∧ ∃ W : Int → Int → K, (∀ i j, 0 ≤ i → i < m → 0 ≤ j → j < n → A'.val (i + m * j) = some (W i j)) ∧
      (∀ i, 0 ≤ i → i < m → ∑ j ∈ Finset.Ico 0 n, W i j = 1) ∧
      ∀ i k, 0 ≤ i → i < m → 0 ≤ k → k < n → x.val i = y.val k → (∀ j, 0 ≤ j → j < k → x.val i ≠ y.val j) → ∀ j, 0 ≤ j → j < n → W i j = if j = k then 1 else 0 := by
  obtain ⟨A', e, h1, h2, h3⟩ := baryMatrix_spec hx hy hl hA hs
  refine ⟨A', e, ⟨h1, h2⟩, fun i j => (A'.val (i + m * j)).getD 0, fun i j i0 i1 j0 j1 => ?_, fun i i0 i1 => ?_, fun i k i0 i1 k0 k1 hk hmin j j0 j1 => ?_⟩
  · rcases h3 i i0 i1 with ⟨-, h⟩ | ⟨k, -, -, -, -, h⟩ <;> beta_reduce <;> rw [h j j0 j1, Option.getD_some]
  · rcases h3 i i0 i1 with ⟨g, h⟩ | ⟨k, k0, k1, -, -, h⟩
    · rw [sum_Ico_congr (g := fun j => l.val j / (x.val i - y.val j) / ∑ j ∈ Finset.Ico 0 n, l.val j / (x.val i - y.val j)) fun j j0 j1 => by beta_reduce; rw [h j j0 j1, Option.getD_some], ← Finset.sum_div,
        div_self (hs i i0 i1 g)]
    · rw [sum_Ico_congr (g := fun j => if j = k then (1 : K) else 0) fun j j0 j1 => by beta_reduce; rw [h j j0 j1, Option.getD_some], Finset.sum_ite_eq' (Finset.Ico 0 n) k fun _ => (1 : K), if_pos (Finset.mem_Ico.2 ⟨k0, k1⟩)]
  · rcases h3 i i0 i1 with ⟨g, -⟩ | ⟨k', k0', k1', g1, g2, h⟩
    · exact absurd hk (g k k0 k1)
    · beta_reduce; rw [h j j0 j1, Option.getD_some]
      have : k' = k := by
        rcases lt_trichotomy k' k with h | h | h
        · exact absurd g1 (hmin k' k0' h)
        · exact h
        · exact absurd hk (g2 k k0 h)
      rw [this]

/-- **C50** With distinct nodes and weights proportional to `1 / ∏ (yⱼ - yₖ)`, the matrix interpolates: exact for all polynomials of degree below `n` and all targets, nodes or not. -/
theorem C50_exact {m n : Int} (hn : 0 < n) {x y l : Buf K} (hx : m ≤ x.size) (hy : n ≤ y.size) (hl : n ≤ l.size) {A : Buf (Option K)} (hA : m * n ≤ A.size)
    (hinj : ∀ i j, 0 ≤ i → i < n → 0 ≤ j → j < n → y.val i = y.val j → i = j) {c : K} (hc : c ≠ 0)
    (hw : ∀ j, 0 ≤ j → j < n → l.val j = c * ∏ k ∈ (Finset.Ico 0 n).erase j, (y.val j - y.val k)⁻¹) :
    ∃ A', baryMatrix A x m y l n = some A' ∧ OnlyMatrix A A' m n ∧ Interpolates A' x.val m y.val n := by
  have hne : (Finset.Ico 0 n).Nonempty := ⟨0, Finset.mem_Ico.2 ⟨le_rfl, hn⟩⟩
  have hinj' : Set.InjOn y.val (Finset.Ico 0 n) := fun i hi j hj h => by
    rw [Finset.coe_Ico, Set.mem_Ico] at hi hj
    exact hinj i j hi.1 hi.2 hj.1 hj.2 h
  have hterm : ∀ i j, 0 ≤ j → j < n → l.val j / (x.val i - y.val j) = c * (Lagrange.nodalWeight (Finset.Ico 0 n) y.val j * (x.val i - y.val j)⁻¹) := fun i j j0 j1 => by
    rw [hw j j0 j1, div_eq_mul_inv, mul_assoc]; rfl
  have hsum : ∀ i, ∑ j ∈ Finset.Ico 0 n, l.val j / (x.val i - y.val j) = c * ∑ j ∈ Finset.Ico 0 n, Lagrange.nodalWeight (Finset.Ico 0 n) y.val j * (x.val i - y.val j)⁻¹ := fun i => by
    rw [Finset.mul_sum]; exact sum_Ico_congr fun j j0 j1 => hterm i j j0 j1
  have hs : ∀ i, 0 ≤ i → i < m → (∀ j, 0 ≤ j → j < n → x.val i ≠ y.val j) → ∑ j ∈ Finset.Ico 0 n, l.val j / (x.val i - y.val j) ≠ 0 := fun i i0 i1 h => by
    rw [hsum]
    exact mul_ne_zero hc (Lagrange.sum_nodalWeight_mul_inv_sub_ne_zero hinj' (fun j hj => h j (Finset.mem_Ico.1 hj).1 (Finset.mem_Ico.1 hj).2) hne)
  obtain ⟨A', e, h0, W, h1, h2, h3⟩ := C50_rows hx hy hl hA hs
  obtain ⟨A'', e', -, -, h4⟩ := baryMatrix_spec hx hy hl hA hs
  rw [e] at e'
  cases e'
  refine ⟨A', e, h0, W, h1, h2, fun i k i0 i1 k0 k1 hk => h3 i k i0 i1 k0 k1 hk fun j j0 j1 h => ?_, fun p hp i i0 i1 => ?_⟩
  · have := hinj j k j0 (by omega) k0 k1 (by rw [← h, hk]); omega
  · rcases h4 i i0 i1 with ⟨g, h⟩ | ⟨k, k0, k1, g1, g2, h⟩
    · have hpi : p = Lagrange.interpolate (Finset.Ico 0 n) y.val fun j => p.eval (y.val j) :=
        Lagrange.eq_interpolate hinj' (lt_of_le_of_lt degree_le_natDegree (by rw [Int.card_Ico]; exact_mod_cast (show p.natDegree < (n - 0).toNat by omega)))
      have hv := Lagrange.eval_interpolate_not_at_node' (fun j => p.eval (y.val j)) hinj' hne (x := x.val i) fun j hj => g j (Finset.mem_Ico.1 hj).1 (Finset.mem_Ico.1 hj).2
      rw [← hpi] at hv
      rw [hv, Finset.sum_div]
      refine sum_Ico_congr fun j j0 j1 => ?_
      have hW : W i j = l.val j / (x.val i - y.val j) / ∑ j ∈ Finset.Ico 0 n, l.val j / (x.val i - y.val j) := by
        have := h1 i j i0 i1 j0 j1; rw [h j j0 j1] at this; exact (Option.some.inj this).symm
      rw [hW, hsum, hterm i j j0 j1, mul_div_mul_left _ _ hc]
      ring
    · rw [sum_Ico_congr (g := fun j => if j = k then p.eval (y.val j) else 0) fun j j0 j1 => by
        have := h1 i j i0 i1 j0 j1
        rw [h j j0 j1] at this
        rw [← Option.some.inj this]
        split_ifs <;> ring, Finset.sum_ite_eq' (Finset.Ico 0 n) k fun j => p.eval (y.val j), if_pos (Finset.mem_Ico.2 ⟨k0, k1⟩), g1]

section Chebyshev

/-- The value of `Y(__sinpi)` without rounding. -/
noncomputable def sinpi (t : ℝ) : ℝ := Real.sin (Real.pi * t)

/-- The Chebyshev points, for `kind` `'1'` or `'2'`. -/
noncomputable def chebNode (kind : Char) (n k : Int) : ℝ := if kind = '1' then Real.cos ((2 * k + 1) * Real.pi / (2 * n)) else Real.cos (k * Real.pi / (n - 1))

/-- The barycentric weights of the literature. -/
noncomputable def chebWeight (kind : Char) (n k : Int) : ℝ :=
  (if kind = '1' then Real.sin ((2 * k + 1) * Real.pi / (2 * n)) else if k = 0 ∨ k = n - 1 then 1 / 2 else 1) * if k % 2 = 0 then 1 else -1

/-- A loop which fills positions `lo … hi-1`. -/
theorem fill_spec {lo hi : Int} {g : Int → ℝ} {b : Buf ℝ} (h0 : 0 ≤ lo) (h1 : hi ≤ b.size) {body : Int → Buf ℝ → Option (Buf ℝ)} (hb : ∀ k c, lo ≤ k → k < hi → body k c = c.wr k (g k)) :
    ∃ c, forUp lo hi body b = some c ∧ c.size = b.size ∧ (∀ k, lo ≤ k → k < hi → c.val k = g k) ∧ ∀ k, ¬ (lo ≤ k ∧ k < hi) → c.val k = b.val k := by
  obtain ⟨c, e, p1, p2, p3⟩ := forUp_spec (lo := lo) (hi := hi) (s := b) (body := body)
    (fun m c => c.size = b.size ∧ (∀ k, lo ≤ k → k < m → k < hi → c.val k = g k) ∧ ∀ k, ¬ (lo ≤ k ∧ k < hi) → c.val k = b.val k) ⟨rfl, fun k h1 h2 => by omega, fun _ _ => rfl⟩
    (fun k k0 k1 c hc => by
      rw [hb k c k0 k1, Buf.wr_of (by omega) (by omega)]
      refine ⟨_, rfl, hc.1, fun j a1 a2 a3 => ?_, fun j hj => ?_⟩
      · dsimp only
        by_cases h : j = k
        · subst h; rw [Function.update_self]
        · rw [Function.update_of_ne h]; exact hc.2.1 j a1 (by omega) a3
      · dsimp only; rw [Function.update_of_ne (by omega)]; exact hc.2.2 j hj)
  exact ⟨c, e, p1, fun k k0 k1 => p2 k k0 (by omega) k1, p3⟩

/-- A loop which fills the second half from the first. -/
theorem mirror_spec {n : Int} {g : Int → ℝ} {f : ℝ → ℝ} {b : Buf ℝ} (hn : 0 < n) (h1 : n ≤ b.size) (hb : ∀ k, 0 ≤ k → 2 * k + 1 ≤ n → b.val k = g k)
    (hf : ∀ k, 0 ≤ k → k < n / 2 → f (g k) = g (n - 1 - k)) :
    ∃ c, forUp 0 (n / 2) (fun k x => (x.rd k).bind fun v => x.wr (n - 1 - k) (f v)) b = some c ∧ c.size = b.size ∧ ∀ k, 0 ≤ k → k < n → c.val k = g k := by
  obtain ⟨c, e, p1, p2⟩ := forUp_spec (lo := 0) (hi := n / 2) (s := b) (body := fun k (x : Buf ℝ) => (x.rd k).bind fun v => x.wr (n - 1 - k) (f v))
    (fun m c => c.size = b.size ∧ ∀ k, 0 ≤ k → k < n → (2 * k + 1 ≤ n ∨ n - 1 - m < k) → c.val k = g k) ⟨rfl, fun k k0 k1 h => hb k k0 (by omega)⟩
    (fun k k0 k1 c hc => by
      rw [Buf.rd_of k0 (by omega), Option.bind_some, hc.2 k k0 (by omega) (.inl (by omega)), hf k k0 k1, Buf.wr_of (by omega) (by omega)]
      refine ⟨_, rfl, hc.1, fun j a1 a2 a3 => ?_⟩
      dsimp only
      by_cases h : j = n - 1 - k
      · subst h; rw [Function.update_self]
      · rw [Function.update_of_ne h]; exact hc.2 j a1 a2 (by omega))
  exact ⟨c, e, p1, fun k k0 k1 => p2 k k0 k1 (by omega)⟩

theorem neg_spec {n : Int} {g : Int → ℝ} {b : Buf ℝ} (h1 : n ≤ b.size) (hb : ∀ k, 0 ≤ k → k < n → b.val k = g k) :
    ∃ c, forStep 1 n 2 (fun k l => (l.rd k).bind fun v => l.wr k (v * -1)) b = some c ∧ c.size = b.size ∧ ∀ k, 0 ≤ k → k < n → c.val k = g k * if k % 2 = 0 then 1 else -1 := by
  unfold forStep
  obtain ⟨c, e, p1, p2⟩ := loop_spec (n := stepCount 1 n 2) (s := b) (body := fun (k : Nat) (l : Buf ℝ) => (l.rd (1 + 2 * (k : Int))).bind fun v => l.wr (1 + 2 * (k : Int)) (v * -1))
    (fun m c => c.size = b.size ∧ ∀ k, 0 ≤ k → k < n → c.val k = g k * if k % 2 = 0 ∨ 1 + 2 * (m : Int) ≤ k then 1 else -1)
    ⟨rfl, fun k k0 k1 => by rw [if_pos (by omega), mul_one]; exact hb k k0 k1⟩
    (fun m hm c hc => by
      have hlt : 1 + 2 * (m : Int) < n := by unfold stepCount at hm; omega
      rw [Buf.rd_of (by omega) (by omega), Option.bind_some, Buf.wr_of (by omega) (by omega)]
      refine ⟨_, rfl, hc.1, fun j a1 a2 => ?_⟩
      dsimp only
      by_cases h : j = 1 + 2 * (m : Int)
      · subst h; rw [Function.update_self, hc.2 _ a1 a2, if_pos (by omega), if_neg (by omega)]; ring
      · rw [Function.update_of_ne h, hc.2 j a1 a2]
        congr 1
        split_ifs <;> first | rfl | omega)
  refine ⟨c, e, p1, fun k k0 k1 => ?_⟩
  rw [p2 k k0 k1]
  congr 1
  have hcnt : k < 1 + 2 * ((stepCount 1 n 2 : Nat) : Int) := by unfold stepCount; omega
  split_ifs <;> first | rfl | omega

theorem divC_real {a b : ℝ} (h : b ≠ 0) : divC a b = some (a / b) := divC_of h

/-- **C50** The points are the Chebyshev points of the first kind, `cos((2k+1)π/2n)`, or of the second kind, `cos(kπ/(n-1))`, in this order. -/
theorem C50_points {kind : Char} {n : Int} (hk : kind = '1' ∧ 1 ≤ n ∨ kind = '2' ∧ 2 ≤ n) (junk : Int → ℝ) :
    ∃ x, chebPoints sinpi kind n junk = some x ∧ (x.size : Int) = n ∧ ∀ k, 0 ≤ k → k < n → x.val k = chebNode kind n k := by
  have hn : 1 ≤ n := by omega
  have hsz : (((⟨n.toNat, junk⟩ : Buf ℝ).size : Nat) : Int) = n := by dsimp only; omega
  rcases hk with ⟨rfl, h⟩ | ⟨rfl, h⟩
  · have hn0 : ((2 * n : Int) : ℝ) ≠ 0 := by exact_mod_cast (show 2 * n ≠ 0 by omega)
    have hn1 : (n : ℝ) ≠ 0 := by exact_mod_cast (show n ≠ 0 by omega)
    obtain ⟨b, e1, s1, v1, -⟩ := fill_spec (lo := 0) (hi := n / 2 + 1) (g := chebNode '1' n) (b := ⟨n.toNat, junk⟩) le_rfl (by omega)
      (body := fun k x => (divC (((n - 2 * k : Int) : ℝ) - 1) ((2 * n : Int) : ℝ)).bind fun t => x.wr k (sinpi t)) fun k c _ _ => by
        rw [divC_real hn0, Option.bind_some]
        congr 1
        unfold sinpi chebNode
        rw [if_pos rfl, ← Real.cos_pi_div_two_sub]
        congr 1
        push_cast
        field_simp
        ring
    obtain ⟨c, e2, s2, v2⟩ := mirror_spec (n := n) (b := b) (g := chebNode '1' n) (f := fun v => -v) (by omega) (by omega) (fun k k0 k1 => v1 k k0 (by omega)) fun k _ _ => by
      unfold chebNode
      rw [if_pos rfl, if_pos rfl, ← Real.cos_pi_sub]
      congr 1
      push_cast
      field_simp
      ring
    refine ⟨c, ?_, by omega, v2⟩
    unfold chebPoints
    rw [if_pos rfl]
    exact (congrArg (Option.bind · _) e1).trans e2
  · have hn0 : ((2 * n - 2 : Int) : ℝ) ≠ 0 := by exact_mod_cast (show 2 * n - 2 ≠ 0 by omega)
    have hn1 : (n : ℝ) - 1 ≠ 0 := by
      have : ((n - 1 : Int) : ℝ) ≠ 0 := by exact_mod_cast (show n - 1 ≠ 0 by omega)
      push_cast at this; exact this
    have h21 : ¬ ('2' : Char) = '1' := by decide
    obtain ⟨b, e1, s1, v1, -⟩ := fill_spec (lo := 0) (hi := n / 2 + 1) (g := chebNode '2' n) (b := ⟨n.toNat, junk⟩) le_rfl (by omega)
      (body := fun k x => (divC (((n - 2 * k : Int) : ℝ) - 1) ((2 * n - 2 : Int) : ℝ)).bind fun t => x.wr k (sinpi t)) fun k c _ _ => by
        rw [divC_real hn0, Option.bind_some]
        congr 1
        unfold sinpi chebNode
        rw [if_neg h21, ← Real.cos_pi_div_two_sub]
        congr 1
        push_cast
        rw [show (2 : ℝ) * n - 2 = 2 * (n - 1) by ring]
        field_simp
        ring
    obtain ⟨c, e2, s2, v2⟩ := mirror_spec (n := n) (b := b) (g := chebNode '2' n) (f := fun v => -v) (by omega) (by omega) (fun k k0 k1 => v1 k k0 (by omega)) fun k _ _ => by
      unfold chebNode
      rw [if_neg h21, if_neg h21, ← Real.cos_pi_sub]
      congr 1
      push_cast
      field_simp
    refine ⟨c, ?_, by omega, v2⟩
    unfold chebPoints
    rw [if_neg h21, if_pos rfl]
    exact (congrArg (Option.bind · _) e1).trans e2

/-- **C50** The weights are those of the literature. -/
theorem C50_weights {kind : Char} {n : Int} (hk : kind = '1' ∧ 1 ≤ n ∨ kind = '2' ∧ 2 ≤ n) (junk : Int → ℝ) :
    ∃ l, chebWeights sinpi kind n junk = some l ∧ (l.size : Int) = n ∧ ∀ k, 0 ≤ k → k < n → l.val k = chebWeight kind n k := by
  have hn : 1 ≤ n := by omega
  have hsz : (((⟨n.toNat, junk⟩ : Buf ℝ).size : Nat) : Int) = n := by dsimp only; omega
  rcases hk with ⟨rfl, h⟩ | ⟨rfl, h⟩
  · have hn0 : ((2 * n : Int) : ℝ) ≠ 0 := by exact_mod_cast (show 2 * n ≠ 0 by omega)
    have hn1 : (n : ℝ) ≠ 0 := by exact_mod_cast (show n ≠ 0 by omega)
    obtain ⟨b, e1, s1, v1, -⟩ := fill_spec (lo := 0) (hi := n / 2 + 1) (g := fun k => Real.sin ((2 * k + 1) * Real.pi / (2 * n))) (b := ⟨n.toNat, junk⟩) le_rfl (by omega)
      (body := fun k x => (divC (((2 * k : Int) : ℝ) + 1) ((2 * n : Int) : ℝ)).bind fun t => x.wr k (sinpi t)) fun k c _ _ => by
        rw [divC_real hn0, Option.bind_some]
        congr 1
        unfold sinpi
        congr 1
        push_cast
        ring
    obtain ⟨c, e2, s2, v2⟩ := mirror_spec (n := n) (b := b) (g := fun k => Real.sin ((2 * k + 1) * Real.pi / (2 * n))) (f := fun v => v) (by omega) (by omega) (fun k k0 k1 => v1 k k0 (by omega)) fun k _ _ => by
      rw [← Real.sin_pi_sub]
      congr 1
      push_cast
      field_simp
      ring
    obtain ⟨d, e3, s3, v3⟩ := neg_spec (by omega) v2
    refine ⟨d, ?_, by omega, fun k k0 k1 => ?_⟩
    · unfold chebWeights baryTail
      rw [if_pos rfl]
      exact (congrArg (Option.bind · _) e1).trans ((congrArg (Option.bind · _) e2).trans e3)
    · rw [v3 k k0 k1]; unfold chebWeight; rw [if_pos rfl]
  · have h21 : ¬ ('2' : Char) = '1' := by decide
    obtain ⟨b, e1, s1, v1, w1⟩ := fill_spec (lo := 1) (hi := n / 2 + 1) (g := fun _ => (1 : ℝ)) (b := ⟨n.toNat, Function.update junk 0 (1 / 2)⟩) (by omega) (by dsimp only; omega)
      (body := fun k x => x.wr k 1) fun k c _ _ => rfl
    have s1' : (b.size : Int) = n := by rw [s1]; exact hsz
    obtain ⟨c, e2, s2, v2⟩ := mirror_spec (n := n) (b := b) (g := fun k => if k = 0 ∨ k = n - 1 then (1 / 2 : ℝ) else 1) (f := fun v => v) (by omega) (by omega) (fun k k0 k1 => by
      by_cases h0 : k = 0
      · subst h0
        rw [w1 0 (by omega), if_pos (.inl rfl)]
        show Function.update junk 0 (1 / 2) 0 = _
        rw [Function.update_self]
      · rw [v1 k (by omega) (by omega), if_neg (by omega)]) fun k _ _ => by
      split_ifs <;> first | rfl | omega
    obtain ⟨d, e3, s3, v3⟩ := neg_spec (by omega) v2
    refine ⟨d, ?_, by omega, fun k k0 k1 => ?_⟩
    · unfold chebWeights baryTail
      rw [if_neg h21, if_pos rfl, divC_real (by norm_num), Option.bind_some, Buf.wr_of (by omega) (by omega), Option.bind_some]
      exact (congrArg (Option.bind · _) e1).trans ((congrArg (Option.bind · _) e2).trans e3)
    · rw [v3 k k0 k1]; unfold chebWeight; rw [if_neg h21]

/-- **C50** The interpolation matrix made from the library's points and weights is exact for every polynomial of degree below `n` and every target. -/
theorem C50_chebyshev {kind : Char} {n : Int} (hk : kind = '1' ∧ 1 ≤ n ∨ kind = '2' ∧ 2 ≤ n) (j1 j2 : Int → ℝ) {m : Int} {x : Buf ℝ} (hx : m ≤ x.size) {A : Buf (Option ℝ)} (hA : m * n ≤ A.size) :
    ∃ y l A', chebPoints sinpi kind n j1 = some y ∧ chebWeights sinpi kind n j2 = some l ∧ baryMatrix A x m y l n = some A' ∧ OnlyMatrix A A' m n ∧
      Interpolates A' x.val m (chebNode kind n) n := by
  obtain ⟨y, e1, s1, v1⟩ := C50_points hk j1
  obtain ⟨l, e2, s2, v2⟩ := C50_weights hk j2
  have h21 : ¬ ('2' : Char) = '1' := by decide
  have hnode : ∀ k, 0 ≤ k → k < n → y.val k = (if kind = '1' then node1 n k else node2 n k) := fun k k0 k1 => by
    rw [v1 k k0 k1]; rfl
  have hnw : ∀ v : Int → ℝ, (∀ k, 0 ≤ k → k < n → y.val k = v k) → ∀ j, 0 ≤ j → j < n → Lagrange.nodalWeight (Finset.Ico 0 n) v j = ∏ k ∈ (Finset.Ico 0 n).erase j, (y.val j - y.val k)⁻¹ := fun v hv j j0 j1 => by
    unfold Lagrange.nodalWeight
    refine Finset.prod_congr rfl fun k hk => ?_
    rw [Finset.mem_erase, Finset.mem_Ico] at hk
    rw [hv j j0 j1, hv k hk.2.1 hk.2.2]
  have key : ∃ c : ℝ, c ≠ 0 ∧ (∀ j, 0 ≤ j → j < n → l.val j = c * ∏ k ∈ (Finset.Ico 0 n).erase j, (y.val j - y.val k)⁻¹) ∧ ∀ i j, 0 ≤ i → i < n → 0 ≤ j → j < n → y.val i = y.val j → i = j := by
    rcases hk with ⟨rfl, h⟩ | ⟨rfl, h⟩
    · have hn1 : (n : ℝ) ≠ 0 := by exact_mod_cast (show n ≠ 0 by omega)
      have hnd : ∀ k, 0 ≤ k → k < n → y.val k = node1 n k := fun k k0 k1 => by rw [hnode k k0 k1, if_pos rfl]
      refine ⟨n / 2 ^ (n.natAbs - 1), div_ne_zero hn1 (by positivity), fun j j0 j1 => ?_, fun i j i0 i1 j0 j1 he => ?_⟩
      · rw [← hnw _ hnd j j0 j1, weight1 (by omega) (Finset.mem_Ico.2 ⟨j0, j1⟩), v2 j j0 j1]
        unfold chebWeight sgn
        rw [if_pos rfl]
        field_simp
      · exact node1_injOn (by simpa using And.intro i0 i1) (by simpa using And.intro j0 j1) (by rw [← hnd i i0 i1, ← hnd j j0 j1, he])
    · have hn1 : (n : ℝ) - 1 ≠ 0 := by
        have : ((n - 1 : Int) : ℝ) ≠ 0 := by exact_mod_cast (show n - 1 ≠ 0 by omega)
        push_cast at this; exact this
      have hnd : ∀ k, 0 ≤ k → k < n → y.val k = node2 n k := fun k k0 k1 => by rw [hnode k k0 k1, if_neg h21]
      refine ⟨2 * (n - 1) / 2 ^ (n.natAbs - 1), div_ne_zero (mul_ne_zero two_ne_zero hn1) (by positivity), fun j j0 j1 => ?_, fun i j i0 i1 j0 j1 he => ?_⟩
      · rw [← hnw _ hnd j j0 j1, weight2 h (Finset.mem_Ico.2 ⟨j0, j1⟩), v2 j j0 j1]
        unfold chebWeight sgn
        rw [if_neg h21]
        field_simp
      · exact node2_injOn h (by simpa using And.intro i0 i1) (by simpa using And.intro j0 j1) (by rw [← hnd i i0 i1, ← hnd j j0 j1, he])
  obtain ⟨c, hc, hw, hinj⟩ := key
  obtain ⟨A', e3, h1, W, h2, h3, h4, h5⟩ := C50_exact (by omega) hx (by omega) (by omega) hA hinj hc hw
  refine ⟨y, l, A', e1, e2, e3, h1, W, h2, h3, fun i k i0 i1 k0 k1 he => h4 i k i0 i1 k0 k1 (by rw [he, v1 k k0 k1]), fun p hp i i0 i1 => ?_⟩
  rw [← h5 p hp i i0 i1]
  exact sum_Ico_congr fun j j0 j1 => by rw [v1 j j0 j1]

/-- **C50** Without points (`n = 0`) the routines write past the end of an empty array. -/
theorem C50_empty_defect (kind : Char) (hk : kind = '1' ∨ kind = '2') (junk : Int → ℝ) : chebPoints sinpi kind 0 junk = none ∧ chebWeights sinpi kind 0 junk = none := by
  have h21 : ¬ ('2' : Char) = '1' := by decide
  have hw : ∀ v : ℝ, Buf.wr (⟨0, junk⟩ : Buf ℝ) 0 v = none := fun v => Buf.wr_oob (by simp)
  rcases hk with rfl | rfl <;> constructor <;> simp [chebPoints, chebWeights, forUp, loop, hw, divC, h21]

/-- Three targets, one of them the middle node of the five of the second kind: the theorem applies, and says that the matrix is exact for degree four. -/
example (j1 j2 : Int → ℝ) : ∃ y l A', chebPoints sinpi '2' 5 j1 = some y ∧ chebWeights sinpi '2' 5 j2 = some l ∧
    baryMatrix (⟨15, fun _ => none⟩ : Buf (Option ℝ)) ⟨3, fun q => if q = 1 then 0 else 7⟩ 3 y l 5 = some A' ∧ OnlyMatrix ⟨15, fun _ => none⟩ A' 3 5 ∧
      Interpolates A' (fun q => if q = 1 then 0 else 7) 3 (chebNode '2' 5) 5 :=
  C50_chebyshev (.inr ⟨rfl, by norm_num⟩) j1 j2 (by simp) (by simp)

end Chebyshev

/-- Nodes 0, 1, 2 with weights 1, -2, 1 (twice the products); target 3 and target 1. -/
example : (baryMatrix (⟨6, fun _ => none⟩ : Buf (Option ℚ)) (Buf.ofList [3, 1]) 2 (Buf.ofList [0, 1, 2]) (Buf.ofList [1, -2, 1]) 3).map Buf.toList =
    some [some 1, some 0, some (-3), some 1, some 3, some 0] := by decide +kernel

example : ∃ A', baryMatrix (⟨6, fun _ => none⟩ : Buf (Option ℚ)) (Buf.ofList [3, 1]) 2 (Buf.ofList [0, 1, 2]) (Buf.ofList [1, -2, 1]) 3 = some A' ∧ OnlyMatrix ⟨6, fun _ => none⟩ A' 2 3 ∧
    Interpolates A' (Buf.ofList [3, 1]).val 2 (Buf.ofList [0, 1, 2]).val 3 :=
  C50_exact (m := 2) (n := 3) (c := 2) (by norm_num) (by simp [Buf.ofList]) (by simp [Buf.ofList]) (by simp [Buf.ofList]) (by norm_num)
    (fun i j i0 i1 j0 j1 => by interval_cases i <;> interval_cases j <;> decide +kernel) (by norm_num)
    (fun j j0 j1 => by interval_cases j <;> decide +kernel)

end FT.Props.Bary
