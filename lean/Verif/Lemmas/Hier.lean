import Verif.Model.Hier
import Verif.Lemmas.Accum
import Mathlib.Algebra.BigOperators.Ring.Finset
import Mathlib.Tactic.Ring

/-! # Lemmas on products with dense, low-rank and hierarchical matrices -/

namespace FT
variable {K : Type*}

instance (p : Ptr) (n a : Int) : Decidable (p.In n a) := inferInstanceAs (Decidable (_ ∧ _))

/-- The memory `M` with `y[0], …, y[n-1]` replaced by `f 0, …, f (n-1)`. -/
def updP (M : Buf K) (y : Ptr) (n : Int) (f : Int → K) : Buf K := ⟨M.size, fun a => if y.In n a then f (a - y.at 0) else M.val a⟩

theorem updP_out {M : Buf K} {y : Ptr} {n a : Int} {f : Int → K} (h : ¬ y.In n a) : (updP M y n f).val a = M.val a := if_neg h

theorem updP_in {M : Buf K} {y : Ptr} {n i : Int} {f : Int → K} (h0 : 0 ≤ i) (h1 : i < n) : (updP M y n f).val (y.at i) = f i := by
  unfold updP
  simp only
  rw [if_pos (by unfold Ptr.In Ptr.at; omega)]
  congr 1
  unfold Ptr.at; omega

theorem Ptr.in_at {y : Ptr} {n i : Int} (h0 : 0 ≤ i) (h1 : i < n) : y.In n (y.at i) := by unfold Ptr.In Ptr.at; omega

theorem Ptr.in_iff {y : Ptr} {n a : Int} : y.In n a ↔ ∃ i, 0 ≤ i ∧ i < n ∧ a = y.at i := by
  constructor
  · intro h
    exact ⟨a - y.at 0, by unfold Ptr.In at h; omega, by unfold Ptr.In Ptr.at at *; omega, by unfold Ptr.at; omega⟩
  · rintro ⟨i, h0, h1, rfl⟩; exact Ptr.in_at h0 h1

theorem updP_zero {M : Buf K} {y : Ptr} {n : Int} {f : Int → K} (h : n ≤ 0) : updP M y n f = M :=
  Buf.ext' rfl fun a => by rw [updP_out]; unfold Ptr.In Ptr.at; omega

theorem updP_succ {M : Buf K} {y : Ptr} {i : Int} {f : Int → K} {v : K} (h0 : 0 ≤ i) (hv : v = f i) :
    (⟨(updP M y i f).size, Function.update (updP M y i f).val (y.at i) v⟩ : Buf K) = updP M y (i + 1) f := by
  refine Buf.ext' rfl fun a => ?_
  simp only [Function.update_apply]
  split_ifs with h
  · rw [h, updP_in h0 (by omega), hv]
  · unfold updP
    simp only
    by_cases c : y.In i a
    · rw [if_pos c, if_pos (by unfold Ptr.In Ptr.at at *; omega)]
    · rw [if_neg c, if_neg (by unfold Ptr.In Ptr.at at *; omega)]

theorem updP_max {M : Buf K} {y : Ptr} {n : Int} {f : Int → K} : updP M y (max 0 n) f = updP M y n f := by
  rcases le_total 0 n with h | h
  · rw [max_eq_right h]
  · rw [max_eq_left h, updP_zero (le_refl _), updP_zero h]

theorem updP_congr {M : Buf K} {y : Ptr} {n : Int} {f g : Int → K} (h : ∀ i, 0 ≤ i → i < n → f i = g i) : updP M y n f = updP M y n g := by
  refine Buf.ext' rfl fun a => ?_
  unfold updP
  simp only
  split_ifs with c
  · exact h _ (by unfold Ptr.In at c; omega) (by unfold Ptr.In Ptr.at at *; omega)
  · rfl

theorem updP_updP {M : Buf K} {y : Ptr} {n : Int} {f g : Int → K} : updP (updP M y n f) y n g = updP M y n g := by
  refine Buf.ext' rfl fun a => ?_
  unfold updP
  simp only
  split_ifs <;> rfl

theorem updP_size {M : Buf K} {y : Ptr} {n : Int} {f : Int → K} : (updP M y n f).size = M.size := rfl

theorem updP_self {M : Buf K} {y : Ptr} {n : Int} {f : Int → K} (h : ∀ i, 0 ≤ i → i < n → f i = M.val (y.at i)) : updP M y n f = M := by
  refine Buf.ext' rfl fun a => ?_
  by_cases c : y.In n a
  · obtain ⟨i, h0, h1, rfl⟩ := Ptr.in_iff.1 c
    rw [updP_in h0 h1, h i h0 h1]
  · rw [updP_out c]

theorem Ptr.add_at (p : Ptr) (k i : Int) : (p.add k).at i = p.at (k + i) := by unfold Ptr.add Ptr.at; simp only; omega

theorem Ptr.add_in (p : Ptr) (k n a : Int) : (p.add k).In n a ↔ p.at k ≤ a ∧ a < p.at (k + n) := by
  unfold Ptr.In Ptr.add Ptr.at; simp only; constructor <;> intro h <;> omega

theorem Ptr.Ok.add {p : Ptr} {n : Int} {s : Nat} (h : p.Ok n s) {k l : Int} (h0 : 0 ≤ k) (h1 : k + l ≤ n) : (p.add k).Ok l s := by
  unfold Ptr.Ok Ptr.add at *; simp only; omega

namespace Prog
variable [Zero K] {σ : Type*}

theorem run_then {α β : Type*} {p : Prog K α} {f : α → Prog K β} {A B : Buf K} {a : α} (h : p.run A = some (a, B)) : (p.bind f).run A = (f a).run B := by
  rw [run_bind, h, Option.bind_some]

/-- Loops with registers. -/
theorem each_upS {body : Int → σ → Prog K σ} {lo hi : Int} {s : σ} {A : Buf K} (P : Int → σ → Buf K → Prop) (h0 : P lo s A)
    (hstep : ∀ i, lo ≤ i → i < hi → ∀ s A, P i s A → ∃ s' A', (body i s).run A = some (s', A') ∧ P (i + 1) s' A') :
    ∃ s' A', (Prog.each body (rUp lo hi) s).run A = some (s', A') ∧ P (max lo hi) s' A' := by
  rw [Prog.run_each, ← forUp_exec]
  obtain ⟨⟨s', A'⟩, e, p⟩ := forUp_spec (body := fun i (x : σ × Buf K) => (body i x.1).run x.2) (lo := lo) (hi := hi) (s := (s, A))
    (fun i x => P i x.1 x.2) h0 (fun i h1 h2 x p => by
      obtain ⟨s', A', e, p'⟩ := hstep i h1 h2 x.1 x.2 p
      exact ⟨(s', A'), e, p'⟩)
  exact ⟨s', A', e, p⟩

/-- Loops that fill `y[0], …, y[n-1]` one after the other. -/
theorem each_fill {body : Int → Unit → Prog K Unit} {n : Int} {y : Ptr} {M : Buf K} {f : Int → K}
    (h : ∀ i, 0 ≤ i → i < n → (body i ()).run (updP M y i f) = some ((), updP M y (i + 1) f)) :
    (Prog.each body (rUp 0 n) ()).run M = some ((), updP M y n f) := by
  obtain ⟨⟨⟩, A, e, p⟩ := each_upS (body := body) (lo := 0) (hi := n) (s := ()) (A := M) (fun i _ A => A = updP M y i f)
    (updP_zero (le_refl _)).symm (fun i h0 h1 _ A hA => ⟨(), updP M y (i + 1) f, by rw [hA]; exact h i h0 h1, rfl⟩)
  rw [e, p, updP_max]

end Prog

end FT

namespace FT.Model
open FT FT.Prog
variable {K : Type*} [CommRing K] [DecidableEq K]

theorem betaP_run {beta : K} {n : Int} {y : Ptr} {M : Buf K} (hy : y.Ok n M.size) :
    (betaP beta n y).run M = some ((), updP M y n fun i => beta * M.val (y.at i)) := by
  unfold betaP
  split_ifs with h1 h2
  · refine each_fill fun i h0 h1 => ?_
    rw [run_put (n := n) (by exact hy) h0 h1]
    rw [updP_succ h0 (by rw [h2, zero_mul])]
  · refine each_fill fun i h0 h1 => ?_
    rw [run_get_bind (n := n) (by exact hy) h0 h1, run_put (n := n) (by exact hy) h0 h1, updP_succ h0]
    rw [updP_out (by unfold Ptr.In Ptr.at; omega)]
  · have h1 : beta = 1 := by simpa using h1
    rw [updP_self (fun i _ _ => by rw [h1, one_mul])]
    rfl

section Gemv
variable {m n LDA : Int} {alpha beta : K} {A : Buf K} {x y : Ptr} {M : Buf K}

theorem gemvN_run (hx : x.Ok n M.size) (hy : y.Ok m M.size) (hA : ∀ i j, 0 ≤ i → i < m → 0 ≤ j → j < n → A.rd (i + j * LDA) = some (A.val (i + j * LDA)))
    (hxy : ∀ j, 0 ≤ j → j < n → ¬ y.In m (x.at j)) :
    (gemvP 'N' m n alpha A LDA x beta y).run M =
      some ((), updP M y m fun i => beta * M.val (y.at i) + alpha * ∑ j ∈ Finset.Ico 0 n, A.val (i + j * LDA) * M.val (x.at j)) := by
  unfold gemvP
  rw [if_pos rfl, run_bind, betaP_run hy, Option.bind_some]
  obtain ⟨⟨⟩, A', e, p⟩ := each_upS (K := K) (lo := 0) (hi := n) (s := ()) (A := updP M y m fun i => beta * M.val (y.at i))
    (body := fun j _ => (get x j).bind fun v =>
      let t := alpha * v
      each (fun i _ => (ofOption (A.rd (i + j * LDA))).bind fun a => (get y i).bind fun v => put y i (v + a * t)) (rUp 0 m) ())
    (fun j _ X => X = updP M y m fun i => beta * M.val (y.at i) + alpha * ∑ k ∈ Finset.Ico 0 j, A.val (i + k * LDA) * M.val (x.at k))
    (updP_congr fun i _ _ => by rw [Finset.Ico_self, Finset.sum_empty, mul_zero, add_zero]) (by
      intro j j0 j1 _ X hX
      refine ⟨(), updP M y m fun i => beta * M.val (y.at i) + alpha * ∑ k ∈ Finset.Ico 0 (j + 1), A.val (i + k * LDA) * M.val (x.at k), ?_, rfl⟩
      rw [hX, run_get_bind (n := n) (by exact hx) j0 j1, updP_out (hxy j j0 j1)]
      dsimp only
      conv_rhs => rw [← updP_updP (f := fun i => beta * M.val (y.at i) + alpha * ∑ k ∈ Finset.Ico 0 j, A.val (i + k * LDA) * M.val (x.at k))]
      refine each_fill fun i h0 h1 => ?_
      rw [run_ofOption_bind (hA i j h0 h1 j0 j1), run_get_bind (n := m) (by exact hy) h0 h1, run_put (n := m) (by exact hy) h0 h1, updP_succ h0]
      rw [updP_out (n := i) (by unfold Ptr.In Ptr.at; omega), updP_in h0 h1, sum_Ico_succ j0]
      ring)
  rw [e, p]
  rcases le_total 0 n with h | h
  · rw [max_eq_right h]
  · rw [max_eq_left h, Finset.Ico_self, Finset.Ico_eq_empty (by omega)]

theorem gemvT_run (hx : x.Ok m M.size) (hy : y.Ok n M.size) (hA : ∀ j i, 0 ≤ j → j < m → 0 ≤ i → i < n → A.rd (j + i * LDA) = some (A.val (j + i * LDA)))
    (hxy : ∀ j, 0 ≤ j → j < m → ¬ y.In n (x.at j)) :
    (gemvP 'T' m n alpha A LDA x beta y).run M =
      some ((), updP M y n fun i => beta * M.val (y.at i) + alpha * ∑ j ∈ Finset.Ico 0 m, A.val (j + i * LDA) * M.val (x.at j)) := by
  unfold gemvP
  rw [if_neg (by decide), if_pos rfl, run_bind, betaP_run hy, Option.bind_some]
  conv_rhs => rw [← updP_updP (f := fun i => beta * M.val (y.at i))]
  refine each_fill fun i h0 h1 => ?_
  rw [run_bind]
  obtain ⟨t, A', e, p⟩ := each_upS (K := K) (lo := 0) (hi := m) (s := (0 : K))
    (A := updP (updP M y n fun i => beta * M.val (y.at i)) y i fun i => beta * M.val (y.at i) + alpha * ∑ j ∈ Finset.Ico 0 m, A.val (j + i * LDA) * M.val (x.at j))
    (body := fun j t => (ofOption (A.rd (j + i * LDA))).bind fun a => (get x j).bind fun v => .ret (t + a * v))
    (fun j t X => t = ∑ k ∈ Finset.Ico 0 j, A.val (k + i * LDA) * M.val (x.at k) ∧
      X = updP (updP M y n fun i => beta * M.val (y.at i)) y i fun i => beta * M.val (y.at i) + alpha * ∑ j ∈ Finset.Ico 0 m, A.val (j + i * LDA) * M.val (x.at j))
    ⟨by rw [Finset.Ico_self, Finset.sum_empty], rfl⟩ (by
      rintro j j0 j1 t X ⟨ht, hX⟩
      refine ⟨t + A.val (j + i * LDA) * X.val (x.at j), X, ?_, ?_, hX⟩
      · rw [run_ofOption_bind (hA j i j0 j1 h0 h1), run_get_bind (n := m) (by rw [hX]; exact hx) j0 j1]
        rfl
      · rw [sum_Ico_succ j0, ht, hX]
        have hin := hxy j j0 j1
        rw [updP_out (n := i) (by unfold Ptr.In at *; unfold Ptr.at at *; omega), updP_out hin])
  rw [e, Option.bind_some, p.1, p.2]
  dsimp only
  rw [run_get_bind (n := n) (by exact hy) h0 h1, run_put (n := n) (by exact hy) h0 h1, updP_succ h0]
  rw [updP_out (n := i) (by unfold Ptr.In Ptr.at; omega), updP_in h0 h1]
  congr 2
  rcases le_total 0 m with h | h
  · rw [max_eq_right h]
  · rw [max_eq_left h, Finset.Ico_self, Finset.Ico_eq_empty (by omega)]

end Gemv

/-! ## Accesses -/

theorem betaP_acc {R W : Int → Prop} {beta : K} {n : Int} {y : Ptr} (hR : ∀ i, 0 ≤ i → i < n → R (y.at i)) (hW : ∀ i, 0 ≤ i → i < n → W (y.at i)) :
    (betaP beta n y).Acc R W := by
  unfold betaP
  split_ifs
  · exact Acc.each (fun i hi _ => Acc.put fun _ _ => hW i (mem_rUp.1 hi).1 (mem_rUp.1 hi).2) ()
  · exact Acc.each (fun i hi _ => (Acc.get fun _ _ => hR i (mem_rUp.1 hi).1 (mem_rUp.1 hi).2).bind fun _ =>
      Acc.put fun _ _ => hW i (mem_rUp.1 hi).1 (mem_rUp.1 hi).2) ()
  · trivial

/-- `gemv` reads `x` and `y` and writes `y`. -/
theorem gemvP_acc {R W : Int → Prop} {tr : Char} {m n LDA : Int} {alpha beta : K} {A : Buf K} {x y : Ptr}
    (hx : ∀ i, 0 ≤ i → i < (if tr = 'N' then n else m) → R (x.at i)) (hR : ∀ i, 0 ≤ i → i < (if tr = 'N' then m else n) → R (y.at i))
    (hW : ∀ i, 0 ≤ i → i < (if tr = 'N' then m else n) → W (y.at i)) : (gemvP tr m n alpha A LDA x beta y).Acc R W := by
  unfold gemvP
  split_ifs at * with h1 h2
  · refine (betaP_acc hR hW).bind fun _ => Acc.each (fun j hj _ => (Acc.get fun _ _ => hx j (mem_rUp.1 hj).1 (mem_rUp.1 hj).2).bind fun v => ?_) ()
    exact Acc.each (fun i hi _ => (Acc.ofOption _).bind fun a => (Acc.get fun _ _ => hR i (mem_rUp.1 hi).1 (mem_rUp.1 hi).2).bind fun v =>
      Acc.put fun _ _ => hW i (mem_rUp.1 hi).1 (mem_rUp.1 hi).2) ()
  · refine (betaP_acc hR hW).bind fun _ => Acc.each (fun i hi _ => ?_) ()
    refine Acc.bind (Acc.each (fun j hj t => ?_) _) fun t => ?_
    · exact (Acc.ofOption _).bind fun a => (Acc.get fun _ _ => hx j (mem_rUp.1 hj).1 (mem_rUp.1 hj).2).bind fun v => trivial
    · exact (Acc.get fun _ _ => hR i (mem_rUp.1 hi).1 (mem_rUp.1 hi).2).bind fun v => Acc.put fun _ _ => hW i (mem_rUp.1 hi).1 (mem_rUp.1 hi).2
  · trivial

end FT.Model
