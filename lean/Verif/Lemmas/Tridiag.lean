import Verif.Model.Tridiag
import Verif.Lemmas.RankOne

/-! # Lemmas on tridiagonal matrices -/

namespace FT
variable {K σ : Type*}

/-- Partial correctness of a loop: an invariant preserved by every successful step holds at the end of a successful run. -/
theorem forUp_inv {body : Int → σ → Option σ} {lo hi : Int} {s s' : σ} (P : Int → σ → Prop) (h0 : P lo s)
    (hstep : ∀ i, lo ≤ i → i < hi → ∀ s t, P i s → body i s = some t → P (i + 1) t) (h : forUp lo hi body s = some s') : P (max lo hi) s' := by
  have key : ∀ k : Nat, k ≤ (hi - lo).toNat → ∀ t, loop (fun k => body (lo + k)) k s = some t → P (lo + k) t := by
    intro k
    induction k with
    | zero => intro _ t ht; rw [loop_zero] at ht; injection ht with ht; subst ht; simpa using h0
    | succ k ih =>
      intro hk t ht
      rw [loop_succ] at ht
      obtain ⟨u, hu, hb⟩ := Option.bind_eq_some_iff.1 ht
      have := hstep (lo + k) (by omega) (by omega) u t (ih (by omega) u hu) hb
      rwa [Nat.cast_add, Nat.cast_one, ← add_assoc]
  have := key (hi - lo).toNat (le_refl _) s' h
  rwa [show max lo hi = lo + ((hi - lo).toNat : Int) by omega]

section Ring
variable [CommRing K]

theorem addAt_eq {y : Buf K} {i : Int} {v : Option K} {g : K} (h0 : 0 ≤ i) (h1 : i < y.size) (hv : v = some g) :
    addAt y i v = some (mix y i (i + 1) fun j => y.val j + g) := by
  unfold addAt
  rw [hv, Buf.rd_of h0 h1, Option.bind_some, Option.bind_some, Buf.wr_of h0 h1]
  congr 1
  refine Buf.ext' rfl fun j => ?_
  show Function.update y.val i (y.val i + g) j = if i ≤ j ∧ j < i + 1 then y.val j + g else y.val j
  rw [Function.update_apply]
  by_cases h : j = i
  · rw [if_pos h, if_pos (by omega), h]
  · rw [if_neg h, if_neg (by omega)]

theorem addLoop_eq {y : Buf K} {lo hi : Int} {v : Int → Option K} {g : Int → K} (h0 : 0 ≤ lo) (h1 : hi ≤ y.size) (hv : ∀ i, lo ≤ i → i < hi → v i = some (g i)) :
    forUp lo hi (fun i y => addAt y i (v i)) y = some (mix y lo hi fun j => y.val j + g j) := by
  obtain ⟨s, e, p⟩ := forUp_spec (body := fun i y => addAt y i (v i)) (lo := lo) (hi := hi) (s := y)
    (fun i s => s = mix y lo i fun j => y.val j + g j) (mix_empty y (le_refl _) _).symm
    (fun i l h s p => by
      subst p
      refine ⟨_, addAt_eq (by omega) (by rw [mix_size]; omega) (hv i l h), ?_⟩
      refine Buf.ext' rfl fun j => ?_
      unfold mix; simp only
      by_cases h : j = i
      · subst h; rw [if_pos (by omega), if_neg (by omega), if_pos (by omega)]
      · split_ifs <;> first | rfl | omega)
  rw [e, p]
  congr 1
  by_cases h : lo ≤ hi
  · rw [max_eq_right h]
  · rw [max_eq_left (by omega), mix_empty y (le_refl _), mix_empty y (by omega)]

theorem mul2_eq {b x : Buf K} {i j : Int} (h0 : 0 ≤ i) (h1 : i < b.size) (h2 : 0 ≤ j) (h3 : j < x.size) : mul2 b x i j = some (b.val i * x.val j) := by
  unfold mul2; rw [Buf.rd_of h0 h1, Option.bind_some, Buf.rd_of h2 h3]; rfl

/-- A sum over a row whose nonzero entries are at the neighbours of `i`. -/
theorem sum_three {n i : Int} (h0 : 0 ≤ i) (h1 : i < n) (f : Int → K) (hz : ∀ j, 0 ≤ j → j < n → j < i - 1 ∨ i + 1 < j → f j = 0) :
    ∑ j ∈ Finset.Ico 0 n, f j = (if 0 < i then f (i - 1) else 0) + f i + if i + 1 < n then f (i + 1) else 0 := by
  rw [sum_Ico_shrink (lo' := max 0 (i - 1)) (hi' := min n (i + 2)) (fun k k0 k1 hk => hz k k0 k1 (by omega)) (by omega) (by omega)]
  by_cases hi : 0 < i
  · rw [if_pos hi, max_eq_right (by omega), sum_Ico_pred (by omega), sub_add_cancel, sum_Ico_pred (by omega)]
    by_cases hn : i + 1 < n
    · rw [if_pos hn, min_eq_right (by omega), sum_Ico_pred (by omega), show i + 1 + 1 = i + 2 by ring, Finset.Ico_self, Finset.sum_empty, add_zero, add_assoc]
    · rw [if_neg hn, min_eq_left (by omega), show n = i + 1 by omega, Finset.Ico_self, Finset.sum_empty, add_assoc]
  · have : i = 0 := by omega
    subst this
    rw [if_neg hi, max_eq_left (by omega), sum_Ico_pred (by omega)]
    by_cases hn : (0 : Int) + 1 < n
    · rw [if_pos hn, min_eq_right (by omega), sum_Ico_pred (by omega), show (0 : Int) + 1 + 1 = 0 + 2 by ring, Finset.Ico_self, Finset.sum_empty, add_zero, zero_add (f 0)]
    · rw [if_neg hn, min_eq_left (by omega), show n = 0 + 1 by omega, Finset.Ico_self, Finset.sum_empty, zero_add]

/-- `y = βy`. -/
theorem scaleY_eq {n : Int} {beta : K} {y : Buf K} (hy : n ≤ y.size) :
    sweepUp 0 n (fun i y => (y.rd i).map fun v => beta * v) y = some (mix y 0 n fun i => beta * y.val i) :=
  sweepUp_eq (fun i => beta * y.val i) (le_refl _) hy fun i h0 h1 => by
    show Option.map _ (Buf.rd (mix y 0 i _) i) = _
    rw [Buf.rd_of (b := mix y 0 i _) h0 (by rw [mix_size]; omega), Option.map_some, mix_val_out (by omega)]

/-- The three-part update shared by the two tridiagonal products. -/
theorem triUpdate_eq {n : Int} {y : Buf K} {v0 vn : Option K} {v : Int → Option K} {g : Int → K} (hn : 2 ≤ n) (hy : n ≤ y.size)
    (h0 : v0 = some (g 0)) (hv : ∀ i, 1 ≤ i → i < n - 1 → v i = some (g i)) (hl : vn = some (g (n - 1))) :
    ((addAt y 0 v0).bind fun y => (forUp 1 (n - 1) (fun i y => addAt y i (v i)) y).bind fun y => addAt y (n - 1) vn) =
      some (mix y 0 n fun j => y.val j + g j) := by
  rw [addAt_eq (le_refl _) (by omega) h0, Option.bind_some, addLoop_eq (g := g) (by omega) (by rw [mix_size]; omega) hv, Option.bind_some,
    addAt_eq (by omega) (by rw [mix_size, mix_size]; omega) hl]
  congr 1
  refine Buf.ext' rfl fun j => ?_
  unfold mix; simp only
  by_cases h1 : j = 0
  · subst h1; rw [if_neg (by omega), if_neg (by omega), if_pos (by omega), if_pos (by omega)]
  by_cases h2 : j = n - 1
  · subst h2; rw [if_pos (by omega), if_neg (by omega), if_neg (by omega), if_pos (by omega)]
  split_ifs <;> first | rfl | omega

end Ring

end FT
