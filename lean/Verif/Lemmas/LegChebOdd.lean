import Verif.Lemmas.LegChebFmm
import Verif.Lemmas.Tridiag

/-! # Transforms of odd length fail -/

namespace FT.Props.Lc
open FT FT.Poly FT.Model.Lc
variable {K : Type*} [Field K]

theorem forUp_none {σ : Type*} {body : Int → σ → Option σ} {lo hi : Int} {s : σ} (k : Int) (k0 : lo ≤ k) (k1 : k < hi) (h : ∀ s', forUp lo k body s = some s' → body k s' = none) : forUp lo hi body s = none := by
  unfold forUp at h ⊢
  refine loop_none (k - lo).toNat (by omega) fun s' e => ?_
  rw [show lo + ((k - lo).toNat : Int) = k by omega]
  exact h s' e

theorem lastM_odd {P : Plan K} (odd : P.N % 2 = 1) {inp : Buf K} {bi bo st i0 n : Int} (ev : i0 % 2 = 0) {r t : Bool × Buf K} (h : r.1 = false) (e : lastM P inp bi bo st i0 n r = some t) : t.1 = false := by
  have nz : ¬ sz (P.N - (2 * n + i0)) ≤ 0 := by unfold sz; omega
  unfold lastM at e
  rw [if_neg (by rw [h]; simp), if_neg nz] at e
  obtain ⟨o, -, e⟩ := Option.bind_eq_some_iff.1 e
  injection e with e
  subst e; rfl

/-- In the last block the number of entries left wraps around and the coefficients are read beyond their end. -/
theorem directM_odd {F : Lib K} {P : Plan K} (odd : P.N % 2 = 1) (small : P.N < 2 ^ 31) (s1 : 1 ≤ P.s) (s2 : 2 * P.s ≤ P.N) (ha : (P.D.a.size : Int) = P.N) (inp : Buf K) (bi : Int) (out : Buf K) (bo st : Int) :
    directM F P inp bi out bo st = none := by
  have p31 : (2 : Int) ^ 31 = 2147483648 := by norm_num
  unfold directM
  dsimp only
  cases forUp 0 (sz (P.N / (2 * P.s) - 1)) _ out with
  | none => rfl
  | some out =>
    rw [Option.bind_some]
    have q := Int.mul_ediv_add_emod P.N (2 * P.s)
    have q0 := Int.emod_nonneg P.N (show 2 * P.s ≠ 0 by omega)
    have q1 := Int.emod_lt_of_pos P.N (show 0 < 2 * P.s by omega)
    have n1 : 1 ≤ P.N / (2 * P.s) := (Int.le_ediv_iff_mul_le (by omega)).2 (by omega)
    have nN : P.N / (2 * P.s) ≤ P.N := Int.ediv_le_self _ (by omega)
    have ez : sz (P.N / (2 * P.s) - 1) = P.N / (2 * P.s) - 1 := by unfold sz; omega
    rw [ez]
    have f : (P.N / (2 * P.s) - 1) * (2 * P.s) = 2 * P.s * (P.N / (2 * P.s)) - 2 * P.s := by ring
    have ev : (P.N / (2 * P.s) - 1) * (2 * P.s) % 2 = 0 := by rw [show (P.N / (2 * P.s) - 1) * (2 * P.s) = 2 * ((P.N / (2 * P.s) - 1) * P.s) by ring]; omega
    have l0 : 0 ≤ (P.N / (2 * P.s) - 1) * (2 * P.s) := Int.mul_nonneg (by omega) (by omega)
    generalize (P.N / (2 * P.s) - 1) * (2 * P.s) = i0 at *
    have ez' : sz (P.N - i0) = P.N - i0 := by unfold sz; omega
    rw [ez']
    have : forUp 0 (P.N - i0) (lastM P inp bi bo st i0) (false, out) = none := by
      refine forUp_none ((P.N - i0 + 1) / 2) (by omega) (by omega) fun r e => ?_
      have hr : r.1 = false := forUp_inv (fun _ r => r.1 = false) rfl (fun i _ _ r t h e => lastM_odd odd ev h e) e
      have big : sz (P.N - (2 * ((P.N - i0 + 1) / 2) + i0)) = 2 ^ 64 - 1 := by unfold sz; omega
      unfold lastM
      rw [if_neg (by rw [hr]; simp), big, if_neg (by norm_num), forUp_none P.N (by omega) (by omega)]
      · rfl
      · intro o _
        have : P.D.a.rd ((P.N - i0 + 1) / 2 + i0 + P.N) = none := if_neg (by omega)
        beta_reduce
        rw [this]
        cases P.D.a.rd ((P.N - i0 + 1) / 2) <;> rfl
    rw [this]; rfl

/-- The size of the leaves. -/
theorem leaf_le {N : Int} {L : ℕ} (L1 : 1 ≤ L) (h : 2 ^ (L + 1) < N) : 2 * leaf N L ≤ N := by
  have a : (8 : Int) ≤ 2 ^ (L + 2) := by
    have := pow_le_pow_right₀ (show (1 : Int) ≤ 2 by norm_num) (show 3 ≤ L + 2 by omega)
    norm_num at this ⊢; exact this
  have b : (2 : Int) ^ (L + 2) = 2 * 2 ^ (L + 1) := by rw [pow_succ (2 : Int) (L + 1)]; ring
  have s1 := (leaf_pos h).1
  unfold leaf at *
  generalize (2 : Int) ^ (L + 2) = t at *
  generalize (2 : Int) ^ (L + 1) = t' at *
  have q := Int.mul_ediv_add_emod (N + t - 1) t
  have q0 := Int.emod_nonneg (N + t - 1) (show t ≠ 0 by omega)
  generalize (N + t - 1) / t = s at *
  nlinarith

theorem addAt_size {b b' : Buf K} {i : Int} {v : K} (h : Model.Lc.addAt b i v = some b') : b'.size = b.size := by
  unfold Model.Lc.addAt at h
  obtain ⟨x, -, h⟩ := Option.bind_eq_some_iff.1 h
  unfold Buf.wr at h
  split_ifs at h
  injection h with h
  subst h; rfl

theorem scatter_size {P : Plan K} {odd : Int} {oa out out' : Buf K} {bo st : Int} (h : scatter P odd oa out bo st = some out') : out'.size = out.size := by
  unfold scatter at h
  split_ifs at h <;>
  · refine forUp_inv (fun _ b => b.size = out.size) rfl (fun i _ _ s t hs e => ?_) h
    obtain ⟨x, -, e⟩ := Option.bind_eq_some_iff.1 e
    rw [addAt_size e, hs]

/-- At stride 1 the far field writes one entry beyond the output. -/
theorem farBoth_odd {P : Plan K} (odd : P.N % 2 = 1) (N1 : 1 ≤ P.N) (junk : Int → K) (A src : Buf K) (b st : Int) (out : Buf K) (bo : Int) (ho : (out.size : Int) = bo + P.N) :
    farBoth P junk A src b st out bo 1 = none := by
  unfold farBoth
  cases farField P junk A 0 src b st with
  | none => rfl
  | some oa =>
    rw [Option.bind_some]
    cases e : scatter P 0 oa out bo 1 with
    | none => rfl
    | some out1 =>
      rw [Option.bind_some]
      cases farField P junk A 1 src b st with
      | none => rfl
      | some oa =>
        rw [Option.bind_some]
        have hs := scatter_size e
        unfold scatter
        rw [if_pos rfl]
        refine forUp_none ((P.N + 1) / 2 - 1) (by omega) (by omega) fun o e => ?_
        have ho' : o.size = out1.size := forUp_inv (fun _ b => b.size = out1.size) rfl (fun i _ _ s t hs e => by
          obtain ⟨x, -, e⟩ := Option.bind_eq_some_iff.1 e
          rw [addAt_size e, hs]) e
        beta_reduce
        have : ∀ x, Model.Lc.addAt o (bo + 1 * 1 + 2 * ((P.N + 1) / 2 - 1)) x = none := fun x => by
          unfold Model.Lc.addAt
          have : o.rd (bo + 1 * 1 + 2 * ((P.N + 1) / 2 - 1)) = none := if_neg (by rw [ho', hs]; omega)
          rw [this]; rfl
        cases oa.rd ((P.N + 1) / 2 - 1) with
        | none => rfl
        | some x => rw [Option.bind_some, this]

end FT.Props.Lc
