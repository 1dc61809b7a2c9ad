import Verif.Model.DropTdc
import Verif.Lemmas.Dpr1Asm
import Verif.Lemmas.TdcMv

/-! # Lemmas on dropping the precision of an eigendecomposition -/

namespace FT.Props
open FT
variable {K : Type*}

theorem copyFresh_eq {α : Type*} {n : Int} {src : Buf α} (h : n ≤ src.size) (junk : Int → α) : ∃ x, copyFresh n src junk = some x ∧ x.size = n.toNat ∧ ∀ i, 0 ≤ i → i < n → x.val i = src.val i := by
  refine ⟨_, sweepUp_eq src.val (le_refl _) (by show n ≤ ((n.toNat : Nat) : Int); omega) fun i i0 i1 => Buf.rd_of i0 (by omega), rfl, fun i i0 i1 => mix_val_in i0 i1⟩

theorem _root_.FT.IsPerm.copy {n : Int} {p q : Buf Int} (hp : IsPerm n p) (hs : n ≤ q.size) (h : ∀ i, 0 ≤ i → i < n → q.val i = p.val i) : IsPerm n q :=
  ⟨hs, fun k a b => by rw [h k a b]; exact hp.lo k a b, fun k a b => by rw [h k a b]; exact hp.hi k a b, fun k l a b c d e => by
    rw [h k a b, h l c d] at e
    exact hp.inj k l a b c d e⟩

theorem _root_.FT.IsPerm.inv_copy {n : Int} {p q : Buf Int} (hp : IsPerm n p) (hq : IsPerm n q) (h : ∀ i, 0 ≤ i → i < n → q.val i = p.val i) {k : Int} (k0 : 0 ≤ k) (k1 : k < n) : hq.inv k = hp.inv k := by
  obtain ⟨a, b, c⟩ := hq.inv_spec k0 k1
  obtain ⟨d, e, f⟩ := hp.inv_spec k0 k1
  rw [h _ a b] at c
  exact hp.inj _ _ a b d e (c.trans f.symm)

theorem ActsAs.congr [CommRing K] [DecidableEq K] {n : Int} {F : Dpr1Eigen K} {M M' : Int → Int → K} (h : ActsAs n F M) (e : ∀ i j, 0 ≤ i → i < n → 0 ≤ j → j < n → M i j = M' i j) : ActsAs n F M' where
  N a b x y hx hy := by
    obtain ⟨y', e1, s, o, v⟩ := h.N a b x y hx hy
    refine ⟨y', e1, s, o, fun r r0 r1 => ?_⟩
    rw [v r r0 r1, sum_Ico_congr fun j j0 j1 => by rw [e r j r0 r1 j0 j1]]
  T a b x y hx hy := by
    obtain ⟨y', e1, s, o, v⟩ := h.T a b x y hx hy
    refine ⟨y', e1, s, o, fun j j0 j1 => ?_⟩
    rw [v j j0 j1, sum_Ico_congr fun r r0 r1 => by rw [e r j r0 r1 j0 j1]]

theorem TActs.congr [CommRing K] [DecidableEq K] {n : Int} {F : Tdc K} {M M' : Int → Int → K} (h : TActs n F M) (e : ∀ i j, 0 ≤ i → i < n → 0 ≤ j → j < n → M i j = M' i j) : TActs n F M' where
  N G hG a b x y hx hy := by
    obtain ⟨G', y', e1, t, s, o, v⟩ := h.N G hG a b x y hx hy
    refine ⟨G', y', e1, t, s, o, fun r r0 r1 => ?_⟩
    rw [v r r0 r1, sum_Ico_congr fun j j0 j1 => by rw [e r j r0 r1 j0 j1]]
  T G hG a b x y hx hy := by
    obtain ⟨G', y', e1, t, s, o, v⟩ := h.T G hG a b x y hx hy
    refine ⟨G', y', e1, t, s, o, fun j j0 j1 => ?_⟩
    rw [v j j0 j1, sum_Ico_congr fun r r0 r1 => by rw [e r j r0 r1 j0 j1]]

/-- Two matrices an object multiplies by are the same. -/
theorem TActs.unique [CommRing K] [DecidableEq K] {n : Int} {F : Tdc K} {M M' : Int → Int → K} (h : TActs n F M) (h' : TActs n F M') {i j : Int} (i0 : 0 ≤ i) (i1 : i < n) (j0 : 0 ≤ j)
    (j1 : j < n) : M i j = M' i j := by
  obtain ⟨_, y, e, _, _, _, v⟩ := h.N F (TSame.refl F) 1 0 ⟨n.toNat, fun k => if k = j then 1 else 0⟩ ⟨n.toNat, fun _ => 0⟩ (by show n ≤ ((n.toNat : Nat) : Int); omega)
    (by show n ≤ ((n.toNat : Nat) : Int); omega)
  obtain ⟨_, y', e', _, _, _, v'⟩ := h'.N F (TSame.refl F) 1 0 ⟨n.toNat, fun k => if k = j then 1 else 0⟩ ⟨n.toNat, fun _ => 0⟩ (by show n ≤ ((n.toNat : Nat) : Int); omega)
    (by show n ≤ ((n.toNat : Nat) : Int); omega)
  rw [e] at e'
  have hy : y = y' := by injection e' with e'; exact (Prod.mk.inj (Prod.mk.inj e').2).2
  have := v i i0 i1
  rw [hy, v' i i0 i1] at this
  simpa [mul_ite, Finset.sum_ite_eq', j0, j1] using this.symm

variable [Field K] [LinearOrder K]

theorem dropDpr1_spec {F : Dpr1Eigen K} (hF : F.Formed) (jk : Nat → Int → K) (ji : Nat → Int → Int) :
    ∃ G W, dropDpr1 jk ji F = some G ∧ G.n = F.n ∧ G.Formed ∧ (∀ i, 0 ≤ i → i < F.n → G.lambda.val i = F.lambda.val i) ∧ ActsAs F.n F W ∧ ActsAs F.n G W := by
  have h := hF.ok
  have hl := hF.lambda
  have hlo := hF.lo
  have hhi := hF.hi
  have hn : 0 ≤ F.n := by have := h.iz0; have := h.id0; have := h.le; omega
  obtain ⟨p, ep, sp, vp⟩ := copyFresh_eq h.p.le (ji 0)
  obtain ⟨q, eq, sq, vq⟩ := copyFresh_eq h.q.le (ji 1)
  obtain ⟨l, el, sl, vl⟩ := copyFresh_eq (le_of_eq hl.symm) (jk 0)
  obtain ⟨lo, elo, slo, _⟩ := copyFresh_eq (le_of_eq hlo.symm) (jk 1)
  obtain ⟨hi, ehi, shi, _⟩ := copyFresh_eq (le_of_eq hhi.symm) (jk 2)
  obtain ⟨v, ev, sv, vv⟩ := copyFresh_eq h.v (jk 3)
  obtain ⟨V, eV, sV, vV⟩ := copyFresh_eq h.V (jk 4)
  have hp : IsPerm F.n p := h.p.copy (by omega) vp
  have hq : IsPerm F.n q := h.q.copy (by omega) vq
  have hG : Dpr1Eigen.Ok (⟨v, V, l, lo, hi, p, q, F.n, F.iz, F.id⟩ : Dpr1Eigen K) :=
    ⟨h.iz0, h.id0, h.le, hp, hq, by show F.id ≤ (v.size : Int); omega, by show (F.n - F.iz) * (F.n - F.iz - F.id) ≤ (V.size : Int); omega⟩
  refine ⟨⟨v, V, l, lo, hi, p, q, F.n, F.iz, F.id⟩, _, ?_, rfl, ⟨hG, by show (l.size : Int) = F.n; omega, by show (lo.size : Int) = F.n; omega, by show (hi.size : Int) = F.n; omega⟩, vl, actsAs_perm h, (actsAs_perm hG).congr fun r j r0 r1 j0 j1 => ?_⟩
  · unfold dropDpr1
    rw [ep, Option.bind_some, eq, Option.bind_some, el, Option.bind_some, elo, Option.bind_some, ehi, Option.bind_some, ev, Option.bind_some, eV, Option.map_some]
  · show Dpr1Eigen.W _ (hp.inv r) (q.val j) = F.W (h.p.inv r) (F.q.val j)
    rw [h.p.inv_copy hp vp r0 r1, vq j j0 j1]
    obtain ⟨i0, i1, _⟩ := h.p.inv_spec r0 r1
    have k0 := h.q.lo j j0 j1
    have k1 := h.q.hi j j0 j1
    generalize h.p.inv r = i at i0 i1
    generalize F.q.val j = k at k0 k1
    unfold Dpr1Eigen.W
    dsimp only
    by_cases c1 : i < F.iz
    · rw [if_pos c1, if_pos c1]
    rw [if_neg c1, if_neg c1]
    by_cases c2 : k < F.iz
    · rw [if_pos c2, if_pos c2]
    rw [if_neg c2, if_neg c2]
    by_cases c3 : k < F.iz + F.id
    · rw [if_pos c3, if_pos c3, vv _ (by omega) (by omega)]
    rw [if_neg c3, if_neg c3]
    have a0 : 0 ≤ i - F.iz := by omega
    have a1 : i - F.iz < F.n - F.iz := by omega
    have b0 : 0 ≤ k - (F.iz + F.id) := by omega
    have b1 : k - (F.iz + F.id) + 1 ≤ F.n - F.iz - F.id := by omega
    refine vV _ ?_ ?_
    · have := mul_nonneg b0 (show 0 ≤ F.n - F.iz by omega); omega
    · have := mul_le_mul_of_nonneg_right b1 (show 0 ≤ F.n - F.iz by omega)
      rw [add_mul, one_mul, mul_comm (F.n - F.iz - F.id)] at this
      omega

end FT.Props
