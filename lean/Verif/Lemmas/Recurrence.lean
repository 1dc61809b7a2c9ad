import Verif.Model.Recurrence
import Verif.Lemmas.Accum
import Verif.Lemmas.RotSimd
import Verif.Lemmas.Clenshaw

/-! # Lemmas on the evaluation kernels -/

namespace FT
variable {K : Type*}

/-- Every strided coefficient is inside the allocation. -/
def Strided (c : Buf K) (n incc : Int) : Prop := ∀ k, 0 ≤ k → k < n → 0 ≤ k * incc ∧ k * incc < c.size

theorem forDown_loop {σ : Type*} {body : Int → σ → Option σ} {n lo : Int} {s : σ} (P : Nat → σ → Prop) (h0 : P 0 s)
    (hstep : ∀ t : Nat, lo ≤ n - 1 - t → ∀ s, P t s → ∃ s', body (n - 1 - t) s = some s' ∧ P (t + 1) s') :
    ∃ s', forDown (n - 1) lo body s = some s' ∧ P (n - lo).toNat s' := by
  have h := loop_spec (body := fun k => body (n - 1 - k)) (n := (n - 1 - lo + 1).toNat) (s := s) P h0
    (fun k hk s p => hstep k (by omega) s p)
  obtain ⟨s', e, p⟩ := h
  exact ⟨s', e, by rwa [show (n - lo).toNat = (n - 1 - lo + 1).toNat by omega]⟩

theorem mix_append {x : Buf K} {a b c : Int} {y : Int → K} (h1 : a ≤ b) (h2 : b ≤ c) : mix (mix x a b y) b c y = mix x a c y := by
  refine Buf.ext' rfl fun j => ?_
  unfold mix; simp only; split_ifs <;> first | rfl | omega

section Ring
variable [CommRing K]

theorem zeroOut_eq {m : Int} {f : Buf K} (h : m ≤ f.size) : zeroOut m f = some (mix f 0 m fun _ => 0) :=
  sweepUp_eq _ (le_refl _) h fun _ _ _ => rfl

/-- Horner's scheme after `t` steps. -/
def hor (a : Nat → K) (X : K) (n : Nat) : Nat → K
  | 0 => 0
  | t + 1 => X * hor a X n t + a (n - 1 - t)

theorem hor_inv (a : Nat → K) (X : K) (n : Nat) : ∀ t, t ≤ n →
    ∑ k ∈ Finset.range n, a k * X ^ k = ∑ k ∈ Finset.range (n - t), a k * X ^ k + X ^ (n - t) * hor a X n t
  | 0, _ => by simp [hor]
  | t + 1, h => by
    rw [hor_inv a X n t (by omega)]
    obtain ⟨m, hm⟩ : ∃ m, n - t = m + 1 := ⟨n - t - 1, by omega⟩
    rw [show n - (t + 1) = m by omega, hor, show n - 1 - t = m by omega, hm, Finset.sum_range_succ]
    ring

theorem hor_eq (a : Nat → K) (X : K) (n : Nat) : hor a X n n = ∑ k ∈ Finset.range n, a k * X ^ k := by
  rw [hor_inv a X n n (le_refl n)]; simp

/-- The coefficients as a sequence. -/
def co (c : Buf K) (incc : Int) (k : Nat) : K := c.val (k * incc)

theorem rd_co {c : Buf K} {n incc : Int} (hc : Strided c n incc) {t : Nat} (h : 0 ≤ n - 1 - t) :
    c.rd ((n - 1 - t) * incc) = some (co c incc (n.toNat - 1 - t)) := by
  have hh := hc (n - 1 - t) h (by omega)
  rw [Buf.rd_of hh.1 hh.2]
  unfold co
  rw [show ((n.toNat - 1 - t : Nat) : Int) = n - 1 - t by omega]

theorem hornerAt_eq {n : Int} {c : Buf K} {incc : Int} {X : K} (hc : Strided c n incc) :
    hornerAt n c incc X = some (hor (co c incc) X n.toNat n.toNat) := by
  obtain ⟨s, e, p⟩ := forDown_loop (body := fun k bk => (c.rd (k * incc)).map fun ck => X * bk + ck) (n := n) (lo := 0) (s := (0 : K))
    (fun t s => s = hor (co c incc) X n.toNat t) rfl
    (fun t h s p => ⟨_, by rw [rd_co hc h]; rfl, by rw [p]; rfl⟩)
  unfold hornerAt
  rw [e, p, sub_zero]

theorem vLoads_eq {S L : Nat} {x : Buf K} {j : Int} {g : K → K} (h0 : 0 ≤ j) (h1 : j + S * L ≤ x.size) :
    ∃ X, vLoads S L x j g = some X ∧ X.size = L ∧ ∀ l e : Int, 0 ≤ l → l < L → 0 ≤ e → e < S → X.val l e = g (x.val (j + S * l + e)) := by
  unfold vLoads
  refine ⟨mix ⟨L, fun _ _ => 0⟩ 0 L (fun l e => g (if 0 ≤ e ∧ e < (S : Int) then x.val (j + S * l + e) else 0)),
    sweepUp_eq _ (le_refl _) (le_refl _) fun l l0 l1 => ?_, rfl, fun l e l0 l1 e0 e1 => ?_⟩
  · have : (S : Int) * (l + 1) ≤ S * L := Int.mul_le_mul_of_nonneg_left (by omega) (by omega)
    rw [mul_add, mul_one] at this
    have hp : (0 : Int) ≤ S * l := Int.mul_nonneg (by omega) l0
    rw [vld_of (by omega) (by omega)]; rfl
  · rw [mix_val_in l0 l1, if_pos ⟨e0, e1⟩]

theorem vStores_eq {S L : Nat} {j : Int} {f : Buf K} {w : Int → Option (Int → K)} {F : Int → K} (h0 : 0 ≤ j) (h1 : j + S * L ≤ f.size)
    (hw : ∀ l, 0 ≤ l → l < (L : Int) → ∃ v, w l = some v ∧ ∀ e, 0 ≤ e → e < (S : Int) → v e = F (j + S * l + e)) :
    forUp 0 L (fun l f => (w l).bind fun v => vst f (j + S * l) S v) f = some (mix f j (j + S * L) F) := by
  obtain ⟨s, e, p⟩ := forUp_spec (body := fun l f => (w l).bind fun v => vst f (j + S * l) S v) (lo := 0) (hi := L) (s := f)
    (fun l s => s = mix f j (j + S * l) F) (by rw [mul_zero, add_zero, mix_empty _ (le_refl _)])
    (fun l l0 l1 s p => by
      obtain ⟨v, hv, hF⟩ := hw l l0 l1
      have : (S : Int) * (l + 1) ≤ S * L := Int.mul_le_mul_of_nonneg_left (by omega) (by omega)
      rw [mul_add, mul_one] at this
      have hp : (0 : Int) ≤ S * l := Int.mul_nonneg (by omega) l0
      subst p
      refine ⟨_, by rw [hv]; exact vst_of (by omega) (by show j + S * l + S ≤ (f.size : Int); omega), ?_⟩
      refine Buf.ext' rfl fun i => ?_
      rw [mul_add, mul_one]
      show (if j + S * l ≤ i ∧ i < j + S * l + S then v (i - (j + S * l)) else (mix f j (j + S * l) F).val i) = _
      unfold mix
      simp only
      by_cases hi : j + S * l ≤ i ∧ i < j + S * l + S
      · rw [if_pos hi, if_pos (by omega), hF _ (by omega) (by omega)]; congr 1; omega
      · rw [if_neg hi]; split_ifs <;> first | rfl | omega)
  rw [e, p, max_eq_right (by omega)]

theorem lastUp_zero {m st : Int} (hst : 0 < st) (hm : 0 ≤ m) : 0 ≤ lastUp 0 (m + 1 - st) st ∧ lastUp 0 (m + 1 - st) st ≤ m := by
  unfold lastUp
  constructor
  · have := Int.mul_nonneg (le_of_lt hst) (Int.natCast_nonneg (stepCount 0 (m + 1 - st) st)); omega
  · rcases Nat.eq_zero_or_pos (stepCount 0 (m + 1 - st) st) with h | h
    · rw [h]; simpa using hm
    · have := (mem_stepCount (lo := 0) (hi := m + 1 - st) hst (stepCount 0 (m + 1 - st) st - 1)).1 (by omega)
      rw [Nat.cast_sub h, mul_sub] at this
      push_cast at this
      omega

/-- Blocks of `S*L` points and a scalar tail compute `F` at every point. -/
theorem simdBlocks_eq {S L : Nat} {m : Int} {block tail : Int → Buf K → Option (Buf K)} {f : Buf K} {F : Int → K} (hS : 0 < S) (hL : 0 < L) (hm : 0 ≤ m)
    (hb : ∀ j, 0 ≤ j → j + S * L ≤ m → ∀ g : Buf K, g.size = f.size → block j g = some (mix g j (j + S * L) F))
    (ht : ∀ j, 0 ≤ j → j < m → ∀ g : Buf K, g.size = f.size → tail j g = g.wr j (F j)) (hf : m ≤ f.size) :
    simdBlocks S L m block tail f = some (mix f 0 m F) := by
  have hst : (0 : Int) < S * L := Int.mul_pos (by omega) (by omega)
  obtain ⟨s, e, p⟩ := loop_spec (body := fun k => block (0 + S * L * k)) (n := stepCount 0 (m + 1 - S * L) (S * L)) (s := f)
    (fun t s => s = mix f 0 (S * L * t) F) (by rw [Nat.cast_zero, mul_zero, mix_empty _ (le_refl _)])
    (fun t h s p => by
      have h1 := (mem_stepCount hst t).1 h
      have hp : (0 : Int) ≤ S * L * t := Int.mul_nonneg (le_of_lt hst) (by omega)
      subst p
      rw [zero_add]
      refine ⟨_, hb _ hp (by omega) _ rfl, ?_⟩
      rw [mix_append hp (by omega), Nat.cast_succ, mul_add, mul_one])
  obtain ⟨l0, l1⟩ := lastUp_zero hst hm
  unfold simdBlocks forStep
  rw [e, Option.bind_some, p]
  have hl : (S * L * (stepCount 0 (m + 1 - S * L) (S * L) : Nat) : Int) = lastUp 0 (m + 1 - S * L) (S * L) := by unfold lastUp; rw [zero_add]
  rw [hl]
  obtain ⟨s, e, p⟩ := forUp_spec (body := tail) (lo := lastUp 0 (m + 1 - S * L) (S * L)) (hi := m) (s := mix f 0 (lastUp 0 (m + 1 - S * L) (S * L)) F)
    (fun j s => s = mix f 0 j F) rfl
    (fun j j0 j1 s p => by
      subst p
      exact ⟨_, by rw [ht j (by omega) j1 (mix f 0 j F) rfl]; exact mix_wr_up (by omega) (by omega) (by omega), rfl⟩)
  rw [e, p, max_eq_right l1]

theorem hornerBlock_eq {S L : Nat} {n : Int} {c : Buf K} {incc : Int} {x : Buf K} {j : Int} {f : Buf K} (hc : Strided c n incc) (h0 : 0 ≤ j)
    (hx : j + S * L ≤ x.size) (hf : j + S * L ≤ f.size) :
    hornerBlock S L n c incc x j f = some (mix f j (j + S * L) fun i => hor (co c incc) (x.val i) n.toNat n.toNat) := by
  obtain ⟨X, eX, sX, vX⟩ := vLoads_eq (g := id) h0 hx
  obtain ⟨s, e, p1, p2⟩ := forDown_loop (n := n) (lo := 0) (s := (⟨L, fun _ _ => 0⟩ : Buf (Int → K)))
    (body := fun k bk => sweepUp 0 L (fun l bk => (X.rd l).bind fun X => (bk.rd l).bind fun b => (c.rd (k * incc)).map fun ck e => X e * b e + ck) bk)
    (fun t s => s.size = L ∧ ∀ l, 0 ≤ l → l < (L : Int) → s.val l = fun e => hor (co c incc) (X.val l e) n.toNat t) ⟨rfl, fun _ _ _ => rfl⟩
    (fun t h s p => by
      refine ⟨_, sweepUp_eq (fun l e => hor (co c incc) (X.val l e) n.toNat (t + 1)) (le_refl _) (by rw [p.1]) fun l l0 l1 => ?_, p.1,
        fun l l0 l1 => mix_val_in l0 l1⟩
      rw [Buf.rd_of l0 (by rw [sX]; exact l1), Option.bind_some, Buf.rd_of l0 (by rw [mix_size, p.1]; exact l1), Option.bind_some, rd_co hc h, Option.map_some,
        mix_val_out (by omega), p.2 l l0 l1]
      rfl)
  unfold hornerBlock
  rw [eX, Option.bind_some, e, Option.bind_some]
  apply vStores_eq h0 hf
  intro l l0 l1
  refine ⟨s.val l, by rw [Buf.rd_of l0 (by rw [p1]; exact l1)], fun e e0 e1 => ?_⟩
  rw [p2 l l0 l1, sub_zero]
  show hor _ (X.val l e) _ _ = _
  rw [vX l e l0 l1 e0 e1]; rfl

theorem horner_eq {n : Int} {c : Buf K} {incc m : Int} {x f : Buf K} (hn : 1 ≤ n) (hc : Strided c n incc) (hx : m ≤ x.size) (hf : m ≤ f.size) :
    horner n c incc m x f = some (mix f 0 m fun i => hor (co c incc) (x.val i) n.toNat n.toNat) := by
  unfold horner
  rw [if_neg (by omega)]
  refine sweepUp_eq _ (le_refl _) hf fun i i0 i1 => ?_
  rw [Buf.rd_of i0 (by omega), Option.bind_some, hornerAt_eq hc]

theorem hornerV_eq {S L : Nat} {n : Int} {c : Buf K} {incc m : Int} {x f : Buf K} (hS : 0 < S) (hL : 0 < L) (hn : 1 ≤ n) (hm : 0 ≤ m) (hc : Strided c n incc)
    (hx : m ≤ x.size) (hf : m ≤ f.size) :
    hornerV S L n c incc m x f = some (mix f 0 m fun i => hor (co c incc) (x.val i) n.toNat n.toNat) := by
  unfold hornerV
  rw [if_neg (by omega)]
  refine simdBlocks_eq hS hL hm (fun j j0 j1 g hg => hornerBlock_eq hc j0 (by omega) (by omega)) (fun j j0 j1 g hg => ?_) hf
  rw [Buf.rd_of j0 (by omega), Option.bind_some, hornerAt_eq hc, Option.bind_some]

end Ring
end FT
