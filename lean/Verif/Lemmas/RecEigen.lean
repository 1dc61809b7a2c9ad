import Verif.Lemmas.Recurrence
import Verif.Lemmas.Sqrt
import Mathlib.Algebra.Order.Field.Basic
import Mathlib.Algebra.Order.BigOperators.Ring.Finset
import Mathlib.Tactic.Positivity

/-! # Lemmas on the normalised eigenfunction evaluation -/

namespace FT
variable {K : Type*} [Field K] [LinearOrder K] [IsStrictOrderedRing K]

omit [IsStrictOrderedRing K] in
/-- `t` components from the last one: `(v_{n-1-t}, v_{n-t})`. -/
def evPair (A B C : Int → K) (X : K) (n : Int) : Nat → K × K
  | 0 => (1, 0)
  | t + 1 => let v := evPair A B C X n t; (A (n - 1 - t) * ((X + B (n - 1 - t)) * v.1 + C (n - 1 - t) * v.2), v.1)

omit [IsStrictOrderedRing K] in
def evC (A B C : Int → K) (X : K) (n : Int) (t : Nat) : K := (evPair A B C X n t).1

/-- The loop state is a positive multiple of the exact one. -/
structure EvInv (A B C c : Int → K) (X : K) (n : Int) (t : Nat) (s : EvSt K) : Prop where
  pos : 0 < s.nrm
  scaled : ∃ α : K, 0 < α ∧ s.vkm1 = α * evC A B C X n t ∧ s.vk = α * evC A B C X n t ∧ s.vkp1 = α * (evPair A B C X n t).2 ∧
    s.nrm = α * α * ∑ i ∈ Finset.range (t + 1), evC A B C X n i * evC A B C X n i ∧
    s.sum = α * ∑ i ∈ Finset.range (t + 1), evC A B C X n i * c (n - 1 - i)

theorem evInv_step {A B C c : Int → K} {X : K} {n : Int} {t : Nat} {s : EvSt K} (h : EvInv A B C c X n t s) :
    EvInv A B C c X n (t + 1) (evStep (A (n - 1 - t)) (B (n - 1 - t)) (C (n - 1 - t)) (c (n - 1 - t - 1)) X s) := by
  obtain ⟨hp, α, ha, h1, h2, h3, h4, h5⟩ := h
  have hv : A (n - 1 - t) * ((X + B (n - 1 - t)) * s.vk + C (n - 1 - t) * s.vkp1) = α * evC A B C X n (t + 1) := by
    rw [h2, h3]; unfold evC; rw [evPair]; ring
  refine ⟨?_, α, ha, hv, hv, h2, ?_, ?_⟩
  · show 0 < s.nrm + _ * _
    nlinarith [mul_self_nonneg (A (n - 1 - t) * ((X + B (n - 1 - t)) * s.vk + C (n - 1 - t) * s.vkp1))]
  · show s.nrm + _ * _ = _
    rw [hv, h4, Finset.sum_range_succ _ (t + 1)]; ring
  · show s.sum + _ * _ = _
    rw [hv, h5, Finset.sum_range_succ _ (t + 1)]
    push_cast
    rw [show n - 1 - ((t : Int) + 1) = n - 1 - t - 1 by ring]; ring

theorem evRescale_eq {sqrt : K → K} (hs : IsSqrt sqrt) {s : EvSt K} (h : 0 < s.nrm) :
    evRescale sqrt s = some ⟨s.vkm1 * (1 / sqrt s.nrm), s.vk * (1 / sqrt s.nrm), s.vkp1 * (1 / sqrt s.nrm), 1, s.sum * (1 / sqrt s.nrm)⟩ := by
  unfold evRescale
  rw [divC_of (ne_of_gt (sqrt_pos hs h))]; rfl

theorem evInv_rescale {A B C c : Int → K} {X : K} {n : Int} {t : Nat} {sqrt : K → K} (hs : IsSqrt sqrt) {s : EvSt K} (h : EvInv A B C c X n t s) :
    ∃ s', evRescale sqrt s = some s' ∧ EvInv A B C c X n t s' := by
  refine ⟨_, evRescale_eq hs h.pos, ?_⟩
  obtain ⟨hp, α, ha, h1, h2, h3, h4, h5⟩ := h
  have hq := sqrt_pos hs hp
  have hq2 := (hs s.nrm (le_of_lt hp)).2
  refine ⟨one_pos, α * (1 / sqrt s.nrm), by positivity, ?_, ?_, ?_, ?_, ?_⟩
  · rw [h1]; ring
  · rw [h2]; ring
  · rw [h3]; ring
  · show (1 : K) = _
    have : α * (1 / sqrt s.nrm) * (α * (1 / sqrt s.nrm)) * ∑ i ∈ Finset.range (t + 1), evC A B C X n i * evC A B C X n i =
        (α * α * ∑ i ∈ Finset.range (t + 1), evC A B C X n i * evC A B C X n i) / (sqrt s.nrm * sqrt s.nrm) := by field_simp
    rw [this, ← h4, hq2, div_self (ne_of_gt hp)]
  · rw [h5]; ring

/-- The exact result. -/
def evExact (A B C c : Int → K) (sqrt : K → K) (X : K) (n : Int) (sign : K) (t : Nat) : K :=
  (if sign * evC A B C X n t < 0 then -1 else 1) *
    ((∑ i ∈ Finset.range (t + 1), evC A B C X n i * c (n - 1 - i)) / sqrt (∑ i ∈ Finset.range (t + 1), evC A B C X n i * evC A B C X n i))

theorem evInv_final {A B C c : Int → K} {X : K} {n : Int} {t : Nat} {sqrt : K → K} (hs : IsSqrt sqrt) {s : EvSt K} (h : EvInv A B C c X n t s) (sign : K) :
    (if sign * s.vkm1 < 0 then -(s.sum * (1 / sqrt s.nrm)) else s.sum * (1 / sqrt s.nrm)) = evExact A B C c sqrt X n sign t := by
  obtain ⟨hp, α, ha, h1, h2, h3, h4, h5⟩ := h
  have hN : 0 < ∑ i ∈ Finset.range (t + 1), evC A B C X n i * evC A B C X n i := by
    rw [h4] at hp
    exact (mul_pos_iff_of_pos_left (by positivity)).1 hp
  have hq := sqrt_pos hs hN
  have hq2 := (hs _ (le_of_lt hN)).2
  have e1 : sqrt s.nrm = α * sqrt (∑ i ∈ Finset.range (t + 1), evC A B C X n i * evC A B C X n i) := by
    refine sqrt_unique hs (le_of_lt hp) (by positivity) ?_
    rw [h4]; nth_rewrite 3 [← hq2]; ring
  have e2 : s.sum * (1 / sqrt s.nrm) = (∑ i ∈ Finset.range (t + 1), evC A B C X n i * c (n - 1 - i)) / sqrt (∑ i ∈ Finset.range (t + 1), evC A B C X n i * evC A B C X n i) := by
    rw [e1, h5]; field_simp
  have e3 : (sign * s.vkm1 < 0) ↔ (sign * evC A B C X n t < 0) := by
    rw [h1, show sign * (α * evC A B C X n t) = α * (sign * evC A B C X n t) by ring]
    constructor
    · intro h; by_contra h'; exact absurd (mul_nonneg (le_of_lt ha) (not_lt.1 h')) (not_le.2 h)
    · intro h; exact mul_neg_of_pos_of_neg ha h
  unfold evExact
  rw [e2]
  by_cases h : sign * evC A B C X n t < 0
  · rw [if_pos (e3.2 h), if_pos h]; ring
  · rw [if_neg (fun hh => h (e3.1 hh)), if_neg h]; ring

theorem evInv_init {A B C c : Int → K} {X : K} {n : Int} {c0 : K} (h : c0 = c (n - 1)) : EvInv A B C c X n 0 ⟨1, 1, 0, 1, c0⟩ := by
  subst h
  refine ⟨one_pos, 1, one_pos, ?_, ?_, ?_, ?_, ?_⟩ <;> simp [evC, evPair]

/-- The coefficients by integer index. -/
def coI (c : Buf K) (incc : Int) (k : Int) : K := c.val (k * incc)

theorem evBody_inv {sqrt : K → K} {huge : K} {c : Buf K} {incc : Int} {A B C : Buf K} {X : K} {n : Int} (hs : IsSqrt sqrt) (hc : Strided c n incc) (hA : n ≤ A.size)
    (hB : n ≤ B.size) (hC : n ≤ C.size) {t : Nat} (ht : 1 ≤ n - 1 - t) {s : EvSt K} (h : EvInv A.val B.val C.val (coI c incc) X n t s) :
    ∃ s', evBody sqrt huge c incc A B C X (n - 1 - t) s = some s' ∧ EvInv A.val B.val C.val (coI c incc) X n (t + 1) s' := by
  obtain ⟨c0, c1⟩ := hc (n - 1 - t - 1) (by omega) (by omega)
  unfold evBody
  rw [Buf.rd_of (by omega) (by omega), Option.bind_some, Buf.rd_of (by omega) (by omega), Option.bind_some, Buf.rd_of (by omega) (by omega), Option.bind_some,
    Buf.rd_of c0 c1, Option.bind_some]
  have h' := evInv_step h
  simp only
  split_ifs with hh
  · exact evInv_rescale hs h'
  · exact ⟨_, rfl, h'⟩

theorem evAt_eq {sqrt : K → K} {huge : K} {c : Buf K} {incc : Int} {A B C : Buf K} {X : K} {n : Int} {sign : K} (hs : IsSqrt sqrt) (hn : 1 ≤ n) (hc : Strided c n incc)
    (hA : n ≤ A.size) (hB : n ≤ B.size) (hC : n ≤ C.size) :
    evAt sqrt huge n c incc A B C sign X = some (evExact A.val B.val C.val (coI c incc) sqrt X n sign (n.toNat - 1)) := by
  obtain ⟨c0, c1⟩ := hc (n - 1) (by omega) (by omega)
  obtain ⟨s, e, p⟩ := forDown_loop (n := n) (lo := 1) (body := evBody sqrt huge c incc A B C X) (s := (⟨1, 1, 0, 1, c.val ((n - 1) * incc)⟩ : EvSt K))
    (fun t s => EvInv A.val B.val C.val (coI c incc) X n t s) (evInv_init rfl) (fun t ht s p => evBody_inv hs hc hA hB hC ht p)
  unfold evAt
  rw [Buf.rd_of c0 c1, Option.bind_some, e, Option.bind_some, show n.toNat - 1 = (n - 1).toNat by omega, ← evInv_final hs p sign]
  have hq := ne_of_gt (sqrt_pos hs p.pos)
  split_ifs
  · rw [divC_of hq, Option.map_some]; congr 1; ring
  · rw [divC_of hq, Option.map_some]

theorem eigenEval_eq {sqrt : K → K} {huge : K} {c : Buf K} {incc m : Int} {A B C x f : Buf K} {n : Int} {sign : K} (hs : IsSqrt sqrt) (hn : 1 ≤ n) (hc : Strided c n incc)
    (hA : n ≤ A.size) (hB : n ≤ B.size) (hC : n ≤ C.size) (hx : m ≤ x.size) (hf : m ≤ f.size) :
    eigenEval sqrt huge n c incc A B C m x sign f =
      some (mix f 0 m fun i => evExact A.val B.val C.val (coI c incc) sqrt (x.val i) n sign (n.toNat - 1)) := by
  unfold eigenEval
  rw [if_neg (by omega)]
  refine sweepUp_eq _ (le_refl _) hf fun i i0 i1 => ?_
  rw [Buf.rd_of i0 (by omega), Option.bind_some, evAt_eq hs hn hc hA hB hC]

omit [IsStrictOrderedRing K] in
theorem laneMap_spec {S : Nat} {g : EvSt K → Option (EvSt K)} {v : Int → EvSt K} {Q : Int → EvSt K → Prop} (h : ∀ e, ∃ s, g (v e) = some s ∧ Q e s) :
    ∃ w, laneMap S g v = some w ∧ ∀ e, g (v e) = some (w e) ∧ Q e (w e) := by
  refine ⟨fun e => (g (v e)).getD (v e), ?_, fun e => ?_⟩
  · unfold laneMap
    rw [if_pos]
    rw [List.all_eq_true]
    intro e _
    obtain ⟨s, hs, _⟩ := h e
    rw [hs]; rfl
  · obtain ⟨s, hs, q⟩ := h e
    simp only [hs, Option.getD_some]
    exact ⟨trivial, q⟩

/-- Every lane of every register satisfies the scalar invariant. -/
def EvRegInv (L : Nat) (A B C c : Int → K) (X : Buf (Int → K)) (n : Int) (t : Nat) (r : EvRegs K) : Prop :=
  r.size = L ∧ ∀ l, 0 ≤ l → l < (L : Int) → ∀ e, EvInv A B C c (X.val l e) n t (r.val l e)

theorem evRegBody_inv {sqrt : K → K} {huge : K} {S L : Nat} {c : Buf K} {incc : Int} {A B C : Buf K} {X : Buf (Int → K)} {n : Int} (hs : IsSqrt sqrt) (hX : X.size = L)
    (hc : Strided c n incc) (hA : n ≤ A.size) (hB : n ≤ B.size) (hC : n ≤ C.size) {t : Nat} (ht : 1 ≤ n - 1 - t) {r : EvRegs K}
    (h : EvRegInv L A.val B.val C.val (coI c incc) X n t r) :
    ∃ r', evRegBody sqrt huge S L c incc A B C X (n - 1 - t) r = some r' ∧ EvRegInv L A.val B.val C.val (coI c incc) X n (t + 1) r' := by
  obtain ⟨c0, c1⟩ := hc (n - 1 - t - 1) (by omega) (by omega)
  have h1 := sweepUp_eq (lo := 0) (hi := L) (x := r)
    (f := fun l r => (X.rd l).bind fun X => (r.rd l).bind fun s => (A.rd (n - 1 - t)).bind fun a => (B.rd (n - 1 - t)).bind fun b => (C.rd (n - 1 - t)).bind fun g =>
      (c.rd ((n - 1 - t - 1) * incc)).map fun ck e => evStep a b g ck (X e) (s e))
    (fun l e => evStep (A.val (n - 1 - t)) (B.val (n - 1 - t)) (C.val (n - 1 - t)) (coI c incc (n - 1 - t - 1)) (X.val l e) (r.val l e)) (le_refl _)
    (by rw [h.1]) (fun l l0 l1 => by
      rw [Buf.rd_of l0 (by omega), Option.bind_some, Buf.rd_of l0 (by rw [mix_size, h.1]; exact l1), Option.bind_some, Buf.rd_of (by omega) (by omega), Option.bind_some,
        Buf.rd_of (by omega) (by omega), Option.bind_some, Buf.rd_of (by omega) (by omega), Option.bind_some, Buf.rd_of c0 c1, Option.map_some, mix_val_out (by omega)]
      rfl)
  unfold evRegBody
  rw [h1, Option.bind_some]
  set r1 := mix r 0 L fun l e => evStep (A.val (n - 1 - t)) (B.val (n - 1 - t)) (C.val (n - 1 - t)) (coI c incc (n - 1 - t - 1)) (X.val l e) (r.val l e) with hr1
  have s1 : r1.size = L := h.1
  have i1 : ∀ l, 0 ≤ l → l < (L : Int) → ∀ e, EvInv A.val B.val C.val (coI c incc) (X.val l e) n (t + 1) (r1.val l e) := by
    intro l l0 l1 e
    rw [hr1, mix_val_in l0 l1]
    exact evInv_step (h.2 l l0 l1 e)
  split_ifs
  · obtain ⟨y, e, hy⟩ := sweepUp_total (lo := 0) (hi := L) (x := r1) (f := fun l r => (r.rd l).bind (laneMap S (evRescale sqrt))) (le_refl _) (by rw [s1])
      (fun l y l0 l1 => by
        obtain ⟨w, hw, _⟩ := laneMap_spec (S := S) (fun e => evInv_rescale hs (i1 l l0 l1 e))
        refine ⟨w, ?_⟩
        rw [Buf.rd_of l0 (by rw [mix_size, s1]; exact l1), Option.bind_some, mix_val_out (by omega), hw])
    refine ⟨_, e, s1, fun l l0 l1 e => ?_⟩
    have := hy l l0 l1
    rw [Buf.rd_of l0 (by rw [mix_size, s1]; exact l1), Option.bind_some, mix_val_out (by omega)] at this
    obtain ⟨w, hw, q⟩ := laneMap_spec (S := S) (fun e => evInv_rescale hs (i1 l l0 l1 e))
    rw [hw] at this
    rw [mix_val_in l0 l1, ← Option.some.inj this]
    exact (q e).2
  · exact ⟨r1, rfl, s1, i1⟩

theorem evBlock_eq {sqrt : K → K} {huge : K} {S L : Nat} {c : Buf K} {incc : Int} {A B C : Buf K} {n : Int} {sign : K} {x : Buf K} {j : Int} {f : Buf K} (hs : IsSqrt sqrt)
    (hn : 1 ≤ n) (hc : Strided c n incc) (hA : n ≤ A.size) (hB : n ≤ B.size) (hC : n ≤ C.size) (h0 : 0 ≤ j) (hx : j + S * L ≤ x.size) (hf : j + S * L ≤ f.size) :
    evBlock sqrt huge S L n c incc A B C x sign j f =
      some (mix f j (j + S * L) fun i => evExact A.val B.val C.val (coI c incc) sqrt (x.val i) n sign (n.toNat - 1)) := by
  obtain ⟨X, eX, sX, vX⟩ := vLoads_eq (g := id) h0 hx
  obtain ⟨c0, c1⟩ := hc (n - 1) (by omega) (by omega)
  obtain ⟨r, e, p1, p2⟩ := forDown_loop (n := n) (lo := 1) (body := evRegBody sqrt huge S L c incc A B C X)
    (s := (⟨L, fun _ _ => ⟨1, 1, 0, 1, c.val ((n - 1) * incc)⟩⟩ : EvRegs K))
    (fun t r => EvRegInv L A.val B.val C.val (coI c incc) X n t r) ⟨rfl, fun l _ _ e => evInv_init rfl⟩ (fun t ht r p => evRegBody_inv hs sX hc hA hB hC ht p)
  unfold evBlock
  rw [eX, Option.bind_some, Buf.rd_of c0 c1, Option.bind_some, e, Option.bind_some]
  have := vStores_eq (f := f) (F := fun i => evExact A.val B.val C.val (coI c incc) sqrt (x.val i) n sign (n.toNat - 1)) (S := S) (L := L)
    (w := fun l => (r.rd l).bind fun s => (laneMap S (evRescale sqrt) s).bind fun t =>
      some (fun e => if sign * (s e).vkm1 < 0 then -(t e).sum else (t e).sum)) h0 hf
    (fun l l0 l1 => by
      obtain ⟨w, hw, q⟩ := laneMap_spec (S := S) (fun e => evInv_rescale hs (p2 l l0 l1 e))
      refine ⟨_, by rw [Buf.rd_of l0 (by omega), Option.bind_some, hw]; rfl, fun e e0 e1 => ?_⟩
      have hq := (q e).1
      rw [evRescale_eq hs (p2 l l0 l1 e).pos] at hq
      have hq := Option.some.inj hq
      rw [← hq]
      simp only
      rw [evInv_final hs (p2 l l0 l1 e), vX l e l0 l1 e0 e1, show n.toNat - 1 = (n - 1).toNat by omega]
      rfl)
  rw [← this]
  congr 1
  funext l f
  cases r.rd l with
  | none => rfl
  | some s => simp only [Option.bind_some]; cases laneMap S (evRescale sqrt) s <;> rfl

theorem eigenEvalV_eq {sqrt : K → K} {huge : K} {S L : Nat} {c : Buf K} {incc m : Int} {A B C x f : Buf K} {n : Int} {sign : K} (hS : 0 < S) (hL : 0 < L) (hs : IsSqrt sqrt)
    (hn : 1 ≤ n) (hm : 0 ≤ m) (hc : Strided c n incc) (hA : n ≤ A.size) (hB : n ≤ B.size) (hC : n ≤ C.size) (hx : m ≤ x.size) (hf : m ≤ f.size) :
    eigenEvalV sqrt huge S L n c incc A B C m x sign f =
      some (mix f 0 m fun i => evExact A.val B.val C.val (coI c incc) sqrt (x.val i) n sign (n.toNat - 1)) := by
  unfold eigenEvalV
  rw [if_neg (by omega)]
  refine simdBlocks_eq hS hL hm (fun j j0 j1 g hg => evBlock_eq hs hn hc hA hB hC j0 (by omega) (by omega)) (fun j j0 j1 g hg => ?_) hf
  rw [Buf.rd_of j0 (by omega), Option.bind_some, evAt_eq hs hn hc hA hB hC, Option.bind_some]

end FT
