import Verif.Model.Yz
import Verif.Lemmas.Polar
import Verif.Lemmas.Accum

/-! # Lemmas on the exchange of axes -/

namespace FT
variable {K : Type*}

section Generic
variable [Zero K]

theorem each_up {body : Int → Unit → Prog K Unit} {lo hi : Int} {A : Buf K} (P : Int → Buf K → Prop) (h0 : P lo A)
    (hstep : ∀ i, lo ≤ i → i < hi → ∀ A, P i A → ∃ A', (body i ()).run A = some ((), A') ∧ P (i + 1) A') :
    ∃ A', (Prog.each body (rUp lo hi) ()).run A = some ((), A') ∧ P (max lo hi) A' := by
  rw [Prog.run_each, ← forUp_exec]
  obtain ⟨⟨⟨⟩, A'⟩, e, p⟩ := forUp_spec (body := fun i (x : Unit × Buf K) => (body i x.1).run x.2) (lo := lo) (hi := hi) (s := ((), A))
    (fun i x => P i x.2) h0 (fun i h1 h2 x p => by
      obtain ⟨A', e, p'⟩ := hstep i h1 h2 x.2 p
      exact ⟨((), A'), e, p'⟩)
  exact ⟨A', e, p⟩

/-- A parallel loop with disjoint iterations ends, on every schedule, in the memory in which every iteration acted alone. -/
theorem omp_ends {lo hi st : Int} (hst : 0 < st) {T : Nat} (hT : 0 < T) {R : Int → Int → Prop} {body : Int → Prog K Unit} {A B : Buf K}
    (hR : ∀ a ∈ rStep lo hi st, ∀ b ∈ rStep lo hi st, ∀ i, a ≠ b → R a i → ¬ R b i)
    (hW : ∀ a ∈ rStep lo hi st, (body a).Within (R a)) {F : Int → Buf K}
    (hF : ∀ a ∈ rStep lo hi st, (body a).run A = some ((), F a)) (hs : B.size = A.size)
    (h1 : ∀ a ∈ rStep lo hi st, ∀ i, R a i → B.val i = (F a).val i) (h2 : ∀ i, (∀ a ∈ rStep lo hi st, ¬ R a i) → B.val i = A.val i) :
    ParEnds T (ompThread lo hi st T body) A B := by
  have hT' : 0 < st * (T : Int) := Int.mul_pos hst (by omega)
  have hin : ∀ t, t < T → ∀ a ∈ rStep (lo + st * t) hi (st * T), a ∈ rStep lo hi st :=
    fun t ht a ha => (omp_cover hst hT).1.2 ⟨t, ht, ha⟩
  constructor
  · have each := fun t (ht : t < T) => each_disjoint (R := R) (body := body) (A := A) (nodup_rStep (lo := lo + st * t) (hi := hi) hT')
      (fun a ha b hb => hR a (hin t ht a ha) b (hin t ht b hb)) (fun a ha => hW a (hin t ht a ha)) (fun a ha => hF a (hin t ht a ha))
    classical
    refine exists_sched (T := T) (R := fun t i => t < T ∧ ∃ a ∈ rStep (lo + st * t) hi (st * T), R a i) (A := A)
      (P := ompThread lo hi st T body) ?_ (fun t ht => Prog.Within.each (fun a ha _ => (hW a (hin t ht a ha)).mono (fun i hi => ⟨ht, a, ha, hi⟩)) ())
      (F := fun t => if h : t < T then (each t h).choose else A) (fun t ht => ?_)
    · rintro t u i htu ⟨ht, a, ha, hi⟩ ⟨hu, b, hb, hi'⟩
      by_cases hab : a = b
      · subst hab
        exact htu ((omp_cover hst hT).2 t u ht hu ha hb)
      · exact hR a (hin t ht a ha) b (hin u hu b hb) i hab hi hi'
    · have := (each t ht).choose_spec.1
      simp only [dif_pos ht]
      exact this
  · intro sched hsched
    obtain ⟨c, e, c1, c2⟩ := omp_for hst hT hR hW hF sched hsched
    refine ⟨c, e, fun hd => ?_⟩
    obtain ⟨c3, c4⟩ := c2 hd
    refine Buf.ext' (by rw [c1, hs]) fun i => ?_
    by_cases h : ∀ a ∈ rStep lo hi st, ¬ R a i
    · rw [c4 i h, h2 i h]
    · push Not at h
      obtain ⟨a, ha, hi⟩ := h
      rw [c3 a ha i hi, h1 a ha i hi]

end Generic

variable [CommRing K]

theorem semv_acc {n x st : Int} {w : Int → K} {A : Buf K} (hn : 0 ≤ n) (hx : ∀ k, 0 ≤ k → k < n → 0 ≤ x + k * st ∧ x + k * st < A.size) :
    (Prog.each (fun k (acc : K) => .rd (x + k * st) fun v => .ret (acc + w k * v)) (rDown (n - 1) 0) 0).run A =
      some (∑ k ∈ Finset.Ico 0 n, w k * A.val (x + k * st), A) := by
  rw [Prog.run_each, ← forDown_exec]
  obtain ⟨⟨acc, B⟩, e, h1, h2⟩ := forDown_spec
    (body := fun k (s : K × Buf K) => ((.rd (x + k * st) fun v => .ret (s.1 + w k * v)) : Prog K K).run s.2)
    (lo := 0) (hi := n - 1) (s := ((0 : K), A))
    (fun i s => s.2 = A ∧ s.1 = ∑ k ∈ Finset.Ico (i + 1) n, w k * A.val (x + k * st))
    ⟨rfl, by simp⟩ (fun i i0 i1 s ⟨h1, h2⟩ => by
      obtain ⟨acc, B⟩ := s
      simp only at h1 h2
      subst h1
      have hb := hx i (by omega) (by omega)
      simp only [Prog.run]
      rw [Buf.rd_of hb.1 hb.2, Option.bind_some]
      refine ⟨_, rfl, rfl, ?_⟩
      show acc + _ = _
      rw [h2, show i - 1 + 1 = i by ring, sum_Ico_pred (show i < n by omega)]
      ring)
  refine e.trans ?_
  simp only at h1 h2
  rw [h1, h2, show min (n - 1) (0 - 1) + 1 = 0 by omega]

/-- `ft_semv` when the two parts of the array do not overlap. -/
theorem semvP_run {n x st y : Int} {w : Int → Int → K} {A : Buf K} (hn : 0 ≤ n) (hx : ∀ k, 0 ≤ k → k < n → 0 ≤ x + k * st ∧ x + k * st < A.size)
    (hy : ∀ j, 0 ≤ j → j < n → 0 ≤ y + j ∧ y + j < A.size) (hd : ∀ j k, 0 ≤ j → j < n → 0 ≤ k → k < n → x + k * st ≠ y + j) :
    ∃ B, (semvP n w x st y).run A = some ((), B) ∧ B.size = A.size ∧
      (∀ j, 0 ≤ j → j < n → B.val (y + j) = ∑ k ∈ Finset.Ico 0 n, w j k * A.val (x + k * st)) ∧
      ∀ p, ¬ (y ≤ p ∧ p < y + n) → B.val p = A.val p := by
  unfold semvP
  obtain ⟨B, e, h1, h2, h3⟩ := each_up
    (body := fun j _ => (Prog.each (fun k (acc : K) => .rd (x + k * st) fun v => .ret (acc + w j k * v)) (rDown (n - 1) 0) 0).bind fun v => .wr (y + j) v (.ret ()))
    (lo := 0) (hi := n) (A := A)
    (fun i B => B.size = A.size ∧ (∀ j, 0 ≤ j → j < i → B.val (y + j) = ∑ k ∈ Finset.Ico 0 n, w j k * A.val (x + k * st)) ∧
      ∀ p, ¬ (y ≤ p ∧ p < y + i) → B.val p = A.val p)
    ⟨rfl, fun j a b => by omega, fun _ _ => rfl⟩ (fun i i0 i1 B ⟨h1, h2, h3⟩ => by
      have hb := hy i i0 i1
      rw [Prog.run_bind, semv_acc hn (fun k k0 k1 => by rw [h1]; exact hx k k0 k1), Option.bind_some]
      simp only [Prog.run]
      rw [Buf.wr_of hb.1 (by rw [h1]; exact hb.2), Option.bind_some]
      refine ⟨_, rfl, h1, fun j j0 j1 => ?_, fun p hp => ?_⟩
      · show Function.update B.val (y + i) _ (y + j) = _
        rw [Function.update_apply]
        split_ifs with h
        · have : j = i := by omega
          subst this
          refine Finset.sum_congr rfl fun k hk => ?_
          rw [Finset.mem_Ico] at hk
          rw [h3]
          intro hp
          exact hd (x + k * st - y) k (by omega) (by omega) hk.1 hk.2 (by ring)
        · exact h2 j j0 (by omega)
      · show Function.update B.val (y + i) _ p = _
        rw [Function.update_of_ne (by omega)]
        exact h3 p (by omega))
  refine ⟨B, e, h1, fun j j0 j1 => h2 j j0 (by omega), fun p hp => h3 p (by omega)⟩

/-- Moving a block from scratch to its strided place and clearing the scratch. -/
theorem backP_run {n inn st out : Int} {A : Buf K} (hin : ∀ k, 0 ≤ k → k < n → 0 ≤ k * st + inn ∧ k * st + inn < A.size)
    (hout : ∀ j, 0 ≤ j → j < n → 0 ≤ j + out ∧ j + out < A.size) (hd : ∀ j k, 0 ≤ j → j < n → 0 ≤ k → k < n → k * st + inn ≠ j + out)
    (hinj : ∀ j k, 0 ≤ j → j < n → 0 ≤ k → k < n → j * st + inn = k * st + inn → j = k) :
    ∃ B, (backP n inn st out : Prog K Unit).run A = some ((), B) ∧ B.size = A.size ∧
      (∀ j, 0 ≤ j → j < n → B.val (j * st + inn) = A.val (j + out)) ∧ (∀ j, 0 ≤ j → j < n → B.val (j + out) = 0) ∧
      ∀ p, (∀ j, 0 ≤ j → j < n → p ≠ j * st + inn ∧ p ≠ j + out) → B.val p = A.val p := by
  unfold backP
  obtain ⟨B, e, h1, h2, h3, h4⟩ := each_up
    (body := fun i _ => (.rd (i + out) fun v => .wr (i * st + inn) v (.wr (i + out) 0 (.ret ())) : Prog K Unit))
    (lo := 0) (hi := n) (A := A)
    (fun i B => B.size = A.size ∧ (∀ j, 0 ≤ j → j < i → B.val (j * st + inn) = A.val (j + out)) ∧ (∀ j, 0 ≤ j → j < i → B.val (j + out) = 0) ∧
      ∀ p, (∀ j, 0 ≤ j → j < i → p ≠ j * st + inn ∧ p ≠ j + out) → B.val p = A.val p)
    ⟨rfl, fun j a b => by omega, fun j a b => by omega, fun _ _ => rfl⟩ (fun i i0 i1 B ⟨h1, h2, h3, h4⟩ => by
      have hb := hin i i0 i1
      have ho := hout i i0 i1
      simp only [Prog.run]
      rw [Buf.rd_of ho.1 (by rw [h1]; exact ho.2), Option.bind_some, Buf.wr_of hb.1 (by rw [h1]; exact hb.2), Option.bind_some,
        Buf.wr_of ho.1 (by show _ < (B.size : Int); rw [h1]; exact ho.2), Option.bind_some]
      refine ⟨_, rfl, h1, fun j j0 j1 => ?_, fun j j0 j1 => ?_, fun p hp => ?_⟩
      · show Function.update (Function.update B.val (i * st + inn) _) (i + out) 0 (j * st + inn) = _
        rw [Function.update_of_ne (hd i j i0 i1 j0 (by omega)), Function.update_apply]
        split_ifs with h
        · have := hinj j i j0 (by omega) i0 i1 h
          subst this
          exact h4 _ (fun k k0 k1 => ⟨(hd j k j0 i1 k0 (by omega)).symm, by omega⟩)
        · exact h2 j j0 (by
            by_contra hj
            exact h (by rw [show j = i by omega]))
      · show Function.update (Function.update B.val (i * st + inn) _) (i + out) 0 (j + out) = _
        rw [Function.update_apply]
        split_ifs with h
        · rfl
        · rw [Function.update_of_ne (hd j i j0 (by omega) i0 i1).symm]
          exact h3 j j0 (by omega)
      · show Function.update (Function.update B.val (i * st + inn) _) (i + out) 0 p = _
        have := hp i i0 (by omega)
        rw [Function.update_of_ne this.2, Function.update_of_ne this.1]
        exact h4 p (fun j j0 j1 => hp j j0 (by omega)))
  by_cases hn : 0 ≤ n
  · rw [max_eq_right hn] at h2 h3 h4
    exact ⟨B, e, h1, h2, h3, h4⟩
  · rw [max_eq_left (by omega)] at h2 h3 h4
    exact ⟨B, e, h1, fun j a b => by omega, fun j a b => by omega, fun p _ => h4 p (fun j a b => by omega)⟩

/-- The same for two blocks at once. -/
theorem back2P_run {n in1 out1 in2 out2 st : Int} {A : Buf K} (hin1 : ∀ k, 0 ≤ k → k < n → 0 ≤ k * st + in1 ∧ k * st + in1 < A.size)
    (hin2 : ∀ k, 0 ≤ k → k < n → 0 ≤ k * st + in2 ∧ k * st + in2 < A.size)
    (hout1 : ∀ j, 0 ≤ j → j < n → 0 ≤ j + out1 ∧ j + out1 < A.size) (hout2 : ∀ j, 0 ≤ j → j < n → 0 ≤ j + out2 ∧ j + out2 < A.size)
    (hd11 : ∀ j k, 0 ≤ j → j < n → 0 ≤ k → k < n → k * st + in1 ≠ j + out1) (hd12 : ∀ j k, 0 ≤ j → j < n → 0 ≤ k → k < n → k * st + in1 ≠ j + out2)
    (hd21 : ∀ j k, 0 ≤ j → j < n → 0 ≤ k → k < n → k * st + in2 ≠ j + out1) (hd22 : ∀ j k, 0 ≤ j → j < n → 0 ≤ k → k < n → k * st + in2 ≠ j + out2)
    (hdi : ∀ j k, 0 ≤ j → j < n → 0 ≤ k → k < n → k * st + in1 ≠ j * st + in2) (hdo : ∀ j k, 0 ≤ j → j < n → 0 ≤ k → k < n → k + out1 ≠ j + out2)
    (hinj : ∀ j k, 0 ≤ j → j < n → 0 ≤ k → k < n → j * st = k * st → j = k) :
    ∃ B, (back2P n in1 out1 in2 out2 st : Prog K Unit).run A = some ((), B) ∧ B.size = A.size ∧
      (∀ j, 0 ≤ j → j < n → B.val (j * st + in1) = A.val (j + out1) ∧ B.val (j * st + in2) = A.val (j + out2) ∧ B.val (j + out1) = 0 ∧ B.val (j + out2) = 0) ∧
      ∀ p, (∀ j, 0 ≤ j → j < n → p ≠ j * st + in1 ∧ p ≠ j * st + in2 ∧ p ≠ j + out1 ∧ p ≠ j + out2) → B.val p = A.val p := by
  unfold back2P
  obtain ⟨B, e, h1, h2, h4⟩ := each_up
    (body := fun i _ => (.rd (i + out1) fun v => .wr (i * st + in1) v (.wr (i + out1) 0
      (.rd (i + out2) fun v => .wr (i * st + in2) v (.wr (i + out2) 0 (.ret ())))) : Prog K Unit))
    (lo := 0) (hi := n) (A := A)
    (fun i B => B.size = A.size ∧
      (∀ j, 0 ≤ j → j < i → B.val (j * st + in1) = A.val (j + out1) ∧ B.val (j * st + in2) = A.val (j + out2) ∧ B.val (j + out1) = 0 ∧ B.val (j + out2) = 0) ∧
      ∀ p, (∀ j, 0 ≤ j → j < i → p ≠ j * st + in1 ∧ p ≠ j * st + in2 ∧ p ≠ j + out1 ∧ p ≠ j + out2) → B.val p = A.val p)
    ⟨rfl, fun j a b => by omega, fun _ _ => rfl⟩ (fun i i0 i1 B ⟨h1, h2, h4⟩ => by
      have hb1 := hin1 i i0 i1
      have hb2 := hin2 i i0 i1
      have ho1 := hout1 i i0 i1
      have ho2 := hout2 i i0 i1
      have v1 : B.val (i + out1) = A.val (i + out1) := h4 _ (fun k k0 k1 =>
        ⟨(hd11 i k i0 i1 k0 (by omega)).symm, (hd21 i k i0 i1 k0 (by omega)).symm, by omega, hdo k i k0 (by omega) i0 i1⟩)
      have v2 : B.val (i + out2) = A.val (i + out2) := h4 _ (fun k k0 k1 =>
        ⟨(hd12 i k i0 i1 k0 (by omega)).symm, (hd22 i k i0 i1 k0 (by omega)).symm, (hdo i k i0 i1 k0 (by omega)).symm, by omega⟩)
      have n1 : i + out2 ≠ i + out1 := (hdo i i i0 i1 i0 i1).symm
      have n2 : i + out2 ≠ i * st + in1 := (hd12 i i i0 i1 i0 i1).symm
      simp only [Prog.run]
      rw [Buf.rd_of ho1.1 (by rw [h1]; exact ho1.2), Option.bind_some, Buf.wr_of hb1.1 (by rw [h1]; exact hb1.2), Option.bind_some,
        Buf.wr_of ho1.1 (by show _ < (B.size : Int); rw [h1]; exact ho1.2), Option.bind_some,
        Buf.rd_of ho2.1 (by show _ < (B.size : Int); rw [h1]; exact ho2.2), Option.bind_some,
        Buf.wr_of hb2.1 (by show _ < (B.size : Int); rw [h1]; exact hb2.2), Option.bind_some,
        Buf.wr_of ho2.1 (by show _ < (B.size : Int); rw [h1]; exact ho2.2), Option.bind_some]
      simp only
      rw [Function.update_of_ne n1, Function.update_of_ne n2, v1, v2]
      refine ⟨_, rfl, h1, fun j j0 j1 => ?_, fun p hp => ?_⟩
      · simp only
        by_cases hji : j = i
        · subst hji
          refine ⟨?_, ?_, ?_, ?_⟩
          · rw [Function.update_of_ne (hd12 j j j0 i1 j0 i1), Function.update_of_ne (hdi j j j0 i1 j0 i1), Function.update_of_ne (hd11 j j j0 i1 j0 i1), Function.update_self]
          · rw [Function.update_of_ne (hd22 j j j0 i1 j0 i1), Function.update_self]
          · rw [Function.update_of_ne (hdo j j j0 i1 j0 i1), Function.update_of_ne (hd21 j j j0 i1 j0 i1).symm, Function.update_self]
          · rw [Function.update_self]
        · have hj1 : j < i := by omega
          have hj2 : j < n := by omega
          obtain ⟨q1, q2, q3, q4⟩ := h2 j j0 hj1
          have ninj : j * st ≠ i * st := fun h => hji (hinj j i j0 hj2 i0 i1 h)
          refine ⟨?_, ?_, ?_, ?_⟩
          · rw [Function.update_of_ne (hd12 i j i0 i1 j0 hj2), Function.update_of_ne (hdi i j i0 i1 j0 hj2), Function.update_of_ne (hd11 i j i0 i1 j0 hj2),
              Function.update_of_ne (by omega), q1]
          · rw [Function.update_of_ne (hd22 i j i0 i1 j0 hj2), Function.update_of_ne (by omega), Function.update_of_ne (hd21 i j i0 i1 j0 hj2),
              Function.update_of_ne (hdi j i j0 hj2 i0 i1).symm, q2]
          · rw [Function.update_of_ne (hdo i j i0 i1 j0 hj2), Function.update_of_ne (hd21 j i j0 hj2 i0 i1).symm, Function.update_of_ne (by omega),
              Function.update_of_ne (hd11 j i j0 hj2 i0 i1).symm, q3]
          · rw [Function.update_of_ne (by omega), Function.update_of_ne (hd22 j i j0 hj2 i0 i1).symm, Function.update_of_ne (hdo j i j0 hj2 i0 i1).symm,
              Function.update_of_ne (hd12 j i j0 hj2 i0 i1).symm, q4]
      · obtain ⟨q1, q2, q3, q4⟩ := hp i i0 (by omega)
        simp only
        rw [Function.update_of_ne q4, Function.update_of_ne q2, Function.update_of_ne q3, Function.update_of_ne q1]
        exact h4 p (fun j j0 j1 => hp j j0 (by omega)))
  by_cases hn : 0 ≤ n
  · rw [max_eq_right hn] at h2 h4
    exact ⟨B, e, h1, h2, h4⟩
  · rw [max_eq_left (by omega)] at h2 h4
    exact ⟨B, e, h1, fun j a b => by omega, fun p _ => h4 p (fun j a b => by omega)⟩

/-! ## Positions -/

/-- Position of the sine coefficient of degree `l`, order `m`: column `2m-1`, row `l-m`. -/
def cS (N l m : Int) : Int := l - m + N * (2 * m - 1)

/-- Position of the cosine coefficient of degree `l`, order `m`: column `2m`, row `l-m`. -/
def cC (N l m : Int) : Int := l - m + N * (2 * m)

/-- Scratch at the foot of column `2l-1`. -/
def sA (N l j : Int) : Int := N - l + j + N * (2 * l - 1)

/-- Scratch at the foot of column `2l`. -/
def sB (N l j : Int) : Int := N - l + j + N * (2 * l)

theorem rc_ne {N i c i' c' : Int} (i0 : 0 ≤ i) (iN : i < N) (i0' : 0 ≤ i') (iN' : i' < N) (h : ¬ (i = i' ∧ c = c')) :
    i + N * c ≠ i' + N * c' := by
  intro e
  have h1 := rc_div (c := c) i0 iN
  have h2 := rc_mod (c := c) i0 iN
  rw [e, rc_div i0' iN'] at h1
  rw [e, rc_mod i0' iN'] at h2
  exact h ⟨h2.symm, h1.symm⟩

theorem rc_bound {N i c n s : Int} (i0 : 0 ≤ i) (iN : i < N) (c0 : 0 ≤ c) (cn : c + 1 ≤ 2 * n - 1) (hs : N * (2 * n - 1) ≤ s) :
    0 ≤ i + N * c ∧ i + N * c < s := by
  have h1 : 0 ≤ N * c := Int.mul_nonneg (by omega) c0
  have h2 : N * (c + 1) ≤ N * (2 * n - 1) := Int.mul_le_mul_of_nonneg_left cn (by omega)
  rw [Int.mul_add, Int.mul_one] at h2
  omega

/-- The part of the array that degree `l` uses. -/
def yzR (N l p : Int) : Prop :=
  (∃ m, 1 ≤ m ∧ m ≤ l ∧ p = cS N l m) ∨ (∃ m, 0 ≤ m ∧ m ≤ l ∧ p = cC N l m) ∨ (∃ j, 0 ≤ j ∧ j < l ∧ p = sA N l j) ∨ ∃ j, 0 ≤ j ∧ j < l ∧ p = sB N l j

theorem yzR_disj {N a b p : Int} (ha : 0 ≤ a) (haN : a < N) (hb : 0 ≤ b) (hbN : b < N) (hab : a ≠ b) (h1 : yzR N a p) : ¬ yzR N b p := by
  intro h2
  unfold yzR cS cC sA sB at h1 h2
  rcases h1 with ⟨m, m1, m2, rfl⟩ | ⟨m, m1, m2, rfl⟩ | ⟨m, m1, m2, rfl⟩ | ⟨m, m1, m2, rfl⟩ <;>
    rcases h2 with ⟨k, k1, k2, e⟩ | ⟨k, k1, k2, e⟩ | ⟨k, k1, k2, e⟩ | ⟨k, k1, k2, e⟩ <;>
    exact rc_ne (by omega) (by omega) (by omega) (by omega) (by omega) e

/-- What the exchange does in degree `l = 2 h + e`, `e` zero or one: `a` before, `b` after. -/
structure YzAt (J : YzPlan K) (N h e : Int) (a b : Int → K) : Prop where
  s1 : ∀ i, 0 ≤ i → i < h → b (cS N (2 * h + e) (1 + e + 2 * i)) = ∑ k ∈ Finset.Ico 0 h, J.w11 (2 * h + e) i k * a (cS N (2 * h + e) (1 + e + 2 * k))
  c1 : ∀ i, 0 ≤ i → i < h + 1 → b (cC N (2 * h + e) (e + 2 * i)) = ∑ k ∈ Finset.Ico 0 (h + 1), J.w22 (2 * h + e) i k * a (cC N (2 * h + e) (e + 2 * k))
  s2 : ∀ i, 0 ≤ i → i < h + e → b (cS N (2 * h + e) (2 - e + 2 * i)) = ∑ k ∈ Finset.Ico 0 (h + e), J.w12 (2 * h + e) i k * a (cC N (2 * h + e) (1 - e + 2 * k))
  c2 : ∀ i, 0 ≤ i → i < h + e → b (cC N (2 * h + e) (1 - e + 2 * i)) = ∑ k ∈ Finset.Ico 0 (h + e), J.w21 (2 * h + e) i k * a (cS N (2 * h + e) (2 - e + 2 * k))
  za : ∀ i, 0 ≤ i → i < h + e → b (sA N (2 * h + e) i) = 0
  zb : ∀ i, 0 ≤ i → i < h + 1 → b (sB N (2 * h + e) i) = 0
  rest : ∀ i, h + e ≤ i → i < 2 * h + e → b (sA N (2 * h + e) i) = a (sA N (2 * h + e) i)
  restb : ∀ i, h + 1 ≤ i → i < 2 * h + e → b (sB N (2 * h + e) i) = a (sB N (2 * h + e) i)

section Degree
variable {J : YzPlan K} {N n h e : Int}

theorem yzDegree_run (he : e = 0 ∨ e = 1) (h1 : 1 ≤ h) (hn : 2 * h + e < n) (hN : n ≤ N) {A : Buf K} (hs : N * (2 * n - 1) ≤ A.size) :
    ∃ B, (yzDegree J N (2 * h + e)).run A = some ((), B) ∧ B.size = A.size ∧ YzAt J N h e A.val B.val := by
  have e1 : (2 * h + e) % 2 = e := by omega
  have e2 : (2 * h + e) / 2 = h := by omega
  have e3 : (2 * h + e + 2) / 2 = h + 1 := by omega
  have e4 : (2 * h + e + 1) / 2 = h + e := by omega
  have p11 : ∀ k, 2 * h + e + N - 1 + e * (2 * N - 1) + k * (4 * N - 2) = cS N (2 * h + e) (1 + e + 2 * k) := fun k => by unfold cS; ring
  have p22 : ∀ k, 2 * h + e + e * (2 * N - 1) + k * (4 * N - 2) = cC N (2 * h + e) (e + 2 * k) := fun k => by unfold cC; ring
  have p21 : ∀ k, 2 * h + e - 1 + N + (1 - e) * (2 * N - 1) + k * (4 * N - 2) = cS N (2 * h + e) (2 - e + 2 * k) := fun k => by unfold cS; ring
  have p12 : ∀ k, 2 * h + e + (1 - e) * (2 * N - 1) + k * (4 * N - 2) = cC N (2 * h + e) (1 - e + 2 * k) := fun k => by unfold cC; ring
  have pa : ∀ j, N * (2 * (2 * h + e) - 1) + N - (2 * h + e) + j = sA N (2 * h + e) j := fun j => by unfold sA; ring
  have pb : ∀ j, N * (2 * (2 * h + e)) + N - (2 * h + e) + j = sB N (2 * h + e) j := fun j => by unfold sB; ring
  have bS : ∀ {s : Int}, s = A.size → ∀ m, 1 ≤ m → m ≤ 2 * h + e → 0 ≤ cS N (2 * h + e) m ∧ cS N (2 * h + e) m < s :=
    fun hs' m m0 m1 => rc_bound (n := n) (by omega) (by omega) (by omega) (by omega) (by rw [hs']; exact hs)
  have bC : ∀ {s : Int}, s = A.size → ∀ m, 0 ≤ m → m ≤ 2 * h + e → 0 ≤ cC N (2 * h + e) m ∧ cC N (2 * h + e) m < s :=
    fun hs' m m0 m1 => rc_bound (n := n) (by omega) (by omega) (by omega) (by omega) (by rw [hs']; exact hs)
  have bA : ∀ {s : Int}, s = A.size → ∀ m, 0 ≤ m → m < 2 * h + e → 0 ≤ sA N (2 * h + e) m ∧ sA N (2 * h + e) m < s :=
    fun hs' m m0 m1 => rc_bound (n := n) (by omega) (by omega) (by omega) (by omega) (by rw [hs']; exact hs)
  have bB : ∀ {s : Int}, s = A.size → ∀ m, 0 ≤ m → m < 2 * h + e → 0 ≤ sB N (2 * h + e) m ∧ sB N (2 * h + e) m < s :=
    fun hs' m m0 m1 => rc_bound (n := n) (by omega) (by omega) (by omega) (by omega) (by rw [hs']; exact hs)
  have SA : ∀ m j, 1 ≤ m → m ≤ 2 * h + e → 0 ≤ j → j < 2 * h + e → cS N (2 * h + e) m ≠ sA N (2 * h + e) j :=
    fun m j a b c d => rc_ne (by omega) (by omega) (by omega) (by omega) (by omega)
  have SB : ∀ m j, 1 ≤ m → m ≤ 2 * h + e → 0 ≤ j → j < 2 * h + e → cS N (2 * h + e) m ≠ sB N (2 * h + e) j :=
    fun m j a b c d => rc_ne (by omega) (by omega) (by omega) (by omega) (by omega)
  have CA : ∀ m j, 0 ≤ m → m ≤ 2 * h + e → 0 ≤ j → j < 2 * h + e → cC N (2 * h + e) m ≠ sA N (2 * h + e) j :=
    fun m j a b c d => rc_ne (by omega) (by omega) (by omega) (by omega) (by omega)
  have CB : ∀ m j, 0 ≤ m → m ≤ 2 * h + e → 0 ≤ j → j < 2 * h + e → cC N (2 * h + e) m ≠ sB N (2 * h + e) j :=
    fun m j a b c d => rc_ne (by omega) (by omega) (by omega) (by omega) (by omega)
  have SC : ∀ m k, 1 ≤ m → m ≤ 2 * h + e → 0 ≤ k → k ≤ 2 * h + e → cS N (2 * h + e) m ≠ cC N (2 * h + e) k :=
    fun m j a b c d => rc_ne (by omega) (by omega) (by omega) (by omega) (by omega)
  have SS : ∀ m k, 1 ≤ m → m ≤ 2 * h + e → 1 ≤ k → k ≤ 2 * h + e → m ≠ k → cS N (2 * h + e) m ≠ cS N (2 * h + e) k :=
    fun m j a b c d _ => rc_ne (by omega) (by omega) (by omega) (by omega) (by omega)
  have CC : ∀ m k, 0 ≤ m → m ≤ 2 * h + e → 0 ≤ k → k ≤ 2 * h + e → m ≠ k → cC N (2 * h + e) m ≠ cC N (2 * h + e) k :=
    fun m j a b c d _ => rc_ne (by omega) (by omega) (by omega) (by omega) (by omega)
  have AB : ∀ m k, 0 ≤ m → m < 2 * h + e → 0 ≤ k → k < 2 * h + e → sA N (2 * h + e) m ≠ sB N (2 * h + e) k :=
    fun m j a b c d => rc_ne (by omega) (by omega) (by omega) (by omega) (by omega)
  have AA : ∀ m k, m ≠ k → sA N (2 * h + e) m ≠ sA N (2 * h + e) k := fun m k hmk => by unfold sA; omega
  have BB : ∀ m k, m ≠ k → sB N (2 * h + e) m ≠ sB N (2 * h + e) k := fun m k hmk => by unfold sB; omega
  have stinj : ∀ j k : Int, j * (4 * N - 2) = k * (4 * N - 2) → j = k := fun j k hjk => Int.eq_of_mul_eq_mul_right (by omega) hjk
  have rngA : ∀ (m p : Int), (∀ j, 0 ≤ j → j < m → p ≠ sA N (2 * h + e) j) →
      ¬ (N * (2 * (2 * h + e) - 1) + N - (2 * h + e) ≤ p ∧ p < N * (2 * (2 * h + e) - 1) + N - (2 * h + e) + m) := fun m p hp ⟨a, b⟩ => by
    refine hp (p - (N * (2 * (2 * h + e) - 1) + N - (2 * h + e))) (by omega) (by omega) ?_
    rw [← pa]; ring
  have rngB : ∀ (m p : Int), (∀ j, 0 ≤ j → j < m → p ≠ sB N (2 * h + e) j) →
      ¬ (N * (2 * (2 * h + e)) + N - (2 * h + e) ≤ p ∧ p < N * (2 * (2 * h + e)) + N - (2 * h + e) + m) := fun m p hp ⟨a, b⟩ => by
    refine hp (p - (N * (2 * (2 * h + e)) + N - (2 * h + e))) (by omega) (by omega) ?_
    rw [← pb]; ring
  unfold yzDegree
  simp only [e1, e2, e3, e4]
  simp only [Prog.run_bind]
  obtain ⟨A1, r1, z1, v1, u1⟩ := semvP_run (n := h) (w := J.w11 (2 * h + e)) (x := 2 * h + e + N - 1 + e * (2 * N - 1)) (st := 4 * N - 2)
    (y := N * (2 * (2 * h + e) - 1) + N - (2 * h + e)) (A := A) (by omega)
    (fun k k0 k1 => by rw [p11]; exact bS rfl _ (by omega) (by omega)) (fun k k0 k1 => by rw [pa]; exact bA rfl _ (by omega) (by omega))
    (fun j k j0 j1 k0 k1 => by rw [p11, pa]; exact SA _ _ (by omega) (by omega) (by omega) (by omega))
  rw [r1, Option.bind_some]
  simp only [p11, pa] at v1
  obtain ⟨A2, r2, z2, v2, u2⟩ := semvP_run (n := h + 1) (w := J.w22 (2 * h + e)) (x := 2 * h + e + e * (2 * N - 1)) (st := 4 * N - 2)
    (y := N * (2 * (2 * h + e)) + N - (2 * h + e)) (A := A1) (by omega)
    (fun k k0 k1 => by rw [p22]; exact bC (by rw [z1]) _ (by omega) (by omega)) (fun k k0 k1 => by rw [pb]; exact bB (by rw [z1]) _ (by omega) (by omega))
    (fun j k j0 j1 k0 k1 => by rw [p22, pb]; exact CB _ _ (by omega) (by omega) (by omega) (by omega))
  rw [r2, Option.bind_some]
  simp only [p22, pb] at v2
  have y2 : A2.size = A.size := by rw [z2, z1]
  obtain ⟨A3, r3, z3, v3, w3, u3⟩ := backP_run (n := h) (inn := 2 * h + e + N - 1 + e * (2 * N - 1)) (st := 4 * N - 2)
    (out := N * (2 * (2 * h + e) - 1) + N - (2 * h + e)) (A := A2)
    (fun k k0 k1 => by rw [add_comm, p11]; exact bS (by rw [y2]) _ (by omega) (by omega))
    (fun k k0 k1 => by rw [add_comm, pa]; exact bA (by rw [y2]) _ (by omega) (by omega))
    (fun j k j0 j1 k0 k1 => by rw [add_comm (k * _), p11, add_comm j, pa]; exact SA _ _ (by omega) (by omega) (by omega) (by omega))
    (fun j k _ _ _ _ hjk => stinj j k (by omega))
  rw [r3, Option.bind_some]
  simp only [add_comm _ (2 * h + e + N - 1 + e * (2 * N - 1)), add_comm _ (N * (2 * (2 * h + e) - 1) + N - (2 * h + e)), p11, pa] at v3 w3 u3
  have y3 : A3.size = A.size := by rw [z3, y2]
  obtain ⟨A4, r4, z4, v4, w4, u4⟩ := backP_run (n := h + 1) (inn := 2 * h + e + e * (2 * N - 1)) (st := 4 * N - 2)
    (out := N * (2 * (2 * h + e)) + N - (2 * h + e)) (A := A3)
    (fun k k0 k1 => by rw [add_comm, p22]; exact bC (by rw [y3]) _ (by omega) (by omega))
    (fun k k0 k1 => by rw [add_comm, pb]; exact bB (by rw [y3]) _ (by omega) (by omega))
    (fun j k j0 j1 k0 k1 => by rw [add_comm (k * _), p22, add_comm j, pb]; exact CB _ _ (by omega) (by omega) (by omega) (by omega))
    (fun j k _ _ _ _ hjk => stinj j k (by omega))
  rw [r4, Option.bind_some]
  simp only [add_comm _ (2 * h + e + e * (2 * N - 1)), add_comm _ (N * (2 * (2 * h + e)) + N - (2 * h + e)), p22, pb] at v4 w4 u4
  have y4 : A4.size = A.size := by rw [z4, y3]
  obtain ⟨A5, r5, z5, v5, u5⟩ := semvP_run (n := h + e) (w := J.w21 (2 * h + e)) (x := 2 * h + e - 1 + N + (1 - e) * (2 * N - 1)) (st := 4 * N - 2)
    (y := N * (2 * (2 * h + e) - 1) + N - (2 * h + e)) (A := A4) (by omega)
    (fun k k0 k1 => by rw [p21]; exact bS (by rw [y4]) _ (by omega) (by omega)) (fun k k0 k1 => by rw [pa]; exact bA (by rw [y4]) _ (by omega) (by omega))
    (fun j k j0 j1 k0 k1 => by rw [p21, pa]; exact SA _ _ (by omega) (by omega) (by omega) (by omega))
  rw [r5, Option.bind_some]
  simp only [p21, pa] at v5
  have y5 : A5.size = A.size := by rw [z5, y4]
  obtain ⟨A6, r6, z6, v6, u6⟩ := semvP_run (n := h + e) (w := J.w12 (2 * h + e)) (x := 2 * h + e + (1 - e) * (2 * N - 1)) (st := 4 * N - 2)
    (y := N * (2 * (2 * h + e)) + N - (2 * h + e)) (A := A5) (by omega)
    (fun k k0 k1 => by rw [p12]; exact bC (by rw [y5]) _ (by omega) (by omega)) (fun k k0 k1 => by rw [pb]; exact bB (by rw [y5]) _ (by omega) (by omega))
    (fun j k j0 j1 k0 k1 => by rw [p12, pb]; exact CB _ _ (by omega) (by omega) (by omega) (by omega))
  rw [r6, Option.bind_some]
  simp only [p12, pb] at v6
  have y6 : A6.size = A.size := by rw [z6, y5]
  obtain ⟨A7, r7, z7, v7, u7⟩ := back2P_run (n := h + e) (in1 := 2 * h + e - 1 + N + (1 - e) * (2 * N - 1)) (out1 := N * (2 * (2 * h + e)) + N - (2 * h + e))
    (in2 := 2 * h + e + (1 - e) * (2 * N - 1)) (out2 := N * (2 * (2 * h + e) - 1) + N - (2 * h + e)) (st := 4 * N - 2) (A := A6)
    (fun k k0 k1 => by rw [add_comm, p21]; exact bS (by rw [y6]) _ (by omega) (by omega))
    (fun k k0 k1 => by rw [add_comm, p12]; exact bC (by rw [y6]) _ (by omega) (by omega))
    (fun k k0 k1 => by rw [add_comm, pb]; exact bB (by rw [y6]) _ (by omega) (by omega))
    (fun k k0 k1 => by rw [add_comm, pa]; exact bA (by rw [y6]) _ (by omega) (by omega))
    (fun j k j0 j1 k0 k1 => by rw [add_comm (k * _), p21, add_comm j, pb]; exact SB _ _ (by omega) (by omega) (by omega) (by omega))
    (fun j k j0 j1 k0 k1 => by rw [add_comm (k * _), p21, add_comm j, pa]; exact SA _ _ (by omega) (by omega) (by omega) (by omega))
    (fun j k j0 j1 k0 k1 => by rw [add_comm (k * _), p12, add_comm j, pb]; exact CB _ _ (by omega) (by omega) (by omega) (by omega))
    (fun j k j0 j1 k0 k1 => by rw [add_comm (k * _), p12, add_comm j, pa]; exact CA _ _ (by omega) (by omega) (by omega) (by omega))
    (fun j k j0 j1 k0 k1 => by rw [add_comm (k * _), p21, add_comm (j * _), p12]; exact SC _ _ (by omega) (by omega) (by omega) (by omega))
    (fun j k j0 j1 k0 k1 => by rw [add_comm k, pb, add_comm j, pa]; exact (AB _ _ (by omega) (by omega) (by omega) (by omega)).symm)
    (fun j k _ _ _ _ hjk => stinj j k hjk)
  refine ⟨A7, r7, by rw [z7, y6], ?_⟩
  simp only [add_comm _ (2 * h + e - 1 + N + (1 - e) * (2 * N - 1)), add_comm _ (2 * h + e + (1 - e) * (2 * N - 1)),
    add_comm _ (N * (2 * (2 * h + e)) + N - (2 * h + e)), add_comm _ (N * (2 * (2 * h + e) - 1) + N - (2 * h + e)), p21, p12, pa, pb] at v7 u7
  have U1 : ∀ p, (∀ j, 0 ≤ j → j < h → p ≠ sA N (2 * h + e) j) → A1.val p = A.val p := fun p hp => u1 p (rngA _ p hp)
  have U2 : ∀ p, (∀ j, 0 ≤ j → j < h + 1 → p ≠ sB N (2 * h + e) j) → A2.val p = A1.val p := fun p hp => u2 p (rngB _ p hp)
  have U5 : ∀ p, (∀ j, 0 ≤ j → j < h + e → p ≠ sA N (2 * h + e) j) → A5.val p = A4.val p := fun p hp => u5 p (rngA _ p hp)
  have U6 : ∀ p, (∀ j, 0 ≤ j → j < h + e → p ≠ sB N (2 * h + e) j) → A6.val p = A5.val p := fun p hp => u6 p (rngB _ p hp)
  -- the coefficients survive until they are read
  have Snone : ∀ m, 1 ≤ m → m ≤ 2 * h + e → (∀ j, 0 ≤ j → j < h → m ≠ 1 + e + 2 * j) → A4.val (cS N (2 * h + e) m) = A.val (cS N (2 * h + e) m) := by
    intro m m0 m1 hm
    rw [u4 _ (fun j j0 j1 => ⟨SC _ _ m0 m1 (by omega) (by omega), SB _ _ m0 m1 (by omega) (by omega)⟩),
      u3 _ (fun j j0 j1 => ⟨SS _ _ m0 m1 (by omega) (by omega) (hm j j0 j1), SA _ _ m0 m1 (by omega) (by omega)⟩),
      U2 _ (fun j j0 j1 => SB _ _ m0 m1 (by omega) (by omega)), U1 _ (fun j j0 j1 => SA _ _ m0 m1 (by omega) (by omega))]
  have Cnone : ∀ m, 0 ≤ m → m ≤ 2 * h + e → (∀ j, 0 ≤ j → j < h + 1 → m ≠ e + 2 * j) → A4.val (cC N (2 * h + e) m) = A.val (cC N (2 * h + e) m) := by
    intro m m0 m1 hm
    rw [u4 _ (fun j j0 j1 => ⟨CC _ _ m0 m1 (by omega) (by omega) (hm j j0 j1), CB _ _ m0 m1 (by omega) (by omega)⟩),
      u3 _ (fun j j0 j1 => ⟨(SC _ _ (by omega) (by omega) m0 m1).symm, CA _ _ m0 m1 (by omega) (by omega)⟩),
      U2 _ (fun j j0 j1 => CB _ _ m0 m1 (by omega) (by omega)), U1 _ (fun j j0 j1 => CA _ _ m0 m1 (by omega) (by omega))]
  refine ⟨?_, ?_, ?_, ?_, ?_, ?_, ?_, ?_⟩
  · intro i i0 i1
    rw [u7 _ (fun j j0 j1 => ⟨SS _ _ (by omega) (by omega) (by omega) (by omega) (by omega), SC _ _ (by omega) (by omega) (by omega) (by omega),
        SB _ _ (by omega) (by omega) (by omega) (by omega), SA _ _ (by omega) (by omega) (by omega) (by omega)⟩),
      U6 _ (fun j j0 j1 => SB _ _ (by omega) (by omega) (by omega) (by omega)), U5 _ (fun j j0 j1 => SA _ _ (by omega) (by omega) (by omega) (by omega)),
      u4 _ (fun j j0 j1 => ⟨SC _ _ (by omega) (by omega) (by omega) (by omega), SB _ _ (by omega) (by omega) (by omega) (by omega)⟩),
      v3 i i0 i1, U2 _ (fun j j0 j1 => AB _ _ (by omega) (by omega) (by omega) (by omega)), v1 i i0 i1]
  · intro i i0 i1
    rw [u7 _ (fun j j0 j1 => ⟨(SC _ _ (by omega) (by omega) (by omega) (by omega)).symm, CC _ _ (by omega) (by omega) (by omega) (by omega) (by omega),
        CB _ _ (by omega) (by omega) (by omega) (by omega), CA _ _ (by omega) (by omega) (by omega) (by omega)⟩),
      U6 _ (fun j j0 j1 => CB _ _ (by omega) (by omega) (by omega) (by omega)), U5 _ (fun j j0 j1 => CA _ _ (by omega) (by omega) (by omega) (by omega)),
      v4 i i0 i1, u3 _ (fun j j0 j1 => ⟨(SB _ _ (by omega) (by omega) (by omega) (by omega)).symm, (AB _ _ (by omega) (by omega) (by omega) (by omega)).symm⟩), v2 i i0 i1]
    refine sum_Ico_congr fun k k0 k1 => ?_
    rw [U1 _ (fun j j0 j1 => CA _ _ (by omega) (by omega) (by omega) (by omega))]
  · intro i i0 i1
    rw [(v7 i i0 i1).1, v6 i i0 i1]
    refine sum_Ico_congr fun k k0 k1 => ?_
    rw [U5 _ (fun j j0 j1 => CA _ _ (by omega) (by omega) (by omega) (by omega)), Cnone _ (by omega) (by omega) (fun j j0 j1 => by omega)]
  · intro i i0 i1
    rw [(v7 i i0 i1).2.1, U6 _ (fun j j0 j1 => AB _ _ (by omega) (by omega) (by omega) (by omega)), v5 i i0 i1]
    refine sum_Ico_congr fun k k0 k1 => ?_
    rw [Snone _ (by omega) (by omega) (fun j j0 j1 => by omega)]
  · intro i i0 i1
    exact (v7 i i0 i1).2.2.2
  · intro i i0 i1
    by_cases hi : i < h + e
    · exact (v7 i i0 hi).2.2.1
    · rw [u7 _ (fun j j0 j1 => ⟨(SB _ _ (by omega) (by omega) (by omega) (by omega)).symm, (CB _ _ (by omega) (by omega) (by omega) (by omega)).symm,
        BB _ _ (by omega), (AB _ _ (by omega) (by omega) (by omega) (by omega)).symm⟩), U6 _ (fun j j0 j1 => BB _ _ (by omega)),
        U5 _ (fun j j0 j1 => (AB _ _ (by omega) (by omega) (by omega) (by omega)).symm), w4 i i0 i1]
  · intro i i0 i1
    rw [u7 _ (fun j j0 j1 => ⟨(SA _ _ (by omega) (by omega) (by omega) (by omega)).symm, (CA _ _ (by omega) (by omega) (by omega) (by omega)).symm,
        AB _ _ (by omega) (by omega) (by omega) (by omega), AA _ _ (by omega)⟩), U6 _ (fun j j0 j1 => AB _ _ (by omega) (by omega) (by omega) (by omega)),
      U5 _ (fun j j0 j1 => AA _ _ (by omega)), u4 _ (fun j j0 j1 => ⟨(CA _ _ (by omega) (by omega) (by omega) (by omega)).symm, AB _ _ (by omega) (by omega) (by omega) (by omega)⟩),
      u3 _ (fun j j0 j1 => ⟨(SA _ _ (by omega) (by omega) (by omega) (by omega)).symm, AA _ _ (by omega)⟩),
      U2 _ (fun j j0 j1 => AB _ _ (by omega) (by omega) (by omega) (by omega)), U1 _ (fun j j0 j1 => AA _ _ (by omega))]
  · intro i i0 i1
    rw [u7 _ (fun j j0 j1 => ⟨(SB _ _ (by omega) (by omega) (by omega) (by omega)).symm, (CB _ _ (by omega) (by omega) (by omega) (by omega)).symm,
        BB _ _ (by omega), (AB _ _ (by omega) (by omega) (by omega) (by omega)).symm⟩), U6 _ (fun j j0 j1 => BB _ _ (by omega)),
      U5 _ (fun j j0 j1 => (AB _ _ (by omega) (by omega) (by omega) (by omega)).symm), u4 _ (fun j j0 j1 => ⟨(CB _ _ (by omega) (by omega) (by omega) (by omega)).symm, BB _ _ (by omega)⟩),
      u3 _ (fun j j0 j1 => ⟨(SB _ _ (by omega) (by omega) (by omega) (by omega)).symm, (AB _ _ (by omega) (by omega) (by omega) (by omega)).symm⟩),
      U2 _ (fun j j0 j1 => BB _ _ (by omega)), U1 _ (fun j j0 j1 => (AB _ _ (by omega) (by omega) (by omega) (by omega)).symm)]

theorem semvP_within {R : Int → Prop} {n x st y : Int} {w : Int → Int → K} (hx : ∀ k, 0 ≤ k → k < n → R (x + k * st)) (hy : ∀ j, 0 ≤ j → j < n → R (y + j)) :
    (semvP n w x st y).Within R := by
  refine Prog.Within.each (fun j hj _ => Prog.Within.bind (Prog.Within.each (fun k hk acc => ?_) _) fun v => ?_) _
  · rw [mem_rDown] at hk
    exact ⟨hx k hk.1 (by omega), fun _ => trivial⟩
  · rw [mem_rUp] at hj
    exact ⟨hy j hj.1 hj.2, trivial⟩

theorem yzDegree_within (he : e = 0 ∨ e = 1) (h1 : 1 ≤ h) : (yzDegree J N (2 * h + e)).Within (yzR N (2 * h + e)) := by
  have e1 : (2 * h + e) % 2 = e := by omega
  have e2 : (2 * h + e) / 2 = h := by omega
  have e3 : (2 * h + e + 2) / 2 = h + 1 := by omega
  have e4 : (2 * h + e + 1) / 2 = h + e := by omega
  have p11 : ∀ k, 0 ≤ k → k < h → yzR N (2 * h + e) (2 * h + e + N - 1 + e * (2 * N - 1) + k * (4 * N - 2)) := fun k k0 k1 =>
    Or.inl ⟨1 + e + 2 * k, by omega, by omega, by unfold cS; ring⟩
  have p22 : ∀ k, 0 ≤ k → k < h + 1 → yzR N (2 * h + e) (2 * h + e + e * (2 * N - 1) + k * (4 * N - 2)) := fun k k0 k1 =>
    Or.inr (Or.inl ⟨e + 2 * k, by omega, by omega, by unfold cC; ring⟩)
  have p21 : ∀ k, 0 ≤ k → k < h + e → yzR N (2 * h + e) (2 * h + e - 1 + N + (1 - e) * (2 * N - 1) + k * (4 * N - 2)) := fun k k0 k1 =>
    Or.inl ⟨2 - e + 2 * k, by omega, by omega, by unfold cS; ring⟩
  have p12 : ∀ k, 0 ≤ k → k < h + e → yzR N (2 * h + e) (2 * h + e + (1 - e) * (2 * N - 1) + k * (4 * N - 2)) := fun k k0 k1 =>
    Or.inr (Or.inl ⟨1 - e + 2 * k, by omega, by omega, by unfold cC; ring⟩)
  have pa : ∀ j, 0 ≤ j → j < 2 * h + e → yzR N (2 * h + e) (N * (2 * (2 * h + e) - 1) + N - (2 * h + e) + j) := fun j j0 j1 =>
    Or.inr (Or.inr (Or.inl ⟨j, j0, j1, by unfold sA; ring⟩))
  have pb : ∀ j, 0 ≤ j → j < 2 * h + e → yzR N (2 * h + e) (N * (2 * (2 * h + e)) + N - (2 * h + e) + j) := fun j j0 j1 =>
    Or.inr (Or.inr (Or.inr ⟨j, j0, j1, by unfold sB; ring⟩))
  unfold yzDegree
  simp only [e1, e2, e3, e4]
  refine Prog.Within.bind (semvP_within p11 fun j a b => pa j a (by omega)) fun _ => Prog.Within.bind (semvP_within p22 fun j a b => pb j a (by omega)) fun _ =>
    Prog.Within.bind ?_ fun _ => Prog.Within.bind ?_ fun _ => Prog.Within.bind (semvP_within p21 fun j a b => pa j a (by omega)) fun _ =>
    Prog.Within.bind (semvP_within p12 fun j a b => pb j a (by omega)) fun _ => ?_
  · refine Prog.Within.each (fun i hi _ => ?_) _
    rw [mem_rUp] at hi
    have q1 := p11 i hi.1 hi.2
    have q2 := pa i hi.1 (by omega)
    rw [add_comm _ (i * _)] at q1
    rw [add_comm _ i] at q2
    exact ⟨q2, fun _ => ⟨q1, q2, trivial⟩⟩
  · refine Prog.Within.each (fun i hi _ => ?_) _
    rw [mem_rUp] at hi
    have q1 := p22 i hi.1 hi.2
    have q2 := pb i hi.1 (by omega)
    rw [add_comm _ (i * _)] at q1
    rw [add_comm _ i] at q2
    exact ⟨q2, fun _ => ⟨q1, q2, trivial⟩⟩
  · refine Prog.Within.each (fun i hi _ => ?_) _
    rw [mem_rUp] at hi
    have q1 := p21 i hi.1 hi.2
    have q2 := pa i hi.1 (by omega)
    have q3 := p12 i hi.1 hi.2
    have q4 := pb i hi.1 (by omega)
    rw [add_comm _ (i * _)] at q1 q3
    rw [add_comm _ i] at q2 q4
    exact ⟨q4, fun _ => ⟨q1, q4, q2, fun _ => ⟨q3, q2, trivial⟩⟩⟩

end Degree

/-- The parallel loop over the degrees, on every schedule. -/
theorem yzThreads_end {J : YzPlan K} {N : Int} (hN : J.n ≤ N) {A : Buf K} (hs : N * (2 * J.n - 1) ≤ A.size) {T : Nat} (hT : 0 < T) :
    ∃ B, ParEnds T (yzThread J N T) A B ∧ B.size = A.size ∧
      (∀ h e, (e = 0 ∨ e = 1) → 1 ≤ h → 2 * h + e < J.n → YzAt J N h e A.val B.val) ∧
      ∀ p, (∀ l, 2 ≤ l → l < J.n → ¬ yzR N l p) → B.val p = A.val p := by
  classical
  have mem : ∀ l, l ∈ rStep 2 J.n 1 ↔ 2 ≤ l ∧ l < J.n := fun l => by
    rw [mem_rStep (by omega)]
    constructor
    · rintro ⟨⟨k, a⟩, b⟩; exact ⟨by omega, b⟩
    · rintro ⟨a, b⟩; exact ⟨⟨(l - 2).toNat, by omega⟩, b⟩
  have split : ∀ l : Int, 2 ≤ l → ∃ h e, l = 2 * h + e ∧ (e = 0 ∨ e = 1) ∧ 1 ≤ h := fun l hl => ⟨l / 2, l % 2, by omega, by omega, by omega⟩
  have run : ∀ l, 2 ≤ l → l < J.n → ∃ F, (yzDegree J N l).run A = some ((), F) := fun l a b => by
    obtain ⟨h, e, rfl, he, hh⟩ := split l a
    obtain ⟨F, r, _⟩ := yzDegree_run (J := J) he hh b hN hs
    exact ⟨F, r⟩
  let F : Int → Buf K := fun l => if hl : 2 ≤ l ∧ l < J.n then (run l hl.1 hl.2).choose else A
  have hF : ∀ l, 2 ≤ l → l < J.n → (yzDegree J N l).run A = some ((), F l) := fun l a b => by
    have := (run l a b).choose_spec
    simp only [F, dif_pos (show 2 ≤ l ∧ l < J.n from ⟨a, b⟩)]
    exact this
  have dis : ∀ a b p, 2 ≤ a → a < J.n → 2 ≤ b → b < J.n → yzR N a p → yzR N b p → a = b := fun a b p a0 a1 b0 b1 h1 h2 => by
    by_contra h
    exact yzR_disj (by omega) (by omega) (by omega) (by omega) h h1 h2
  let B : Buf K := ⟨A.size, fun p => if hp : ∃ l, (2 ≤ l ∧ l < J.n) ∧ yzR N l p then (F hp.choose).val p else A.val p⟩
  have hB1 : ∀ l, 2 ≤ l → l < J.n → ∀ p, yzR N l p → B.val p = (F l).val p := fun l a b p hp => by
    have hex : ∃ l, (2 ≤ l ∧ l < J.n) ∧ yzR N l p := ⟨l, ⟨a, b⟩, hp⟩
    have := hex.choose_spec
    show (if hp : ∃ l, (2 ≤ l ∧ l < J.n) ∧ yzR N l p then (F hp.choose).val p else A.val p) = _
    rw [dif_pos hex, dis _ _ p this.1.1 this.1.2 a b this.2 hp]
  have hB2 : ∀ p, (∀ l, 2 ≤ l → l < J.n → ¬ yzR N l p) → B.val p = A.val p := fun p hp => by
    show (if hp : ∃ l, (2 ≤ l ∧ l < J.n) ∧ yzR N l p then (F hp.choose).val p else A.val p) = _
    rw [dif_neg]
    rintro ⟨l, ⟨a, b⟩, h⟩
    exact hp l a b h
  refine ⟨B, ?_, rfl, ?_, hB2⟩
  · refine omp_ends (by omega) hT (R := yzR N) (F := F) ?_ ?_ ?_ rfl ?_ ?_
    · intro a ha b hb p hab h1
      rw [mem] at ha hb
      exact yzR_disj (by omega) (by omega) (by omega) (by omega) hab h1
    · intro l hl
      rw [mem] at hl
      obtain ⟨h, e, rfl, he, hh⟩ := split l hl.1
      exact yzDegree_within he hh
    · intro l hl
      rw [mem] at hl
      exact hF l hl.1 hl.2
    · intro l hl p hp
      rw [mem] at hl
      exact hB1 l hl.1 hl.2 p hp
    · intro p hp
      exact hB2 p (fun l a b => hp l ((mem l).2 ⟨a, b⟩))
  · intro h e he hh hn
    obtain ⟨G, r, _, g⟩ := yzDegree_run (J := J) he hh hn hN hs
    have hl2 : 2 ≤ 2 * h + e := by omega
    have hG : F (2 * h + e) = G := by
      have := (hF _ hl2 hn).symm.trans r
      simpa using this
    have ex := hB1 _ hl2 hn
    rw [hG] at ex
    have rS : ∀ m, 1 ≤ m → m ≤ 2 * h + e → yzR N (2 * h + e) (cS N (2 * h + e) m) := fun m a b => Or.inl ⟨m, a, b, rfl⟩
    have rC : ∀ m, 0 ≤ m → m ≤ 2 * h + e → yzR N (2 * h + e) (cC N (2 * h + e) m) := fun m a b => Or.inr (Or.inl ⟨m, a, b, rfl⟩)
    have rA : ∀ m, 0 ≤ m → m < 2 * h + e → yzR N (2 * h + e) (sA N (2 * h + e) m) := fun m a b => Or.inr (Or.inr (Or.inl ⟨m, a, b, rfl⟩))
    have rB : ∀ m, 0 ≤ m → m < 2 * h + e → yzR N (2 * h + e) (sB N (2 * h + e) m) := fun m a b => Or.inr (Or.inr (Or.inr ⟨m, a, b, rfl⟩))
    refine ⟨fun i a b => ?_, fun i a b => ?_, fun i a b => ?_, fun i a b => ?_, fun i a b => ?_, fun i a b => ?_, fun i a b => ?_, fun i a b => ?_⟩
    · rw [ex _ (rS _ (by omega) (by omega))]; exact g.s1 i a b
    · rw [ex _ (rC _ (by omega) (by omega))]; exact g.c1 i a b
    · rw [ex _ (rS _ (by omega) (by omega))]; exact g.s2 i a b
    · rw [ex _ (rC _ (by omega) (by omega))]; exact g.c2 i a b
    · rw [ex _ (rA _ (by omega) (by omega))]; exact g.za i a b
    · rw [ex _ (rB _ (by omega) (by omega))]; exact g.zb i a b
    · rw [ex _ (rA _ (by omega) (by omega))]; exact g.rest i a b
    · rw [ex _ (rB _ (by omega) (by omega))]; exact g.restb i a b

end FT
