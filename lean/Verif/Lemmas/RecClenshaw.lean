import Verif.Lemmas.Recurrence

/-! # Lemmas on the Clenshaw kernels -/

namespace FT
variable {K : Type*}

section Ring
variable [CommRing K]

/-- `v` enters the three registers of `l`. -/
def shifted (bk : Buf (Int → K)) (l : Int) (v : Int → K) : Buf (Int → K) :=
  ⟨bk.size, fun i => if i = 3 * l then v else if i = 3 * l + 1 then v else if i = 3 * l + 2 then bk.val (3 * l + 1) else bk.val i⟩

theorem shift3 {bk : Buf (Int → K)} {l : Int} {v : Int → K} (h0 : 0 ≤ l) (h1 : 3 * l + 2 < bk.size) :
    ((bk.wr (3 * l) v).bind fun bk => ((bk.rd (3 * l + 1)).bind (bk.wr (3 * l + 2))).bind fun bk => (bk.rd (3 * l)).bind (bk.wr (3 * l + 1))) =
      some (shifted bk l v) := by
  rw [Buf.wr_of (by omega) (by omega), Option.bind_some, Buf.rd_of (by omega) (by show 3 * l + 1 < (bk.size : Int); omega), Option.bind_some,
    Buf.wr_of (by omega) (by show 3 * l + 2 < (bk.size : Int); omega), Option.bind_some, Buf.rd_of (by omega) (by show 3 * l < (bk.size : Int); omega), Option.bind_some,
    Buf.wr_of (by omega) (by show 3 * l + 1 < (bk.size : Int); omega)]
  congr 1
  refine Buf.ext' rfl fun i => ?_
  simp only [shifted, Function.update_apply]
  split_ifs <;> first | rfl | omega

/-- The registers of `l` hold the pair `s e` in lane `e`. -/
def Reg (bk : Buf (Int → K)) (l : Int) (s : Int → K × K) : Prop :=
  bk.val (3 * l) = (fun e => (s e).1) ∧ bk.val (3 * l + 1) = (fun e => (s e).1) ∧ bk.val (3 * l + 2) = (fun e => (s e).2)

theorem regs3_spec {L : Nat} {n lo : Int} {body : Int → Int → Buf (Int → K) → Option (Buf (Int → K))} (st : Nat → Int → Int → K × K)
    (h0 : ∀ l e, st 0 l e = (0, 0)) (h2 : ∀ t l e, (st (t + 1) l e).2 = (st t l e).1)
    (hstep : ∀ t : Nat, lo ≤ n - 1 - t → ∀ l, 0 ≤ l → l < (L : Int) → ∀ bk, bk.size = 3 * L → Reg bk l (st t l) →
      body (n - 1 - t) l bk = some (shifted bk l fun e => (st (t + 1) l e).1)) :
    ∃ r, forDown (n - 1) lo (fun k bk => forUp 0 L (body k) bk) ⟨3 * L, fun _ _ => 0⟩ = some r ∧ r.size = 3 * L ∧
      ∀ l, 0 ≤ l → l < (L : Int) → Reg r l (st (n - lo).toNat l) := by
  refine forDown_loop (s := (⟨3 * L, fun _ _ => 0⟩ : Buf (Int → K))) (fun t r => r.size = 3 * L ∧ ∀ l, 0 ≤ l → l < (L : Int) → Reg r l (st t l))
    ⟨rfl, fun l _ _ => by refine ⟨?_, ?_, ?_⟩ <;> funext e <;> rw [h0]⟩ ?_
  intro t ht s p
  obtain ⟨r, e, q1, q2⟩ := forUp_spec (body := body (n - 1 - t)) (lo := 0) (hi := L) (s := s)
    (fun i r => r.size = 3 * L ∧ ∀ l, 0 ≤ l → l < (L : Int) → Reg r l (st (if l < i then t + 1 else t) l))
    ⟨p.1, fun l l0 l1 => by rw [if_neg (by omega)]; exact p.2 l l0 l1⟩
    (fun i i0 i1 r q => by
      have hr := q.2 i i0 i1
      rw [if_neg (by omega)] at hr
      refine ⟨_, hstep t ht i i0 i1 r q.1 hr, q.1, fun l l0 l1 => ?_⟩
      by_cases hl : l = i
      · subst hl
        rw [if_pos (by omega)]
        refine ⟨if_pos rfl, ?_, ?_⟩
        · show (if _ then _ else if _ then _ else _) = _
          rw [if_neg (by omega), if_pos rfl]
        · show (if _ then _ else if _ then _ else if _ then _ else _) = _
          rw [if_neg (by omega), if_neg (by omega), if_pos rfl, hr.2.1]
          funext e; rw [h2]
      · have hh := q.2 l l0 l1
        rw [show (if l < i + 1 then t + 1 else t) = (if l < i then t + 1 else t) by split_ifs <;> first | rfl | omega]
        have same : ∀ d : Int, 0 ≤ d → d ≤ 2 → (shifted r i fun e => (st (t + 1) i e).1).val (3 * l + d) = r.val (3 * l + d) := by
          intro d d0 d1
          show (if _ then _ else if _ then _ else if _ then _ else _) = _
          rw [if_neg (by omega), if_neg (by omega), if_neg (by omega)]
        have s0 := same 0 (by omega) (by omega)
        rw [add_zero] at s0
        exact ⟨s0.trans hh.1, (same 1 (by omega) (by omega)).trans hh.2.1, (same 2 (by omega) (by omega)).trans hh.2.2⟩)
  refine ⟨r, e, q1, fun l l0 l1 => ?_⟩
  have := q2 l l0 l1
  rwa [if_pos (by omega)] at this

/-- Values of a buffer as a sequence. -/
def sq (b : Buf K) (k : Nat) : K := b.val k

theorem opLoop_eq {n : Int} {c : Buf K} {incc : Int} {A B C : Buf K} {X : K} (hc : Strided c n incc) (hA : n ≤ A.size) (hB : n ≤ B.size) (hC : n < C.size) :
    ∃ s, opLoop n c incc A B C X = some s ∧ s.bk = (clen (sq A) (sq B) (sq C) (co c incc) X n.toNat n.toNat).1 := by
  obtain ⟨s, e, p⟩ := forDown_loop (n := n) (lo := 0) (s := (⟨0, 0, 0⟩ : Bk K))
    (body := fun k s => (A.rd k).bind fun a => (B.rd k).bind fun b => (C.rd (k + 1)).bind fun g => (c.rd (k * incc)).map fun ck =>
      let bk := (a * X + b) * s.bk1 - g * s.bk2 + ck; (⟨bk, bk, s.bk1⟩ : Bk K))
    (fun t s => s.bk = (clen (sq A) (sq B) (sq C) (co c incc) X n.toNat t).1 ∧ (s.bk1, s.bk2) = clen (sq A) (sq B) (sq C) (co c incc) X n.toNat t) ⟨rfl, rfl⟩
    (fun t h s p => by
      refine ⟨_, by rw [Buf.rd_of h (by omega), Option.bind_some, Buf.rd_of h (by omega), Option.bind_some, Buf.rd_of (by omega) (by omega), Option.bind_some, rd_co hc h]; rfl, ?_⟩
      have e1 : ((n.toNat - 1 - t : Nat) : Int) = n - 1 - t := by omega
      have e2 : ((n.toNat - t : Nat) : Int) = n - 1 - t + 1 := by omega
      rw [clen, ← p.2]
      simp only [sq, e1, e2, smul_eq_mul, mul_one]
      exact ⟨trivial, trivial⟩)
  refine ⟨s, e, ?_⟩
  rw [p.1, sub_zero]

/-- What the recurrence kernel computes at point `i`. -/
def opVal (n : Int) (c : Buf K) (incc : Int) (A B C x phi0 : Buf K) (i : Int) : K :=
  phi0.val i * (clen (sq A) (sq B) (sq C) (co c incc) (x.val i) n.toNat n.toNat).1

theorem opClenshawEval_eq {n : Int} {c : Buf K} {incc m : Int} {A B C x phi0 f : Buf K} (hn : 1 ≤ n) (hc : Strided c n incc) (hA : n ≤ A.size) (hB : n ≤ B.size)
    (hC : n < C.size) (hx : m ≤ x.size) (hp : m ≤ phi0.size) (hf : m ≤ f.size) :
    opClenshawEval n c incc A B C m x phi0 f = some (mix f 0 m (opVal n c incc A B C x phi0)) := by
  unfold opClenshawEval
  rw [if_neg (by omega)]
  refine sweepUp_eq _ (le_refl _) hf fun i i0 i1 => ?_
  obtain ⟨s, e, p⟩ := opLoop_eq (X := x.val i) hc hA hB hC
  rw [Buf.rd_of i0 (by omega), Option.bind_some, e, Option.bind_some, Buf.rd_of i0 (by omega), Option.map_some, p]
  rfl

theorem opRegs_eq {L : Nat} {n : Int} {c : Buf K} {incc : Int} {A B C : Buf K} {X : Buf (Int → K)} (hX : X.size = L) (hc : Strided c n incc) (hA : n ≤ A.size)
    (hB : n ≤ B.size) (hC : n < C.size) :
    ∃ r, opRegs L n c incc A B C X = some r ∧ r.size = 3 * L ∧
      ∀ l, 0 ≤ l → l < (L : Int) → Reg r l (fun e => clen (sq A) (sq B) (sq C) (co c incc) (X.val l e) n.toNat n.toNat) := by
  have h := regs3_spec (L := L) (n := n) (lo := 0) (fun t l e => clen (sq A) (sq B) (sq C) (co c incc) (X.val l e) n.toNat t)
    (body := fun k l bk => (A.rd k).bind fun a => (X.rd l).bind fun X => (B.rd k).bind fun b => (bk.rd (3 * l + 1)).bind fun b1 => (C.rd (k + 1)).bind fun g =>
    (bk.rd (3 * l + 2)).bind fun b2 => (c.rd (k * incc)).bind fun ck =>
    (bk.wr (3 * l) (fun e => (a * X e + b) * b1 e - (g * b2 e - ck))).bind fun bk =>
    ((bk.rd (3 * l + 1)).bind (bk.wr (3 * l + 2))).bind fun bk =>
    (bk.rd (3 * l)).bind (bk.wr (3 * l + 1))) (fun _ _ => rfl) (fun _ _ _ => rfl)
    (fun t ht l l0 l1 bk hs hr => by
      rw [Buf.rd_of ht (by omega), Option.bind_some, Buf.rd_of l0 (by omega), Option.bind_some, Buf.rd_of ht (by omega), Option.bind_some,
        Buf.rd_of (b := bk) (by omega) (by omega), Option.bind_some, Buf.rd_of (by omega) (by omega), Option.bind_some,
        Buf.rd_of (b := bk) (by omega) (by omega), Option.bind_some, rd_co hc ht, Option.bind_some, shift3 l0 (by omega)]
      have e1 : ((n.toNat - 1 - t : Nat) : Int) = n - 1 - t := by omega
      have e2 : ((n.toNat - t : Nat) : Int) = n - 1 - t + 1 := by omega
      congr 2
      funext e
      rw [hr.2.1, hr.2.2, clen]
      simp only [sq, e1, e2, smul_eq_mul, mul_one]
      ring)
  rw [sub_zero] at h
  exact h

theorem opBlock_eq {S L : Nat} {n : Int} {c : Buf K} {incc : Int} {A B C x phi0 : Buf K} {j : Int} {f : Buf K} (hc : Strided c n incc) (hA : n ≤ A.size)
    (hB : n ≤ B.size) (hC : n < C.size) (h0 : 0 ≤ j) (hx : j + S * L ≤ x.size) (hp : j + S * L ≤ phi0.size) (hf : j + S * L ≤ f.size) :
    opBlock S L n c incc A B C x phi0 j f = some (mix f j (j + S * L) (opVal n c incc A B C x phi0)) := by
  obtain ⟨X, eX, sX, vX⟩ := vLoads_eq (g := id) h0 hx
  obtain ⟨r, e, p1, p2⟩ := opRegs_eq (X := X) sX hc hA hB hC
  unfold opBlock
  rw [eX, Option.bind_some, e, Option.bind_some]
  have := vStores_eq (f := f) (F := opVal n c incc A B C x phi0) (S := S) (L := L)
    (w := fun l => (vld phi0 (j + S * l) S).bind fun p => (r.rd (3 * l)).bind fun b => some (fun e => p e * b e)) h0 hf
    (fun l l0 l1 => by
      have h1 : (S : Int) * (l + 1) ≤ S * L := Int.mul_le_mul_of_nonneg_left (by omega) (by omega)
      rw [mul_add, mul_one] at h1
      have hp' : (0 : Int) ≤ S * l := Int.mul_nonneg (by omega) l0
      refine ⟨_, by rw [vld_of (by omega) (by omega), Option.bind_some, Buf.rd_of (by omega) (by omega)]; rfl, fun e e0 e1 => ?_⟩
      rw [(p2 l l0 l1).1]
      show (if _ then _ else _) * _ = _
      rw [if_pos ⟨e0, e1⟩]
      show _ * (clen _ _ _ _ (X.val l e) _ _).1 = _
      rw [vX l e l0 l1 e0 e1]
      rfl)
  rw [← this]
  congr 1
  funext l f
  cases vld phi0 (j + S * l) S <;> cases r.rd (3 * l) <;> rfl

theorem opClenshawEvalV_eq {S L : Nat} {n : Int} {c : Buf K} {incc m : Int} {A B C x phi0 f : Buf K} (hS : 0 < S) (hL : 0 < L) (hn : 1 ≤ n) (hm : 0 ≤ m)
    (hc : Strided c n incc) (hA : n ≤ A.size) (hB : n ≤ B.size) (hC : n < C.size) (hx : m ≤ x.size) (hp : m ≤ phi0.size) (hf : m ≤ f.size) :
    opClenshawEvalV S L n c incc A B C m x phi0 f = some (mix f 0 m (opVal n c incc A B C x phi0)) := by
  unfold opClenshawEvalV
  rw [if_neg (by omega)]
  refine simdBlocks_eq hS hL hm (fun j j0 j1 g hg => opBlock_eq hc hA hB hC j0 (by omega) (by omega) (by omega)) (fun j j0 j1 g hg => ?_) hf
  obtain ⟨s, e, p⟩ := opLoop_eq (X := x.val j) hc hA hB hC
  rw [Buf.rd_of j0 (by omega), Option.bind_some, e, Option.bind_some, Buf.rd_of j0 (by omega), Option.map_some, Option.bind_some, p]
  rfl

/-! ### Chebyshev series -/

/-- The recurrence coefficients of the Chebyshev polynomials. -/
def chA (k : Nat) : K := if k = 0 then 1 else 2

/-- Clenshaw's pair for Chebyshev polynomials. -/
abbrev chen (c : Buf K) (incc : Int) (X : K) (n t : Nat) : K × K := clen chA (fun _ => 0) (fun _ => 1) (co c incc) X n t

theorem chen_succ {c : Buf K} {incc : Int} {X : K} {n t : Nat} (h : 1 ≤ n - 1 - t) :
    chen c incc X n (t + 1) = (2 * X * (chen c incc X n t).1 + co c incc (n - 1 - t) - (chen c incc X n t).2, (chen c incc X n t).1) := by
  unfold chen
  rw [clen]
  unfold chA
  rw [if_neg (by omega)]
  simp only [smul_eq_mul, zero_mul, add_zero, one_mul, mul_one]
  refine Prod.ext ?_ rfl
  show _ - _ + _ = _ + _ - _
  ring

theorem chen_last {c : Buf K} {incc : Int} {X : K} {n : Nat} (h : 1 ≤ n) :
    (chen c incc X n n).1 = X * (chen c incc X n (n - 1)).1 + c.val 0 - (chen c incc X n (n - 1)).2 := by
  obtain ⟨m, rfl⟩ : ∃ m, n = m + 1 := ⟨n - 1, by omega⟩
  unfold chen
  rw [clen]
  unfold chA co
  rw [if_pos (by omega)]
  simp only [smul_eq_mul, zero_mul, add_zero, one_mul, mul_one, Nat.add_sub_cancel, Nat.sub_self, Nat.cast_zero]
  ring

theorem clenshawLoop_eq {n : Int} {c : Buf K} {incc : Int} {X : K} (hc : Strided c n incc) :
    ∃ s, clenshawLoop n c incc (2 * X) = some s ∧ (s.bk1, s.bk2) = chen c incc X n.toNat (n.toNat - 1) := by
  obtain ⟨s, e, p⟩ := forDown_loop (n := n) (lo := 1) (s := (⟨0, 0, 0⟩ : Bk K))
    (body := fun k s => (c.rd (k * incc)).map fun ck => let bk := 2 * X * s.bk1 + ck - s.bk2; (⟨bk, bk, s.bk1⟩ : Bk K))
    (fun t s => (s.bk1, s.bk2) = chen c incc X n.toNat t) rfl
    (fun t h s p => by
      refine ⟨_, by rw [rd_co hc (by omega)]; rfl, ?_⟩
      rw [chen_succ (by omega), ← p])
  refine ⟨s, e, ?_⟩
  rw [p]; congr 1; omega

theorem clenshawRegs_eq {L : Nat} {n : Int} {c : Buf K} {incc : Int} {X : Buf (Int → K)} {x : Int → Int → K} (hX : X.size = L)
    (hx : ∀ l e, 0 ≤ l → l < (L : Int) → X.val l e = 2 * x l e) (hc : Strided c n incc) :
    ∃ r, clenshawRegs L n c incc X = some r ∧ r.size = 3 * L ∧
      ∀ l, 0 ≤ l → l < (L : Int) → Reg r l (fun e => chen c incc (x l e) n.toNat (n.toNat - 1)) := by
  have h := regs3_spec (L := L) (n := n) (lo := 1) (fun t l e => chen c incc (x l e) n.toNat t)
    (body := fun k l bk => (X.rd l).bind fun X => (bk.rd (3 * l + 1)).bind fun b1 => (c.rd (k * incc)).bind fun ck => (bk.rd (3 * l + 2)).bind fun b2 =>
    (bk.wr (3 * l) (fun e => X e * b1 e + (ck - b2 e))).bind fun bk =>
    ((bk.rd (3 * l + 1)).bind (bk.wr (3 * l + 2))).bind fun bk =>
    (bk.rd (3 * l)).bind (bk.wr (3 * l + 1))) (fun _ _ => rfl) (fun _ _ _ => rfl)
    (fun t ht l l0 l1 bk hs hr => by
      rw [Buf.rd_of l0 (by omega), Option.bind_some, Buf.rd_of (b := bk) (by omega) (by omega), Option.bind_some, rd_co hc (by omega), Option.bind_some,
        Buf.rd_of (b := bk) (by omega) (by omega), Option.bind_some, shift3 l0 (by omega)]
      congr 2
      funext e
      rw [hr.2.1, hr.2.2, hx l e l0 l1, chen_succ (by omega)]
      show _ + (_ - _) = _ + _ - _
      ring)
  rw [show (n - 1).toNat = n.toNat - 1 by omega] at h
  exact h

end Ring

section Field
variable [Field K] [DecidableEq K]

theorem clenshawPoint_eq {n : Int} {c : Buf K} {incc j : Int} {x f : Buf K} (two : (2 : K) ≠ 0) (hn : 1 ≤ n) (hc : Strided c n incc) (h0 : 0 ≤ j) (hx : j < x.size) (hf : j < f.size) :
    clenshawPoint n c incc j (x, f) = (f.wr j (chen c incc (x.val j) n.toNat n.toNat).1).map fun f => (x, f) := by
  obtain ⟨s, e, p⟩ := clenshawLoop_eq (X := x.val j) hc
  obtain ⟨c0, c1⟩ := hc 0 (le_refl _) (by omega)
  rw [zero_mul] at c0 c1
  have back : (⟨x.size, Function.update (Function.update x.val j (x.val j * 2)) j (x.val j * 2 * (1 / 2))⟩ : Buf K) = x := by
    refine Buf.ext' rfl fun i => ?_
    simp only [Function.update_idem]
    by_cases h : i = j
    · subst h; rw [Function.update_self]; field_simp
    · rw [Function.update_of_ne h]
  unfold clenshawPoint
  simp only
  rw [Buf.rd_of h0 hx, Option.bind_some, Buf.wr_of (b := x) h0 hx, Option.bind_some, Buf.rd_of (b := ⟨x.size, Function.update x.val j (x.val j * 2)⟩) h0 hx, Option.bind_some]
  simp only [Function.update_self]
  rw [mul_comm] at e
  rw [e, Option.bind_some, divC_of two]
  simp only [Option.bind_some]
  rw [Buf.wr_of (b := ⟨x.size, Function.update x.val j (x.val j * 2)⟩) h0 hx, Option.bind_some]
  rw [back, Buf.rd_of h0 hx, Option.bind_some, Buf.rd_of c0 c1, Option.bind_some, chen_last (by omega), ← p]

theorem clenshaw_eq {n : Int} {c : Buf K} {incc m : Int} {x f : Buf K} (two : (2 : K) ≠ 0) (hn : 1 ≤ n) (hc : Strided c n incc) (hx : m ≤ x.size) (hf : m ≤ f.size) :
    clenshaw n c incc m x f = some (x, mix f 0 m fun i => (chen c incc (x.val i) n.toNat n.toNat).1) := by
  unfold clenshaw
  rw [if_neg (by omega)]
  obtain ⟨s, e, p⟩ := forUp_spec (body := clenshawPoint n c incc) (lo := 0) (hi := m) (s := (x, f))
    (fun j s => s = (x, mix f 0 j fun i => (chen c incc (x.val i) n.toNat n.toNat).1)) (by rw [mix_empty _ (le_refl _)])
    (fun j j0 j1 s p => by
      subst p
      refine ⟨_, ?_, rfl⟩
      rw [clenshawPoint_eq two hn hc j0 (by omega) (by rw [mix_size]; omega),
        mix_wr_up (y := fun i => (chen c incc (x.val i) n.toNat n.toNat).1) j0 (by omega) j0]
      rfl)
  rw [e, p]
  rcases le_total 0 m with hl | hl
  · rw [max_eq_right hl]
  · rw [max_eq_left hl, mix_empty _ (le_refl _), mix_empty _ hl]

theorem clenshawBlock_eq {S L : Nat} {n : Int} {c : Buf K} {incc : Int} {x : Buf K} {j : Int} {f : Buf K} (two : (2 : K) ≠ 0) (hn : 1 ≤ n) (hc : Strided c n incc) (h0 : 0 ≤ j)
    (hx : j + S * L ≤ x.size) (hf : j + S * L ≤ f.size) :
    clenshawBlock S L n c incc x j f = some (mix f j (j + S * L) fun i => (chen c incc (x.val i) n.toNat n.toNat).1) := by
  obtain ⟨X, eX, sX, vX⟩ := vLoads_eq (g := fun v => 2 * v) h0 hx
  obtain ⟨r, e, p1, p2⟩ := clenshawRegs_eq (X := X) (x := fun l e => X.val l e / 2) sX (fun l e _ _ => by field_simp) hc
  obtain ⟨c0, c1⟩ := hc 0 (le_refl _) (by omega)
  rw [zero_mul] at c0 c1
  unfold clenshawBlock
  rw [eX, Option.bind_some, e, Option.bind_some]
  have := vStores_eq (f := f) (F := fun i => (chen c incc (x.val i) n.toNat n.toNat).1) (S := S) (L := L)
    (w := fun l => (X.rd l).bind fun X => (divC 1 2).bind fun h => (r.rd (3 * l + 1)).bind fun b1 => (c.rd 0).bind fun c0 =>
    (r.rd (3 * l + 2)).bind fun b2 => some (fun e => X e * h * b1 e + c0 - b2 e)) h0 hf
    (fun l l0 l1 => by
      refine ⟨_, by rw [Buf.rd_of l0 (by omega), Option.bind_some, divC_of two, Option.bind_some, Buf.rd_of (by omega) (by omega), Option.bind_some,
        Buf.rd_of c0 c1, Option.bind_some, Buf.rd_of (by omega) (by omega)]; rfl, fun e e0 e1 => ?_⟩
      rw [(p2 l l0 l1).2.1, (p2 l l0 l1).2.2]
      simp only
      rw [vX l e l0 l1 e0 e1, mul_div_cancel_left₀ _ two, chen_last (by omega), mul_one_div, mul_div_cancel_left₀ _ two])
  rw [← this]
  congr 1
  funext l f
  cases X.rd l <;> cases (divC (1 : K) 2) <;> cases r.rd (3 * l + 1) <;> cases c.rd 0 <;> cases r.rd (3 * l + 2) <;> rfl

theorem clenshawV_eq {S L : Nat} {n : Int} {c : Buf K} {incc m : Int} {x f : Buf K} (two : (2 : K) ≠ 0) (hS : 0 < S) (hL : 0 < L) (hn : 1 ≤ n) (hm : 0 ≤ m)
    (hc : Strided c n incc) (hx : m ≤ x.size) (hf : m ≤ f.size) :
    clenshawV S L n c incc m x f = some (mix f 0 m fun i => (chen c incc (x.val i) n.toNat n.toNat).1) := by
  unfold clenshawV
  rw [if_neg (by omega)]
  refine simdBlocks_eq hS hL hm (fun j j0 j1 g hg => clenshawBlock_eq two hn hc j0 (by omega) (by omega)) (fun j j0 j1 g hg => ?_) hf
  obtain ⟨s, e, p⟩ := clenshawLoop_eq (X := x.val j) hc
  obtain ⟨c0, c1⟩ := hc 0 (le_refl _) (by omega)
  rw [zero_mul] at c0 c1
  unfold clenshawTail
  rw [Buf.rd_of j0 (by omega), Option.bind_some, e, Option.bind_some, divC_of two, Option.bind_some, Buf.rd_of c0 c1, Option.bind_some, mul_div_cancel_left₀ _ two,
    chen_last (by omega), ← p]

end Field
end FT
