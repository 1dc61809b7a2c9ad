import Verif.Model.MpfrTri
import Verif.Lemmas.TbEig

/-!
# Triangular products and solves on vectors that lie anywhere in memory
-/

namespace FT
open Prog FT.Model
variable {K : Type*} {ι : Type*}

section
variable [Zero K]

/-- `gt` and `pt` read and write the entries of a vector, entry `i` at address `ad i` of a memory of `s` positions; the addresses differ. -/
structure Acs (ad : Int → Int) (n : Int) (s : Nat) (gt : Int → Prog K K) (pt : Int → K → Prog K Unit) : Prop where
  inj : ∀ i k, 0 ≤ i → i < n → 0 ≤ k → k < n → ad i = ad k → i = k
  get : ∀ (M : Buf K) i, M.size = s → 0 ≤ i → i < n → (gt i).run M = some (M.val (ad i), M)
  put : ∀ (M : Buf K) i v, M.size = s → 0 ≤ i → i < n → (pt i v).run M = some ((), ⟨M.size, Function.update M.val (ad i) v⟩)
  gacc : ∀ i, 0 ≤ i → i < n → ∀ R W : Int → Prop, R (ad i) → (gt i).Acc R W
  pacc : ∀ i v, 0 ≤ i → i < n → ∀ R W : Int → Prop, W (ad i) → (pt i v).Acc R W

/-- The array `B` has the contents of the vector. -/
def ViewA (ad : Int → Int) (n : Int) (M B : Buf K) : Prop := (B.size : Int) = n ∧ ∀ i, 0 ≤ i → i < n → B.val i = M.val (ad i)

/-- When `f` succeeds on the array, `p` succeeds on the memory with the same result, and changes nothing else. -/
def SimA (ad : Int → Int) (n : Int) (s : Nat) (p : Prog K Unit) (f : Buf K → Option (Buf K)) : Prop :=
  ∀ M B B', M.size = s → ViewA ad n M B → f B = some B' → ∃ M', p.run M = some ((), M') ∧ M'.size = M.size ∧ ViewA ad n M' B' ∧
    ∀ a, (∀ i, 0 ≤ i → i < n → a ≠ ad i) → M'.val a = M.val a

variable {ad : Int → Int} {n : Int} {s : Nat} {gt : Int → Prog K K} {pt : Int → K → Prog K Unit}

theorem SimA.congr {p : Prog K Unit} {f g : Buf K → Option (Buf K)} (h : SimA ad n s p f) (e : ∀ B, g B = f B) : SimA ad n s p g :=
  fun M B B' h1 h2 h3 => h M B B' h1 h2 (by rw [← e]; exact h3)

theorem simA_ret : SimA ad n s (Prog.ret ()) (fun B : Buf K => some B) := by
  intro M B B' _ hv e
  cases e
  exact ⟨M, rfl, rfl, hv, fun _ _ => rfl⟩

theorem simA_opt {α : Type*} {o : Option α} {p : α → Prog K Unit} {f : α → Buf K → Option (Buf K)} (h : ∀ v, o = some v → SimA ad n s (p v) (f v)) :
    SimA ad n s ((ofOption o).bind p) (fun B => o.bind fun v => f v B) := by
  intro M B B' hx hv e
  cases ho : o with
  | none => rw [ho] at e; simp at e
  | some v =>
    rw [ho] at e
    obtain ⟨M', e', r⟩ := h v ho M B B' hx hv e
    exact ⟨M', by rw [run_ofOption_bind (a := v) rfl]; exact e', r⟩

theorem simA_get (hX : Acs ad n s gt pt) {i : Int} {p : K → Prog K Unit} {f : K → Buf K → Option (Buf K)} (h : ∀ v, SimA ad n s (p v) (f v)) :
    SimA ad n s ((gt i).bind p) (fun B => (B.rd i).bind fun v => f v B) := by
  intro M B B' hx hv e
  dsimp only at e
  cases hr : B.rd i with
  | none => rw [hr] at e; simp at e
  | some v =>
    rw [hr] at e
    obtain ⟨⟨i0, i1⟩, hval⟩ := Buf.rd_eq_some_iff.1 hr
    obtain ⟨M', e', r⟩ := h v M B B' hx hv e
    refine ⟨M', ?_, r⟩
    rw [run_then (hX.get M i hx i0 (by rw [← hv.1]; exact i1)), ← hv.2 i i0 (by rw [← hv.1]; exact i1), hval]
    exact e'

theorem simA_put (hX : Acs ad n s gt pt) {i : Int} {v : K} : SimA ad n s (pt i v) (fun B => B.wr i v) := by
  intro M B B' hx hv e
  obtain ⟨⟨i0, i1⟩, rfl⟩ := Buf.wr_eq_some_iff.1 e
  rw [hv.1] at i1
  refine ⟨_, hX.put M i v hx i0 i1, rfl, ⟨hv.1, ?_⟩, ?_⟩
  · intro j j0 j1
    dsimp only
    by_cases h : j = i
    · subst h; rw [Function.update_self, Function.update_self]
    · rw [Function.update_of_ne h, Function.update_of_ne (fun hh => h (hX.inj j i j0 j1 i0 i1 hh))]
      exact hv.2 j j0 j1
  · intro a ha
    dsimp only
    rw [Function.update_of_ne (ha i i0 i1)]

theorem simA_bind {p : Prog K Unit} {q : Prog K Unit} {f g : Buf K → Option (Buf K)} (hp : SimA ad n s p f) (hq : SimA ad n s q g) :
    SimA ad n s (p.bind fun _ => q) (fun B => (f B).bind g) := by
  intro M B B' hx hv e
  dsimp only at e
  cases hf : f B with
  | none => rw [hf] at e; simp at e
  | some C =>
    rw [hf] at e
    obtain ⟨M1, e1, s1, v1, o1⟩ := hp M B C hx hv hf
    obtain ⟨M2, e2, s2, v2, o2⟩ := hq M1 C B' (by rw [s1]; exact hx) v1 e
    exact ⟨M2, by rw [run_then e1]; exact e2, by rw [s2, s1], v2, fun a ha => by rw [o2 a ha, o1 a ha]⟩

theorem simA_each {body : ι → Prog K Unit} {f : ι → Buf K → Option (Buf K)} {l : List ι} (h : ∀ i ∈ l, SimA ad n s (body i) (f i)) :
    SimA ad n s (each (fun i _ => body i) l ()) (exec f l) := by
  induction l with
  | nil => exact simA_ret
  | cons i l ih =>
    have := simA_bind (h i (by simp)) (ih fun j hj => h j (by simp [hj]))
    refine SimA.congr (p := each (fun i _ => body i) (i :: l) ()) ?_ (fun B => exec_cons f i l B)
    exact this

theorem simA_up {body : Int → Prog K Unit} {f : Int → Buf K → Option (Buf K)} {lo hi : Int} (h : ∀ i, SimA ad n s (body i) (f i)) :
    SimA ad n s (each (fun i _ => body i) (rUp lo hi) ()) (forUp lo hi f) :=
  (simA_each fun i _ => h i).congr fun B => forUp_exec _ _ _ B

theorem simA_down {body : Int → Prog K Unit} {f : Int → Buf K → Option (Buf K)} {hi lo : Int} (h : ∀ i, SimA ad n s (body i) (f i)) :
    SimA ad n s (each (fun i _ => body i) (rDown hi lo) ()) (forDown hi lo f) :=
  (simA_each fun i _ => h i).congr fun B => forDown_exec _ _ _ B

/-- The two kinds of vectors of the code. -/
theorem acs_arr {x : Ptr} (hx : x.Ok n s) : Acs (K := K) x.at n s (arrGet x) (arrPut x) where
  inj i k _ _ _ _ h := by unfold Ptr.at at h; omega
  get M i hs i0 i1 := run_get (by rw [hs]; exact hx) i0 i1
  put M i v hs i0 i1 := run_put (by rw [hs]; exact hx) i0 i1
  gacc i _ _ R W h := Acc.get fun _ _ => h
  pacc i v _ _ R W h := Acc.put fun _ _ => h

/-- The address entry `i` of a vector of pointers points to. -/
def ptrAt (P : Buf Ptr) (i : Int) : Int := (P.val i).at 0

theorem acs_ptr {P : Buf Ptr} {o : Int} (o0 : 0 ≤ o) (oP : o + n ≤ P.size) (hok : ∀ i, 0 ≤ i → i < n → (P.val (o + i)).Ok 1 s)
    (hinj : ∀ i k, 0 ≤ i → i < n → 0 ≤ k → k < n → ptrAt P (o + i) = ptrAt P (o + k) → i = k) : Acs (K := K) (fun i => ptrAt P (o + i)) n s (ptrGet P o) (ptrPut P o) where
  inj := hinj
  get M i hs i0 i1 := by
    unfold ptrGet
    rw [run_ofOption_bind (Buf.rd_of (by omega) (by omega))]
    exact run_get (n := 1) (by rw [hs]; exact hok i i0 i1) (by omega) (by omega)
  put M i v hs i0 i1 := by
    unfold ptrPut
    rw [run_ofOption_bind (Buf.rd_of (by omega) (by omega))]
    exact run_put (n := 1) (by rw [hs]; exact hok i i0 i1) (by omega) (by omega)
  gacc i i0 i1 R W h := by
    unfold ptrGet
    refine Acc.ofOption_bind fun p hp => Acc.get fun _ _ => ?_
    rw [Buf.rd_of (by omega) (by omega)] at hp
    cases hp; exact h
  pacc i v i0 i1 R W h := by
    unfold ptrPut
    refine Acc.ofOption_bind fun p hp => Acc.put fun _ _ => ?_
    rw [Buf.rd_of (by omega) (by omega)] at hp
    cases hp; exact h

end

section
variable [CommRing K] {ad : Int → Int} {n : Int} {s : Nat} {gt : Int → Prog K K} {pt : Int → K → Prog K Unit} {A : Buf K} {LDA : Int}

/-- The updates of the code are those of the versions in working precision. -/
theorem fma_eq (A B : Buf K) (p i j : Int) : ((B.rd i).bind fun xi => (A.rd p).bind fun a => (B.rd j).bind fun xj => B.wr i (xi + a * xj)) =
    (A.rd p).bind fun a => (B.rd j).bind fun xj => (B.rd i).bind fun xi => B.wr i (a * xj + xi) := by
  cases B.rd i <;> cases A.rd p <;> cases B.rd j <;> simp [add_comm]

theorem mulr_eq (A B : Buf K) (p j : Int) : ((B.rd j).bind fun xj => (A.rd p).bind fun a => B.wr j (xj * a)) = (A.rd p).bind fun a => (B.rd j).bind fun xj => B.wr j (a * xj) := by
  cases B.rd j <;> cases A.rd p <;> simp [mul_comm]

theorem fms_eq (A B : Buf K) (p i j : Int) : ((B.rd i).bind fun xi => (A.rd p).bind fun a => (B.rd j).bind fun xj => B.wr i (xi - a * xj)) =
    ((A.rd p).bind fun a => (B.rd j).bind fun xj => (B.rd i).bind fun xi => B.wr i (a * xj - xi)).bind fun B => (B.rd i).bind fun xi => B.wr i (-xi) := by
  cases hi : B.rd i with
  | none => cases A.rd p <;> cases B.rd j <;> simp
  | some xi =>
    obtain ⟨⟨i0, i1⟩, hv⟩ := Buf.rd_eq_some_iff.1 hi
    cases A.rd p with
    | none => simp
    | some a =>
      cases B.rd j with
      | none => simp
      | some xj =>
        simp only [Option.bind_some]
        rw [Buf.wr_of i0 i1, Buf.wr_of i0 i1, Option.bind_some, Buf.rd_of (by exact i0) (by exact i1), Option.bind_some, Buf.wr_of (by exact i0) (by exact i1)]
        simp

theorem mTrmv_sim (hX : Acs ad n s gt pt) (tr : Char) : SimA ad n s (mTrmv tr n A LDA gt pt) (trmv tr n A LDA) := by
  unfold mTrmv
  by_cases h1 : tr = 'N'
  · rw [if_pos h1]
    refine SimA.congr (f := forUp 0 n fun j B => ((forUp 0 j (fun i B => (A.rd (i + j * LDA)).bind fun a => (B.rd j).bind fun xj => (B.rd i).bind fun xi => B.wr i (a * xj + xi))) B).bind
      fun B => (A.rd (j + j * LDA)).bind fun a => (B.rd j).bind fun xj => B.wr j (a * xj)) (simA_up fun j => ?_) (fun B => ?_)
    · exact simA_bind (simA_up fun i => simA_opt fun a _ => simA_get hX fun xj => simA_get hX fun xi => simA_put hX) (simA_opt fun a _ => simA_get hX fun xj => simA_put hX)
    · unfold trmv
      rw [if_pos h1]
      unfold sweepUp
      simp only [← fma_eq, ← mulr_eq]
      congr 1
      funext j x
      congr 2
      funext i x
      rw [Option.bind_assoc]
      congr 1; funext xi
      rw [Option.bind_assoc]
      congr 1; funext a
      cases x.rd j <;> rfl
  · rw [if_neg h1]
    by_cases h2 : tr = 'T'
    · rw [if_pos h2]
      refine SimA.congr (f := forDown (n - 1) 0 fun i B => ((A.rd (i + i * LDA)).bind fun a => (B.rd i).bind fun xi => B.wr i (a * xi)).bind
        (forDown (i - 1) 0 fun j B => (A.rd (j + i * LDA)).bind fun a => (B.rd j).bind fun xj => (B.rd i).bind fun xi => B.wr i (a * xj + xi))) (simA_down fun i => ?_) (fun B => ?_)
      · exact simA_bind (simA_opt fun a _ => simA_get hX fun xi => simA_put hX) (simA_down fun j => simA_opt fun a _ => simA_get hX fun xj => simA_get hX fun xi => simA_put hX)
      · unfold trmv
        rw [if_neg h1, if_pos h2]
        simp only [← fma_eq, ← mulr_eq]
    · rw [if_neg h2]
      refine SimA.congr simA_ret fun B => ?_
      unfold trmv
      rw [if_neg h1, if_neg h2]

theorem mTrmv_acc (hX : Acs ad n s gt pt) {tr : Char} {R : Int → Prop} (hR : ∀ i, 0 ≤ i → i < n → R (ad i)) : (mTrmv tr n A LDA gt pt).Acc R R := by
  have g : ∀ i, 0 ≤ i → i < n → (gt i).Acc R R := fun i i0 i1 => hX.gacc i i0 i1 R R (hR i i0 i1)
  have p : ∀ i v, 0 ≤ i → i < n → (pt i v).Acc R R := fun i v i0 i1 => hX.pacc i v i0 i1 R R (hR i i0 i1)
  unfold mTrmv
  split_ifs with h1 h2
  · refine Acc.each (fun j hj _ => Acc.bind (Acc.each (fun i hi _ => ?_) ()) fun _ => ?_) ()
    all_goals
      simp only [mem_rUp] at *
    · exact Acc.ofOption_bind fun _ _ => Acc.bind (g j (by omega) (by omega)) fun _ => Acc.bind (g i (by omega) (by omega)) fun _ => p i _ (by omega) (by omega)
    · exact Acc.ofOption_bind fun _ _ => Acc.bind (g j (by omega) (by omega)) fun _ => p j _ (by omega) (by omega)
  · refine Acc.each (fun i hi _ => Acc.bind ?_ fun _ => Acc.each (fun j hj _ => ?_) ()) ()
    all_goals
      simp only [mem_rDown] at *
    · exact Acc.ofOption_bind fun _ _ => Acc.bind (g i (by omega) (by omega)) fun _ => p i _ (by omega) (by omega)
    · exact Acc.ofOption_bind fun _ _ => Acc.bind (g j (by omega) (by omega)) fun _ => Acc.bind (g i (by omega) (by omega)) fun _ => p i _ (by omega) (by omega)
  · trivial

end

section
variable [Field K] [DecidableEq K] {ad : Int → Int} {n : Int} {s : Nat} {gt : Int → Prog K K} {pt : Int → K → Prog K Unit} {A : Buf K} {LDA : Int}

theorem mTrsv_sim (hX : Acs ad n s gt pt) (tr : Char) : SimA ad n s (mTrsv tr n A LDA gt pt) (trsv tr n A LDA) := by
  unfold mTrsv
  by_cases h1 : tr = 'N'
  · rw [if_pos h1]
    refine SimA.congr (f := forDown (n - 1) 0 fun j B => ((B.rd j).bind fun xj => (A.rd (j + j * LDA)).bind fun a => (divC xj a).bind fun v => B.wr j v).bind
      (forUp 0 j (fun i B => ((A.rd (i + j * LDA)).bind fun a => (B.rd j).bind fun xj => (B.rd i).bind fun xi => B.wr i (a * xj - xi)).bind fun B => (B.rd i).bind fun xi => B.wr i (-xi))))
      (simA_down fun j => ?_) (fun B => ?_)
    · exact simA_bind (simA_get hX fun xj => simA_opt fun a _ => simA_opt fun v _ => simA_put hX)
        (simA_up fun i => simA_bind (simA_opt fun a _ => simA_get hX fun xj => simA_get hX fun xi => simA_put hX) (simA_get hX fun xi => simA_put hX))
    · unfold trsv
      rw [if_pos h1]
      unfold sweepUp
      simp only [← fms_eq]
      congr 1
      funext j x
      congr 1
      funext x
      congr 1
      funext i x
      rw [Option.bind_assoc]
      congr 1; funext xi
      rw [Option.bind_assoc]
      congr 1; funext a
      cases x.rd j <;> rfl
  · rw [if_neg h1]
    by_cases h2 : tr = 'T'
    · rw [if_pos h2]
      refine SimA.congr (f := forUp 0 n fun i B => (forUp 0 i (fun j B => ((A.rd (j + i * LDA)).bind fun a => (B.rd j).bind fun xj => (B.rd i).bind fun xi => B.wr i (a * xj - xi)).bind
          fun B => (B.rd i).bind fun xi => B.wr i (-xi)) B).bind
        fun B => (B.rd i).bind fun xi => (A.rd (i + i * LDA)).bind fun a => (divC xi a).bind fun v => B.wr i v) (simA_up fun i => ?_) (fun B => ?_)
      · exact simA_bind (simA_up fun j => simA_bind (simA_opt fun a _ => simA_get hX fun xj => simA_get hX fun xi => simA_put hX) (simA_get hX fun xi => simA_put hX))
          (simA_get hX fun xi => simA_opt fun a _ => simA_opt fun v _ => simA_put hX)
      · unfold trsv
        rw [if_neg h1, if_pos h2]
        simp only [← fms_eq]
    · rw [if_neg h2]
      refine SimA.congr simA_ret fun B => ?_
      unfold trsv
      rw [if_neg h1, if_neg h2]

theorem mTrsv_acc (hX : Acs ad n s gt pt) {tr : Char} {R : Int → Prop} (hR : ∀ i, 0 ≤ i → i < n → R (ad i)) : (mTrsv tr n A LDA gt pt).Acc R R := by
  have g : ∀ i, 0 ≤ i → i < n → (gt i).Acc R R := fun i i0 i1 => hX.gacc i i0 i1 R R (hR i i0 i1)
  have p : ∀ i v, 0 ≤ i → i < n → (pt i v).Acc R R := fun i v i0 i1 => hX.pacc i v i0 i1 R R (hR i i0 i1)
  unfold mTrsv
  split_ifs with h1 h2
  · refine Acc.each (fun j hj _ => Acc.bind ?_ fun _ => Acc.each (fun i hi _ => ?_) ()) ()
    all_goals
      simp only [mem_rUp, mem_rDown] at *
    · exact Acc.bind (g j (by omega) (by omega)) fun _ => Acc.ofOption_bind fun _ _ => Acc.ofOption_bind fun _ _ => p j _ (by omega) (by omega)
    · exact Acc.bind (Acc.ofOption_bind fun _ _ => Acc.bind (g j (by omega) (by omega)) fun _ => Acc.bind (g i (by omega) (by omega)) fun _ => p i _ (by omega) (by omega)) fun _ =>
        Acc.bind (g i (by omega) (by omega)) fun _ => p i _ (by omega) (by omega)
  · refine Acc.each (fun i hi _ => Acc.bind (Acc.each (fun j hj _ => ?_) ()) fun _ => ?_) ()
    all_goals
      simp only [mem_rUp] at *
    · exact Acc.bind (Acc.ofOption_bind fun _ _ => Acc.bind (g j (by omega) (by omega)) fun _ => Acc.bind (g i (by omega) (by omega)) fun _ => p i _ (by omega) (by omega)) fun _ =>
        Acc.bind (g i (by omega) (by omega)) fun _ => p i _ (by omega) (by omega)
    · exact Acc.bind (g i (by omega) (by omega)) fun _ => Acc.ofOption_bind fun _ _ => Acc.ofOption_bind fun _ _ => p i _ (by omega) (by omega)
  · trivial

end
end FT
