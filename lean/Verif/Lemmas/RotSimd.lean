import Verif.Model.RotSimd
import Verif.Lemmas.Rotations

namespace FT
variable {K : Type*} [CommRing K]

section exec
variable {σ ι : Type*}

theorem exec_congr_inv {f g : ι → σ → Option σ} {l : List ι} (P : σ → Prop)
    (h : ∀ a ∈ l, ∀ s, P s → f a s = g a s) (hP : ∀ a ∈ l, ∀ s s', P s → g a s = some s' → P s') {s : σ} (h0 : P s) :
    exec f l s = exec g l s := by
  induction l generalizing s with
  | nil => rfl
  | cons a l ih =>
    rw [exec_cons, exec_cons, h a (by simp) s h0]
    cases e : g a s with
    | none => rfl
    | some s' =>
      exact ih (fun b hb => h b (by simp [hb])) (fun b hb => hP b (by simp [hb])) (hP a (by simp) s s' h0 e)

end exec

/-- The effect of a vector rotation on the contents (the two blocks of `VS` entries do not overlap). -/
def vrotV (VS : Nat) (s c : K) (p q : Int) (v : Int → K) : Int → K := fun i =>
  if q ≤ i ∧ i < q + VS then c * v i - s * v (p + (i - q))
  else if p ≤ i ∧ i < p + VS then c * v i + s * v (q + (i - p)) else v i

theorem vld_of {A : Buf K} {o : Int} {W : Nat} (h0 : 0 ≤ o) (h1 : o + W ≤ A.size) :
    vld A o W = some (fun k : Int => if 0 ≤ k ∧ k < W then A.val (o + k) else 0) := by
  unfold vld; rw [if_pos ⟨h0, h1⟩]

theorem vst_of {A : Buf K} {o : Int} {W : Nat} {v : Int → K} (h0 : 0 ≤ o) (h1 : o + W ≤ A.size) :
    vst A o W v = some ⟨A.size, fun i => if o ≤ i ∧ i < o + W then v (i - o) else A.val i⟩ := by
  unfold vst; rw [if_pos ⟨h0, h1⟩]

theorem vGivens_of {VS : Nat} {s c : K} {p q : Int} {A : Buf K} (hp : 0 ≤ p) (hp' : p + VS ≤ A.size) (hq' : q + VS ≤ A.size)
    (hd : p + VS ≤ q) : vGivens VS s c p q A = some ⟨A.size, vrotV VS s c p q A.val⟩ := by
  unfold vGivens
  rw [vld_of hp hp', Option.bind_some, vld_of (by omega) hq', Option.bind_some, vst_of hp hp', Option.bind_some,
    vst_of (by omega) (by exact hq')]
  simp only [Option.some.injEq, Buf.mk.injEq, true_and]
  funext i
  unfold vrotV
  split_ifs with h1 h2
  · rw [show q + (i - q) = i by omega]
  · omega
  · rw [show p + (i - p) = i by omega]
  · omega
  · rfl

theorem vGivensT_eq (VS : Nat) (s c : K) (X Y : Int) (A : Buf K) : vGivensT VS s c X Y A = vGivens VS (-s) c X Y A := by
  unfold vGivensT vGivens
  congr 1; funext x; congr 1; funext y
  congr 2
  · funext e; ring
  · funext A; congr 1; funext e; ring

/-- A vector rotation is the same rotation on each lane. -/
theorem lanes_exec {VS : Nat} {s c : K} {p q : Int} {n : Nat} (v : Int → K) (hp : 0 ≤ p) (hp' : p + VS ≤ n) (hq' : q + VS ≤ n)
    (hd : p + VS ≤ q) :
    exec (fun e : Int => applyGivens s c (p + e) (q + e)) (rUp 0 VS) ⟨n, v⟩ = some ⟨n, vrotV VS s c p q v⟩ := by
  rw [← forUp_exec]
  unfold forUp
  simp only [Int.sub_zero, Int.toNat_natCast, Int.zero_add]
  have : ∀ t : Nat, t ≤ VS → loop (fun k : Nat => applyGivens s c (p + (k : Int)) (q + (k : Int))) t ⟨n, v⟩ =
      some ⟨n, vrotV t s c p q v⟩ := by
    intro t
    induction t with
    | zero =>
      intro _
      simp only [loop_zero, Option.some.injEq, Buf.mk.injEq, true_and]
      funext i
      unfold vrotV
      rw [if_neg (by omega), if_neg (by omega)]
    | succ t ih =>
      intro ht
      rw [loop_succ, ih (by omega), Option.bind_some, applyGivens_mk (by omega) (by omega)]
      simp only [Option.some.injEq, Buf.mk.injEq, true_and]
      funext i
      unfold rotV
      simp only [Function.update_apply]
      unfold vrotV
      push_cast
      by_cases h1 : i = q + t
      · subst h1
        rw [if_pos rfl, if_neg (by omega), if_neg (by omega), if_neg (by omega), if_neg (by omega), if_pos (by omega)]
        rw [show p + (q + (t : Int) - q) = p + t by omega]
      · rw [if_neg h1]
        by_cases h2 : i = p + t
        · subst h2
          rw [if_pos rfl, if_neg (by omega), if_neg (by omega), if_neg (by omega), if_neg (by omega), if_neg (by omega),
            if_pos (by omega)]
          rw [show q + (p + (t : Int) - p) = q + t by omega]
        · rw [if_neg h2]
          split_ifs <;> first | rfl | omega
  exact this VS le_rfl

/-! ## Register tiles -/

section tile
variable {VS : Nat} {cnt b o S g : Int}

/-- Position of lane `e` of register `l`. -/
def regPos (b o S l e : Int) : Int := o + (b + l) * S + e

theorem regPos_inj (hS : (VS : Int) ≤ S) {l e l' e' : Int} (he : 0 ≤ e) (he1 : e < VS) (he' : 0 ≤ e') (he1' : e' < VS)
    (h : regPos b o S l e = regPos b o S l' e') : l = l' ∧ e = e' := by
  unfold regPos at h
  have hl : l = l' := by
    by_contra hne
    rcases lt_or_gt_of_ne hne with hlt | hlt
    · have : (b + (l + 1)) * S ≤ (b + l') * S := Int.mul_le_mul_of_nonneg_right (by omega) (by omega)
      rw [show (b + (l + 1)) * S = (b + l) * S + S by ring] at this
      omega
    · have : (b + (l' + 1)) * S ≤ (b + l) * S := Int.mul_le_mul_of_nonneg_right (by omega) (by omega)
      rw [show (b + (l' + 1)) * S = (b + l') * S + S by ring] at this
      omega
  subst hl
  exact ⟨rfl, by omega⟩

theorem regPos_row (hS : (VS : Int) ≤ S) {l e r : Int} (he : 0 ≤ e) (he1 : e < VS)
    (h : o + (b + r) * S ≤ regPos b o S l e ∧ regPos b o S l e < o + (b + r) * S + VS) : l = r := by
  refine (regPos_inj (VS := VS) (b := b) (o := o) hS he he1 (l' := r) (e' := regPos b o S l e - (o + (b + r) * S))
    (by omega) (by omega) ?_).1
  have : regPos b o S r (regPos b o S l e - (o + (b + r) * S)) =
      o + (b + r) * S + (regPos b o S l e - (o + (b + r) * S)) := rfl
  omega

/-- The rows of the tile are inside the buffer. -/
structure TileFits (VS : Nat) (cnt b o S : Int) (size : Nat) : Prop where
  vs : (VS : Int) ≤ S
  b0 : 0 ≤ b
  o0 : 0 ≤ o
  S0 : 0 < S
  top : o + (b + cnt - 1) * S + VS ≤ size

theorem TileFits.lane {size : Nat} (h : TileFits VS cnt b o S size) {l : Int} (h0 : 0 ≤ l) (h1 : l < cnt) :
    0 ≤ o + (b + l) * S ∧ o + (b + l) * S + VS ≤ size := by
  have a : 0 ≤ (b + l) * S := Int.mul_nonneg (by have := h.b0; omega) (by have := h.S0; omega)
  have c : (b + l) * S ≤ (b + cnt - 1) * S := Int.mul_le_mul_of_nonneg_right (by omega) (by have := h.S0; omega)
  have := h.o0
  have := h.top
  omega

/-- Registers `X` hold the rows of `v`. -/
def Cached (VS : Nat) (cnt b o S : Int) (X : Buf (Int → K)) (v : Int → K) : Prop :=
  (X.size : Int) = cnt ∧ ∀ l e : Int, 0 ≤ l → l < cnt → 0 ≤ e → e < VS → X.val l e = v (regPos b o S l e)

/-- `v` and `w` differ at most in the rows of the tile. -/
def SameOutside (VS : Nat) (cnt b o S : Int) (v w : Int → K) : Prop :=
  ∀ i, (∀ l e : Int, 0 ≤ l → l < cnt → 0 ≤ e → e < VS → i ≠ regPos b o S l e) → v i = w i

theorem loadRegs_spec {A : Buf K} (hf : TileFits VS cnt b o S A.size) (hc : 0 ≤ cnt) (X : Buf (Int → K)) (hX : (X.size : Int) = cnt) :
    ∃ X', loadRegs VS cnt b o S A X = some X' ∧ Cached VS cnt b o S X' A.val := by
  unfold loadRegs forUp
  obtain ⟨X', e, hs, hv⟩ := loop_spec (body := fun k : Nat => fun X : Buf (Int → K) =>
      (vld A (o + (b + (0 + (k : Int))) * S) VS).bind fun v => X.wr (0 + (k : Int)) v) (n := (cnt - 0).toNat) (s := X)
    (fun t X' => (X'.size : Int) = cnt ∧ ∀ l e : Int, 0 ≤ l → l < (t : Int) → 0 ≤ e → e < VS → X'.val l e = A.val (regPos b o S l e))
    ⟨hX, fun l e h0 h1 => by omega⟩ (by
      rintro k hk X' ⟨hs, hv⟩
      have := hf.lane (l := k) (by omega) (by omega)
      rw [Int.zero_add, vld_of this.1 this.2, Option.bind_some, Buf.wr_of (by omega) (by omega)]
      refine ⟨_, rfl, hs, ?_⟩
      intro l e h0 h1 h2 h3
      simp only [Function.update_apply]
      push_cast at h1
      by_cases hl : l = k
      · subst hl; rw [if_pos rfl, if_pos ⟨h2, h3⟩]; rfl
      · rw [if_neg hl]; exact hv l e h0 (by omega) h2 h3)
  refine ⟨X', e, hs, ?_⟩
  intro l e h0 h1 h2 h3
  exact hv l e h0 (by omega) h2 h3

theorem storeRegs_spec {A : Buf K} (hf : TileFits VS cnt b o S A.size) (hc : 0 ≤ cnt) {X : Buf (Int → K)} {v : Int → K}
    (hX : Cached VS cnt b o S X v) (hv : SameOutside VS cnt b o S v A.val) :
    storeRegs VS cnt b o S X A = some ⟨A.size, v⟩ := by
  unfold storeRegs forUp
  obtain ⟨B, e, hs, h1, h2⟩ := loop_spec (body := fun k : Nat => fun A : Buf K =>
      (X.rd (0 + (k : Int))).bind fun v => vst A (o + (b + (0 + (k : Int))) * S) VS v) (n := (cnt - 0).toNat) (s := A)
    (fun t B => B.size = A.size ∧
      (∀ l e : Int, 0 ≤ l → l < (t : Int) → 0 ≤ e → e < VS → B.val (regPos b o S l e) = v (regPos b o S l e)) ∧
      (∀ i, (∀ l e : Int, 0 ≤ l → l < (t : Int) → 0 ≤ e → e < VS → i ≠ regPos b o S l e) → B.val i = A.val i))
    ⟨rfl, fun l e h0 h1 => by omega, fun _ _ => rfl⟩ (by
      rintro k hk B ⟨hs, hin, hout⟩
      have hl := hf.lane (l := k) (by omega) (by omega)
      have hx := hX.1
      rw [Int.zero_add, Buf.rd_of (by omega) (by omega), Option.bind_some,
        vst_of hl.1 (by rw [hs]; exact hl.2)]
      refine ⟨_, rfl, hs, ?_, ?_⟩
      · intro l e h0 h1 h2 h3
        push_cast at h1
        by_cases hlk : l = k
        · subst hlk
          simp only
          rw [if_pos (by unfold regPos; omega)]
          rw [show regPos b o S k e - (o + (b + (k : Int)) * S) = e by unfold regPos; omega]
          exact hX.2 _ _ h0 (by omega) h2 h3
        · simp only
          rw [if_neg]
          · exact hin l e h0 (by omega) h2 h3
          · exact fun hh => hlk (regPos_row hf.vs h2 h3 hh)
      · intro i hi
        simp only
        rw [if_neg]
        · exact hout i (fun l e h0 h1 => hi l e h0 (by push_cast; omega))
        · rintro ⟨ha, hb⟩
          exact hi k (i - (o + (b + (k : Int)) * S)) (by omega) (by push_cast; omega) (by omega) (by omega) (by unfold regPos; omega))
  rw [e]
  congr 1
  refine Buf.ext' hs ?_
  intro i
  by_cases hi : ∃ l e : Int, 0 ≤ l ∧ l < cnt ∧ 0 ≤ e ∧ e < (VS : Int) ∧ i = regPos b o S l e
  · obtain ⟨l, e, a, b', c, d, rfl⟩ := hi
    exact h1 l e a (by omega) c d
  · have hi' : ∀ l e : Int, 0 ≤ l → l < cnt → 0 ≤ e → e < (VS : Int) → i ≠ regPos b o S l e :=
      fun l e a b' c d h => hi ⟨l, e, a, b', c, d, h⟩
    rw [h2 i (fun l e a b' c d => hi' l e a (by omega) c d)]; exact (hv i hi').symm

/-- A rotation of two registers. -/
def regOp (g : Int) (s c : K) (r : Int) (X : Buf (Int → K)) : Option (Buf (Int → K)) :=
  (X.rd r).bind fun T1 => (X.rd (r + g)).bind fun T2 =>
    (X.wr r (fun e => c * T1 e + s * T2 e)).bind fun X => X.wr (r + g) (fun e => c * T2 e - s * T1 e)

theorem regOp_spec {s c : K} {r : Int} {X : Buf (Int → K)} {v : Int → K} {size : Nat} (hf : TileFits VS cnt b o S size)
    (hX : Cached VS cnt b o S X v) (hg : 0 < g) (h0 : 0 ≤ r) (h1 : r + g < cnt) :
    ∃ X', regOp g s c r X = some X' ∧
      Cached VS cnt b o S X' (vrotV VS s c (o + (b + r) * S) (o + (b + r + g) * S) v) := by
  have hx := hX.1
  have hgS : S ≤ g * S := by
    have := Int.mul_le_mul_of_nonneg_right (by omega : (1 : Int) ≤ g) (by have := hf.S0; omega : 0 ≤ S)
    omega
  have hvs := hf.vs
  unfold regOp
  rw [Buf.rd_of h0 (by omega), Option.bind_some, Buf.rd_of (by omega) (by omega), Option.bind_some,
    Buf.wr_of h0 (by omega), Option.bind_some, Buf.wr_of (b := ⟨X.size, _⟩) (by omega) (by simp only; omega)]
  refine ⟨_, rfl, hx, ?_⟩
  intro l e hl0 hl1 he0 he1
  simp only [Function.update_apply]
  have hrg : (b + r + g) * S = (b + r) * S + g * S := by ring
  have key : ∀ r' : Int, (o + (b + r') * S ≤ regPos b o S l e ∧ regPos b o S l e < o + (b + r') * S + VS) → l = r' := by
    intro r' hh
    exact regPos_row hvs he0 he1 hh
  unfold vrotV
  by_cases a : l = r + g
  · subst a
    rw [if_pos rfl, if_pos (by unfold regPos; rw [← Int.add_assoc]; omega), hX.2 _ _ hl0 hl1 he0 he1, hX.2 _ _ h0 (by omega) he0 he1]
    congr 3
    unfold regPos; rw [← Int.add_assoc]; omega
  · rw [if_neg a]
    conv_rhs => rw [if_neg (fun hh => a (key (r + g) (by rw [← Int.add_assoc]; exact hh)))]
    by_cases a' : l = r
    · subst a'
      rw [if_pos rfl, if_pos (by unfold regPos; omega), hX.2 _ _ hl0 hl1 he0 he1, hX.2 _ _ (by omega) h1 he0 he1]
      congr 3
      unfold regPos; rw [← Int.add_assoc]; omega
    · rw [if_neg a']
      conv_rhs => rw [if_neg (fun hh => a' (key r hh))]
      exact hX.2 _ _ hl0 hl1 he0 he1

theorem vrotV_outside {s c : K} {r : Int} {v w : Int → K} (h0 : 0 ≤ r) (h1 : r + g < cnt) (hg : 0 < g)
    (h : SameOutside VS cnt b o S v w) :
    SameOutside VS cnt b o S (vrotV VS s c (o + (b + r) * S) (o + (b + r + g) * S) v) w := by
  intro i hi
  unfold vrotV
  rw [if_neg, if_neg]
  · exact h i hi
  · rintro ⟨x, y⟩
    exact hi r (i - (o + (b + r) * S)) h0 (by omega) (by omega) (by omega) (by unfold regPos; omega)
  · rintro ⟨x, y⟩
    exact hi (r + g) (i - (o + (b + r + g) * S)) (by omega) (by omega) (by omega) (by omega)
      (by unfold regPos; rw [← Int.add_assoc]; omega)

/-- Working in registers is the same as working in memory. -/
theorem tile_exec {σs γs : Int → Int → K} {A : Buf K} (hf : TileFits VS cnt b o S A.size) (hc : 0 ≤ cnt) (hg : 0 < g)
    (X : Buf (Int → K)) (hX : (X.size : Int) = cnt) (T : List (Int × Int))
    (hT : ∀ a ∈ T, b ≤ a.2 ∧ a.2 + g < b + cnt) :
    ((loadRegs VS cnt b o S A X).bind fun X =>
      (exec (fun a : Int × Int => regOp g (σs a.2 a.1) (γs a.2 a.1) (a.2 - b)) T X).bind fun X => storeRegs VS cnt b o S X A) =
    exec (fun a : Int × Int => vGivens VS (σs a.2 a.1) (γs a.2 a.1) (o + a.2 * S) (o + (a.2 + g) * S)) T A := by
  obtain ⟨X', e, hX'⟩ := loadRegs_spec hf hc X hX
  rw [e, Option.bind_some]
  have gen : ∀ (T : List (Int × Int)), (∀ a ∈ T, b ≤ a.2 ∧ a.2 + g < b + cnt) → ∀ (X : Buf (Int → K)) (v : Int → K),
      Cached VS cnt b o S X v → SameOutside VS cnt b o S v A.val →
      ((exec (fun a : Int × Int => regOp g (σs a.2 a.1) (γs a.2 a.1) (a.2 - b)) T X).bind fun X => storeRegs VS cnt b o S X A) =
      exec (fun a : Int × Int => vGivens VS (σs a.2 a.1) (γs a.2 a.1) (o + a.2 * S) (o + (a.2 + g) * S)) T ⟨A.size, v⟩ := by
    intro T
    induction T with
    | nil =>
      intro _ X v hX hv
      rw [exec_nil, exec_nil, Option.bind_some]
      exact storeRegs_spec hf hc hX hv
    | cons a T ih =>
      intro hT X v hX hv
      obtain ⟨j, r⟩ := a
      obtain ⟨h1, h2⟩ := hT (j, r) (by simp)
      simp only at h1 h2
      obtain ⟨X1, e1, c1⟩ := regOp_spec (s := σs r j) (c := γs r j) (r := r - b) (g := g) hf hX hg (by omega) (by omega)
      have hl := hf.lane (l := r - b) (by omega) (by omega)
      have hl' := hf.lane (l := r - b + g) (by omega) (by omega)
      have hgS : S ≤ g * S := by
        have := Int.mul_le_mul_of_nonneg_right (by omega : (1 : Int) ≤ g) (by have := hf.S0; omega : 0 ≤ S)
        omega
      have hvs := hf.vs
      have hrg : (r + g) * S = r * S + g * S := by ring
      rw [show b + (r - b) = r by omega] at hl
      rw [show b + (r - b + g) = r + g by omega] at hl'
      rw [exec_cons, exec_cons]
      simp only
      rw [e1, Option.bind_some, vGivens_of (A := ⟨A.size, v⟩) hl.1 hl.2 hl'.2 (by omega), Option.bind_some]
      rw [show b + (r - b) = r by omega] at c1
      refine ih (fun a ha => hT a (by simp [ha])) X1 _ c1 ?_
      have := vrotV_outside (s := σs r j) (c := γs r j) (r := r - b) (g := g) (by omega) (by omega) hg hv
      rwa [show b + (r - b) = r by omega] at this
  exact gen T hT X' A.val hX' (fun _ _ => rfl)

end tile

end FT
