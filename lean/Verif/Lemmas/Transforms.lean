import Verif.Model.Transforms
import Verif.Props.Drivers
import Mathlib.LinearAlgebra.Matrix.NonsingularInverse

/-! Steps of the transforms as operators on `N × M` arrays. -/

namespace FT
variable {K : Type*} [CommRing K]

theorem sumTo_congr {n : Int} {f g : Int → K} (h : ∀ l, 0 ≤ l → l < n → f l = g l) : sumTo n f = sumTo n g := by
  unfold sumTo
  refine Finset.sum_congr rfl fun l hl => ?_
  have := Finset.mem_range.1 hl
  exact h l (by omega) (by omega)

theorem sumTo_comm {n m : Int} (f : Int → Int → K) : sumTo n (fun a => sumTo m (f a)) = sumTo m (fun b => sumTo n (fun a => f a b)) := by
  unfold sumTo; exact Finset.sum_comm

theorem sumTo_mul {n : Int} (f : Int → K) (c : K) : sumTo n f * c = sumTo n fun l => f l * c := by
  unfold sumTo; exact Finset.sum_mul ..

theorem mul_sumTo {n : Int} (f : Int → K) (c : K) : c * sumTo n f = sumTo n fun l => c * f l := by
  unfold sumTo; exact Finset.mul_sum ..

theorem sumTo_delta {n i : Int} (h0 : 0 ≤ i) (h1 : i < n) (f : Int → K) : sumTo n (fun l => if l = i then f l else 0) = f i := by
  unfold sumTo
  rw [Finset.sum_eq_single i.toNat]
  · simp only [Int.toNat_of_nonneg h0, if_true]
  · intro b _ hb; exact if_neg (by omega)
  · intro h; exact absurd (Finset.mem_range.2 (by omega)) h

/-- Entry-wise operators on arrays. -/
abbrev AOp (K : Type*) := (Int → Int → K) → Int → Int → K

/-- `Φ` depends only on the entries of the `N × M` array. -/
def OpCongr (N M : Int) (Φ : AOp K) : Prop :=
  ∀ x y : Int → Int → K, (∀ k c, 0 ≤ k → k < N → 0 ≤ c → c < M → x k c = y k c) → ∀ k c, 0 ≤ k → k < N → 0 ≤ c → c < M → Φ x k c = Φ y k c

/-- The `N × M` array at the start of the buffer is transformed by `Φ`; nothing else changes. -/
structure Acts (N M : Int) (Φ : AOp K) (A A' : Buf K) : Prop where
  size : A'.size = A.size
  val : ∀ k c, 0 ≤ k → k < N → 0 ≤ c → c < M → A'.val (k + c * N) = Φ (fun k c => A.val (k + c * N)) k c
  frame : ∀ i, (∀ k c, 0 ≤ k → k < N → 0 ≤ c → c < M → i ≠ k + c * N) → A'.val i = A.val i

variable {N M : Int} {Φ Ψ : AOp K} {A B C : Buf K}

theorem Acts.comp (hΨ : OpCongr N M Ψ) (h : Acts N M Φ A B) (h' : Acts N M Ψ B C) : Acts N M (fun x => Ψ (Φ x)) A C := by
  refine ⟨h'.size.trans h.size, fun k c k0 k1 c0 c1 => ?_, fun i hi => (h'.frame i hi).trans (h.frame i hi)⟩
  rw [h'.val k c k0 k1 c0 c1]
  exact hΨ _ _ (fun k c k0 k1 c0 c1 => h.val k c k0 k1 c0 c1) k c k0 k1 c0 c1

theorem OpCongr.comp (h : OpCongr N M Φ) (h' : OpCongr N M Ψ) : OpCongr N M (fun x => Ψ (Φ x)) :=
  fun x y hxy => h' _ _ (h x y hxy)

/-- `Φ` is the identity on the array. -/
def OpId (N M : Int) (Φ : AOp K) : Prop := ∀ x k c, 0 ≤ k → k < N → 0 ≤ c → c < M → Φ x k c = x k c

theorem Acts.eq_of_id (h : Acts N M Φ A B) (hi : OpId N M Φ) : B = A := by
  refine Buf.ext' h.size (fun i => ?_)
  by_cases hp : ∀ k c, 0 ≤ k → k < N → 0 ≤ c → c < M → i ≠ k + c * N
  · exact h.frame i hp
  · push Not at hp
    obtain ⟨k, c, k0, k1, c0, c1, rfl⟩ := hp
    rw [h.val k c k0 k1 c0 c1, hi _ k c k0 k1 c0 c1]

theorem Acts.refl (hi : OpId N M Φ) : Acts N M Φ A A :=
  ⟨rfl, fun k c k0 k1 c0 c1 => (hi (fun k c => A.val (k + c * N)) k c k0 k1 c0 c1).symm, fun _ _ => rfl⟩

/-- Cancel an inner pair. -/
theorem OpId.sandwich {Φ' Ψ' : AOp K} (hΨ : OpCongr N M Ψ) (h1 : OpId N M fun x => Ψ (Φ x)) (h2 : OpId N M fun x => Ψ' (Φ' x)) :
    OpId N M fun x => Ψ (Ψ' (Φ' (Φ x))) := by
  intro x k c k0 k1 c0 c1
  exact (hΨ _ (Φ x) (fun k c k0 k1 c0 c1 => h2 (Φ x) k c k0 k1 c0 c1) k c k0 k1 c0 c1).trans (h1 x k c k0 k1 c0 c1)

def dot2 (N M : Int) (x y : Int → Int → K) : K := sumTo M fun c => sumTo N fun k => x k c * y k c

/-- `Ψ` is the adjoint of `Φ`. -/
def OpAdj (N M : Int) (Φ Ψ : AOp K) : Prop := ∀ x y, dot2 N M (Φ x) y = dot2 N M x (Ψ y)

theorem OpAdj.comp {Φ' Ψ' : AOp K} (h : OpAdj N M Φ Ψ) (h' : OpAdj N M Φ' Ψ') : OpAdj N M (fun x => Φ' (Φ x)) (fun y => Ψ (Ψ' y)) :=
  fun x y => by rw [h', h]

theorem OpAdj.symm (h : OpAdj N M Φ Ψ) : OpAdj N M Ψ Φ := by
  have c : ∀ x y : Int → Int → K, dot2 N M x y = dot2 N M y x := fun x y => by unfold dot2; simp only [mul_comm]
  intro x y
  rw [c, ← h, c]

theorem dot2_congr {x y z : Int → Int → K} (h : ∀ k c, 0 ≤ k → k < N → 0 ≤ c → c < M → x k c = y k c) : dot2 N M x z = dot2 N M y z :=
  sumTo_congr fun c c0 c1 => sumTo_congr fun k k0 k1 => by rw [h k c k0 k1 c0 c1]

theorem dot2_congr' {x y z : Int → Int → K} (h : ∀ k c, 0 ≤ k → k < N → 0 ≤ c → c < M → x k c = y k c) : dot2 N M z x = dot2 N M z y :=
  sumTo_congr fun c c0 c1 => sumTo_congr fun k k0 k1 => by rw [h k c k0 k1 c0 c1]

/-! ### Column operators -/

def colOp (F : Int → (Int → K) → Int → K) : AOp K := fun x k c => F c (fun k => x k c) k

theorem colOp_congr {F : Int → (Int → K) → Int → K} (h : FCongr F N) : OpCongr N M (colOp F) :=
  fun x y hxy k c k0 k1 c0 c1 => h c _ _ (fun k k0 k1 => hxy k c k0 k1 c0 c1) k k0 k1

theorem Acts.of_mapped {F : Int → (Int → K) → Int → K} (h : Mapped F N (posA 0 N) (fun c => 0 ≤ c ∧ c < M) A B) : Acts N M (colOp F) A B := by
  have e : ∀ k c, posA 0 N k c = k + c * N := fun k c => by unfold posA; ring
  refine ⟨h.1, fun k c k0 k1 c0 c1 => ?_, fun i hi => h.2.2 i fun c k hc k0 k1 => ?_⟩
  · have := h.2.1 c ⟨c0, c1⟩ k k0 k1
    simp only [e] at this
    exact this
  · rw [e]; exact hi k c k0 k1 hc.1 hc.2

theorem colOp_id {F G : Int → (Int → K) → Int → K} (h : ∀ c, 0 ≤ c → c < M → ∀ x k, 0 ≤ k → k < N → G c (F c x) k = x k) :
    OpId N M fun x => colOp G (colOp F x) := fun x k c k0 k1 c0 c1 => h c c0 c1 (fun k => x k c) k k0 k1

theorem colOp_adj {F G : Int → (Int → K) → Int → K} (h : ∀ c, 0 ≤ c → c < M → ∀ x y, sumTo N (fun k => F c x k * y k) = sumTo N (fun k => x k * G c y k)) :
    OpAdj N M (colOp F) (colOp G) := fun _ _ => sumTo_congr fun c c0 c1 => h c c0 c1 _ _

/-! ### Rotations -/

variable {G : Geom} {RP : RotPlan K}

theorem colF_inv (hG : GeomOK G) (hg : Good G RP) (hN : 0 ≤ RP.n) {m1 m2 : Int} (hm : 0 ≤ m1) (hd : G.jst ∣ m2 - m1) (d : Bool) (x : Int → K) :
    colF (!d) G RP m1 m2 (colF d G RP m1 m2 x) = x := by
  have fx : Fits RP.n 0 1 (⟨RP.n.toNat, x⟩ : Buf K) := ⟨by omega, by omega, by show 0 + (RP.n - 1) * 1 < (RP.n.toNat : Int); omega⟩
  have key : ∃ A', kern d G RP m1 m2 0 1 ⟨RP.n.toNat, x⟩ = some A' ∧ A'.size = RP.n.toNat ∧ kern (!d) G RP m1 m2 0 1 A' = some ⟨RP.n.toNat, x⟩ := by
    cases d
    · exact kernel_roundtrip' hG hg hm hd fx
    · exact kernel_roundtrip hG hg hm hd fx
  obtain ⟨A', e, hs, e'⟩ := key
  have : colF d G RP m1 m2 x = A'.val := by unfold colF; rw [e]; rfl
  rw [this]
  unfold colF
  have : (⟨RP.n.toNat, A'.val⟩ : Buf K) = A' := by rw [← hs]
  rw [this, e']; rfl

theorem colF_adj (hg : Props.IsGeom G) (hs : Props.tableSize G RP.n ≤ RP.s.size) (hc : Props.tableSize G RP.n ≤ RP.c.size) (hu : Props.UnitTables G RP)
    (hN : 0 ≤ RP.n) {m1 m2 : Int} (hm : 0 ≤ m1) (hd : G.jst ∣ m2 - m1) (x y : Int → K) :
    sumTo RP.n (fun k => colF true G RP m1 m2 x k * y k) = sumTo RP.n (fun k => x k * colF false G RP m1 m2 y k) := by
  obtain ⟨A', B', C, e1, -, e3, -, h⟩ := Props.C05_kernels_orthogonal hg RP hs hc hu m1 m2 0 1 hm hd ⟨RP.n.toNat, x⟩ ⟨RP.n.toNat, y⟩ (by omega) (by omega)
    (by show 0 + (RP.n - 1) * 1 < (RP.n.toNat : Int); omega) (by show 0 + (RP.n - 1) * 1 < (RP.n.toNat : Int); omega)
  have e1' : colF true G RP m1 m2 x = A'.val := by unfold colF kern; simp only [if_true]; rw [e1]; rfl
  have e3' : colF false G RP m1 m2 y = C.val := by unfold colF kern; simp only [Bool.false_eq_true, if_false]; rw [e3]; rfl
  rw [e1', e3']
  simpa [sumTo] using h

/-- The rotation of all columns as an operator. -/
noncomputable def rotOp (d : Bool) (G : Geom) (RP : RotPlan K) (base ord : Int → Int) : AOp K := colOp (ordF d G RP (fun c => base (ord c)) ord)

section
variable {base ord : Int → Int}

theorem columnwise_acts (hg : Props.IsGeom G) (hR : Props.TablesOK G RP) (hb : ∀ m, 0 ≤ base m) {d : Bool} (hA : Props.HoldsCols RP.n 0 M A)
    (h : Props.columnwise d G RP base ord 0 M A = some B) : Acts RP.n M (rotOp d G RP base ord) A B := by
  obtain ⟨X, eX, mX⟩ := colSpec_mapped (d := d) (Props.isGeom_ok hg) (Props.inB_of_size hg hR.1 hR.2) (m1 := fun c => base (ord c)) (ord := ord)
    (fun c => hb _) hA.1 hA.2.1 hA.2.2
  rw [Props.columnwise_eq, eX] at h
  cases h
  exact Acts.of_mapped mX

theorem rotOp_congr (hg : Props.IsGeom G) (hR : Props.TablesOK G RP) (hb : ∀ m, 0 ≤ base m) {d : Bool} : OpCongr RP.n M (rotOp d G RP base ord) :=
  colOp_congr (ordF_congr (Props.isGeom_ok hg) (Props.inB_of_size hg hR.1 hR.2) fun _ => hb _)

theorem rotOp_id (hg : Props.IsGeom G) (hR : Props.TablesOK G RP) (hu : Props.UnitTables G RP) (hN : 0 ≤ RP.n) (hb : ∀ m, 0 ≤ base m)
    (hd : ∀ m, G.jst ∣ m - base m) (d : Bool) : OpId RP.n M fun x => rotOp (!d) G RP base ord (rotOp d G RP base ord x) := by
  refine colOp_id fun c _ _ x k _ _ => ?_
  unfold ordF
  rw [colF_inv (Props.isGeom_ok hg) (Props.good_of_unit hg hR.1 hR.2 hu) hN (hb _) (hd _)]

theorem rotOp_adj (hg : Props.IsGeom G) (hR : Props.TablesOK G RP) (hu : Props.UnitTables G RP) (hN : 0 ≤ RP.n) (hb : ∀ m, 0 ≤ base m)
    (hd : ∀ m, G.jst ∣ m - base m) : OpAdj RP.n M (rotOp true G RP base ord) (rotOp false G RP base ord) :=
  colOp_adj fun _ _ _ x y => colF_adj hg hR.1 hR.2 hu hN (hb _) (hd _) x y

end

/-! ### Dense triangular factors -/

def matF (W : Int → Int → Int → K) (N : Int) (c : Int) (x : Int → K) (k : Int) : K := sumTo N fun l => W c k l * x l

theorem matF_congr (W : Int → Int → Int → K) : FCongr (matF W N) N := fun _ _ _ h _ _ _ => sumTo_congr fun l l0 l1 => by rw [h l l0 l1]

/-- `V W = 1` on the indices below `n`. -/
def MulOne (n : Int) (V W : Int → Int → K) : Prop :=
  ∀ i j, 0 ≤ i → i < n → 0 ≤ j → j < n → sumTo n (fun k => V i k * W k j) = if i = j then 1 else 0

theorem MulOne.comm {n : Int} {V W : Int → Int → K} (h : MulOne n V W) : MulOne n W V := by
  let m (V : Int → Int → K) : Matrix (Fin n.toNat) (Fin n.toNat) K := fun i j => V i j
  have key : ∀ V W : Int → Int → K, MulOne n V W ↔ m V * m W = 1 := by
    intro V W
    constructor
    · intro h
      ext i j
      have := h i j (by omega) (by omega) (by omega) (by omega)
      rw [Matrix.mul_apply, Matrix.one_apply]
      simp only [m]
      rw [Fin.sum_univ_eq_sum_range (fun k => V (i : Nat) k * W k (j : Nat)) n.toNat]
      unfold sumTo at this
      rw [this]
      by_cases h : i = j
      · subst h; simp
      · rw [if_neg h, if_neg]; intro h'; exact h (Fin.ext (by omega))
    · intro h i j i0 i1 j0 j1
      have := congrFun (congrFun h ⟨i.toNat, by omega⟩) ⟨j.toNat, by omega⟩
      rw [Matrix.mul_apply, Matrix.one_apply] at this
      simp only [m] at this
      rw [Fin.sum_univ_eq_sum_range (fun k => V (i.toNat : Nat) k * W k (j.toNat : Nat)) n.toNat] at this
      simp only [Int.toNat_of_nonneg i0, Int.toNat_of_nonneg j0] at this
      unfold sumTo
      rw [this]
      by_cases h : i = j
      · subst h; simp
      · rw [if_neg h, if_neg]; intro h'; have := congrArg Fin.val h'; simp only at this; omega
  rw [key] at h ⊢
  exact mul_eq_one_comm.1 h

theorem MulOne.transpose {n : Int} {V W : Int → Int → K} (h : MulOne n V W) : MulOne n (fun i j => W j i) (fun i j => V j i) := by
  intro i j i0 i1 j0 j1
  have := h j i j0 j1 i0 i1
  simp only [mul_comm (V j _)] at this
  rw [this]
  by_cases e : i = j
  · subst e; rfl
  · rw [if_neg e, if_neg (Ne.symm e)]

theorem matvec_mul {n : Int} (V W : Int → Int → K) (x : Int → K) (i : Int) :
    sumTo n (fun k => V i k * sumTo n (fun l => W k l * x l)) = sumTo n fun l => sumTo n (fun k => V i k * W k l) * x l := by
  simp only [mul_sumTo, sumTo_mul]
  rw [sumTo_comm]
  exact sumTo_congr fun l _ _ => sumTo_congr fun k _ _ => by ring

theorem mulOne_cancel {n : Int} {V W : Int → Int → K} (h : MulOne n V W) (x : Int → K) {i : Int} (i0 : 0 ≤ i) (i1 : i < n) :
    sumTo n (fun k => V i k * sumTo n (fun l => W k l * x l)) = x i := by
  rw [matvec_mul, ← sumTo_delta i0 i1 x]
  refine sumTo_congr fun l l0 l1 => ?_
  rw [h i l i0 i1 l0 l1]
  by_cases e : i = l
  · subst e; rw [if_pos rfl, if_pos rfl, one_mul]
  · rw [if_neg e, if_neg (Ne.symm e), zero_mul]

theorem matOp_id {V W : Int → Int → Int → K} (h : ∀ c, 0 ≤ c → c < M → MulOne N (V c) (W c)) :
    OpId N M fun x => colOp (matF V N) (colOp (matF W N) x) :=
  colOp_id fun c c0 c1 x _ k0 k1 => mulOne_cancel (h c c0 c1) x k0 k1

theorem matOp_adj {W V : Int → Int → Int → K} (h : ∀ c i j, V c i j = W c j i) : OpAdj N M (colOp (matF W N)) (colOp (matF V N)) := by
  refine colOp_adj fun c _ _ x y => ?_
  simp only [matF, sumTo_mul, mul_sumTo]
  rw [sumTo_comm]
  exact sumTo_congr fun l _ _ => sumTo_congr fun k _ _ => by rw [h]; ring

/-- Right multiplication of the array. -/
def rightOp (W : Int → Int → K) (M : Int) : AOp K := fun x k c => sumTo M fun j => x k j * W j c

theorem rightOp_congr (W : Int → Int → K) : OpCongr N M (rightOp W M) :=
  fun _ _ h k _ k0 k1 _ _ => sumTo_congr fun j j0 j1 => by rw [h k j k0 k1 j0 j1]

theorem rightOp_id {V W : Int → Int → K} (h : MulOne M W V) : OpId N M fun x => rightOp V M (rightOp W M x) := by
  intro x k c _ _ c0 c1
  have := mulOne_cancel h.transpose (fun j => x k j) c0 c1
  simp only [rightOp]
  simp only [mul_comm (V _ c), mul_comm (W _ _)] at this
  exact this

theorem rightOp_adj {W V : Int → Int → K} (h : ∀ i j, V i j = W j i) : OpAdj N M (rightOp W M) (rightOp V M) := by
  intro x y
  simp only [dot2, rightOp, sumTo_mul, mul_sumTo]
  rw [sumTo_comm (n := M)]
  conv_rhs => rw [sumTo_comm (n := M)]
  refine sumTo_congr fun k _ _ => ?_
  rw [sumTo_comm]
  exact sumTo_congr fun j _ _ => sumTo_congr fun c _ _ => by rw [h]; ring

section
variable {P : Buf K} {t : Bool}

/-- `trmmLeft` on the columns `r, r+q, r+2q, …`. -/
theorem trmmLeft_mapped {q r nc : Int} {F : Int → (Int → K) → Int → K} (hN : 0 ≤ N) (hP : N * N ≤ P.size) (hq : 0 < q) (hr : 0 ≤ r)
    (hlast : 0 < nc → r + q * (nc - 1) < M) (hA : N * M ≤ A.size)
    (hF : ∀ i, 0 ≤ i → i < nc → F (r + q * i) = matF (fun _ => opU t P N) N 0) :
    ∃ B, trmmLeft t P N N nc (r * N) (q * N) A = some B ∧ Mapped F N (posA 0 N) (fun c => ∃ i, 0 ≤ i ∧ i < nc ∧ c = r + q * i) A B := by
  have e : ∀ k c, posA 0 N k c = k + c * N := fun k c => by unfold posA; ring
  unfold trmmLeft
  by_cases h0 : N ≤ 0 ∨ nc ≤ 0
  · rw [if_pos h0]
    exact ⟨A, rfl, rfl, fun c ⟨i, _, _, _⟩ k _ _ => by omega, fun _ _ => rfl⟩
  · rw [if_neg h0]
    push Not at h0
    obtain ⟨hN1, hnc⟩ := h0
    have hl := hlast hnc
    have hqN : N ≤ q * N := by nlinarith
    have hrN : 0 ≤ r * N := by positivity
    have h1 : (N - 1) * N + N ≤ P.size := by
      have : (N - 1) * N + N = N * N := by ring
      omega
    have h2 : r * N + (nc - 1) * (q * N) + N ≤ A.size := by
      have e1 : r * N + (nc - 1) * (q * N) + N = N * (r + q * (nc - 1) + 1) := by ring
      have : N * (r + q * (nc - 1) + 1) ≤ N * M := Int.mul_le_mul_of_nonneg_left (by omega) hN
      omega
    rw [if_pos ⟨hqN, le_refl _, h1, hrN, h2⟩]
    refine ⟨_, rfl, rfl, ?_, ?_⟩
    · rintro c ⟨i, i0, i1, rfl⟩ k k0 k1
      rw [hF i i0 i1]
      have e0 : posA 0 N k (r + q * i) - r * N = k + i * (q * N) := by rw [e]; ring
      have hqN0 : 0 < q * N := by omega
      have ed : (k + i * (q * N)) / (q * N) = i := by
        rw [Int.add_mul_ediv_right _ _ (by omega), Int.ediv_eq_zero_of_lt k0 (by omega)]; ring
      have em : (k + i * (q * N)) % (q * N) = k := by
        rw [Int.add_mul_emod_self_right, Int.emod_eq_of_lt k0 (by omega)]
      simp only [e0, ed, em]
      rw [if_pos ⟨by positivity, i1, k1⟩]
      unfold matF
      refine sumTo_congr fun l _ _ => ?_
      simp only [e]
      congr 2
      ring
    · intro p hp
      simp only
      rw [if_neg]
      rintro ⟨h3, h4, h5⟩
      have hqN0 : 0 < q * N := by omega
      have := Int.emod_add_mul_ediv (p - r * N) (q * N)
      refine hp (r + q * ((p - r * N) / (q * N))) ((p - r * N) % (q * N)) ⟨_, Int.ediv_nonneg h3 (by omega), h4, rfl⟩ (Int.emod_nonneg _ (by omega)) h5 ?_
      rw [e]
      have e2 : (r + q * ((p - r * N) / (q * N))) * N = r * N + q * N * ((p - r * N) / (q * N)) := by ring
      rw [e2]
      omega

theorem trmmRight_acts (hM : M ≤ N) (hP : N * N ≤ P.size) (hA : N * M ≤ A.size) :
    ∃ B, trmmRight t P N N M 0 N A = some B ∧ Acts N M (rightOp (opU t P N) M) A B := by
  unfold trmmRight
  by_cases h0 : N ≤ 0 ∨ M ≤ 0
  · rw [if_pos h0]
    exact ⟨A, rfl, rfl, fun k c _ _ _ _ => by omega, fun _ _ => rfl⟩
  · rw [if_neg h0]
    push Not at h0
    obtain ⟨hN1, hM1⟩ := h0
    have h1 : (M - 1) * N + M ≤ P.size := by
      have : (M - 1) * N + M ≤ N * N := by nlinarith
      omega
    have h2 : 0 + (M - 1) * N + N ≤ A.size := by
      have : 0 + (M - 1) * N + N = N * M := by ring
      omega
    rw [if_pos ⟨le_refl _, hM, h1, le_refl _, h2⟩]
    refine ⟨_, rfl, rfl, fun k c k0 k1 c0 c1 => ?_, fun p hp => ?_⟩
    · have ed : (k + c * N - 0) / N = c := by
        rw [sub_zero, Int.add_mul_ediv_right _ _ (by omega), Int.ediv_eq_zero_of_lt k0 k1]; ring
      have em : (k + c * N - 0) % N = k := by
        rw [sub_zero, Int.add_mul_emod_self_right, Int.emod_eq_of_lt k0 k1]
      simp only [ed, em]
      rw [if_pos ⟨by have : 0 ≤ c * N := by positivity
                     omega, c1, k1⟩]
      unfold rightOp
      refine sumTo_congr fun j _ _ => ?_
      congr 2
      ring
    · simp only
      rw [if_neg]
      rintro ⟨h3, h4, h5⟩
      have := Int.emod_add_mul_ediv (p - 0) N
      refine hp ((p - 0) % N) ((p - 0) / N) (Int.emod_nonneg _ (by omega)) h5 (Int.ediv_nonneg h3 (by omega)) h4 ?_
      rw [mul_comm ((p - 0) / N)]
      omega

end

/-- The columns 0 and 3 modulo 4 use the first matrix, the columns 1 and 2 the second one. -/
def sel4 (U V : Int → Int → K) (c : Int) : Int → Int → K := if c % 4 = 0 ∨ c % 4 = 3 then U else V

/-- The even columns use the first matrix, the odd ones the second. -/
def sel2 (U V : Int → Int → K) (c : Int) : Int → Int → K := if c % 2 = 0 then U else V

theorem trmm4_acts {P0 P1 : Buf K} {t : Bool} (hN : 0 ≤ N) (hM : 0 ≤ M) (h0 : N * N ≤ P0.size) (h1 : N * N ≤ P1.size) (hA : N * M ≤ A.size) :
    ∃ B, trmm4 t P0 P1 N M A = some B ∧ Acts N M (colOp (matF (sel4 (opU t P0 N) (opU t P1 N)) N)) A B := by
  have hF : ∀ (P : Buf K) (r nc : Int), (∀ i, sel4 (opU t P0 N) (opU t P1 N) (r + 4 * i) = opU t P N) → ∀ i, 0 ≤ i → i < nc →
      matF (sel4 (opU t P0 N) (opU t P1 N)) N (r + 4 * i) = matF (fun _ => opU t P N) N 0 := by
    intro P r nc h i _ _
    funext x k
    simp only [matF, h]
  have s0 : ∀ r i : Int, r = 0 ∨ r = 3 → sel4 (opU t P0 N) (opU t P1 N) (r + 4 * i) = opU t P0 N := fun r i h => if_pos (by omega)
  have s1 : ∀ r i : Int, r = 1 ∨ r = 2 → sel4 (opU t P0 N) (opU t P1 N) (r + 4 * i) = opU t P1 N := fun r i h => if_neg (by omega)
  obtain ⟨B0, e0, m0⟩ := trmmLeft_mapped (A := A) (M := M) (t := t) (q := 4) (r := 0) (nc := (M + 3) / 4) hN h0 (by omega) (by omega) (by omega) hA (hF P0 0 _ fun i => s0 0 i (Or.inl rfl))
  obtain ⟨B1, e1, m1⟩ := trmmLeft_mapped (A := B0) (M := M) (t := t) (q := 4) (r := 1) (nc := (M + 2) / 4) hN h1 (by omega) (by omega) (by omega) (by rw [m0.1]; exact hA) (hF P1 1 _ fun i => s1 1 i (Or.inl rfl))
  obtain ⟨B2, e2, m2⟩ := trmmLeft_mapped (A := B1) (M := M) (t := t) (q := 4) (r := 2) (nc := (M + 1) / 4) hN h1 (by omega) (by omega) (by omega) (by rw [m1.1, m0.1]; exact hA) (hF P1 2 _ fun i => s1 2 i (Or.inr rfl))
  obtain ⟨B3, e3, m3⟩ := trmmLeft_mapped (A := B2) (M := M) (t := t) (q := 4) (r := 3) (nc := M / 4) hN h0 (by omega) (by omega) (by omega) (by rw [m2.1, m1.1, m0.1]; exact hA) (hF P0 3 _ fun i => s0 3 i (Or.inr rfl))
  rw [zero_mul] at e0
  rw [one_mul] at e1
  refine ⟨B3, ?_, Acts.of_mapped ?_⟩
  · unfold trmm4
    simp only [e0, e1, e2, e3, Option.bind_some]
  · have p := posA_inj 0 N (fun _ => True)
    have c := matF_congr (N := N) (sel4 (opU t P0 N) (opU t P1 N))
    have t1 := Mapped.trans p c (fun _ _ => trivial) (fun _ _ => trivial) (by rintro c ⟨i, _, _, rfl⟩ ⟨j, _, _, h⟩; omega) m0 m1
    have t2 := Mapped.trans p c (fun _ _ => trivial) (fun _ _ => trivial) (by rintro c (⟨i, _, _, rfl⟩ | ⟨i, _, _, rfl⟩) ⟨j, _, _, h⟩ <;> omega) t1 m2
    have t3 := Mapped.trans p c (fun _ _ => trivial) (fun _ _ => trivial) (by rintro c ((⟨i, _, _, rfl⟩ | ⟨i, _, _, rfl⟩) | ⟨i, _, _, rfl⟩) ⟨j, _, _, h⟩ <;> omega) t2 m3
    refine t3.congrC fun c => ⟨?_, ?_⟩
    · rintro (((⟨i, _, _, rfl⟩ | ⟨i, _, _, rfl⟩) | ⟨i, _, _, rfl⟩) | ⟨i, _, _, rfl⟩) <;> omega
    · intro hc
      rcases (by omega : c % 4 = 0 ∨ c % 4 = 1 ∨ c % 4 = 2 ∨ c % 4 = 3) with h | h | h | h
      · exact Or.inl (Or.inl (Or.inl ⟨c / 4, by omega, by omega, by omega⟩))
      · exact Or.inl (Or.inl (Or.inr ⟨c / 4, by omega, by omega, by omega⟩))
      · exact Or.inl (Or.inr ⟨c / 4, by omega, by omega, by omega⟩)
      · exact Or.inr ⟨c / 4, by omega, by omega, by omega⟩

theorem trmm2_acts {P0 P1 : Buf K} {t : Bool} (hN : 0 ≤ N) (hM : 0 ≤ M) (h0 : N * N ≤ P0.size) (h1 : N * N ≤ P1.size) (hA : N * M ≤ A.size) :
    ∃ B0 B, trmmLeft t P0 N N ((M + 1) / 2) 0 (2 * N) A = some B0 ∧ trmmLeft t P1 N N (M / 2) N (2 * N) B0 = some B ∧
      Acts N M (colOp (matF (sel2 (opU t P0 N) (opU t P1 N)) N)) A B := by
  have hF : ∀ (P : Buf K) (r nc : Int), (∀ i, sel2 (opU t P0 N) (opU t P1 N) (r + 2 * i) = opU t P N) → ∀ i, 0 ≤ i → i < nc →
      matF (sel2 (opU t P0 N) (opU t P1 N)) N (r + 2 * i) = matF (fun _ => opU t P N) N 0 := by
    intro P r nc h i _ _
    funext x k
    simp only [matF, h]
  obtain ⟨B0, e0, m0⟩ := trmmLeft_mapped (A := A) (M := M) (t := t) (q := 2) (r := 0) (nc := (M + 1) / 2) hN h0 (by omega) (by omega) (by omega) hA (hF P0 0 _ fun i => if_pos (by omega))
  obtain ⟨B1, e1, m1⟩ := trmmLeft_mapped (A := B0) (M := M) (t := t) (q := 2) (r := 1) (nc := M / 2) hN h1 (by omega) (by omega) (by omega) (by rw [m0.1]; exact hA) (hF P1 1 _ fun i => if_neg (by omega))
  rw [zero_mul] at e0
  rw [one_mul] at e1
  refine ⟨B0, B1, e0, e1, Acts.of_mapped ?_⟩
  have p := posA_inj 0 N (fun _ => True)
  have c := matF_congr (N := N) (sel2 (opU t P0 N) (opU t P1 N))
  have t1 := Mapped.trans p c (fun _ _ => trivial) (fun _ _ => trivial) (by rintro c ⟨i, _, _, rfl⟩ ⟨j, _, _, h⟩; omega) m0 m1
  refine t1.congrC fun c => ⟨?_, ?_⟩
  · rintro (⟨i, _, _, rfl⟩ | ⟨i, _, _, rfl⟩) <;> omega
  · intro hc
    rcases (by omega : c % 2 = 0 ∨ c % 2 = 1) with h | h
    · exact Or.inl ⟨c / 2, by omega, by omega, by omega⟩
    · exact Or.inr ⟨c / 2, by omega, by omega, by omega⟩

theorem trmm1_acts {P : Buf K} {t : Bool} (hN : 0 ≤ N) (h0 : N * N ≤ P.size) (hA : N * M ≤ A.size) :
    ∃ B, trmmLeft t P N N M 0 N A = some B ∧ Acts N M (colOp (matF (fun _ => opU t P N) N)) A B := by
  obtain ⟨B0, e0, m0⟩ := trmmLeft_mapped (A := A) (M := M) (t := t) (q := 1) (r := 0) (nc := M) (F := matF (fun _ => opU t P N) N) hN h0 (by omega) (by omega) (by omega) hA (fun i _ _ => rfl)
  rw [zero_mul, one_mul] at e0
  refine ⟨B0, e0, Acts.of_mapped (m0.congrC fun c => ⟨?_, fun h => ⟨c, h.1, h.2, by omega⟩⟩)⟩
  rintro ⟨i, _, _, rfl⟩; omega

/-! ### Normalisation -/

/-- Every entry is multiplied by its weight. -/
structure Scaled (g : Int → K) (A B : Buf K) : Prop where
  size : B.size = A.size
  val : ∀ p, B.val p = A.val p * g p

theorem Scaled.trans {g h : Int → K} (h1 : Scaled g A B) (h2 : Scaled h B C) : Scaled (fun p => g p * h p) A C :=
  ⟨h2.size.trans h1.size, fun p => by rw [h2.val, h1.val, mul_assoc]⟩

theorem scaleAt_scaled {w : K} {p : Int} (h0 : 0 ≤ p) (h1 : p < A.size) : ∃ B, scaleAt w p A = some B ∧ Scaled (fun i => if i = p then w else 1) A B := by
  refine ⟨⟨A.size, Function.update A.val p (A.val p * w)⟩, ?_, rfl, fun i => ?_⟩
  · unfold scaleAt; rw [Buf.rd_of h0 h1, Option.bind_some, Buf.wr_of h0 h1]
  · by_cases h : i = p
    · subst h; rw [if_pos rfl]; simp
    · rw [if_neg h]; simp [Function.update_of_ne h]

theorem forUp_scaled {hi : Int} {body : Int → Buf K → Option (Buf K)} {g : Int → Int → K}
    (h : ∀ i, 0 ≤ i → i < hi → ∀ B : Buf K, B.size = A.size → ∃ C, body i B = some C ∧ Scaled (g i) B C) :
    ∃ B, forUp 0 hi body A = some B ∧ Scaled (fun p => ∏ i ∈ Finset.range hi.toNat, g i p) A B := by
  unfold forUp
  rw [sub_zero]
  refine loop_spec (fun n B => Scaled (fun p => ∏ i ∈ Finset.range n, g i p) A B) ⟨rfl, fun p => by simp⟩ fun k hk B hB => ?_
  obtain ⟨C, e, hC⟩ := h k (by omega) (by omega) B hB.size
  refine ⟨C, by rw [zero_add]; exact e, ?_⟩
  have := hB.trans hC
  refine ⟨this.size, fun p => ?_⟩
  rw [this.val, Finset.prod_range_succ]

/-- A product with at most one factor different from one. -/
theorem prod_single {n : Nat} {f : Nat → K} (j : Nat) (hj : j < n) (h : ∀ i, i < n → i ≠ j → f i = 1) : ∏ i ∈ Finset.range n, f i = f j :=
  Finset.prod_eq_single j (fun b hb hne => h b (Finset.mem_range.1 hb) hne) fun h => absurd (Finset.mem_range.2 hj) h

/-- Weight of entry `(k, c)`. -/
def wt2 (h w : K) (k c : Int) : K := (if c = 0 then h else 1) * (if k = 0 then h else 1) * w

theorem chebNorm2_acts {h w : K} (hN : 1 ≤ N) (hM : 1 ≤ M) (hA : N * M ≤ A.size) :
    ∃ B, chebNorm2 h w N M A = some B ∧ Acts N M (fun x k c => x k c * wt2 h w k c) A B := by
  have hNM : N ≤ N * M := by nlinarith
  obtain ⟨A1, e1, s1⟩ := forUp_scaled (A := A) (hi := N) (body := fun i => scaleAt h i) (g := fun i p => if p = i then h else 1)
    fun i i0 i1 B hB => scaleAt_scaled i0 (by omega)
  obtain ⟨A2, e2, s2⟩ := forUp_scaled (A := A1) (hi := M) (body := fun j A => (scaleAt h (j * N) A).bind fun A => forUp 0 N (fun i => scaleAt w (i + j * N)) A)
    (g := fun j p => (if p = j * N then h else 1) * ∏ i ∈ Finset.range N.toNat, (if p = i + j * N then w else 1)) (by
      intro j j0 j1 B hB
      have hjN : (j + 1) * N ≤ N * M := by nlinarith
      have hj0 : 0 ≤ j * N := by positivity
      have hj1 : (j + 1) * N = j * N + N := by ring
      obtain ⟨C, eC, sC⟩ := scaleAt_scaled (A := B) (w := h) (p := j * N) hj0 (by rw [hB, s1.size]; omega)
      obtain ⟨D, eD, sD⟩ := forUp_scaled (A := C) (hi := N) (body := fun i => scaleAt w (i + j * N)) (g := fun i p => if p = i + j * N then w else 1)
        fun i i0 i1 E hE => scaleAt_scaled (by omega) (by rw [hE, sC.size, hB, s1.size]; omega)
      exact ⟨D, by rw [eC, Option.bind_some, eD], sC.trans sD⟩)
  refine ⟨A2, by unfold chebNorm2; rw [e1, Option.bind_some, e2], (s1.trans s2).size, ?_, ?_⟩
  · intro k c k0 k1 c0 c1
    rw [(s1.trans s2).val]
    congr 1
    have hc : (c = 0) ∨ N ≤ c * N := by
      by_cases h : c = 0
      · exact Or.inl h
      · right
        have : 0 ≤ (c - 1) * N := Int.mul_nonneg (by omega) (by omega)
        have e : (c - 1) * N = c * N - N := by ring
        omega
    have q1 : (∏ i ∈ Finset.range N.toNat, (if k + c * N = (i : Int) then h else 1)) = if c = 0 then h else 1 := by
      by_cases h0 : c = 0
      · subst h0
        rw [prod_single k.toNat (by omega) (fun i hi hne => if_neg (by omega)), if_pos rfl, if_pos (by omega)]
      · rw [if_neg h0]
        exact Finset.prod_eq_one fun i hi => if_neg (by have := Finset.mem_range.1 hi; omega)
    have q2 : ∀ j : Nat, j ≠ c.toNat → ∀ i : Int, 0 ≤ i → i < N → k + c * N ≠ i + (j : Int) * N := by
      intro j hj i i0 i1 he
      have := (posA_inj 0 N (fun _ => True)) k c i j trivial trivial k0 k1 i0 i1 (by unfold posA; omega)
      omega
    rw [q1, prod_single c.toNat (by omega)]
    · rw [Int.toNat_of_nonneg c0, prod_single k.toNat (by omega), Int.toNat_of_nonneg k0]
      · unfold wt2
        rw [if_pos rfl, mul_assoc]
        congr 2
        by_cases hk : k = 0
        · subst hk; simp
        · rw [if_neg hk, if_neg (by omega)]
      · intro i hi hne; exact if_neg (by omega)
    · intro j hj hne
      rw [if_neg (by have := q2 j hne 0 (by omega) (by omega); omega), one_mul]
      exact Finset.prod_eq_one fun i hi => if_neg (q2 j hne i (by omega) (by have := Finset.mem_range.1 hi; omega))
  · intro p hp
    rw [(s1.trans s2).val]
    have z1 : (∏ i ∈ Finset.range N.toNat, (if p = (i : Int) then h else 1)) = 1 :=
      Finset.prod_eq_one fun i hi => if_neg (by have := hp i 0 (by omega) (by have := Finset.mem_range.1 hi; omega) (by omega) (by omega); omega)
    rw [z1, one_mul, Finset.prod_eq_one, mul_one]
    intro j hj
    have hj := Finset.mem_range.1 hj
    rw [if_neg (by have := hp 0 j (by omega) (by omega) (by omega) (by omega); omega), one_mul]
    exact Finset.prod_eq_one fun i hi => if_neg (hp i j (by omega) (by have := Finset.mem_range.1 hi; omega) (by omega) (by omega))

/-- Multiplication of every entry by a weight. -/
def diagOp (g : Int → Int → K) : AOp K := fun x k c => x k c * g k c

theorem diagOp_congr (g : Int → Int → K) : OpCongr N M (diagOp g) := fun _ _ h k c k0 k1 c0 c1 => by
  unfold diagOp; rw [h k c k0 k1 c0 c1]

theorem diagOp_id {g g' : Int → Int → K} (h : ∀ k c, g k c * g' k c = 1) : OpId N M fun x => diagOp g' (diagOp g x) := fun x k c _ _ _ _ => by
  show x k c * g k c * g' k c = x k c
  rw [mul_assoc, h, mul_one]

theorem diagOp_adj (g : Int → Int → K) : OpAdj N M (diagOp g) (diagOp g) := fun x y =>
  sumTo_congr fun c _ _ => sumTo_congr fun k _ _ => by unfold diagOp; ring

theorem wt2_inv {h w h' w' : K} (h1 : h * h' = 1) (h2 : w * w' = 1) (k c : Int) : wt2 h w k c * wt2 h' w' k c = 1 := by
  unfold wt2
  split_ifs
  · linear_combination (h * h' * w * w' + w * w') * h1 + h2
  · linear_combination (w * w') * h1 + h2
  · linear_combination (w * w') * h1 + h2
  · linear_combination h2

/-! ### Transforms -/

/-- Every run of a step on a large enough buffer exists and applies `Φ`. -/
structure StepOK (N M : Int) (R : Buf K → Buf K → Prop) (Φ : AOp K) : Prop where
  total : ∀ A : Buf K, N * M ≤ A.size → ∃ A', R A A'
  acts : ∀ A A' : Buf K, N * M ≤ A.size → R A A' → Acts N M Φ A A'

theorem StepOK.seq {R S : Buf K → Buf K → Prop} (hΨ : OpCongr N M Ψ) (h : StepOK N M R Φ) (h' : StepOK N M S Ψ) :
    StepOK N M (fun A C => ∃ B, R A B ∧ S B C) (fun x => Ψ (Φ x)) := by
  constructor
  · intro A hA
    obtain ⟨B, r⟩ := h.total A hA
    obtain ⟨C, s⟩ := h'.total B (by rw [(h.acts A B hA r).size]; exact hA)
    exact ⟨C, B, r, s⟩
  · rintro A C hA ⟨B, r, s⟩
    have a := h.acts A B hA r
    exact a.comp hΨ (h'.acts B C (by rw [a.size]; exact hA) s)

theorem StepOK.of_fun {f : Buf K → Option (Buf K)} (h : ∀ A : Buf K, N * M ≤ A.size → ∃ A', f A = some A' ∧ Acts N M Φ A A') :
    StepOK N M (fun A B => f A = some B) Φ := by
  constructor
  · intro A hA; obtain ⟨B, e, -⟩ := h A hA; exact ⟨B, e⟩
  · intro A B hA e
    obtain ⟨C, e', a⟩ := h A hA
    rw [e] at e'; cases e'; exact a

/-- The dense part of a transform: run by `f`, operator `Φ`. -/
def DenseOK (N M : Int) (f : Buf K → Option (Buf K)) (Φ : AOp K) : Prop :=
  OpCongr N M Φ ∧ ∀ A : Buf K, N * M ≤ A.size → ∃ A', f A = some A' ∧ Acts N M Φ A A'

theorem DenseOK.bind {f g : Buf K → Option (Buf K)} (h : DenseOK N M f Φ) (h' : DenseOK N M g Ψ) :
    DenseOK N M (fun A => (f A).bind g) (fun x => Ψ (Φ x)) := by
  refine ⟨h.1.comp h'.1, fun A hA => ?_⟩
  obtain ⟨B, e, a⟩ := h.2 A hA
  obtain ⟨C, e', a'⟩ := h'.2 B (by rw [a.size]; exact hA)
  exact ⟨C, by simp only [e, Option.bind_some, e'], a.comp h'.1 a'⟩

theorem DenseOK.step {f : Buf K → Option (Buf K)} (h : DenseOK N M f Φ) : StepOK N M (fun A B => f A = some B) Φ := StepOK.of_fun h.2

theorem StepOK.cancel {R S : Buf K → Buf K → Prop} (hΨ : OpCongr N M Ψ) (h : StepOK N M R Φ) (h' : StepOK N M S Ψ)
    (hi : OpId N M fun x => Ψ (Φ x)) {A B C : Buf K} (hA : N * M ≤ A.size) (r : R A B) (s : S B C) : C = A :=
  (((h.seq hΨ h').acts A C hA ⟨B, r, s⟩)).eq_of_id hi

end FT
