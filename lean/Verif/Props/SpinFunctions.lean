import Verif.Props.Functions
import Verif.Lemmas.SpinFun

/-!
# Property C77: the spin-weighted sphere

A column of complex coefficients of spin `s` and order `m` is the function `Σ a_i φ(s, m, i)`, where `φ(s, m, i)` is the spin-weighted associated Legendre function of
degree `max(|m|, |s|) + i`: up to the normalisation, `sin^{|m+s|}(θ/2) cos^{|m-s|}(θ/2)` times a Jacobi polynomial in `cos θ`.  The kernel `hi2lo` returns the coefficients of the
same function in the associated Legendre functions of order 0 or 1.
-/

namespace FT.Props.Fun
open FT FT.Poly FT.Props.Ops Polynomial
variable {K : Type*} [Field K] [LinearOrder K] [IsStrictOrderedRing K] {F : Libm K}

/-- The function of spin `s`, order `m` and degree `max(|m|, |s|) + l` at the colatitude with cosine `p.1` and sine `p.2`: with `x = cos θ`, `1 - x = 2 sin²(θ/2)`,
`1 + x = 2 cos²(θ/2)` and `sin θ = 2 sin(θ/2) cos(θ/2)`. -/
noncomputable def spinFun (F : Libm K) (s : Int) (p : K × K) (m l : Int) : K :=
  if 0 ≤ m * s then (1 - p.1) ^ (min |m| |s|).toNat * p.2 ^ |(|m| - |s|)|.toNat * (Jac F true ((|m| + |s| : Int) : K) ((|(|m| - |s|)| : Int) : K) l).eval p.1
  else (1 + p.1) ^ (min |m| |s|).toNat * p.2 ^ |(|m| - |s|)|.toNat * (Jac F true ((|(|m| - |s|)| : Int) : K) ((|m| + |s| : Int) : K) l).eval p.1

/-- A column of complex numbers has no entries at or below row `r`. -/
def ShortC (n o S r : Int) (A : Buf K) : Prop := ∀ b i, b = 0 ∨ b = 1 → 0 ≤ i → r ≤ i → i < n → A.val (2 * (o + i * S) + b) = 0

/-- The order of the associated Legendre functions the kernels return. -/
def spinPar (s m : Int) : Int := (|m| + |s|) % 2

/-- The spin-weighted kernels with the tables `P` convert between expansions in the functions of spin `P.s` and order `m` and in the associated Legendre functions of order 0
or 1, for the real parts (`b = 0`) and for the imaginary parts (`b = 1`) of the coefficients. -/
def SpinConverts (F : Libm K) (P : SpinPlan K) : Prop :=
  ∀ m o S : Int, 0 < S → 0 ≤ o → ∀ A : Buf K, 2 * (o + (P.n - 1) * S) + 1 < A.size →
    (ShortC P.n o S (P.n - max |m| |P.s|) A → ∃ A', kernelSpinHi2lo P m o S A = some A' ∧ A'.size = A.size ∧ ShortC P.n o S (P.n - spinPar P.s m) A' ∧
      ∀ p : K × K, p.2 ^ 2 = 1 - p.1 ^ 2 → ∀ b, b = 0 ∨ b = 1 →
        ∑ i ∈ Finset.Ico 0 P.n, A'.val (2 * (o + i * S) + b) * sphFun F p (spinPar P.s m) i = ∑ i ∈ Finset.Ico 0 P.n, A.val (2 * (o + i * S) + b) * spinFun F P.s p m i) ∧
    ∃ A', kernelSpinLo2hi P m o S A = some A' ∧ A'.size = A.size ∧ (ShortC P.n o S (P.n - max |m| |P.s|) A' →
      ∀ p : K × K, p.2 ^ 2 = 1 - p.1 ^ 2 → ∀ b, b = 0 ∨ b = 1 →
        ∑ i ∈ Finset.Ico 0 P.n, A'.val (2 * (o + i * S) + b) * spinFun F P.s p m i = ∑ i ∈ Finset.Ico 0 P.n, A.val (2 * (o + i * S) + b) * sphFun F p (spinPar P.s m) i)

/-- The first stage on one part. -/
theorem spin_stage1 (hF : IsLibm F) {P : SpinPlan K} (hP : SpinGood P)
    (h1 : ∀ l m : Int, 0 ≤ m → m < P.n → 0 ≤ l → l < P.n - m → 0 ≤ P.s1.val (l + m * P.n) ∧ 0 ≤ P.c1.val (l + m * P.n) ∧
      P.s1.val (l + m * P.n) * P.s1.val (l + m * P.n) * (((l:K)+2*m+3)*((l:K)+2*m+4)) = ((l:K)+1)*((l:K)+2))
    {p : K × K} (hp : p.2 ^ 2 = 1 - p.1 ^ 2) {j : Int} (j0 : 0 ≤ j) :
    ∃ u, Ladder geomSpin1.g (geomSpin1.top (spinTab1 P).n j) (fun k => (spinTab1 P).c.val (geomSpin1.ix (spinTab1 P).n k j)) (fun k => (spinTab1 P).s.val (geomSpin1.ix (spinTab1 P).n k j))
      (sphFun F p j) (sphFun F p (j + geomSpin1.jst)) u := by
  have j0' : (0 : K) ≤ j := by exact_mod_cast j0
  obtain ⟨u, L⟩ := ladder_sym hF (a := (j : K)) (by linarith) (t := P.n - 3 - j) (c := fun k => P.c1.val (k + j * P.n)) (s := fun k => P.s1.val (k + j * P.n))
    (fun k k0 k1 => (h1 k j j0 (by omega) k0 (by omega)).1) (fun k k0 k1 => (h1 k j j0 (by omega) k0 (by omega)).2.1) (fun k k0 k1 => (h1 k j j0 (by omega) k0 (by omega)).2.2)
    (fun k k0 k1 => by
      have a := (h1 k j j0 (by omega) k0 (by omega)).2.2
      have b := hP.unit1 k j j0 k0 k1
      linear_combination (((k:K)+2*j+3)*((k:K)+2*j+4)) * b - a) p.1
  refine ⟨_, (L.smul (p.2 ^ j.toNat)).congr (by norm_num) (fun _ _ _ => rfl) (fun _ _ _ => rfl) (fun _ _ => rfl) (fun k _ => ?_)⟩
  unfold sphFun
  simp only [geomSpin1]
  rw [show (j + 2).toNat = j.toNat + 2 by omega, pow_add, hp]
  push_cast
  ring

/-- The functions between the stages. -/
noncomputable def midFun (F : Libm K) (neg : Bool) (d : Int) (p : K × K) (j l : Int) : K :=
  if neg then (1 + p.1) ^ j.toNat * p.2 ^ d.toNat * (Jac F true (d : K) (2 * j + d : K) l).eval p.1 else (1 - p.1) ^ j.toNat * p.2 ^ d.toNat * (Jac F true (2 * j + d : K) (d : K) l).eval p.1

theorem spin_stage2 (hF : IsLibm F) {P : SpinPlan K} (hP : SpinGood P)
    (h2 : ∀ l j m : Int, 0 ≤ m → m < P.n → 0 ≤ j → j < |P.s| → 0 ≤ l → l < P.n - m - j → 0 ≤ P.s2.val (l + j * P.n + m * |P.s| * P.n) ∧ 0 ≤ P.c2.val (l + j * P.n + m * |P.s| * P.n) ∧
      P.s2.val (l + j * P.n + m * |P.s| * P.n) * P.s2.val (l + j * P.n + m * |P.s| * P.n) * (((l:K)+2*j+m+2)*((l:K)+2*j+2*m+2)) = ((l:K)+1)*((l:K)+m+1))
    (neg : Bool) {d : Int} (hd : 0 ≤ d) (p : K × K) {j : Int} (j0 : 0 ≤ j) (j1 : j < |P.s|) :
    ∃ u, Ladder (geomSpin2 |P.s| d).g ((geomSpin2 |P.s| d).top (spinTab2 P neg d).n j) (fun k => (spinTab2 P neg d).c.val ((geomSpin2 |P.s| d).ix (spinTab2 P neg d).n k j))
      (fun k => (spinTab2 P neg d).s.val ((geomSpin2 |P.s| d).ix (spinTab2 P neg d).n k j)) (midFun F neg d p j) (midFun F neg d p (j + (geomSpin2 |P.s| d).jst)) u := by
  have j0' : (0 : K) ≤ j := by exact_mod_cast j0
  have d0' : (0 : K) ≤ d := by exact_mod_cast hd
  have lad := fun x => ladder_jac hF (a := 2 * (j : K) + d) (b := d) (by linarith) (by linarith) (t := P.n - 2 - d - j) (c := fun k => P.c2.val (k + j * P.n + d * |P.s| * P.n))
    (s := fun k => P.s2.val (k + j * P.n + d * |P.s| * P.n)) (fun k k0 k1 => (h2 k j d hd (by omega) j0 j1 k0 (by omega)).1) (fun k k0 k1 => (h2 k j d hd (by omega) j0 j1 k0 (by omega)).2.1)
    (fun k k0 k1 => by have := (h2 k j d hd (by omega) j0 j1 k0 (by omega)).2.2; linear_combination this)
    (fun k k0 k1 => by
      have a := (h2 k j d hd (by omega) j0 j1 k0 (by omega)).2.2
      have b := hP.unit2 k j d hd j0 j1 k0 k1
      linear_combination (((k:K)+2*j+d+2)*((k:K)+2*j+2*d+2)) * b - a) x
  cases neg
  · obtain ⟨u, L⟩ := lad p.1
    refine ⟨_, (L.smul ((1 - p.1) ^ j.toNat * p.2 ^ d.toNat)).congr (by norm_num [geomSpin2]) (fun _ _ _ => rfl) (fun _ _ _ => rfl) (fun _ _ => rfl) (fun k _ => ?_)⟩
    unfold midFun
    simp only [geomSpin2, Bool.false_eq_true, if_false]
    rw [show (j + 1).toNat = j.toNat + 1 by omega, pow_succ, show 2 * (j : K) + d + 2 = 2 * ((j + 1 : Int) : K) + d by push_cast; ring]
    ring
  · obtain ⟨u, L⟩ := lad (-p.1)
    refine ⟨_, (L.flip.smul ((1 + p.1) ^ j.toNat * p.2 ^ d.toNat)).congr (by norm_num [geomSpin2]) (fun _ _ _ => rfl) (fun _ _ _ => rfl) (fun k k0 => ?_) (fun k k0 => ?_)⟩
    · unfold midFun
      simp only [if_true]
      rw [Jac_flip F true p.1 k0]
    · unfold midFun
      simp only [geomSpin2, if_true]
      rw [Jac_flip F true p.1 k0, show (j + 1).toNat = j.toNat + 1 by omega, pow_succ, show 2 * (j : K) + d + 2 = 2 * ((j + 1 : Int) : K) + d by push_cast; ring]
      ring

theorem mid_top (F : Libm K) (s m : Int) (p : K × K) (l : Int) : midFun F (!decide (m * s ≥ 0)) |(|m| - |s|)| p (min |m| |s|) l = spinFun F s p m l := by
  unfold midFun spinFun
  have e : ((|m| + |s| : Int) : K) = 2 * ((min |m| |s| : Int) : K) + ((|(|m| - |s|)| : Int) : K) := by
    have : |m| + |s| = 2 * min |m| |s| + |(|m| - |s|)| := by
      rcases abs_cases (|m| - |s|) with ⟨h, h'⟩ | ⟨h, h'⟩
      · rw [h, min_eq_right (by omega)]; ring
      · rw [h, min_eq_left (by omega)]; ring
    rw [this]
    push_cast
    ring
  rw [e]
  by_cases h : m * s ≥ 0
  · simp [h]
  · simp [h]

omit [LinearOrder K] [IsStrictOrderedRing K] in
theorem mid_zero (F : Libm K) (neg : Bool) (d : Int) (p : K × K) (l : Int) : midFun F neg d p 0 l = sphFun F p d l := by
  unfold midFun sphFun
  cases neg <;> simp

theorem spin_plan (hF : IsLibm F) (n s : Int) (hn : 0 ≤ n) : ∃ P, planRotspinsphere F.sqrt n s = some P ∧ P.n = n ∧ P.s = s ∧ SpinGood P ∧ SpinConverts F P := by
  obtain ⟨P, e, hN, hs, t1, t2⟩ := C06_rotspinsphere_unit hF.sqrt n s hn
  refine ⟨P, e, hN, hs, ?_⟩
  subst hN hs
  have v1 : ∀ l m : Int, 0 ≤ m → m < P.n → 0 ≤ l → l < P.n - m → (0 ≤ l + m * P.n ∧ l + m * P.n < P.s1.size ∧ l + m * P.n < P.c1.size) ∧
      (0 ≤ P.s1.val (l + m * P.n) ∧ 0 ≤ P.c1.val (l + m * P.n) ∧
        P.s1.val (l + m * P.n) * P.s1.val (l + m * P.n) * (((l:K)+2*m+3)*((l:K)+2*m+4)) = ((l:K)+1)*((l:K)+2)) ∧
      P.s1.val (l + m * P.n) * P.s1.val (l + m * P.n) + P.c1.val (l + m * P.n) * P.c1.val (l + m * P.n) = 1 := by
    intro l m a0 a1 a2 a3
    obtain ⟨u, v, eu, ev, u0, v0, q, w⟩ := t1 l m a0 a1 a2 a3
    have hu := Buf.rd_eq_some_iff.1 eu
    have hv := Buf.rd_eq_some_iff.1 ev
    rw [hu.2, hv.2]
    exact ⟨⟨hu.1.1, hu.1.2, hv.1.2⟩, ⟨u0, v0, q⟩, w⟩
  have v2 : ∀ l j m : Int, 0 ≤ m → m < P.n → 0 ≤ j → j < |P.s| → 0 ≤ l → l < P.n - m - j →
      (0 ≤ l + j * P.n + m * |P.s| * P.n ∧ l + j * P.n + m * |P.s| * P.n < P.s2.size ∧ l + j * P.n + m * |P.s| * P.n < P.c2.size) ∧
      (0 ≤ P.s2.val (l + j * P.n + m * |P.s| * P.n) ∧ 0 ≤ P.c2.val (l + j * P.n + m * |P.s| * P.n) ∧
        P.s2.val (l + j * P.n + m * |P.s| * P.n) * P.s2.val (l + j * P.n + m * |P.s| * P.n) * (((l:K)+2*j+m+2)*((l:K)+2*j+2*m+2)) = ((l:K)+1)*((l:K)+m+1)) ∧
      P.s2.val (l + j * P.n + m * |P.s| * P.n) * P.s2.val (l + j * P.n + m * |P.s| * P.n) + P.c2.val (l + j * P.n + m * |P.s| * P.n) * P.c2.val (l + j * P.n + m * |P.s| * P.n) = 1 := by
    intro l j m a0 a1 a2 a3 a4 a5
    obtain ⟨u, v, eu, ev, u0, v0, q, w⟩ := t2 l j m a0 a1 a2 a3 a4 a5
    have hu := Buf.rd_eq_some_iff.1 eu
    have hv := Buf.rd_eq_some_iff.1 ev
    rw [hu.2, hv.2]
    exact ⟨⟨hu.1.1, hu.1.2, hv.1.2⟩, ⟨u0, v0, q⟩, w⟩
  have hP : SpinGood P := ⟨fun k j j0 k0 k1 => (v1 k j j0 (by omega) k0 (by omega)).1, fun k j j0 k0 k1 => (v1 k j j0 (by omega) k0 (by omega)).2.2,
    fun k j d d0 j0 j1 k0 k1 => (v2 k j d d0 (by omega) j0 j1 k0 (by omega)).1, fun k j d d0 j0 j1 k0 k1 => (v2 k j d d0 (by omega) j0 j1 k0 (by omega)).2.2⟩
  refine ⟨hP, ?_⟩
  intro m o S hS ho A hA
  have hd := abs_nonneg (|m| - |P.s|)
  have hm0 := abs_nonneg m
  have hs0 := abs_nonneg P.s
  have hmx : max |m| |P.s| = min |m| |P.s| + |(|m| - |P.s|)| := by
    rcases abs_cases (|m| - |P.s|) with ⟨h, h'⟩ | ⟨h, h'⟩
    · rw [h, min_eq_right (by omega), max_eq_left (by omega)]; ring
    · rw [h, min_eq_left (by omega), max_eq_right (by omega)]; ring
  have hmn : min |m| |P.s| ≤ |P.s| := min_le_right _ _
  have hmn0 : 0 ≤ min |m| |P.s| := le_min hm0 hs0
  have hpar := spin_parity |m| |P.s|
  have hfit : ∀ C : Buf K, C.size = A.size → ∀ b, Fits P.n o S (cpart b C) := fun C hC b => ⟨hS, ho, by
    simp only [cpart]
    rw [hC]
    omega⟩
  have down : ∀ C C' : Buf K, C.size = A.size → ShortC P.n o S (P.n - max |m| |P.s|) C → kernelSpinHi2lo P m o S C = some C' →
      ShortC P.n o S (P.n - spinPar P.s m) C' ∧ ∀ p : K × K, p.2 ^ 2 = 1 - p.1 ^ 2 → ∀ b, b = 0 ∨ b = 1 →
        ∑ i ∈ Finset.Ico 0 P.n, C'.val (2 * (o + i * S) + b) * sphFun F p (spinPar P.s m) i = ∑ i ∈ Finset.Ico 0 P.n, C.val (2 * (o + i * S) + b) * spinFun F P.s p m i := by
    intro C C' hC hz eC
    obtain ⟨-, B, hB, st⟩ := spin_stages hP (show FitsC P.n o S C from ⟨hS, ho, by rw [hC]; exact hA⟩) eC
    have key : ∀ b, b = 0 ∨ b = 1 → ∀ p : K × K, p.2 ^ 2 = 1 - p.1 ^ 2 → (∀ i, 0 ≤ i → P.n - spinPar P.s m ≤ i → i < P.n → C'.val (2 * (o + i * S) + b) = 0) ∧
        ∑ i ∈ Finset.Ico 0 P.n, C'.val (2 * (o + i * S) + b) * sphFun F p (spinPar P.s m) i = ∑ i ∈ Finset.Ico 0 P.n, C.val (2 * (o + i * S) + b) * spinFun F P.s p m i := by
      intro b hb p hp
      obtain ⟨e2, e1⟩ := st b hb
      obtain ⟨B2, f2, -, z2, s2⟩ := kernelHi2lo_sum (o := o) (S := S) (geomSpin2_ok (as := |P.s|) hd) (spinTab2_inb P (!decide (m * P.s ≥ 0)) hd) le_rfl hmn0 (Int.one_dvd _)
        (φ := midFun F (!decide (m * P.s ≥ 0)) |(|m| - |P.s|)| p) (fun j j0 j1 => spin_stage2 hF hP (fun l j m a0 a1 a2 a3 a4 a5 => (v2 l j m a0 a1 a2 a3 a4 a5).2.1) _ hd p j0 (by omega))
        (A := cpart b C) (hfit C hC b) (fun i i0 i1 i2 => hz b i hb i0 (by simp only [geomSpin2, spinTab2] at i1; omega) i2)
      rw [e2] at f2
      cases f2
      obtain ⟨B1, f1, -, z1, s1⟩ := kernelHi2lo_sum (o := o) (S := S) geomSpin1_ok (spinTab1_inb hP) (m1 := spinPar P.s m) (m2 := |(|m| - |P.s|)|) (by unfold spinPar; omega)
        (by
          unfold spinPar
          rcases abs_cases (|m| - |P.s|) with ⟨h, h'⟩ | ⟨h, h'⟩ <;> rw [h] <;> omega) hpar
        (φ := sphFun F p) (fun j j0 j1 => spin_stage1 hF hP (fun l m a0 a1 a2 a3 => (v1 l m a0 a1 a2 a3).2.1) hp (by unfold spinPar at j0; omega))
        (A := cpart b B) (hfit B (hB.trans hC) b) (fun i i0 i1 i2 => z2 i i0 (by simp only [geomSpin1, geomSpin2, spinTab1, spinTab2] at i1 ⊢; omega) i2)
      rw [show spinPar P.s m = (|m| + |P.s|) % 2 from rfl, e1] at f1
      cases f1
      refine ⟨fun i i0 i1 i2 => z1 i i0 (by simp only [geomSpin1, spinTab1] at *; omega) i2, ?_⟩
      refine (Eq.trans s1 ?_)
      refine Eq.trans (Finset.sum_congr rfl (fun i _ => by rw [← mid_zero F (!decide (m * P.s ≥ 0))])) (Eq.trans s2 (Finset.sum_congr rfl (fun i _ => by rw [mid_top]; rfl)))
    exact ⟨fun b i hb i0 i1 i2 => (key b hb (1, 0) (by norm_num)).1 i i0 i1 i2, fun p hp b hb => (key b hb p hp).2⟩
  have hA' : FitsC P.n o S A := ⟨hS, ho, hA⟩
  obtain ⟨⟨U, u1, -⟩, V, w1, w2⟩ := spin_roundtrip (m := m) hP hA'
  constructor
  · intro hz
    obtain ⟨a, b⟩ := down A U rfl hz u1
    exact ⟨U, u1, (spin_stages hP hA' u1).1, a, b⟩
  · obtain ⟨V', e', hs'⟩ := spin_total (m := m) hP hA' (!decide (m * P.s ≥ 0)) true (l := (spinHi P.n |m| |P.s|).reverse) (fun _ h => List.mem_reverse.1 h)
    rw [← kernelSpinLo2hi_exec, w1] at e'
    cases e'
    exact ⟨V, w1, hs', fun hz p hp b hb => ((down V A hs' hz w2).2 p hp b hb).symm⟩

/-- **C77**, the kernels. -/
theorem C77_kernels (hF : IsLibm F) (n s : Int) (hn : 0 ≤ n) : ∃ P, planRotspinsphere F.sqrt n s = some P ∧ P.n = n ∧ P.s = s ∧ SpinConverts F P := by
  obtain ⟨P, e, h1, h2, -, h3⟩ := spin_plan hF n s hn
  exact ⟨P, e, h1, h2, h3⟩

/-- Spin 2, five degrees, order 3: the column has room for two coefficients, and the kernel returns an expansion in the functions of order 1. -/
example : ∃ P, planRotspinsphere realLibm.sqrt 5 2 = some P ∧ ∃ A', kernelSpinHi2lo P 3 0 1 ⟨10, fun i => if i < 4 then (i : ℝ) + 1 else 0⟩ = some A' ∧
    ∀ p : ℝ × ℝ, p.2 ^ 2 = 1 - p.1 ^ 2 → ∑ i ∈ Finset.Ico 0 5, A'.val (2 * (0 + i * 1) + 0) * sphFun realLibm p 1 i =
      ∑ i ∈ Finset.Ico 0 5, (if 2 * (0 + i * 1) + 0 < 4 then ((2 * (0 + i * 1) + 0 : Int) : ℝ) + 1 else 0) * spinFun realLibm 2 p 3 i := by
  obtain ⟨P, e, h1, h2, h3⟩ := C77_kernels realLibm_ok 5 2 (by omega)
  refine ⟨P, e, ?_⟩
  unfold SpinConverts at h3
  rw [h1, h2] at h3
  obtain ⟨A', e', -, -, h⟩ := (h3 3 0 1 (by omega) le_rfl ⟨10, fun i => if i < 4 then (i : ℝ) + 1 else 0⟩ (by norm_num)).1 (by
    intro b i hb i0 i1 i2
    have : (2 : Int) ≤ i := by
      rw [show max |(3 : Int)| |2| = 3 from rfl] at i1
      omega
    show (if 2 * (0 + i * 1) + b < 4 then _ else (0 : ℝ)) = 0
    rw [if_neg (by omega)])
  exact ⟨A', e', fun p hp => h p hp 0 (Or.inl rfl)⟩

end FT.Props.Fun
