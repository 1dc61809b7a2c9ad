import Verif.Model.SpinTransforms
import Verif.Lemmas.Transforms
import Verif.Lemmas.SpinDrivers

/-! Steps of the transforms of the spin-weighted sphere as operators on `2N × M` arrays of real numbers. -/

namespace FT
variable {K : Type*} [CommRing K] {N M : Int} {A B C : Buf K}

/-- The matrix `P` as an array of complex numbers. -/
structure AsComplex (n : Int) (P C : Buf K) : Prop where
  size : (C.size : Int) = 2 * (n * n)
  re : ∀ i, 0 ≤ i → i < n * n → C.val (2 * i) = P.val i
  im : ∀ i, 0 ≤ i → i < n * n → C.val (2 * i + 1) = 0

theorem toComplex_spec {n : Int} {P : Buf K} (hn : 0 ≤ n) (hP : n * n ≤ P.size) : ∃ C, toComplex n P = some C ∧ AsComplex n P C := by
  have hnn : 0 ≤ n * n := by positivity
  generalize hq : n * n = q at hP hnn
  obtain ⟨C, e, h⟩ := forUp_spec (lo := 0) (hi := q) (body := fun i (C : Buf K) => (P.rd i).bind fun v => C.wr (2 * i) v) (s := ⟨(2 * q).toNat, fun _ => 0⟩)
    (fun k C => (C.size : Int) = 2 * q ∧ (∀ i, 0 ≤ i → i < k → C.val (2 * i) = P.val i) ∧ ∀ i, C.val (2 * i + 1) = 0)
    ⟨by show ((2 * q).toNat : Int) = _; omega, fun i i0 i1 => by omega, fun _ => rfl⟩
    (fun k k0 k1 C hC => by
      refine ⟨⟨C.size, Function.update C.val (2 * k) (P.val k)⟩, ?_, hC.1, fun i i0 i1 => ?_, fun i => ?_⟩
      · simp only [Buf.rd_of k0 (show k < P.size by omega), Option.bind_some]
        exact Buf.wr_of (by omega) (by have := hC.1; omega)
      · by_cases h : i = k
        · subst h; simp
        · simp only
          rw [Function.update_of_ne (by omega), hC.2.1 i i0 (by omega)]
      · simp only
        rw [Function.update_of_ne (by omega), hC.2.2])
  refine ⟨C, ?_, ?_, ?_, fun i _ _ => h.2.2 i⟩
  · unfold toComplex
    rw [hq]
    exact e
  · rw [hq]; exact h.1
  · rw [hq]; intro i i0 i1; exact h.2.1 i i0 (by omega)

/-- A real matrix applied to the real and to the imaginary parts. -/
def zF (W : Int → Int → Int → K) (N : Int) (c : Int) (x : Int → K) (r : Int) : K := sumTo N fun l => W c (r / 2) l * x (2 * l + r % 2)

theorem zF_congr (W : Int → Int → Int → K) : FCongr (zF W N) (2 * N) := fun _ _ _ h _ _ _ => sumTo_congr fun l l0 l1 => by rw [h (2 * l + _) (by omega) (by omega)]

theorem zOp_id {V W : Int → Int → Int → K} (h : ∀ c, 0 ≤ c → c < M → MulOne N (V c) (W c)) : OpId (2 * N) M fun x => colOp (zF V N) (colOp (zF W N) x) := by
  refine colOp_id fun c c0 c1 x r r0 r1 => ?_
  have := mulOne_cancel (h c c0 c1) (fun l => x (2 * l + r % 2)) (i := r / 2) (by omega) (by omega)
  rw [show 2 * (r / 2) + r % 2 = r by omega] at this
  rw [← this]
  unfold zF
  refine sumTo_congr fun k _ _ => ?_
  congr 1
  refine sumTo_congr fun l _ _ => ?_
  rw [show (2 * k + r % 2) / 2 = k by omega, show (2 * k + r % 2) % 2 = r % 2 by omega]

theorem sumTo_two (N : Int) (f : Int → K) : sumTo (2 * N) f = sumTo N (fun l => f (2 * l)) + sumTo N fun l => f (2 * l + 1) := by
  unfold sumTo
  rw [show (2 * N).toNat = 2 * N.toNat by omega]
  generalize N.toNat = n
  induction n with
  | zero => simp
  | succ n ih =>
    rw [show 2 * (n + 1) = 2 * n + 1 + 1 by ring, Finset.sum_range_succ, Finset.sum_range_succ, ih, Finset.sum_range_succ, Finset.sum_range_succ]
    push_cast
    ring

theorem zOp_adj {W V : Int → Int → Int → K} (h : ∀ c i j, V c i j = W c j i) : OpAdj (2 * N) M (colOp (zF W N)) (colOp (zF V N)) := by
  refine colOp_adj fun c _ _ x y => ?_
  simp only [sumTo_two]
  have key : ∀ b : Int, b = 0 ∨ b = 1 → sumTo N (fun k => zF W N c x (2 * k + b) * y (2 * k + b)) = sumTo N fun k => x (2 * k + b) * zF V N c y (2 * k + b) := by
    intro b hb
    have e : ∀ k : Int, (2 * k + b) / 2 = k ∧ (2 * k + b) % 2 = b := fun k => by omega
    simp only [zF, (e _).1, (e _).2, sumTo_mul, mul_sumTo]
    rw [sumTo_comm]
    exact sumTo_congr fun l _ _ => sumTo_congr fun k _ _ => by rw [h]; ring
  have k0 := key 0 (Or.inl rfl)
  simp only [add_zero] at k0
  rw [k0, key 1 (Or.inr rfl)]

theorem opZ_re {P C : Buf K} (h : AsComplex N P C) (t : Bool) {i j : Int} (i0 : 0 ≤ i) (i1 : i < N) (j0 : 0 ≤ j) (j1 : j < N) : opZ t C N 0 i j = opU t P N i j ∧ opZ t C N 1 i j = 0 := by
  have key : ∀ i j : Int, 0 ≤ i → i < N → 0 ≤ j → j < N → upperZ C N 0 i j = upper P N i j ∧ upperZ C N 1 i j = 0 := by
    intro i j i0 i1 j0 j1
    have a : 0 ≤ i + j * N := by have : 0 ≤ j * N := Int.mul_nonneg j0 (by omega)
                                 omega
    have b : i + j * N < N * N := by nlinarith
    unfold upperZ upper
    split
    · rw [add_zero]; exact ⟨h.re _ a b, h.im _ a b⟩
    · exact ⟨rfl, rfl⟩
  unfold opZ opU
  cases t
  · exact key i j i0 i1 j0 j1
  · exact key j i j0 j1 i0 i1

section
variable {P Q : Buf K} {t : Bool}

/-- `ztrmmLeft` on the columns `r, r+q, r+2q, …`. -/
theorem ztrmmLeft_mapped {q r nc : Int} {F : Int → (Int → K) → Int → K} (hN : 0 ≤ N) (hP : AsComplex N Q P) (hq : 0 < q) (hr : 0 ≤ r)
    (hlast : 0 < nc → r + q * (nc - 1) < M) (hA : 2 * N * M ≤ A.size)
    (hF : ∀ i, 0 ≤ i → i < nc → F (r + q * i) = zF (fun _ => opU t Q N) N 0) :
    ∃ B, ztrmmLeft t P N N nc (r * N) (q * N) A = some B ∧ Mapped F (2 * N) (posA 0 (2 * N)) (fun c => ∃ i, 0 ≤ i ∧ i < nc ∧ c = r + q * i) A B := by
  have e : ∀ k c, posA 0 (2 * N) k c = k + 2 * (c * N) := fun k c => by unfold posA; ring
  unfold ztrmmLeft
  by_cases h0 : N ≤ 0 ∨ nc ≤ 0
  · rw [if_pos h0]
    exact ⟨A, rfl, rfl, fun c ⟨i, _, _, _⟩ k _ _ => by omega, fun _ _ => rfl⟩
  · rw [if_neg h0]
    push Not at h0
    obtain ⟨hN1, hnc⟩ := h0
    have hl := hlast hnc
    have hqN : N ≤ q * N := by nlinarith
    have hqN0 : 0 < q * N := by omega
    have hrN : 0 ≤ r * N := by positivity
    have h1 : 2 * ((N - 1) * N + N) ≤ P.size := by
      have : (N - 1) * N + N = N * N := by ring
      have := hP.size
      omega
    have h2 : 2 * (r * N + (nc - 1) * (q * N) + N) ≤ A.size := by
      have e1 : 2 * (r * N + (nc - 1) * (q * N) + N) = 2 * N * (r + q * (nc - 1) + 1) := by ring
      have : 2 * N * (r + q * (nc - 1) + 1) ≤ 2 * N * M := Int.mul_le_mul_of_nonneg_left (by omega) (by omega)
      omega
    rw [if_pos ⟨hqN, le_refl _, h1, hrN, h2⟩]
    refine ⟨_, rfl, rfl, ?_, ?_⟩
    · rintro c ⟨i, i0, i1, rfl⟩ k k0 k1
      rw [hF i i0 i1]
      have e0 : posA 0 (2 * N) k (r + q * i) = 2 * (k / 2 + i * (q * N) + r * N) + k % 2 := by
        rw [e, show (r + q * i) * N = i * (q * N) + r * N by ring]
        omega
      have e1 : posA 0 (2 * N) k (r + q * i) / 2 - r * N = k / 2 + i * (q * N) := by rw [e0]; omega
      have e2 : posA 0 (2 * N) k (r + q * i) % 2 = k % 2 := by rw [e0]; omega
      have ed : (k / 2 + i * (q * N)) / (q * N) = i := by
        rw [Int.add_mul_ediv_right _ _ (by omega), Int.ediv_eq_zero_of_lt (by omega) (by omega)]; ring
      have em : (k / 2 + i * (q * N)) % (q * N) = k / 2 := by
        rw [Int.add_mul_emod_self_right, Int.emod_eq_of_lt (by omega) (by omega)]
      simp only [e1, e2, ed, em]
      rw [if_pos ⟨by positivity, i1, by omega⟩]
      have pp : ∀ l b : Int, 2 * (r * N + i * (q * N) + l) + b = posA 0 (2 * N) (2 * l + b) (r + q * i) := fun l b => by rw [e]; ring
      have pp0 : ∀ l : Int, 2 * (r * N + i * (q * N) + l) = posA 0 (2 * N) (2 * l + 0) (r + q * i) := fun l => by rw [e]; ring
      unfold zF
      rcases (by omega : k % 2 = 0 ∨ k % 2 = 1) with hb | hb
      · rw [if_pos hb]
        refine sumTo_congr fun l l0 l1 => ?_
        obtain ⟨z1, z2⟩ := opZ_re hP t (i := k / 2) (by omega) (by omega) l0 l1
        rw [z1, z2, zero_mul, sub_zero, hb, pp0]
      · rw [if_neg (by omega)]
        refine sumTo_congr fun l l0 l1 => ?_
        obtain ⟨z1, z2⟩ := opZ_re hP t (i := k / 2) (by omega) (by omega) l0 l1
        rw [z1, z2, zero_mul, add_zero, hb, pp]
    · intro p hp
      simp only
      rw [if_neg]
      rintro ⟨h3, h4, h5⟩
      have := Int.emod_add_mul_ediv (p / 2 - r * N) (q * N)
      have m0 := Int.emod_nonneg (p / 2 - r * N) (show q * N ≠ 0 by omega)
      refine hp (r + q * ((p / 2 - r * N) / (q * N))) (2 * ((p / 2 - r * N) % (q * N)) + p % 2) ⟨_, Int.ediv_nonneg h3 (by omega), h4, rfl⟩ (by omega) (by omega) ?_
      rw [e]
      have e2 : (r + q * ((p / 2 - r * N) / (q * N))) * N = r * N + q * N * ((p / 2 - r * N) / (q * N)) := by ring
      rw [e2]
      omega

end

theorem ztrmm4_acts {P0 P1 Q0 Q1 : Buf K} {t : Bool} (hN : 0 ≤ N) (h0 : AsComplex N P0 Q0) (h1 : AsComplex N P1 Q1) (hA : 2 * N * M ≤ A.size) :
    ∃ B, ztrmm4 t Q0 Q1 N M A = some B ∧ Acts (2 * N) M (colOp (zF (sel4 (opU t P0 N) (opU t P1 N)) N)) A B := by
  have hF : ∀ (P : Buf K) (r nc : Int), (∀ i, sel4 (opU t P0 N) (opU t P1 N) (r + 4 * i) = opU t P N) → ∀ i, 0 ≤ i → i < nc →
      zF (sel4 (opU t P0 N) (opU t P1 N)) N (r + 4 * i) = zF (fun _ => opU t P N) N 0 := by
    intro P r nc h i _ _
    funext x k
    simp only [zF, h]
  have s0 : ∀ r i : Int, r = 0 ∨ r = 3 → sel4 (opU t P0 N) (opU t P1 N) (r + 4 * i) = opU t P0 N := fun r i h => if_pos (by omega)
  have s1 : ∀ r i : Int, r = 1 ∨ r = 2 → sel4 (opU t P0 N) (opU t P1 N) (r + 4 * i) = opU t P1 N := fun r i h => if_neg (by omega)
  obtain ⟨B0, e0, m0⟩ := ztrmmLeft_mapped (A := A) (M := M) (t := t) (q := 4) (r := 0) (nc := (M + 3) / 4) hN h0 (by omega) (by omega) (by omega) hA (hF P0 0 _ fun i => s0 0 i (Or.inl rfl))
  obtain ⟨B1, e1, m1⟩ := ztrmmLeft_mapped (A := B0) (M := M) (t := t) (q := 4) (r := 1) (nc := (M + 2) / 4) hN h1 (by omega) (by omega) (by omega) (by rw [m0.1]; exact hA) (hF P1 1 _ fun i => s1 1 i (Or.inl rfl))
  obtain ⟨B2, e2, m2⟩ := ztrmmLeft_mapped (A := B1) (M := M) (t := t) (q := 4) (r := 2) (nc := (M + 1) / 4) hN h1 (by omega) (by omega) (by omega) (by rw [m1.1, m0.1]; exact hA) (hF P1 2 _ fun i => s1 2 i (Or.inr rfl))
  obtain ⟨B3, e3, m3⟩ := ztrmmLeft_mapped (A := B2) (M := M) (t := t) (q := 4) (r := 3) (nc := M / 4) hN h0 (by omega) (by omega) (by omega) (by rw [m2.1, m1.1, m0.1]; exact hA) (hF P0 3 _ fun i => s0 3 i (Or.inr rfl))
  rw [zero_mul] at e0
  rw [one_mul] at e1
  refine ⟨B3, ?_, Acts.of_mapped ?_⟩
  · unfold ztrmm4
    simp only [e0, e1, e2, e3, Option.bind_some]
  · have p := posA_inj 0 (2 * N) (fun _ => True)
    have c := zF_congr (N := N) (sel4 (opU t P0 N) (opU t P1 N))
    have t1 := Mapped.trans p c (fun _ _ => trivial) (fun _ _ => trivial) (by rintro c ⟨i, _, _, rfl⟩ ⟨j, _, _, h⟩; omega) m0 m1
    have t2 := Mapped.trans p c (fun _ _ => trivial) (fun _ _ => trivial) (by rintro c (⟨i, _, _, rfl⟩ | ⟨i, _, _, rfl⟩) ⟨j, _, _, h⟩ <;> omega) t1 m2
    have t3 := Mapped.trans p c (fun _ _ => trivial) (fun _ _ => trivial) (by rintro c ((⟨i, _, _, rfl⟩ | ⟨i, _, _, rfl⟩) | ⟨i, _, _, rfl⟩) ⟨j, _, _, h⟩ <;> omega) t2 m3
    refine t3.congrC fun c => ⟨?_, ?_⟩
    · rintro (((⟨i, _, _, rfl⟩ | ⟨i, _, _, rfl⟩) | ⟨i, _, _, rfl⟩) | ⟨i, _, _, rfl⟩) <;> omega
    · intro hc
      rcases (by omega : c % 4 = 0 ∨ c % 4 = 1 ∨ c % 4 = 2 ∨ c % 4 = 3) with h | h | h | h
      · exact Or.inl (Or.inl (Or.inl ⟨c / 4, by omega, by omega, by omega⟩))
      · exact Or.inl (Or.inl (Or.inr ⟨c / 4, by omega, by omega, by omega⟩))
      · exact Or.inl (Or.inr ⟨c / 4, by omega, by omega, by omega⟩)
      · exact Or.inr ⟨c / 4, by omega, by omega, by omega⟩

theorem ztrmm4_ok {P0 P1 Q0 Q1 : Buf K} {t : Bool} (hN : 0 ≤ N) (h0 : AsComplex N P0 Q0) (h1 : AsComplex N P1 Q1) :
    DenseOK (2 * N) M (ztrmm4 t Q0 Q1 N M) (colOp (zF (sel4 (opU t P0 N) (opU t P1 N)) N)) :=
  ⟨colOp_congr (zF_congr _), fun _ hA => ztrmm4_acts hN h0 h1 hA⟩

/-- The rotation of one column and back. -/
theorem spinF_inv {P : SpinPlan K} (hP : SpinGood P) (hN : 0 ≤ P.n) (d : Bool) (m : Int) (x : Int → K) : spinF (!d) P m (spinF d P m x) = x := by
  have fx : FitsC P.n 0 1 (⟨(2 * P.n).toNat, x⟩ : Buf K) := ⟨by omega, by omega, by show 2 * (0 + (P.n - 1) * 1) + 1 < ((2 * P.n).toNat : Int); omega⟩
  have sz : ∀ C, kernSpin d P m 0 1 ⟨(2 * P.n).toNat, x⟩ = some C → C.size = (2 * P.n).toNat := by
    intro C e
    obtain ⟨C', e', h⟩ := spin_total (m := m) hP fx (!decide (m * P.s ≥ 0)) (!d) (l := spinOps d P m) (fun a h => mem_spinOps h)
    rw [kernSpin_exec, e'] at e
    cases e
    exact h
  have key : ∃ A', kernSpin d P m 0 1 ⟨(2 * P.n).toNat, x⟩ = some A' ∧ kernSpin (!d) P m 0 1 A' = some ⟨(2 * P.n).toNat, x⟩ := by
    cases d
    · exact (spin_roundtrip hP fx).2
    · exact (spin_roundtrip hP fx).1
  obtain ⟨A', e, e'⟩ := key
  have h1 : spinF d P m x = A'.val := by unfold spinF; rw [e]; rfl
  have h2 : (⟨(2 * P.n).toNat, A'.val⟩ : Buf K) = A' := by rw [← sz A' e]
  rw [h1]
  unfold spinF
  rw [h2, e']
  rfl

/-- The rotation of one column keeps inner products. -/
theorem spinF_dot {P : SpinPlan K} (hP : SpinGood P) (d : Bool) (m : Int) (x y : Int → K) :
    dotOn (Finset.Ico 0 (2 * P.n)) (spinF d P m x) (spinF d P m y) = dotOn (Finset.Ico 0 (2 * P.n)) x y := by
  obtain ⟨X, eX, vX⟩ := kernSpin_col hP d m x
  obtain ⟨Y, eY, vY⟩ := kernSpin_col hP d m y
  rw [kernSpin_exec] at eX eY
  obtain ⟨X', Y', eX', eY', -, -, h⟩ := exec_sim (f := spinStep P (!decide (m * P.s ≥ 0)) (!d) |(|m| - |P.s|)| 0 1) (g := spinStep P (!decide (m * P.s ≥ 0)) (!d) |(|m| - |P.s|)| 0 1) (l := spinOps d P m)
    (s := ⟨(2 * P.n).toNat, x⟩) (t := ⟨(2 * P.n).toNat, y⟩)
    (fun A B : Buf K => A.size = (2 * P.n).toNat ∧ B.size = (2 * P.n).toNat ∧ dotOn (Finset.Ico 0 (2 * P.n)) A.val B.val = dotOn (Finset.Ico 0 (2 * P.n)) x y)
    (by
      rintro a ha A B ⟨hA, hB, h⟩
      have ha' := mem_spinOps ha
      have hn : 0 < P.n := by
        by_contra hn
        have hm := mem_spinHi (abs_nonneg m) (abs_nonneg P.s) ha'
        have hab := abs_nonneg (|m| - |P.s|)
        obtain ⟨t, j, k⟩ := a
        obtain ⟨hj, hk, hc⟩ := hm
        cases t
        · simp only [Bool.false_eq_true, if_false] at hc hj hk
          omega
        · simp only [if_true] at hc hj hk
          omega
      have fit : ∀ A : Buf K, A.size = (2 * P.n).toNat → FitsC P.n 0 1 A := fun A hA => ⟨by omega, by omega, by rw [hA]; omega⟩
      obtain ⟨a1, a2, a3⟩ := spin_rows (fit A hA) ha'
      obtain ⟨b1, b2, -⟩ := spin_rows (fit B hB) ha'
      have hu := spin_unit hP ha'
      have e1 := spinStep_eq (o := 0) (S := 1) (b := !decide (m * P.s ≥ 0)) (neg := !d) hP ha' A
      have e2 := spinStep_eq (o := 0) (S := 1) (b := !decide (m * P.s ≥ 0)) (neg := !d) hP ha' B
      rw [applyGivensC_mk (n := A.size) (v := A.val) a1 a2] at e1
      rw [applyGivensC_mk (n := B.size) (v := B.val) b1 b2] at e2
      refine ⟨_, _, e1, e2, hA, hB, ?_⟩
      rw [hA] at a1 a2
      rw [dotOn_rot_rot (Finset.mem_Ico.2 ⟨by omega, by omega⟩) (Finset.mem_Ico.2 ⟨by omega, by omega⟩) (by omega) (by split_ifs; rw [neg_mul_neg]; exact hu; exact hu),
        dotOn_rot_rot (Finset.mem_Ico.2 ⟨by omega, by omega⟩) (Finset.mem_Ico.2 ⟨by omega, by omega⟩) (by omega) (by split_ifs; rw [neg_mul_neg]; exact hu; exact hu)]
      exact h) ⟨rfl, rfl, rfl⟩
  rw [eX] at eX'
  rw [eY] at eY'
  cases eX'
  cases eY'
  rw [← vX, ← vY]
  exact h

theorem dotOn_sumTo (n : Int) (x y : Int → K) : dotOn (Finset.Ico 0 n) x y = sumTo n fun k => x k * y k := by
  unfold dotOn sumTo
  symm
  exact Finset.sum_bij' (fun l _ => (l : Int)) (fun l _ => l.toNat) (fun l h => by simp at h ⊢; omega) (fun l h => by simp at h ⊢; omega) (fun l _ => by simp) (fun l h => by simp at h ⊢; omega)
    fun _ _ => rfl

theorem spinF_adj {P : SpinPlan K} (hP : SpinGood P) (hN : 0 ≤ P.n) (m : Int) (x y : Int → K) :
    sumTo (2 * P.n) (fun k => spinF true P m x k * y k) = sumTo (2 * P.n) fun k => x k * spinF false P m y k := by
  have h := spinF_dot hP true m x (spinF false P m y)
  have h' := spinF_inv hP hN false m y
  rw [show (!false) = true from rfl] at h'
  rw [h', dotOn_sumTo, dotOn_sumTo] at h
  exact h

end FT
