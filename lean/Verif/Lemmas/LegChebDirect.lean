import Verif.Lemmas.LegChebPoly2
import Verif.Lemmas.LegChebAdd

/-! # The direct method -/

namespace FT.Props.Lc
open Polynomial FT FT.Poly FT.Model.Lc
variable {K : Type*} [Field K] [CharZero K] [DecidableEq K]

omit [DecidableEq K] in
theorem lamI_eq {F : Lib K} (hF : IsLambda F) {i : Int} (h : 0 ≤ i) : F.lamI i = F.sqrtPi * cZ i := by
  obtain ⟨m, rfl⟩ := Int.eq_ofNat_of_zero_le h
  induction m with
  | zero => rw [Nat.cast_zero, hF.zero, cZ_zero, mul_one]
  | succ m ih =>
    have := ih (by omega)
    push_cast
    rw [hF.succ _ (by omega), cZ_succ (by omega), this]; ring

/-- The contents of a plan. -/
structure DirectOk (F : Lib K) (N : Int) (c2l : Bool) (D : Direct K) : Prop where
  n : D.N = N
  a_size : (D.a.size : Int) = N
  a : ∀ i, 0 ≤ i → i < N → D.a.val i = F.sqrtPi * cZ i
  c : c2l = true → ∃ an dn, D.an = some an ∧ D.dn = some dn ∧ (an.size : Int) = N ∧ (dn.size : Int) = (N + 1) / 2 ∧ an.val 0 = 2 / F.sqrtPi ∧
    (∀ i, 1 ≤ i → i < N → an.val i = 1 / (F.sqrtPi * cZ i * (2 * i * i + i))) ∧ ∀ i, 1 ≤ i → i < (N + 1) / 2 → dn.val i = F.sqrtPi * cZ (i - 1) / (2 * i)

theorem fillA_spec {F : Lib K} (hF : IsLambda F) {N : Int} (a : Buf K) (ha : (a.size : Int) = N) :
    ∃ a', fillA F N a = some a' ∧ a'.size = a.size ∧ ∀ i, 0 ≤ i → i < N → a'.val i = F.sqrtPi * cZ i := by
  obtain ⟨b, e, sb, vb, -⟩ := forUp_wr (lo := 0) (hi := min 256 N) (f := fun i => i) (v := F.lamI) (b := a) (body := fun i a => a.wr i (F.lamI i)) (fun i i0 i1 => ⟨i0, by omega⟩)
    (fun i Z _ _ _ => rfl) fun i j h => h
  unfold fillA
  rw [e, Option.bind_some, forStep_forUp (by omega)]
  obtain ⟨Z, e, p⟩ := forUp_spec (lo := 0) (hi := (N - min 256 N + 8 - 1) / 8) (s := b)
    (body := fun k a => (a.wr (min 256 N + 8 * k) (F.lamI (min 256 N + 8 * k))).bind fun a =>
      forUp (min 256 N + 8 * k + 1) (min (min 256 N + 8 * k + 8) N) (fun j a => (a.rd (j - 1)).bind fun x => a.wr j (x - 1 / 2 * x / j)) a)
    (fun J Z => Z.size = a.size ∧ ∀ i, 0 ≤ i → i < min N (min 256 N + 8 * J) → Z.val i = F.sqrtPi * cZ i)
    ⟨sb, fun i i0 i1 => by rw [vb i i0 (by omega), lamI_eq hF i0]⟩
    (fun k k0 k1 Z ⟨sZ, hZ⟩ => by
      obtain ⟨m, hm⟩ : ∃ m, m = min 256 N + 8 * k := ⟨_, rfl⟩
      have m0 : 0 ≤ m := by omega
      have m1 : m < N := by omega
      rw [← hm] at hZ ⊢
      rw [Buf.wr_of m0 (by omega), Option.bind_some]
      obtain ⟨Y, e, p⟩ := forUp_spec (lo := m + 1) (hi := min (m + 8) N) (s := (⟨Z.size, Function.update Z.val m (F.lamI m)⟩ : Buf K))
        (body := fun j a => (a.rd (j - 1)).bind fun x => a.wr j (x - 1 / 2 * x / j))
        (fun J Y => Y.size = a.size ∧ ∀ i, 0 ≤ i → i < J → Y.val i = F.sqrtPi * cZ i)
        ⟨sZ, fun i i0 i1 => by
          show Function.update Z.val m (F.lamI m) i = _
          by_cases h : i = m
          · subst h; rw [Function.update_self, lamI_eq hF i0]
          · rw [Function.update_of_ne h, hZ i i0 (by omega)]⟩
        (fun j j0 j1 Y ⟨sY, hY⟩ => by
          refine ⟨⟨Y.size, Function.update Y.val j (F.sqrtPi * cZ j)⟩, ?_, sY, fun i i0 i1 => ?_⟩
          · rw [Buf.rd_of (by omega) (by omega), Option.bind_some, hY _ (by omega) (by omega), Buf.wr_of (by omega) (by omega)]
            congr 3
            rw [cZ_pred (show 1 ≤ j by omega)]
            have := icast_ne (K := K) (show j ≠ 0 by omega)
            field_simp
          · show Function.update Y.val j _ i = _
            by_cases h : i = j
            · subst h; rw [Function.update_self]
            · rw [Function.update_of_ne h, hY i i0 (by omega)])
      exact ⟨Y, e, p.1, fun i i0 i1 => p.2 i i0 (by omega)⟩)
  exact ⟨Z, e, p.1, fun i i0 i1 => p.2 i i0 (by omega)⟩

omit [DecidableEq K] in
theorem an_ne {F : Lib K} (hF : IsLambda F) {i : Int} (h : 1 ≤ i) : F.sqrtPi * cZ i * (2 * i * i + i) ≠ 0 := by
  refine mul_ne_zero (mul_ne_zero hF.ne (cZ_ne (by omega))) ?_
  have a := icast_ne (K := K) (show i ≠ 0 by omega)
  have b := icast_ne (K := K) (show 2 * i + 1 ≠ 0 by omega)
  push_cast at b
  rw [show (2 : K) * i * i + i = i * (2 * i + 1) by ring]
  exact mul_ne_zero a b

theorem createDirect_spec {F : Lib K} (hF : IsLambda F) {N : Int} (hN : 1 ≤ N) (junk : Int → K) (c2l : Bool) :
    ∃ D, createDirect F junk N c2l = some D ∧ DirectOk F N c2l D := by
  unfold createDirect
  obtain ⟨a, e, sa, va⟩ := fillA_spec hF ⟨N.toNat, junk⟩ (by show ((N.toNat : ℕ) : Int) = N; omega)
  have sa' : (a.size : Int) = N := by rw [sa]; show ((N.toNat : ℕ) : Int) = N; omega
  rw [e, Option.bind_some]
  cases c2l with
  | false =>
    rw [if_neg (by simp)]
    exact ⟨_, rfl, rfl, sa', va, fun h => by simp at h⟩
  | true =>
    rw [if_pos rfl, Buf.wr_of le_rfl (by show (0 : Int) < (((N + 1) / 2).toNat : ℕ); omega), Option.bind_some, Buf.wr_of le_rfl (by show (0 : Int) < (N.toNat : ℕ); omega), Option.bind_some]
    obtain ⟨an, e1, s1, v1, k1⟩ := forUp_wr (lo := 1) (hi := N) (f := fun i => i) (v := fun i => 1 / (F.sqrtPi * cZ i * (2 * i * i + i))) (b := ⟨N.toNat, Function.update junk 0 F.m2sqrtpi⟩)
      (body := fun i an => (a.rd i).bind fun x => (divC 1 (x * (2 * i * i + i))).bind (an.wr i)) (fun i i0 i1 => ⟨by omega, by show i < (N.toNat : ℕ); omega⟩)
      (fun i Z i0 i1 _ => by rw [Buf.rd_of (by omega) (by omega), Option.bind_some, va i (by omega) i1, divC, if_neg (an_ne hF i0), Option.bind_some]) fun i j h => h
    rw [e1, Option.bind_some]
    obtain ⟨dn, e2, s2, v2, -⟩ := forUp_wr (lo := 1) (hi := (N + 1) / 2) (f := fun i => i) (v := fun i => F.sqrtPi * cZ (i - 1) / (2 * i)) (b := ⟨((N + 1) / 2).toNat, Function.update junk 0 0⟩)
      (body := fun i dn => (a.rd (i - 1)).bind fun x => dn.wr i (x / (2 * i))) (fun i i0 i1 => ⟨by omega, by show i < (((N + 1) / 2).toNat : ℕ); omega⟩)
      (fun i Z i0 i1 _ => by rw [Buf.rd_of (by omega) (by omega), Option.bind_some, va _ (by omega) (by omega)]) fun i j h => h
    rw [e2, Option.bind_some]
    refine ⟨_, rfl, rfl, sa', va, fun _ => ⟨an, dn, rfl, rfl, ?_, ?_, ?_, v1, v2⟩⟩
    · rw [s1]; show ((N.toNat : ℕ) : Int) = N; omega
    · rw [s2]; show ((((N + 1) / 2).toNat : ℕ) : Int) = _; omega
    · rw [k1 0 fun i i0 i1 => by omega]
      show Function.update junk 0 F.m2sqrtpi 0 = _
      rw [Function.update_self, hF.two_sqrt]

/-! ## Positions at a stride -/

omit [CharZero K] [DecidableEq K] in
theorem Room.pos {b : Buf K} {bo st N i : Int} (h : Room b bo st N) (i0 : 0 ≤ i) (i1 : i < N) : 0 ≤ bo + i * st ∧ bo + i * st < b.size := by
  have a := h.start; have c := h.stride; have d := h.last
  have e : 0 ≤ i * st := Int.mul_nonneg i0 (by omega)
  have f : i * st ≤ (N - 1) * st := Int.mul_le_mul_of_nonneg_right (by omega) (by omega)
  omega

theorem stride_inj {bo st : Int} (h : 1 ≤ st) (i j : Int) (e : bo + i * st = bo + j * st) : i = j :=
  Int.eq_of_mul_eq_mul_right (show st ≠ 0 by omega) (by omega)

theorem zeroOut {b : Buf K} {bo st N : Int} (h : Room b bo st N) : ∃ b', forUp 0 N (fun i b => b.wr (bo + i * st) 0) b = some b' ∧ Keeps b b' bo st N ∧ ∀ i, 0 ≤ i → i < N → b'.val (bo + i * st) = 0 := by
  obtain ⟨b', e, s, v, k⟩ := forUp_wr (lo := 0) (hi := N) (f := fun i => bo + i * st) (v := fun _ => 0) (b := b) (body := fun i b => b.wr (bo + i * st) 0) (fun i i0 i1 => h.pos i0 i1)
    (fun _ _ _ _ _ => rfl) (stride_inj h.stride)
  exact ⟨b', e, ⟨s, k⟩, v⟩

theorem sum_diag {A : Type*} [AddCommMonoid A] (N : Int) (f : Int → Int → A) :
    ∑ j ∈ Finset.Ico 0 N, ∑ k ∈ Finset.Ico 0 (j / 2 + 1), f (j - 2 * k) k = ∑ i ∈ Finset.Ico 0 N, ∑ n ∈ Finset.Ico 0 ((N - i + 1) / 2), f i n := by
  rw [Finset.sum_sigma', Finset.sum_sigma']
  refine Finset.sum_nbij' (fun x => ⟨x.1 - 2 * x.2, x.2⟩) (fun x => ⟨x.1 + 2 * x.2, x.2⟩) ?_ ?_ ?_ ?_ ?_
  · intro x hx; simp only [Finset.mem_sigma, Finset.mem_Ico] at *; omega
  · intro x hx; simp only [Finset.mem_sigma, Finset.mem_Ico] at *; omega
  · intro x _; simp
  · intro x _; simp
  · intro x _; rfl

/-- The sum of `directL2C` for one output, without the last factor. -/
theorem direct_sum {bo st N : Int} (hst : 1 ≤ st) (i : Int) (i0 : 0 ≤ i) (i1 : i < N) (g : Int → Int → K) :
    ∑ k ∈ Finset.Ico 0 ((N + 1) / 2), ∑ l ∈ Finset.Ico 0 (N - 2 * k), (if bo + i * st = bo + l * st then g k l else 0) = ∑ k ∈ Finset.Ico 0 ((N - i + 1) / 2), g k i := by
  simp only [sum_stride (show 0 < st by omega)]
  rw [sum_Ico_shrink (lo' := 0) (hi' := (N - i + 1) / 2) (fun k k0 k1 hk => if_neg (by omega)) le_rfl (by omega)]
  exact sum_Ico_congr fun k k0 k1 => if_pos (by omega)

theorem directL2C_spec {F : Lib K} (hF : IsLambda F) {N : Int} (hN : 1 ≤ N) {c2l : Bool} {D : Direct K} (hD : DirectOk F N c2l D) {u b : Buf K} {bu bb st : Int} (hu : Room u bu st N) (hb : Room b bb st N) :
    ∃ b', directL2C F D u bu b bb st = some b' ∧ Keeps b b' bb st N ∧
      ∀ i, 0 ≤ i → i < N → at' b' bb st i = (if i = 0 then 1 / 2 else 1) * ∑ n ∈ Finset.Ico 0 ((N - i + 1) / 2), 2 * (cZ n * cZ (n + i) * at' u bu st (i + 2 * n)) := by
  unfold directL2C
  obtain ⟨b0, e0, k0, z0⟩ := zeroOut hb
  have hst := hb.stride
  rw [hD.n, e0, Option.bind_some, forStep_bump (b := b0) (δ := fun k q => ∑ l ∈ Finset.Ico 0 (N - 2 * k), if q = bb + l * st then 2 * (cZ k * cZ (k + l) * at' u bu st (l + 2 * k)) else 0) (by omega)
    (fun k Z k0' k1 sZ => by
      rw [zero_add, show 2 * k / 2 = k by omega, Buf.rd_of k0' (by have := hD.a_size; omega), Option.bind_some]
      rw [forUp_bump fun l Y l0 l1 sY => by
        have p := hu.pos (i := l + 2 * k) (by omega) (by omega)
        have q := hb.pos (i := l) (by omega) (by omega)
        rw [show bu + 2 * k * st + l * st = bu + (l + 2 * k) * st by ring, Buf.rd_of (by omega) (by have := hD.a_size; omega), Option.bind_some, Buf.rd_of p.1 p.2, Option.bind_some,
          addAt_eq q.1 (by rw [sY, sZ, k0.1]; exact q.2), hD.a _ k0' (by omega), hD.a _ (by omega) (by omega), hF.two_pi]]
      refine congrArg some (bump_congr fun q => sum_Ico_congr fun l _ _ => ?_)
      split_ifs
      · have := hF.ne
        show _ = 2 * (cZ k * cZ (k + l) * u.val (bu + (l + 2 * k) * st))
        field_simp
      · rfl), Option.bind_some]
  have p0 := hb.pos (i := 0) le_rfl (by omega)
  rw [zero_mul, add_zero] at p0
  rw [mulAt_eq p0.1 (by show bb < b0.size; rw [k0.1]; exact p0.2)]
  refine ⟨_, rfl, ⟨k0.1, fun q hq => ?_⟩, fun i i0 i1 => ?_⟩
  · have h0 := hq 0 le_rfl (by omega)
    rw [zero_mul, add_zero] at h0
    show (if q = bb then _ else b0.val q + _) = _
    rw [if_neg h0, k0.2 q hq]
    beta_reduce
    rw [Finset.sum_eq_zero, add_zero]
    intro k hk
    rw [Finset.mem_Ico] at hk
    exact Finset.sum_eq_zero fun l hl => by rw [Finset.mem_Ico] at hl; exact if_neg (hq l hl.1 (by omega))
  · show (if bb + i * st = bb then (b0.val (bb + i * st) + _) * _ else b0.val (bb + i * st) + _) = _
    rw [z0 i i0 i1, zero_add, sub_zero]
    beta_reduce
    rw [direct_sum hst i i0 i1]
    by_cases h : i = 0
    · subst h; rw [if_pos (by ring), if_pos rfl]; ring
    · rw [if_neg fun e => h (stride_inj hst i 0 (by rw [e]; ring)), if_neg h, one_mul]

omit [DecidableEq K] in
/-- The sums of the previous theorem are the Chebyshev coefficients of the Legendre series. -/
theorem l2c_series {N : Int} (u b : Int → K) (hb : ∀ i, 0 ≤ i → i < N → b i = (if i = 0 then 1 / 2 else 1) * ∑ n ∈ Finset.Ico 0 ((N - i + 1) / 2), 2 * (cZ n * cZ (n + i) * u (i + 2 * n))) :
    chebSeries N b = legSeries N u := by
  unfold chebSeries legSeries
  rw [sum_Ico_congr (g := fun j => ∑ k ∈ Finset.Ico 0 (j / 2 + 1), C ((if j - 2 * k = 0 then 1 / 2 else 1) * (2 * (cZ k * cZ (k + (j - 2 * k)) * u (j - 2 * k + 2 * k)))) * Chebyshev.T K (j - 2 * k))
    (f := fun j => C (u j) * legN j.toNat) fun j j0 j1 => ?_]
  · rw [sum_diag N fun i n => C ((if i = 0 then 1 / 2 else 1) * (2 * (cZ n * cZ (n + i) * u (i + 2 * n)))) * Chebyshev.T K i]
    refine sum_Ico_congr fun i i0 i1 => ?_
    rw [hb i i0 i1, Finset.mul_sum, map_sum, Finset.sum_mul]
  · rw [← leg_nat j j0, leg_half j0, Finset.mul_sum]
    refine sum_Ico_congr fun k k0 k1 => ?_
    rw [show k + (j - 2 * k) = j - k by omega, show j - 2 * k + 2 * k = j by omega, ← mul_assoc, ← C_mul]
    congr 2
    by_cases h : j = 2 * k
    · rw [if_pos h, if_pos (by omega)]; ring
    · rw [if_neg h, if_neg (by omega)]; ring

theorem directC2L_spec {F : Lib K} (hF : IsLambda F) {N : Int} (hN : 1 ≤ N) {D : Direct K} (hD : DirectOk F N true D) {junk : Int → K} {u b : Buf K} {bu bb st : Int} (hu : Room u bu st N)
    (hb : Room b bb st N) : ∃ b', directC2L F D junk u bu b bb st = some b' ∧ Keeps b b' bb st N ∧
      ∀ i, 0 ≤ i → i < N → at' b' bb st i = ∑ n ∈ Finset.Ico 0 ((N - i + 1) / 2), lc (i + 2 * n) n * at' u bu st (i + 2 * n) := by
  unfold directC2L
  obtain ⟨b0, e0, k0, z0⟩ := zeroOut hb
  have hst := hb.stride
  obtain ⟨an, dn, ea, ed, sa, sd, a0, va, vd⟩ := hD.c rfl
  have p0 := hu.pos (i := 0) le_rfl (by omega)
  rw [zero_mul, add_zero] at p0
  rw [hD.n, e0, Option.bind_some, ea, Option.bind_some, ed, Option.bind_some, Buf.rd_of p0.1 p0.2, Option.bind_some, Buf.wr_of le_rfl (by show (0 : Int) < (N.toNat : ℕ); omega), Option.bind_some]
  obtain ⟨vn, e1, s1, v1, k1⟩ := forUp_wr (lo := 1) (hi := N) (f := fun i => i) (v := fun i => at' u bu st i * i) (b := ⟨N.toNat, Function.update junk 0 (u.val bu)⟩)
    (body := fun i vn => (u.rd (bu + i * st)).bind fun x => vn.wr i (x * i)) (fun i i0 i1 => ⟨by omega, by show i < (N.toNat : ℕ); omega⟩)
    (fun i Z i0 i1 _ => by
      have p := hu.pos (i := i) (by omega) (by omega)
      rw [Buf.rd_of p.1 p.2, Option.bind_some]; rfl) fun i j h => h
  have s1' : (vn.size : Int) = N := by rw [s1]; show ((N.toNat : ℕ) : Int) = N; omega
  have v0 : vn.val 0 = at' u bu st 0 := by
    rw [k1 0 fun i i0 i1 => by omega]
    show Function.update junk 0 (u.val bu) 0 = u.val (bu + 0 * st)
    rw [Function.update_self, zero_mul, add_zero]
  rw [e1, Option.bind_some]
  obtain ⟨b1, e2, s2, v2, k2⟩ := forUp_wr (lo := 0) (hi := N) (f := fun i => bb + i * st) (v := fun i => F.sqrtPi * vn.val i * an.val i) (b := b0)
    (body := fun n b => (vn.rd n).bind fun x => (an.rd n).bind fun y => b.wr (bb + n * st) (F.sqrtPi * x * y)) (fun i i0 i1 => by rw [k0.1]; exact hb.pos i0 i1)
    (fun i Z i0 i1 _ => by rw [Buf.rd_of i0 (by omega), Option.bind_some, Buf.rd_of i0 (by omega), Option.bind_some]) (stride_inj hst)
  rw [e2, Option.bind_some, forStep_bump (b := b1)
    (δ := fun k q => ∑ l ∈ Finset.Ico 0 (N - 2 - 2 * k), if q = bb + l * st then -(dn.val (k + 1) * an.val (k + 1 + l) * vn.val (l + 2 * (k + 1))) else 0) (by omega)
    (fun k Z k0' k1 sZ => by
      rw [forUp_bump fun l Y l0 l1 sY => by
        have q := hb.pos (i := l) (by omega) (by omega)
        rw [show (2 + 2 * k) / 2 = k + 1 by omega, show 2 + 2 * k + l = l + 2 * (k + 1) by ring, Buf.rd_of (by omega) (by omega), Option.bind_some, Buf.rd_of (by omega) (by omega), Option.bind_some,
          Buf.rd_of (by omega) (by omega), Option.bind_some, addAt_eq q.1 (by rw [sY, sZ, s2, k0.1]; exact q.2)]]
      rw [show N - (2 + 2 * k) = N - 2 - 2 * k by omega]), Option.bind_some]
  obtain ⟨b', e3, s3, v3, k3⟩ := forUp_mulAt (lo := 0) (hi := N) (f := fun i => bb + i * st) (v := fun i => (i : K) + 1 / 2)
    (b := bump b1 fun q => ∑ k ∈ Finset.Ico 0 ((N - 2 + 1) / 2), ∑ l ∈ Finset.Ico 0 (N - 2 - 2 * k), if q = bb + l * st then -(dn.val (k + 1) * an.val (k + 1 + l) * vn.val (l + 2 * (k + 1))) else 0)
    (fun i i0 i1 => by show _ ∧ _ < (b1.size : Int); rw [s2, k0.1]; exact hb.pos i0 i1) (stride_inj hst)
  refine ⟨b', e3, ⟨by rw [s3]; show b1.size = _; rw [s2, k0.1], fun q hq => ?_⟩, fun i i0 i1 => ?_⟩
  · rw [k3 q hq]
    show b1.val q + _ = _
    rw [k2 q hq, k0.2 q hq]
    beta_reduce
    rw [Finset.sum_eq_zero, add_zero]
    intro k hk
    rw [Finset.mem_Ico] at hk
    exact Finset.sum_eq_zero fun l hl => by rw [Finset.mem_Ico] at hl; exact if_neg (hq l hl.1 (by omega))
  · show b'.val (bb + i * st) = _
    rw [v3 i i0 i1]
    show (b1.val (bb + i * st) + _) * _ = _
    beta_reduce
    rw [v2 i i0 i1]
    have e4 : ∑ k ∈ Finset.Ico 0 ((N - 2 + 1) / 2), ∑ l ∈ Finset.Ico 0 (N - 2 - 2 * k), (if bb + i * st = bb + l * st then -(dn.val (k + 1) * an.val (k + 1 + l) * vn.val (l + 2 * (k + 1))) else 0) =
        ∑ n ∈ Finset.Ico 1 ((N - i + 1) / 2), -(dn.val n * an.val (n + i) * vn.val (i + 2 * n)) := by
      simp only [sum_stride (show 0 < st by omega)]
      rw [sum_Ico_shrink (lo' := 0) (hi' := (N - 2 - i + 1) / 2) (fun k k0 k1 hk => if_neg (by omega)) le_rfl (by omega), sum_shift _ _ 1]
      rw [show (0 : Int) + 1 = 1 from rfl, show (N - 2 - i + 1) / 2 + 1 = (N - i + 1) / 2 by omega]
      refine sum_Ico_congr fun k k0 k1 => ?_
      rw [if_pos (by omega), sub_add_cancel]
    rw [e4, sum_split (lo := 0) (mid := 1) (by omega) (by omega), show Finset.Ico (0 : Int) 1 = {0} from rfl, Finset.sum_singleton, add_mul, Finset.sum_mul, mul_zero, add_zero]
    have hp := hF.ne
    congr 1
    · by_cases h : i = 0
      · subst h
        rw [v0, a0]
        unfold lc
        rw [if_pos rfl, if_pos rfl, Int.cast_zero]
        field_simp
        ring
      · rw [v1 i (by omega) i1, va i (by omega) i1, lc_in (by omega) le_rfl (by omega), sub_zero, cZ_zero]
        have h1 := an_ne hF (show 1 ≤ i by omega)
        have h2 := icast_ne (K := K) h
        have h3 := icast_ne (K := K) (show 2 * i + 1 ≠ 0 by omega)
        have h4 := cZ_ne (K := K) i0
        push_cast at h3 ⊢
        rw [mul_zero, sub_zero, zero_sub, show (2 : K) * i * i + i = i * (2 * i + 1) by ring]
        field_simp
    · refine sum_Ico_congr fun n n0 n1 => ?_
      rw [vd n n0 (by omega), va _ (by omega) (by omega), v1 _ (by omega) (by omega), lc_in (by omega) (by omega) (by omega), show i + 2 * n - n = n + i by omega, cZ_pred n0]
      have h2 := icast_ne (K := K) (show n ≠ 0 by omega)
      have h3 := icast_ne (K := K) (show 2 * (n + i) + 1 ≠ 0 by omega)
      have h4 := cZ_ne (K := K) (show 0 ≤ n + i by omega)
      have h5 := icast_ne (K := K) (show n + i ≠ 0 by omega)
      have h6 := icast_ne (K := K) (show 2 * n - 1 ≠ 0 by omega)
      push_cast at h3 h5 h6 ⊢
      rw [show (2 : K) * (n + i) * (n + i) + (n + i) = (n + i) * (2 * (n + i) + 1) by ring, show (i : K) + 2 * n - n = n + i by ring, show (i : K) + 2 * n - 2 * n = i by ring]
      generalize (2 * (n : K) - 1) = t at *
      generalize (2 * ((n : K) + i) + 1) = r at *
      field_simp

omit [DecidableEq K] in
/-- The sums of the previous theorem are the Legendre coefficients of the Chebyshev series. -/
theorem c2l_series {N : Int} (u b : Int → K) (hb : ∀ i, 0 ≤ i → i < N → b i = ∑ n ∈ Finset.Ico 0 ((N - i + 1) / 2), lc (i + 2 * n) n * u (i + 2 * n)) :
    legSeries N b = chebSeries N u := by
  unfold chebSeries legSeries
  rw [sum_Ico_congr (g := fun j => ∑ k ∈ Finset.Ico 0 (j / 2 + 1), C (lc (j - 2 * k + 2 * k) k * u (j - 2 * k + 2 * k)) * leg (j - 2 * k))
    (f := fun j => C (u j) * Chebyshev.T K j) fun j j0 j1 => ?_]
  · rw [sum_diag N fun i n => C (lc (i + 2 * n) n * u (i + 2 * n)) * leg i]
    refine sum_Ico_congr fun i i0 i1 => ?_
    rw [hb i i0 i1, ← leg_nat i i0, map_sum, Finset.sum_mul]
  · rw [cheb_half j0, sum_Ico_shrink (lo' := 0) (hi' := j / 2 + 1) (fun k k0 k1 hk => by rw [lc_out (by omega)]; simp) le_rfl (by omega), Finset.mul_sum]
    refine sum_Ico_congr fun k k0 k1 => ?_
    rw [show j - 2 * k + 2 * k = j by omega, C_mul]
    ring

end FT.Props.Lc
