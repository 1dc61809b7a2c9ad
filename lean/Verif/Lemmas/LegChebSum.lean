import Verif.Lemmas.LegChebNear

/-! # The near and the far field together -/

namespace FT.Props.Lc
open FT FT.Poly FT.Model.Lc
variable {K : Type*} [Field K] [CharZero K] [DecidableEq K]

/-- The far field goes to the entries of one parity. -/
theorem scatter_spec {P : Plan K} (hev : P.N % 2 = 0) {odd : Int} (o0 : 0 ≤ odd) (o1 : odd ≤ 1) {oa out : Buf K} (so : P.N / 2 ≤ oa.size) {bo st : Int} (ho : Room out bo st P.N) :
    scatter P odd oa out bo st = some (bump out (spread bo st P.N fun j => if j % 2 = odd then oa.val (j / 2) else 0)) := by
  have key : ∀ (body : Int → Buf K → Option (Buf K)), (∀ k Z, 0 ≤ k → k < P.N / 2 → Room Z bo st P.N → body k Z = addAt Z (bo + (2 * k + odd) * st) (oa.val k)) →
      forUp 0 (P.N / 2) body out = some (bump out (spread bo st P.N fun j => if j % 2 = odd then oa.val (j / 2) else 0)) := by
    intro body hb
    rw [forUp_spread ho fun k Z k0 k1 hZ => by rw [hb k Z k0 k1 hZ, addAt_spread hZ (by omega) (by omega)]]
    refine congrArg some (congrArg _ (spread_congr fun j j0 j1 => ?_))
    split_ifs with c
    · rw [sum_Ico_congr (g := fun k => if k = j / 2 then oa.val (j / 2) else 0) fun k _ _ => by
        by_cases e : j = 2 * k + odd
        · rw [if_pos e, if_pos (by omega), show j / 2 = k by omega]
        · rw [if_neg e, if_neg (by omega)]]
      exact sum_Ico_delta (f := fun _ => oa.val (j / 2)) (by omega) (by omega)
    · exact Finset.sum_eq_zero fun k _ => if_neg (by omega)
  unfold scatter
  split_ifs with c
  · rw [show (P.N + 1) / 2 = P.N / 2 by omega]
    refine key _ fun k Z k0 k1 hZ => ?_
    rw [Buf.rd_of k0 (by omega), Option.bind_some, c]
    congr 1; ring
  · rw [hev, zero_mul, add_zero]
    refine key _ fun k Z k0 k1 hZ => ?_
    rw [Buf.rd_of k0 (by omega), Option.bind_some]
    congr 1; ring

/-- The far field, as a matrix: at the level where the blocks of the two entries are apart but those that contain them are not, the value of the interpolant there. -/
def farK (P : Plan K) (A : Buf K) (φ : Int → K → K) (i j : Int) : K :=
  ∑ l ∈ Finset.range P.L, if far (i / 2 / hs P.s P.L l) (j / 2 / hs P.s P.L l) then interp P.M A.val φ P.s P.L (i % 2) l (i / 2) (j / 2) else 0

omit [CharZero K] [DecidableEq K] in
theorem farK_near {P : Plan K} {A : Buf K} {φ : Int → K → K} {i j : Int} (s1 : 1 ≤ P.s) (h : j / (2 * P.s) ≤ i / (2 * P.s) + 1) : farK P A φ i j = 0 := by
  unfold farK
  refine Finset.sum_eq_zero fun l hl => if_neg (not_far s1 (Finset.mem_range.1 hl) ?_)
  rw [Int.ediv_ediv_of_nonneg (by norm_num), Int.ediv_ediv_of_nonneg (by norm_num)]
  exact h

omit [CharZero K] [DecidableEq K] in
theorem farK_far {P : Plan K} {A : Buf K} {φ : Int → K → K} {i j : Int} (h : Shape P) (i0 : 0 ≤ i) (jN : j < P.N) (hf : i / (2 * P.s) + 2 ≤ j / (2 * P.s)) :
    ∃ l, l < P.L ∧ far (i / 2 / hs P.s P.L l) (j / 2 / hs P.s P.L l) ∧ (∀ l', l' < P.L → far (i / 2 / hs P.s P.L l') (j / 2 / hs P.s P.L l') → l' = l) ∧
      farK P A φ i j = interp P.M A.val φ P.s P.L (i % 2) l (i / 2) (j / 2) := by
  obtain ⟨s1, -, n1, -⟩ := h.facts
  have Nn := h.Nn
  have e : P.s * 2 ^ (P.L + 2) = 2 * (P.s * 2 ^ (P.L + 1)) := by rw [pow_succ (2 : Int) (P.L + 1)]; ring
  obtain ⟨l, hl, f, u⟩ := far_unique (s := P.s) (P := i / 2) (Q := j / 2) h.L1 s1 (by omega) (by omega)
    (by rw [Int.ediv_ediv_of_nonneg (by norm_num), Int.ediv_ediv_of_nonneg (by norm_num)]; exact hf)
  refine ⟨l, hl, f, u, ?_⟩
  unfold farK
  rw [Finset.sum_eq_single l, if_pos f]
  · intro l' hl' ne
    exact if_neg fun f' => ne (u l' (Finset.mem_range.1 hl') f')
  · intro hn; exact absurd (Finset.mem_range.2 hl) hn

theorem lt_nu {s N i n : Int} (s1 : 1 ≤ s) (h : i + 2 * n < N) : n < nu s N i ↔ (i + 2 * n) / (2 * s) ≤ i / (2 * s) + 1 := by
  have a : (i + 2 * n) / (2 * s) ≤ i / (2 * s) + 1 ↔ i + 2 * n < (i / (2 * s) + 2) * (2 * s) := by
    rw [← Int.ediv_lt_iff_lt_mul (by omega)]; omega
  rw [a]
  unfold nu
  omega

theorem nu_le {s N i : Int} : nu s N i ≤ (N - i + 1) / 2 := by
  unfold nu; omega

omit [CharZero K] [DecidableEq K] in
/-- The sum over all entries of one parity is the sum over the entries above the diagonal. -/
theorem far_sum {P : Plan K} {A : Buf K} {φ : Int → K → K} {R : Int → Int → Int → K} (h : Shape P) (_hT : TreeOk P φ R) (u : Int → K) {i : Int} (i0 : 0 ≤ i) :
    ∑ l ∈ Finset.range P.L, ∑ q ∈ Finset.Ico 0 (P.Nn / 2),
        (if far (i / 2 / hs P.s P.L l) (q / hs P.s P.L l) then interp P.M A.val φ P.s P.L (i % 2) l (i / 2) q * ext u P.N (2 * q + i % 2) else 0) =
      ∑ n ∈ Finset.Ico 0 ((P.N - i + 1) / 2), farK P A φ i (i + 2 * n) * u (i + 2 * n) := by
  obtain ⟨s1, -, n1, -⟩ := h.facts
  have hev := h.even
  rw [Finset.sum_comm]
  rw [sum_Ico_shrink (lo' := i / 2) (hi' := P.N / 2) (fun q q0 q1 hq => ?_) (by omega) (by omega)]
  · rw [sum_shift (i / 2) (P.N / 2) (-(i / 2)), show i / 2 + -(i / 2) = 0 by ring, show P.N / 2 + -(i / 2) = (P.N - i + 1) / 2 by omega]
    refine sum_Ico_congr fun n n0 n1' => ?_
    unfold farK
    rw [Finset.sum_mul]
    refine Finset.sum_congr rfl fun l _ => ?_
    rw [show n - -(i / 2) = (i + 2 * n) / 2 by omega]
    unfold ext
    rw [show 2 * ((i + 2 * n) / 2) + i % 2 = i + 2 * n by omega, if_pos (show i + 2 * n < P.N by omega), ite_mul, zero_mul]
  · refine Finset.sum_eq_zero fun l hl => ?_
    by_cases c : q < i / 2
    · refine if_neg (not_far s1 (Finset.mem_range.1 hl) ?_)
      have := Int.ediv_le_ediv (show 0 < P.s by omega) (show q ≤ i / 2 by omega)
      omega
    · unfold ext
      rw [if_neg (show ¬ 2 * q + i % 2 < P.N by omega), mul_zero, ite_self]

theorem farBoth_spec {P : Plan K} {φ : Int → K → K} {R : Int → Int → Int → K} (h : Shape P) (hT : TreeOk P φ R) (junk : Int → K) {A : Buf K} (hA : 3 * totalBlocks P.L * (P.M * P.M) ≤ A.size)
    {src out : Buf K} {b st bo so : Int} (hs : Room src b st P.N) (ho : Room out bo so P.N) :
    farBoth P junk A src b st out bo so = some (bump out (spread bo so P.N fun i => ∑ n ∈ Finset.Ico 0 ((P.N - i + 1) / 2), farK P A φ i (i + 2 * n) * at' src b st (i + 2 * n))) := by
  obtain ⟨s1, -, n1, -⟩ := h.facts
  obtain ⟨o0, e0, s0, v0⟩ := farField_spec hT junk le_rfl (by norm_num) hA hs
  obtain ⟨o1, e1, s1', v1⟩ := farField_spec hT junk (odd := 1) (by norm_num) le_rfl hA hs
  have hev := h.even
  unfold farBoth
  rw [e0, Option.bind_some, scatter_spec hev le_rfl (by norm_num) (by omega) ho, Option.bind_some, e1, Option.bind_some, scatter_spec hev (by norm_num) le_rfl (by omega) ho.bump, bump_bump]
  refine congrArg some (bump_congr fun q => ?_)
  rw [spread_add]
  refine congrFun (spread_congr fun i i0 i1 => ?_) q
  rw [← far_sum h hT _ i0]
  rcases Int.emod_two_eq_zero_or_one i with c | c
  · rw [if_pos c, if_neg (by omega), add_zero, v0 _ (by omega) (by omega), c]
  · rw [if_neg (by omega), if_pos c, zero_add, v1 _ (by omega) (by omega), c]

/-- What `L2C` adds for the pair of entries. -/
def kerM (P : Plan K) (A : Buf K) (φ : Int → K → K) (i n : Int) : K :=
  if (i + 2 * n) / (2 * P.s) ≤ i / (2 * P.s) + 1 then P.D.a.val n * P.D.a.val (n + i) else farK P A φ i (i + 2 * n)

theorem executeL2C_spec {F : Lib K} {P : Plan K} {φ : Int → K → K} {R : Int → Int → Int → K} (h : Shape P) (hT : TreeOk P φ R) (ha : (P.D.a.size : Int) = P.N) (junk : Int → K) {A : Buf K}
    (eA : P.A false = some A) (hA : 3 * totalBlocks P.L * (P.M * P.M) ≤ A.size) {inp out : Buf K} {bi bo st : Int} (hi : Room inp bi st P.N) (ho : Room out bo st P.N) :
    ∃ out', executeL2C F P junk inp bi out bo st = some out' ∧ Keeps out out' bo st P.N ∧ ∀ i, 0 ≤ i → i < P.N →
      at' out' bo st i = (at' out bo st i + ∑ n ∈ Finset.Ico 0 ((P.N - i + 1) / 2), kerM P A φ i n * at' inp bi st (i + 2 * n)) * F.m2pi * (if i = 0 then 1 / 2 else 1) := by
  obtain ⟨s1, -, -, -⟩ := h.facts
  unfold executeL2C
  rw [eA, Option.bind_some, farBoth_spec h hT junk hA hi ho, Option.bind_some]
  obtain ⟨out', e, k, v⟩ := directM_spec (F := F) h ha hi (ho.bump (δ := spread bo st P.N fun i => ∑ n ∈ Finset.Ico 0 ((P.N - i + 1) / 2), farK P A φ i (i + 2 * n) * at' inp bi st (i + 2 * n)))
  refine ⟨out', e, ⟨k.1, fun q hq => ?_⟩, fun i i0 i1 => ?_⟩
  · rw [k.2 q hq]
    show out.val q + _ = _
    rw [spread_out ho.stride _ hq, add_zero]
  · rw [v i i0 i1]
    congr 2
    show out.val (bo + i * st) + spread _ _ _ _ _ + _ = _
    rw [spread_at ho.stride _ i0 i1, add_assoc]
    congr 1
    rw [← sum_Ico_shrink (lo := 0) (hi := (P.N - i + 1) / 2) (lo' := 0) (hi' := nu P.s P.N i) (f := fun n => if n < nu P.s P.N i then P.D.a.val n * P.D.a.val (n + i) * at' inp bi st (i + 2 * n) else 0)
      (fun n n0 n1 hn => if_neg (by omega)) le_rfl nu_le |>.trans (sum_Ico_congr fun n n0 n1 => if_pos n1), ← Finset.sum_add_distrib]
    refine sum_Ico_congr fun n n0 n1 => ?_
    unfold kerM
    have := lt_nu (i := i) (n := n) s1 (show i + 2 * n < P.N by omega)
    by_cases c : n < nu P.s P.N i
    · rw [if_pos c, if_pos (this.1 c), farK_near s1 (this.1 c), zero_mul, zero_add]
    · rw [if_neg c, if_neg fun h => c (this.2 h), add_zero]

/-! ## `C2L` -/

theorem weighted_spec {N : Int} (hN : 2 ≤ N) (junk : Int → K) {inp : Buf K} {bi st : Int} (hi : Room inp bi st N) :
    ∃ w, weighted junk N inp bi st = some w ∧ (w.size : Int) = N ∧ ∀ i, 0 ≤ i → i < N → w.val i = if i = 0 then at' inp bi st 0 else at' inp bi st i * i := by
  unfold weighted
  have p0 := hi.pos (i := 0) le_rfl (by omega)
  have p1 := hi.pos (i := 1) (by omega) (by omega)
  rw [zero_mul, add_zero] at p0
  rw [one_mul] at p1
  have sj : (((⟨N.toNat, junk⟩ : Buf K).size : ℕ) : Int) = N := by show ((N.toNat : ℕ) : Int) = N; omega
  rw [Buf.rd_of p0.1 p0.2, Option.bind_some, Buf.wr_of le_rfl (by rw [sj]; omega), Option.bind_some, Buf.rd_of p1.1 p1.2, Option.bind_some, Buf.wr_of (by omega) (by show (1 : Int) < _; rw [sj]; omega), Option.bind_some]
  obtain ⟨w, e, sw, vw, kw⟩ := forUp_wr (lo := 2) (hi := N) (f := fun i => i) (v := fun i => at' inp bi st i * i)
    (b := ⟨N.toNat, Function.update (Function.update junk 0 (inp.val bi)) 1 (inp.val (bi + st))⟩) (body := fun i w => (inp.rd (bi + i * st)).bind fun x => w.wr i (x * i))
    (fun i i0 i1 => ⟨by omega, by show i < ((⟨N.toNat, junk⟩ : Buf K).size : Int); rw [sj]; exact i1⟩)
    (fun i Z i0 i1 _ => by have p := hi.pos (i := i) (by omega) i1; rw [Buf.rd_of p.1 p.2]; rfl) fun i j h => h
  refine ⟨w, e, by rw [sw]; exact sj, fun i i0 i1 => ?_⟩
  by_cases c0 : i = 0
  · subst c0
    rw [if_pos rfl, kw 0 fun i _ _ => by omega]
    unfold at'
    dsimp only
    rw [Function.update_of_ne (by norm_num), Function.update_self, zero_mul, add_zero]
  rw [if_neg c0]
  by_cases c1 : i = 1
  · subst c1
    rw [kw 1 fun i _ _ => by omega]
    unfold at'
    dsimp only
    rw [Function.update_self, one_mul, Int.cast_one, mul_one]
  · exact vw i (by omega) i1

theorem directL_spec {F : Lib K} {P : Plan K} (h : Shape P) {an dn : Buf K} (ea : P.D.an = some an) (ed : P.D.dn = some dn) (sa : (an.size : Int) = P.N) (sd : (dn.size : Int) = (P.N + 1) / 2)
    {inp out : Buf K} {bo st : Int} (hi : (inp.size : Int) = P.N) (ho : Room out bo st P.N) :
    ∃ out', directL F P inp out bo st = some out' ∧ Keeps out out' bo st P.N ∧ ∀ i, 0 ≤ i → i < P.N →
      at' out' bo st i = (at' out bo st i + F.sqrtPi * inp.val i * an.val i + ∑ n ∈ Finset.Ico 1 (nu P.s P.N i), -(dn.val n * inp.val (i + 2 * n) * an.val (n + i))) * (i + 1 / 2) := by
  obtain ⟨s1, s4, -, big⟩ := h.facts
  have hev := h.even
  have hsm := h.small
  have p31 : (2 : Int) ^ 31 = 2147483648 := by norm_num
  have p64 : (2 : Int) ^ 64 = 18446744073709551616 := by norm_num
  obtain ⟨m, hm⟩ : ∃ m, m = P.N / (2 * P.s) - 1 := ⟨_, rfl⟩
  have r := Int.mul_ediv_add_emod P.N (2 * P.s)
  have r0 := Int.emod_nonneg P.N (show 2 * P.s ≠ 0 by omega)
  have r1 := Int.emod_lt_of_pos P.N (show 0 < 2 * P.s by omega)
  have q1 : 2 ≤ P.N / (2 * P.s) := (Int.le_ediv_iff_mul_le (by omega)).2 (by omega)
  have q2 : P.N / (2 * P.s) ≤ P.N := Int.ediv_le_self _ (by omega)
  have szm : sz (P.N / (2 * P.s) - 1) = m := by rw [sz_of (by omega) (by omega), hm]
  have fm : m * (2 * P.s) = 2 * P.s * (P.N / (2 * P.s)) - 2 * P.s := by rw [hm]; ring
  rw [← hm] at big
  unfold directL
  rw [ea, Option.bind_some, ed, Option.bind_some]
  dsimp only
  rw [szm]
  obtain ⟨i0, hi0⟩ : ∃ i0, i0 = m * (2 * P.s) := ⟨_, rfl⟩
  have i00 : 0 ≤ i0 := by rw [hi0]; exact Int.mul_nonneg (by omega) (by omega)
  rw [← hi0] at big
  rw [forUp_adds (i0 := 0) (v := fun j => F.sqrtPi * inp.val j * an.val j) ho le_rfl (by omega) fun i Z i0 i1 _ => by
    rw [Buf.rd_of i0 (by omega), Option.bind_some, Buf.rd_of i0 (by omega), Option.bind_some, zero_add], Option.bind_some]
  rw [forUp_spread (γ := fun block j => ∑ n ∈ Finset.Ico 1 (2 * P.s),
      (if block * (2 * P.s) + 0 ≤ j ∧ j < block * (2 * P.s) + (if 2 * n < 2 * P.s then 2 * P.s else 2 * (2 * P.s) - 2 * n) then -(dn.val n * inp.val (j + 2 * n) * an.val (n + j)) else 0)) ho.bump
    (fun block Z b0 b1 hZ => by
      have bb : 0 ≤ block * (2 * P.s) := Int.mul_nonneg b0 (by omega)
      have bb' : (block + 2) * (2 * P.s) ≤ P.N := by
        have := Int.mul_le_mul_of_nonneg_right (show block + 2 ≤ P.N / (2 * P.s) by omega) (show 0 ≤ 2 * P.s by omega)
        have f : P.N / (2 * P.s) * (2 * P.s) = 2 * P.s * (P.N / (2 * P.s)) := by ring
        omega
      have fb : (block + 2) * (2 * P.s) = block * (2 * P.s) + 4 * P.s := by ring
      rw [forStep_spread (γ := fun k j => (fun n => if block * (2 * P.s) + 0 ≤ j ∧ j < block * (2 * P.s) + (if 2 * n < 2 * P.s then 2 * P.s else 2 * (2 * P.s) - 2 * n) then -(dn.val n * inp.val (j + 2 * n) * an.val (n + j)) else 0) (k - -1))
        (by omega) hZ fun n Y n0 n1 hY => by
        rw [show 2 + 2 * n = 2 * (n - -1) by ring] at n1 ⊢
        exact forUp_adds (i0 := block * (2 * P.s)) (v := fun j => -(dn.val (n - -1) * inp.val (j + 2 * (n - -1)) * an.val (n - -1 + j))) hY (by omega) (by split_ifs <;> omega)
          (fun i X i0 i1 hX => by
            have lt : 2 * (n - -1) + i < 4 * P.s := by split_ifs at i1 <;> omega
            rw [show 2 * (n - -1) / 2 = n - -1 by omega, Buf.rd_of (by omega) (by omega), Option.bind_some, Buf.rd_of (by omega) (by omega), Option.bind_some, Buf.rd_of (by omega) (by omega), Option.bind_some]
            rw [show n - -1 + (block * (2 * P.s) + i) = block * (2 * P.s) + (n - -1) + i by ring, show block * (2 * P.s) + i + 2 * (n - -1) = block * (2 * P.s) + 2 * (n - -1) + i by ring])]
      refine congrArg some (congrArg _ (spread_congr fun j _ _ => ?_))
      rw [sum_shift 1 (2 * P.s) (-1), show (1 : Int) + -1 = 0 by norm_num, show (4 * P.s - 2 + 1) / 2 = 2 * P.s + -1 by omega]), Option.bind_some]
  rw [← hi0, sz_of (show 0 ≤ P.N - i0 by omega) (by omega)]
  rw [forUp_spread (γ := fun n j => if 0 + i0 ≤ j ∧ j < 0 + (P.N - 2 * n) then -(dn.val n * an.val (n + j) * inp.val (j + 2 * n)) else 0) ho.bump.bump
    (fun n Z n0 n1 hZ => by
      rw [sz_of (by omega) (by omega)]
      exact forUp_adds (i0 := 0) (v := fun j => -(dn.val n * an.val (n + j) * inp.val (j + 2 * n))) hZ (by omega) (by omega) (fun i X i0 i1 hX => by
        rw [Buf.rd_of (by omega) (by omega), Option.bind_some, Buf.rd_of (by omega) (by omega), Option.bind_some, Buf.rd_of (by omega) (by omega), Option.bind_some, zero_add])), Option.bind_some]
  rw [bump_bump, bump_bump]
  generalize hZ : bump out _ = Z
  have rZ : Room Z bo st P.N := by rw [← hZ]; exact ho.bump
  have sZ : Z.size = out.size := by rw [← hZ]; rfl
  obtain ⟨Y, e1, sY, vY, kY⟩ := forUp_mulAt (lo := 0) (hi := P.N) (f := fun i => bo + i * st) (v := fun i => ((i : K) + 1 / 2)) (b := Z) (fun i i0 i1 => rZ.pos i0 i1) (stride_inj ho.stride)
  refine ⟨Y, e1, ⟨by rw [sY, sZ], fun q hq => ?_⟩, fun i i00' i1 => ?_⟩
  · rw [kY q hq, ← hZ]
    show out.val q + _ = _
    beta_reduce
    rw [spread_out ho.stride _ hq, spread_out ho.stride _ hq, spread_out ho.stride _ hq, add_zero, add_zero, add_zero]
  · unfold at'
    rw [vY i i00' i1, ← hZ]
    congr 1
    show out.val (bo + i * st) + _ = _
    beta_reduce
    rw [spread_at ho.stride _ i00' i1, spread_at ho.stride _ i00' i1, spread_at ho.stride _ i00' i1, block_sum s1 i00' (by norm_num) le_rfl _ m hm, ← hi0, add_assoc]
    rw [if_pos (show 0 + 0 ≤ i ∧ i < 0 + P.N by omega)]
    congr 2
    by_cases c : i < i0
    · rw [if_pos c]
      refine (congrArg _ (Finset.sum_eq_zero fun n _ => if_neg (by omega))).trans (add_zero _)
    · rw [if_neg c, zero_add, nu_last s1 i1 (by rw [← hm, ← hi0]; omega), sum_Ico_shrink (lo' := 1) (hi' := (P.N - i + 1) / 2) (fun n a b h => if_neg (by omega)) le_rfl (by omega)]
      refine sum_Ico_congr fun n a b => ?_
      rw [if_pos (by omega)]
      ring

/-- What `C2L` adds for the pair of entries. -/
def kerL (F : Lib K) (P : Plan K) (A : Buf K) (φ : Int → K → K) (an dn : Buf K) (i n : Int) : K :=
  if n = 0 then F.sqrtPi * an.val i else if (i + 2 * n) / (2 * P.s) ≤ i / (2 * P.s) + 1 then -(dn.val n * an.val (n + i)) else farK P A φ i (i + 2 * n)

theorem executeC2L_spec {F : Lib K} {P : Plan K} {φ : Int → K → K} {R : Int → Int → Int → K} (h : Shape P) (hT : TreeOk P φ R) {an dn : Buf K} (ea : P.D.an = some an) (ed : P.D.dn = some dn)
    (sa : (an.size : Int) = P.N) (sd : (dn.size : Int) = (P.N + 1) / 2) (junk : Int → K) {A : Buf K}
    (eA : P.A true = some A) (hA : 3 * totalBlocks P.L * (P.M * P.M) ≤ A.size) {inp out : Buf K} {bi bo st : Int} (hi : Room inp bi st P.N) (ho : Room out bo st P.N) :
    ∃ out', executeC2L F P junk inp bi out bo st = some out' ∧ Keeps out out' bo st P.N ∧ ∀ i, 0 ≤ i → i < P.N →
      at' out' bo st i = (at' out bo st i + ∑ n ∈ Finset.Ico 0 ((P.N - i + 1) / 2), kerL F P A φ an dn i n * ((if i + 2 * n = 0 then 1 else ((i + 2 * n : Int) : K)) * at' inp bi st (i + 2 * n))) * (i + 1 / 2) := by
  obtain ⟨s1, s4, -, -⟩ := h.facts
  unfold executeC2L
  obtain ⟨w, ew, sw, vw⟩ := weighted_spec (by omega) junk hi
  have hw : Room w 0 1 P.N := ⟨le_rfl, le_rfl, by omega⟩
  rw [ew, Option.bind_some, eA, Option.bind_some, farBoth_spec h hT junk hA hw ho, Option.bind_some]
  obtain ⟨out', e, k, v⟩ := directL_spec (F := F) h ea ed sa sd sw (ho.bump (δ := spread bo st P.N fun i => ∑ n ∈ Finset.Ico 0 ((P.N - i + 1) / 2), farK P A φ i (i + 2 * n) * at' w 0 1 (i + 2 * n)))
  refine ⟨out', e, ⟨k.1, fun q hq => ?_⟩, fun i i0 i1 => ?_⟩
  · rw [k.2 q hq]
    show out.val q + _ = _
    rw [spread_out ho.stride _ hq, add_zero]
  · rw [v i i0 i1]
    congr 1
    show out.val (bo + i * st) + spread _ _ _ _ _ + _ + _ = _
    rw [spread_at ho.stride _ i0 i1, add_assoc, add_assoc]
    congr 1
    rw [← sum_Ico_shrink (lo := 0) (hi := (P.N - i + 1) / 2) (lo' := 1) (hi' := nu P.s P.N i) (f := fun n => if 1 ≤ n ∧ n < nu P.s P.N i then -(dn.val n * w.val (i + 2 * n) * an.val (n + i)) else 0)
      (fun n n0 n1 hn => if_neg (by omega)) (by norm_num) nu_le |>.trans (sum_Ico_congr fun n n0 n1 => if_pos ⟨n0, n1⟩)]
    rw [← sum_Ico_delta (lo := 0) (hi := (P.N - i + 1) / 2) (i := 0) le_rfl (by omega) (fun _ => F.sqrtPi * w.val i * an.val i), ← Finset.sum_add_distrib, ← Finset.sum_add_distrib]
    refine sum_Ico_congr fun n n0 n1 => ?_
    have wv : at' w 0 1 (i + 2 * n) = (if i + 2 * n = 0 then 1 else ((i + 2 * n : Int) : K)) * at' inp bi st (i + 2 * n) := by
      show w.val (0 + (i + 2 * n) * 1) = _
      rw [zero_add, mul_one, vw _ (by omega) (by omega)]
      split_ifs with c
      · rw [c, one_mul]
      · rw [mul_comm]
    have wv' : w.val (i + 2 * n) = at' w 0 1 (i + 2 * n) := by unfold at'; rw [zero_add, mul_one]
    rw [← wv]
    unfold kerL
    have := lt_nu (i := i) (n := n) s1 (show i + 2 * n < P.N by omega)
    by_cases z : n = 0
    · subst z
      have nr : (i + 2 * 0) / (2 * P.s) ≤ i / (2 * P.s) + 1 := by rw [mul_zero, add_zero]; omega
      rw [if_pos rfl, if_neg (show ¬ (1 ≤ (0 : Int) ∧ _) by omega), if_pos rfl, farK_near s1 nr, ← wv', mul_zero, add_zero]
      ring
    rw [if_neg z, if_neg z]
    by_cases c : n < nu P.s P.N i
    · rw [if_pos ⟨by omega, c⟩, if_pos (this.1 c), farK_near s1 (this.1 c), wv']; ring
    · rw [if_neg (fun h => c h.2), if_neg fun h => c (this.2 h)]; ring

end FT.Props.Lc
