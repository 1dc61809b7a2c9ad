import Verif.Model.RankOne
import Verif.Lemmas.Accum
import Verif.Lemmas.Recurrence
import Verif.Lemmas.Sqrt
import Mathlib.Algebra.BigOperators.Field
import Mathlib.Algebra.Order.BigOperators.Group.Finset

/-! # Lemmas on the rank-one update algebra -/

namespace FT
variable {K : Type*}

theorem sweepOff_eq {o lo hi : Int} {f : Int → Buf K → Option K} {x : Buf K} (y : Int → K) (h0 : 0 ≤ o + lo) (h1 : o + hi ≤ x.size)
    (hf : ∀ i, lo ≤ i → i < hi → f i (mix x (o + lo) (o + i) fun k => y (k - o)) = some (y i)) :
    sweepOff o lo hi f x = some (mix x (o + lo) (o + hi) fun k => y (k - o)) := by
  obtain ⟨s, e, p⟩ := forUp_spec (body := fun i x => (f i x).bind (x.wr (o + i))) (lo := lo) (hi := hi) (s := x)
    (fun i s => s = mix x (o + lo) (o + i) fun k => y (k - o)) (mix_empty x (le_refl _) _).symm
    (fun i l h s p => ⟨mix x (o + lo) (o + (i + 1)) fun k => y (k - o), by
      subst p
      simp only [hf i l h, Option.bind_some]
      have := mix_wr_up (x := x) (lo := o + lo) (i := o + i) (y := fun k => y (k - o)) (by omega) (by omega) (by omega)
      rw [show o + i - o = i by omega, add_assoc] at this
      exact this, rfl⟩)
  unfold sweepOff
  rw [e, p]
  rcases le_total lo hi with hl | hl
  · rw [max_eq_right hl]
  · rw [max_eq_left hl, mix_empty x (le_refl _), mix_empty x (by omega)]

section Ring
variable [CommRing K]

/-- `Σ_{i<n} a_i b_i` -/
def dotN (n : Int) (a b : Int → K) : K := ∑ i ∈ Finset.Ico 0 n, a i * b i

theorem dotN_congr {n : Int} {a a' b b' : Int → K} (h : ∀ i, 0 ≤ i → i < n → a i = a' i ∧ b i = b' i) : dotN n a b = dotN n a' b' :=
  sum_Ico_congr fun i h0 h1 => by rw [(h i h0 h1).1, (h i h0 h1).2]

theorem copySq_eq {n : Int} {z : Buf K} (hz : n ≤ z.size) (junk : Int → K) : copySq n z junk = some (mix ⟨n.toNat, junk⟩ 0 n z.val, dotN n z.val z.val) := by
  obtain ⟨s, e, h1, h2⟩ := forUp_spec (lo := 0) (hi := n) (body := fun i (s : Buf K × K) => (z.rd i).bind fun zi => (s.1.wr i zi).map fun y => (y, s.2 + zi * zi))
    (s := ((⟨n.toNat, junk⟩ : Buf K), (0 : K))) (fun i s => s.1 = mix ⟨n.toNat, junk⟩ 0 i z.val ∧ s.2 = ∑ k ∈ Finset.Ico 0 i, z.val k * z.val k)
    ⟨(mix_empty _ (le_refl _) _).symm, by simp⟩
    (fun i i0 i1 s ⟨h1, h2⟩ => by
      obtain ⟨y, t⟩ := s
      simp only at h1 h2
      subst h1 h2
      refine ⟨(mix ⟨n.toNat, junk⟩ 0 (i + 1) z.val, (∑ k ∈ Finset.Ico 0 i, z.val k * z.val k) + z.val i * z.val i), ?_, rfl, (sum_Ico_succ i0 _).symm⟩
      simp only [Buf.rd_of (b := z) i0 (by omega), Option.bind_some]
      rw [mix_wr_up i0 (by show i < ((n.toNat : Nat) : Int); omega) i0]; rfl)
  unfold copySq
  rw [e]
  obtain ⟨y, t⟩ := s
  simp only at h1 h2
  subst h1 h2
  rcases le_total 0 n with hn | hn
  · rw [max_eq_right hn]; rfl
  · rw [max_eq_left hn, mix_empty _ (le_refl _), mix_empty _ hn]
    unfold dotN
    rw [Finset.Ico_self, Finset.Ico_eq_empty (by omega)]

theorem irmv_eq {tr : Char} (ht : tr = 'N' ∨ tr = 'T') {A : Idpr1 K} {x : Buf K} (hz : A.n ≤ A.z.size) (hx : A.n ≤ x.size) :
    irmv tr A x = some (mix x 0 A.n fun i => x.val i + dotN A.n A.z.val x.val * A.sigma * A.z.val i) := by
  unfold irmv
  rw [if_pos ht, accUp_eq (g := fun i => A.z.val i * x.val i) fun i h0 h1 => by
    rw [Buf.rd_of (b := A.z) h0 (by omega), Option.bind_some, Buf.rd_of (b := x) h0 (by omega)]; rfl]
  rw [Option.bind_some, zero_add]
  refine sweepUp_eq _ (le_refl _) hx fun i h0 h1 => ?_
  rw [Buf.rd_of (b := mix x 0 i _) h0 (by show i < (x.size : Int); omega), mix_val_out (by omega), Option.bind_some, Buf.rd_of (b := A.z) h0 (by omega)]
  rfl

theorem drmv_eq {tr : Char} (ht : tr = 'N' ∨ tr = 'T') {A : Dpr1 K} {x : Buf K} (hd : A.n ≤ A.d.size) (hz : A.n ≤ A.z.size) (hx : A.n ≤ x.size) :
    drmv tr A x = some (mix x 0 A.n fun i => A.d.val i * x.val i + dotN A.n A.z.val x.val * A.rho * A.z.val i) := by
  unfold drmv
  rw [if_pos ht, accUp_eq (g := fun i => A.z.val i * x.val i) fun i h0 h1 => by
    rw [Buf.rd_of (b := A.z) h0 (by omega), Option.bind_some, Buf.rd_of (b := x) h0 (by omega)]; rfl]
  rw [Option.bind_some, zero_add]
  refine sweepUp_eq _ (le_refl _) hx fun i h0 h1 => ?_
  rw [Buf.rd_of (b := A.d) h0 (by omega), Option.bind_some, Buf.rd_of (b := mix x 0 i _) h0 (by show i < (x.size : Int); omega), mix_val_out (by omega), Option.bind_some,
    Buf.rd_of (b := A.z) h0 (by omega)]
  rfl

theorem mix_mix {x : Buf K} {lo hi : Int} {y z : Int → K} : mix (mix x lo hi y) lo hi z = mix x lo hi z :=
  Buf.ext' rfl fun j => by unfold mix; simp only; split_ifs <;> rfl

theorem mix_self {x : Buf K} {lo hi : Int} {y : Int → K} (h : ∀ i, lo ≤ i → i < hi → y i = x.val i) : mix x lo hi y = x :=
  Buf.ext' rfl fun j => by
    unfold mix; simp only; split_ifs with hj
    · exact h j hj.1 hj.2
    · rfl

theorem dotN_add (n : Int) (a b c : Int → K) : dotN n a (fun i => b i + c i) = dotN n a b + dotN n a c := by
  unfold dotN; rw [← Finset.sum_add_distrib]; exact Finset.sum_congr rfl fun i _ => mul_add _ _ _

theorem dotN_smul (n : Int) (a b : Int → K) (t : K) : dotN n a (fun i => t * b i) = t * dotN n a b := by
  unfold dotN; rw [Finset.mul_sum]; exact Finset.sum_congr rfl fun i _ => by ring

theorem dotN_comm (n : Int) (a b : Int → K) : dotN n a b = dotN n b a := Finset.sum_congr rfl fun i _ => mul_comm _ _

/-- Two identity-plus-rank-one products after one another, with the same vector. -/
theorem irmv_irmv {t1 t2 : Char} (h1 : t1 = 'N' ∨ t1 = 'T') (h2 : t2 = 'N' ∨ t2 = 'T') {A B : Idpr1 K} {x : Buf K} (hz : A.n ≤ A.z.size) (hx : A.n ≤ x.size)
    (hn : B.n = A.n) (hz' : A.n ≤ B.z.size) (hzz : ∀ i, 0 ≤ i → i < A.n → B.z.val i = A.z.val i) :
    ((irmv t1 A x).bind (irmv t2 B)) = some (mix x 0 A.n fun i => x.val i +
      dotN A.n A.z.val x.val * (A.sigma + B.sigma + A.sigma * B.sigma * dotN A.n A.z.val A.z.val) * A.z.val i) := by
  rw [irmv_eq h1 hz hx, Option.bind_some, irmv_eq h2 (by omega) (by rw [hn]; exact hx), hn, mix_mix]
  congr 1
  refine mix_succ_congr fun i i0 i1 => ?_
  rw [mix_val_in i0 i1, hzz i i0 i1]
  have e : dotN A.n B.z.val (mix x 0 A.n fun i => x.val i + dotN A.n A.z.val x.val * A.sigma * A.z.val i).val =
      dotN A.n A.z.val x.val + dotN A.n A.z.val x.val * A.sigma * dotN A.n A.z.val A.z.val := by
    rw [dotN_congr (a' := A.z.val) (b' := fun i => x.val i + dotN A.n A.z.val x.val * A.sigma * A.z.val i) fun k k0 k1 => ⟨hzz k k0 k1, mix_val_in k0 k1⟩,
      dotN_add, dotN_smul]
  rw [e]; ring

end Ring

section Field
variable [Field K] [DecidableEq K]

theorem dpr1Inv_eq {A : Dpr1 K} (hd : A.n ≤ A.d.size) (hz : A.n ≤ A.z.size) (j1 j2 : Int → K) (hne : ∀ i, 0 ≤ i → i < A.n → A.d.val i ≠ 0)
    (hs : 1 + A.rho * dotN A.n A.z.val (fun i => 1 / A.d.val i * A.z.val i) ≠ 0) :
    dpr1Inv A j1 j2 = some ⟨A.n, mix ⟨A.n.toNat, j1⟩ 0 A.n (fun i => 1 / A.d.val i), mix ⟨A.n.toNat, j2⟩ 0 A.n (fun i => 1 / A.d.val i * A.z.val i),
      -A.rho / (1 + A.rho * dotN A.n A.z.val (fun i => 1 / A.d.val i * A.z.val i))⟩ := by
  obtain ⟨s, e, h1, h2, h3⟩ := forUp_spec (lo := 0) (hi := A.n) (body := dpr1InvBody A)
    (s := ((⟨A.n.toNat, j1⟩ : Buf K), (⟨A.n.toNat, j2⟩ : Buf K), (0 : K)))
    (fun i s => s.1 = mix ⟨A.n.toNat, j1⟩ 0 i (fun i => 1 / A.d.val i) ∧ s.2.1 = mix ⟨A.n.toNat, j2⟩ 0 i (fun i => 1 / A.d.val i * A.z.val i) ∧
      s.2.2 = ∑ k ∈ Finset.Ico 0 i, A.z.val k * (1 / A.d.val k * A.z.val k))
    ⟨(mix_empty _ (le_refl _) _).symm, (mix_empty _ (le_refl _) _).symm, by simp⟩
    (fun i i0 i1 s ⟨h1, h2, h3⟩ => by
      obtain ⟨e, y, t⟩ := s
      simp only at h1 h2 h3
      subst h1 h2 h3
      refine ⟨(mix ⟨A.n.toNat, j1⟩ 0 (i + 1) (fun i => 1 / A.d.val i), mix ⟨A.n.toNat, j2⟩ 0 (i + 1) (fun i => 1 / A.d.val i * A.z.val i),
        (∑ k ∈ Finset.Ico 0 i, A.z.val k * (1 / A.d.val k * A.z.val k)) + A.z.val i * (1 / A.d.val i * A.z.val i)), ?_, rfl, rfl, (sum_Ico_succ i0 _).symm⟩
      unfold dpr1InvBody
      simp only [Buf.rd_of (b := A.d) i0 (by omega), Buf.rd_of (b := A.z) i0 (by omega), Option.bind_some, divC_of (hne i i0 i1)]
      have w1 := mix_wr_up (x := (⟨A.n.toNat, j1⟩ : Buf K)) (lo := 0) (i := i) (y := fun i => 1 / A.d.val i) i0 (by show i < ((A.n.toNat : Nat) : Int); omega) i0
      have w2 := mix_wr_up (x := (⟨A.n.toNat, j2⟩ : Buf K)) (lo := 0) (i := i) (y := fun i => 1 / A.d.val i * A.z.val i) i0 (by show i < ((A.n.toNat : Nat) : Int); omega) i0
      rw [w1]
      simp only [Option.bind_some]
      rw [Buf.rd_of (b := mix ⟨A.n.toNat, j1⟩ 0 (i + 1) _) i0 (by show i < ((A.n.toNat : Nat) : Int); omega), mix_val_in i0 (by omega)]
      simp only [Option.bind_some]
      rw [w2]
      simp only [Option.bind_some]
      rw [Buf.rd_of (b := mix ⟨A.n.toNat, j2⟩ 0 (i + 1) _) i0 (by show i < ((A.n.toNat : Nat) : Int); omega), mix_val_in i0 (by omega)]
      rfl)
  unfold dpr1Inv
  rw [e, Option.bind_some]
  obtain ⟨e', y, t⟩ := s
  simp only at h1 h2 h3
  have ht : t = dotN A.n A.z.val (fun i => 1 / A.d.val i * A.z.val i) := by
    rw [h3]; unfold dotN
    rcases le_total 0 A.n with hn | hn
    · rw [max_eq_right hn]
    · rw [max_eq_left hn, Finset.Ico_self, Finset.Ico_eq_empty (by omega)]
  simp only [ht]
  rw [divC_of hs, Option.map_some, h1, h2]
  rcases le_total 0 A.n with hn | hn
  · rw [max_eq_right hn]
  · rw [max_eq_left hn, mix_empty _ (le_refl _), mix_empty _ (le_refl _), mix_empty _ hn, mix_empty _ hn]

theorem poleSum_eq {A : Dpr1 K} {m : Int} (hd : m ≤ A.d.size) (hz : m ≤ A.z.size) {lo hi t0 : K} (hne : ∀ i, 0 ≤ i → i < m → A.d.val i - hi - lo ≠ 0)
    {g : K → K → K → Option K} {g' : K → K → K → K} (hg : ∀ z t w, w ≠ 0 → g z t w = some (g' z t w)) :
    poleSum A m lo hi t0 g = some (t0 + ∑ i ∈ Finset.Ico 0 m, g' (A.z.val i) (A.z.val i / (A.d.val i - hi - lo)) (A.d.val i - hi - lo)) := by
  unfold poleSum
  refine accUp_eq fun i h0 h1 => ?_
  rw [Buf.rd_of (b := A.z) h0 (by omega), Option.bind_some, Buf.rd_of (b := A.d) h0 (by omega), Option.bind_some, divC_of (hne i h0 h1), Option.bind_some, hg _ _ _ (hne i h0 h1)]

end Field

section Ordered
variable [Field K] [LinearOrder K] [IsStrictOrderedRing K]

theorem copysignK_mul_self {r x : K} : x * copysignK r x = |x| * |r| := by
  unfold copysignK
  split_ifs with hx
  · rw [abs_of_neg hx]; ring
  · rw [abs_of_nonneg (not_lt.1 hx)]

theorem copysignK_sq (r x : K) : copysignK r x * copysignK r x = r * r := by
  unfold copysignK
  split_ifs
  · rw [neg_mul_neg, abs_mul_abs_self]
  · rw [abs_mul_abs_self]

/-- The unnormalised eigenvector. -/
def eigU (A : Dpr1 K) (lo hi : Buf K) (j i : Int) : K := A.z.val i / (A.d.val i - hi.val j - lo.val j)

/-- The column computed for `lambda_j` when the norm routine returns `s j`. -/
def eigV (sqrt : K → K) (A : Dpr1 K) (lo hi : Buf K) (s : Int → K) (j i : Int) : K := eigU A lo hi j i * copysignK (1 / sqrt (s j)) (eigU A lo hi j j)

theorem eigFill_eq {A : Dpr1 K} {lo hi : Buf K} {j : Int} {Q : Buf K} (hd : A.n ≤ A.d.size) (hz : A.n ≤ A.z.size) (j0 : 0 ≤ j) (hlo : j < lo.size) (hhi : j < hi.size)
    (hne : ∀ i, 0 ≤ i → i < A.n → A.d.val i - hi.val j - lo.val j ≠ 0) (q0 : 0 ≤ j * A.n) (q1 : j * A.n + A.n ≤ Q.size) :
    eigFill A lo hi j Q = some (mix Q (j * A.n) (j * A.n + A.n) fun k => eigU A lo hi j (k - j * A.n)) := by
  unfold eigFill
  have := sweepOff_eq (o := j * A.n) (lo := 0) (hi := A.n) (x := Q)
    (f := fun i _ => (A.z.rd i).bind fun zi => (A.d.rd i).bind fun di => (hi.rd j).bind fun h => (lo.rd j).bind fun l => divC zi (di - h - l))
    (eigU A lo hi j) (by omega) q1 (fun i i0 i1 => by
      rw [Buf.rd_of (b := A.z) i0 (by omega), Option.bind_some, Buf.rd_of (b := A.d) i0 (by omega), Option.bind_some, Buf.rd_of (b := hi) j0 hhi, Option.bind_some,
        Buf.rd_of (b := lo) j0 hlo, Option.bind_some, divC_of (hne i i0 i1)]
      rfl)
  rw [add_zero] at this
  exact this

theorem eigDot_eq {n j : Int} {Q : Buf K} (q0 : 0 ≤ j * n) (q1 : j * n + n ≤ Q.size) {w : Int → Option K} {w' : Int → K} (hw : ∀ i, 0 ≤ i → i < n → w i = some (w' i)) :
    eigDot n j Q w = some (dotN n (fun i => Q.val (j * n + i)) w') := by
  unfold eigDot
  rw [accUp_eq (g := fun i => Q.val (j * n + i) * w' i) fun i h0 h1 => by
    rw [Buf.rd_of (b := Q) (by omega) (by omega), Option.bind_some, hw i h0 h1]; rfl]
  rw [zero_add]; rfl

theorem eigScale_eq {sqrt : K → K} (hsq : IsSqrt sqrt) {n j : Int} {s : K} (hs : 0 < s) {Q : Buf K} (j0 : 0 ≤ j) (jn : j < n) (q0 : 0 ≤ j * n) (q1 : j * n + n ≤ Q.size) :
    eigScale sqrt n j s Q = some (mix Q (j * n) (j * n + n) fun k => Q.val k * copysignK (1 / sqrt s) (Q.val (j * n + j))) := by
  unfold eigScale sqrtC
  rw [if_neg (not_lt.2 (le_of_lt hs)), Option.bind_some, divC_of (ne_of_gt (sqrt_pos hsq hs)), Option.bind_some, Buf.rd_of (b := Q) (by omega) (by omega), Option.bind_some]
  have := sweepOff_eq (o := j * n) (lo := 0) (hi := n) (x := Q)
    (f := fun i Q' => (Q'.rd (j * n + i)).map fun x => x * copysignK (1 / sqrt s) (Q.val (j * n + j)))
    (fun i => Q.val (j * n + i) * copysignK (1 / sqrt s) (Q.val (j * n + j))) (by omega) q1 (fun i i0 i1 => by
      rw [Buf.rd_of (b := mix Q _ _ _) (by omega) (by show j * n + i < (Q.size : Int); omega), mix_val_out (by omega)]
      rfl)
  rw [add_zero] at this
  rw [this]
  congr 1
  refine mix_succ_congr fun k _ _ => ?_
  rw [show j * n + (k - j * n) = k by omega]

theorem mulj_le {n m j : Int} (hn : 0 ≤ n) (hj : j < m) : j * n + n ≤ n * m := by
  have := Int.mul_le_mul_of_nonneg_left (show j + 1 ≤ m by omega) hn
  rw [Int.mul_add, Int.mul_one, Int.mul_comm n j] at this
  exact this

/-- Common part of the two eigenvector routines. -/
theorem eigLoop {sqrt : K → K} (hsq : IsSqrt sqrt) {A : Dpr1 K} {lo hi : Buf K} {m : Int} (hn : 0 ≤ A.n) (hm : m ≤ A.n) (hd : A.n ≤ A.d.size) (hz : A.n ≤ A.z.size)
    (hlo : m ≤ lo.size) (hhi : m ≤ hi.size) (hne : ∀ i j, 0 ≤ i → i < A.n → 0 ≤ j → j < m → A.d.val i - hi.val j - lo.val j ≠ 0)
    {nrm : Int → Buf K → Option K} (s : Int → K) (hs : ∀ j, 0 ≤ j → j < m → 0 < s j)
    (hnrm : ∀ j Q, 0 ≤ j → j < m → 0 ≤ j * A.n → j * A.n + A.n ≤ Q.size → (∀ i, 0 ≤ i → i < A.n → Q.val (j * A.n + i) = eigU A lo hi j i) → nrm j Q = some (s j)) :
    forUp 0 m (fun j Q => (eigFill A lo hi j Q).bind fun Q => (nrm j Q).bind fun s => eigScale sqrt A.n j s Q) ⟨(A.n * m).toNat, fun _ => 0⟩ =
      some (mix ⟨(A.n * m).toNat, fun _ => 0⟩ 0 (max 0 m * A.n) fun k => eigV sqrt A lo hi s (k / A.n) (k % A.n)) := by
  obtain ⟨Q, e, h⟩ := forUp_spec (lo := 0) (hi := m) (body := fun j Q => (eigFill A lo hi j Q).bind fun Q => (nrm j Q).bind fun s => eigScale sqrt A.n j s Q)
    (s := ⟨(A.n * m).toNat, fun _ => 0⟩) (fun j Q => Q = mix ⟨(A.n * m).toNat, fun _ => 0⟩ 0 (j * A.n) fun k => eigV sqrt A lo hi s (k / A.n) (k % A.n))
    (by rw [zero_mul]; exact (mix_empty _ (le_refl _) _).symm)
    (fun j j0 j1 Q hQ => by
      have hjn : 0 ≤ j * A.n := Int.mul_nonneg j0 hn
      have hle := mulj_le hn j1
      have hsz : j * A.n + A.n ≤ Q.size := by
        rw [hQ]; show _ ≤ (((A.n * m).toNat : Nat) : Int); omega
      refine ⟨_, ?_, rfl⟩
      rw [eigFill_eq hd hz j0 (by omega) (by omega) (fun i i0 i1 => hne i j i0 i1 j0 j1) hjn hsz, Option.bind_some,
        hnrm j _ j0 j1 hjn (by exact hsz) (fun i i0 i1 => by rw [mix_val_in (by omega) (by omega)]; simp), Option.bind_some,
        eigScale_eq hsq (hs j j0 j1) j0 (by omega) hjn (by exact hsz), mix_mix, hQ]
      congr 1
      rw [show (j + 1) * A.n = j * A.n + A.n by ring, ← mix_append (a := 0) (b := j * A.n) (c := j * A.n + A.n) hjn (by omega)]
      refine mix_succ_congr fun k k0 k1 => ?_
      rw [mix_val_in k0 k1, mix_val_in (by omega) (by omega)]
      have hk : k / A.n = j ∧ k % A.n = k - j * A.n := by
        have hpos : 0 < A.n := by omega
        have e1 : k / A.n = j := by
          apply Int.le_antisymm
          · exact Int.lt_add_one_iff.1 (Int.ediv_lt_of_lt_mul hpos (by rw [add_mul, one_mul]; exact k1))
          · exact (Int.le_ediv_iff_mul_le hpos).2 k0
        refine ⟨e1, ?_⟩
        rw [Int.emod_def, e1, Int.mul_comm]
      rw [hk.1, hk.2]
      unfold eigV
      rw [show j * A.n + j - j * A.n = j by omega])
  rw [e, h]

end Ordered

end FT
