import Verif.Model.Plans
import Verif.Lemmas.EigFmmRun

/-!
# Copying factorisations
-/

set_option linter.unusedSectionVars false

namespace FT.Fmm
open FT FT.Model FT.Prog FT.Props FT.Props.Hier FT.Props.TbEig FT.Props.Eig

theorem copyFrom_run {α : Type*} {junk : Int → α} {d n : Int} {x : Buf α} (d0 : 0 ≤ d) (hx : d + n ≤ x.size) :
    ∃ y, copyFrom junk d n x = some y ∧ y.size = n.toNat ∧ ∀ i, 0 ≤ i → i < n → y.val i = x.val (d + i) := by
  unfold copyFrom
  obtain ⟨y, e, h1, h2⟩ := forUp_spec (lo := 0) (hi := n) (s := (⟨n.toNat, junk⟩ : Buf α)) (body := fun i y => (x.rd (d + i)).bind fun v => y.wr i v)
    (fun I y => y.size = n.toNat ∧ ∀ i, 0 ≤ i → i < I → y.val i = x.val (d + i)) ⟨rfl, fun i _ _ => by omega⟩
    (fun I I0 I1 y h => by
      refine ⟨⟨y.size, Function.update y.val I (x.val (d + I))⟩, by rw [Buf.rd_of (by omega) (by omega), Option.bind_some, Buf.wr_of I0 (by rw [h.1]; omega)], h.1, fun i i0 i1 => ?_⟩
      show Function.update y.val I (x.val (d + I)) i = _
      by_cases hi : i = I
      · subst hi; exact Function.update_self _ _ _
      · rw [Function.update_of_ne hi]; exact h.2 i i0 (by omega))
  exact ⟨y, e, h1, fun i i0 i1 => h2 i i0 (by omega)⟩

theorem isPerm_congr {n : Int} {p q : Buf Int} (h : IsPerm n p) (hs : n ≤ q.size) (hq : ∀ i, 0 ≤ i → i < n → q.val i = p.val i) : IsPerm n q where
  le := hs
  lo k k0 k1 := by rw [hq k k0 k1]; exact h.lo k k0 k1
  hi k k0 k1 := by rw [hq k k0 k1]; exact h.hi k k0 k1
  inj k l k0 k1 l0 l1 := by rw [hq k k0 k1, hq l l0 l1]; exact h.inj k l k0 k1 l0 l1

variable {K : Type*} [Field K] [LinearOrder K] [IsStrictOrderedRing K]

theorem ij_lt2 {i j m b : Int} (i0 : 0 ≤ i) (i1 : i < m) (j0 : 0 ≤ j) (j1 : j < b) : 0 ≤ i + j * m ∧ i + j * m < m * b := by
  have h1 : 0 ≤ j * m := Int.mul_nonneg j0 (by omega)
  have h2 : (j + 1) * m ≤ b * m := Int.mul_le_mul_of_nonneg_right (by omega) (by omega)
  have h3 : (j + 1) * m = j * m + m := by ring
  have h4 : b * m = m * b := by ring
  omega

/-- A copy of a coupling. -/
theorem coupling_congr {n : Int} {c c' : Fmm K} (n0 : 0 ≤ n) (hb : c'.b = c.b) (hn : c'.nnz = c.nnz) (hX : ∀ i k, 0 ≤ i → i < n / 2 → 0 ≤ k → k < c.b → c'.X.val (i + k * (n / 2)) = c.X.val (i + k * (n / 2)))
    (hY : ∀ j k, 0 ≤ j → j < n - n / 2 → 0 ≤ k → k < c.b → c'.Y.val (j + k * (n - n / 2)) = c.Y.val (j + k * (n - n / 2)))
    (h1 : ∀ i, 0 ≤ i → i < n / 2 → c'.p1.val i = c.p1.val i) (h2 : ∀ i, 0 ≤ i → i < n - n / 2 → c'.p2.val i = c.p2.val i)
    (hF : ∀ i j, 0 ≤ i → i < n / 2 → 0 ≤ j → j < n - n / 2 → ent c'.F0 i j = ent c.F0 i j)
    (hS : ∀ l, 0 ≤ l → l < c.nnz → c'.sp.val l = c.sp.val l ∧ c'.sq.val l = c.sq.val l ∧ c'.sv.val l = c.sv.val l) {i j : Int} (i0 : 0 ≤ i) (i1 : i < n / 2) (j0 : 0 ≤ j) (j1 : j < n - n / 2) :
    coupling n (.fmm c') i j = coupling n (.fmm c) i j := by
  show (-∑ k ∈ Finset.Ico 0 c'.b, _) + ∑ l ∈ Finset.Ico 0 c'.nnz, _ = (-∑ k ∈ Finset.Ico 0 c.b, _) + ∑ l ∈ Finset.Ico 0 c.nnz, _
  rw [hb, hn]
  congr 1
  · congr 1
    refine sum_Ico_congr fun k k0 k1 => ?_
    rw [hX i k i0 i1 k0 k1, hY j k j0 j1 k0 k1, sum_Ico_congr fun a a0 a1 => sum_Ico_congr fun d d0 d1 => by rw [h1 a a0 a1, h2 d d0 d1, hF a d a0 a1 d0 d1]]
  · exact sum_Ico_congr fun l l0 l1 => by obtain ⟨e1, e2, e3⟩ := hS l l0 l1; rw [e1, e2, e3]

/-- The copy holds the same matrix and has scratch arrays of its own. -/
theorem dropEig_run {E : FmmEnv K} {lam : Buf K} (hS : Samples E) (hth : 1 ≤ E.threads) (hBS : 2 ≤ E.BS) :
    ∀ (F : TbEig K) (d top : Int), ESized E.BS F → Kern E.tol F (fun i => lam.val (d + i)) → 0 ≤ d → d + F.n ≤ lam.size → 0 ≤ top →
      ∃ G top', dropEig E lam F d top = some (G, top') ∧ G.n = F.n ∧ ESized E.BS G ∧ (Regular F → Regular G) ∧ (∀ i j, 0 ≤ i → i < F.n → 0 ≤ j → j < F.n → mat G i j = mat F i j) ∧
        Placed E.threads top top' (eArrs G) ∧ (NoSparse F → NoSparse G)
  | .leaf n V, d, top, ⟨n0, nB, hV⟩, _, d0, hl, t0 => by
    obtain ⟨y, e, s, v⟩ := copyFrom_run (junk := E.junk) (d := 0) (n := n * n) (x := V) le_rfl (by omega)
    have hnn : 0 ≤ n * n := mul_nonneg n0 n0
    have rng : ∀ i j, 0 ≤ i → i < n → 0 ≤ j → j < n → y.val (i + j * n) = V.val (i + j * n) := fun i j i0 i1 j0 j1 => by
      obtain ⟨b1, b2⟩ := ij_lt2 (m := n) (b := n) i0 i1 j0 j1
      rw [v _ b1 (by omega), zero_add]
    refine ⟨.leaf n y, top, by unfold dropEig; rw [e]; rfl, rfl, ⟨n0, nB, by rw [s]; omega⟩, fun h i i0 i1 => by rw [rng i i i0 i1 i0 i1]; exact h i i0 i1, fun i j i0 i1 j0 j1 => ?_,
      ⟨le_rfl, ⟨fun q hq => by simp [eArrs] at hq, by simp [eArrs]⟩, fun q hq => by simp [eArrs] at hq⟩, fun _ => trivial⟩
    rw [mat, mat]
    split_ifs
    · exact rng i j i0 i1 j0 j1
    · rfl
  | .node n (.adi _) _ _, _, _, _, h, _, _, _ => h.elim
  | .node n (.fmm c) F1 F2, d, top, ⟨n0, nB, ⟨cb, ⟨z1, z2, z3, z4⟩, zX, zY, ⟨zp1, zq1⟩, ⟨zp2, zq2⟩, zs1, zs2, zs3, zs4⟩, ⟨m1, h1⟩, m2, h2⟩, ⟨⟨k1, k2, k3, k4, k5, k6⟩, g1, g2⟩, d0, hl, t0 => by
    have hl : d + n ≤ lam.size := hl
    have s0 : 0 ≤ n / 2 := by omega
    obtain ⟨p1, ep1, sp1, vp1⟩ := copyFrom_run (junk := fun _ => (0 : Int)) (d := 0) (n := n / 2) (x := c.p1) le_rfl (by omega)
    obtain ⟨p2, ep2, sp2, vp2⟩ := copyFrom_run (junk := fun _ => (0 : Int)) (d := 0) (n := n - n / 2) (x := c.p2) le_rfl (by omega)
    obtain ⟨l1, el1, sl1, vl1⟩ := copyFrom_run (junk := E.junk) (d := d) (n := n / 2) (x := lam) d0 (by omega)
    obtain ⟨l2, el2, sl2, vl2⟩ := copyFrom_run (junk := E.junk) (d := d + n / 2) (n := n - n / 2) (x := lam) (by omega) (by omega)
    simp only [zero_add] at vp1 vp2
    have ip1 := isPerm_congr k1 (q := p1) (by rw [sp1]; omega) vp1
    have ip2 := isPerm_congr k2 (q := p2) (by rw [sp2]; omega) vp2
    obtain ⟨x1, ex1, sx1, vx1, -⟩ := C28_perm_N ip1 (x := l1) (by rw [sl1]; omega)
    obtain ⟨x2, ex2, sx2, vx2, -⟩ := C28_perm_N ip2 (x := l2) (by rw [sl2]; omega)
    obtain ⟨y1, ey1, -⟩ := C28_perm_T ip1 (x := x1) (by rw [sx1, sl1]; omega)
    obtain ⟨y2, ey2, -⟩ := C28_perm_T ip2 (x := x2) (by rw [sx2, sl2]; omega)
    have w1 : ∀ i, 0 ≤ i → i < n / 2 → x1.val i = lam.val (d + c.p1.val i) := fun i i0 i1 => by
      rw [vx1 i i0 i1, vp1 i i0 i1, vl1 _ (k1.lo i i0 i1) (k1.hi i i0 i1)]
    have w2 : ∀ i, 0 ≤ i → i < n - n / 2 → x2.val i = lam.val (d + (c.p2.val i + n / 2)) := fun i i0 i1 => by
      rw [vx2 i i0 i1, vp2 i i0 i1, vl2 _ (k2.lo i i0 i1) (k2.hi i i0 i1)]
      congr 1; ring
    obtain ⟨a1, a2, a3, a4, a5, a6⟩ := hS top (n / 2) (n - n / 2) x1 x2 t0 (by omega) (by omega) (by rw [sx1, sl1]; omega) (by rw [sx2, sl2]; omega)
      (fun i j i0 ij j1 => by rw [w1 i i0 (by omega), w1 j (by omega) j1]; exact k3 i j i0 ij j1) (fun i j i0 ij j1 => by rw [w2 i i0 (by omega), w2 j (by omega) j1]; exact k4 i j i0 ij j1)
      (fun i j i0 i1 j0 j1 => by rw [w1 i i0 i1, w2 j j0 j1]; exact k5 _ _ (k1.lo i i0 i1) (k1.hi i i0 i1) (k2.lo j j0 j1) (k2.hi j j0 j1))
    set H := E.cauchy top (n / 2) (n - n / 2) x1 x2 with hH
    have t1 := a6.le
    obtain ⟨G1, t2, eG1, nG1, zG1, rG1, mG1, pG1, oG1⟩ := dropEig_run hS hth hBS F1 d H.2 h1 g1 d0 (by omega) (by omega)
    have t3 := pG1.le
    obtain ⟨G2, t4, eG2, nG2, zG2, rG2, mG2, pG2, oG2⟩ := dropEig_run hS hth hBS F2 (d + n / 2) t2 h2 (kern_congr h2 (fun i i0 i1 => by show lam.val _ = lam.val _; congr 1; ring) g2) (by omega) (by rw [m2]; omega) (by omega)
    have t5 := pG2.le
    obtain ⟨sp, esp, ssp, vsp⟩ := copyFrom_run (junk := fun _ => (0 : Int)) (d := 0) (n := c.nnz) (x := c.sp) le_rfl (by omega)
    obtain ⟨sq, esq, ssq, vsq⟩ := copyFrom_run (junk := fun _ => (0 : Int)) (d := 0) (n := c.nnz) (x := c.sq) le_rfl (by omega)
    obtain ⟨sv, esv, ssv, vsv⟩ := copyFrom_run (junk := E.junk) (d := 0) (n := c.nnz) (x := c.sv) le_rfl (by omega)
    obtain ⟨X, eX, sX, vX⟩ := copyFrom_run (junk := E.junk) (d := 0) (n := n / 2 * c.b) (x := c.X) le_rfl (by omega)
    obtain ⟨Y, eY, sY, vY⟩ := copyFrom_run (junk := E.junk) (d := 0) (n := (n - n / 2) * c.b) (x := c.Y) le_rfl (by omega)
    simp only [zero_add] at vsp vsq vsv vX vY
    have hXb : 0 ≤ n / 2 * c.b := mul_nonneg s0 cb
    have hYb : 0 ≤ (n - n / 2) * c.b := mul_nonneg (by omega) cb
    have q1 : Placed E.threads t4 (t4 + n / 2 * E.threads) [(⟨t4, n / 2 * E.threads, 0⟩, n / 2)] := placed_one (by omega) (by omega) s0
    have q2 : Placed E.threads (t4 + n / 2 * E.threads) (t4 + n / 2 * E.threads + (n - n / 2) * E.threads) [(⟨t4 + n / 2 * E.threads, (n - n / 2) * E.threads, 0⟩, n - n / 2)] :=
      placed_one (by have := q1.le; omega) (by omega) (by omega)
    have hc : ∀ i j, 0 ≤ i → i < n / 2 → 0 ≤ j → j < n - n / 2 → coupling n (.fmm ⟨c.b, H.1, X, Y, p1, p2, c.nnz, sp, sq, sv, ⟨t4, n / 2 * E.threads, 0⟩, ⟨t4 + n / 2 * E.threads, (n - n / 2) * E.threads, 0⟩⟩) i j =
        coupling n (.fmm c) i j := fun i j i0 i1 j0 j1 => by
      refine coupling_congr (c := c) (c' := ⟨c.b, H.1, X, Y, p1, p2, c.nnz, sp, sq, sv, ⟨t4, n / 2 * E.threads, 0⟩, ⟨t4 + n / 2 * E.threads, (n - n / 2) * E.threads, 0⟩⟩) n0 rfl rfl (fun i k i0 i1 k0 k1 => ?_) (fun i k i0 i1 k0 k1 => ?_) vp1 vp2 (fun i j i0 i1 j0 j1 => ?_) (fun l l0 l1 => ⟨vsp l l0 l1, vsq l l0 l1, vsv l l0 l1⟩) i0 i1 j0 j1
      · obtain ⟨b1, b2⟩ := ij_lt2 (m := n / 2) (b := c.b) i0 i1 k0 k1
        exact vX _ b1 (by omega)
      · obtain ⟨b1, b2⟩ := ij_lt2 (m := n - n / 2) (b := c.b) i0 i1 k0 k1
        exact vY _ b1 (by omega)
      · rw [k6 i j i0 i1 j0 j1]
        refine (a5 i j i0 i1 j0 j1).trans ?_
        rw [w1 i i0 i1, w2 j j0 j1]
        rfl
    refine ⟨.node n (.fmm ⟨c.b, H.1, X, Y, p1, p2, c.nnz, sp, sq, sv, ⟨t4, n / 2 * E.threads, 0⟩, ⟨t4 + n / 2 * E.threads, (n - n / 2) * E.threads, 0⟩⟩) G1 G2, t4 + n / 2 * E.threads + (n - n / 2) * E.threads, ?_, rfl,
      ⟨n0, nB, ⟨cb, ⟨a1, a2, a3, a4⟩, by dsimp only; rw [sX]; omega, by dsimp only; rw [sY]; omega, ⟨ip1.le, fun i i0 i1 => ⟨ip1.lo i i0 i1, ip1.hi i i0 i1⟩⟩, ⟨ip2.le, fun i i0 i1 => ⟨ip2.lo i i0 i1, ip2.hi i i0 i1⟩⟩,
        by dsimp only; rw [ssp]; omega, by dsimp only; rw [ssq]; omega, by dsimp only; rw [ssv]; omega, fun l l0 l1 => by dsimp only at l1 ⊢; rw [vsp l l0 l1, vsq l l0 l1]; exact zs4 l l0 l1⟩, ⟨by omega, zG1⟩, by omega, zG2⟩,
      fun h => ⟨rG1 h.1, rG2 h.2⟩, fun i j i0 i1 j0 j1 => ?_, ?_, fun h => ⟨h.1, oG1 h.2.1, oG2 h.2.2⟩⟩
    · have eK : dropKernel E lam n c d top = some ((p1, p2), H) := by
        unfold dropKernel
        rw [ep1, Option.bind_some, ep2, Option.bind_some, el1, Option.bind_some, el2, Option.bind_some, ex1, Option.bind_some, ex2, Option.bind_some, ey1, Option.bind_some, ey2, Option.map_some]
      have eA : dropArrays E n c = some ((sp, sq), sv, X, Y) := by
        unfold dropArrays
        rw [esp, Option.bind_some, esq, Option.bind_some, esv, Option.bind_some, eX, Option.bind_some, eY, Option.map_some]
      unfold dropEig
      rw [eK, Option.bind_some, eG1, Option.bind_some, eG2, Option.bind_some, eA, Option.map_some]
    · have i1 : i < n := i1
      have j1 : j < n := j1
      rw [mat_node, mat_node]
      split_ifs with hi hj hj
      · exact mG1 i j i0 (by omega) j0 (by omega)
      · exact sum_Ico_congr fun k k0 k1 => by rw [mG1 i k i0 (by omega) k0 (by omega), hc k (j - n / 2) k0 k1 (by omega) (by omega)]
      · rfl
      · exact mG2 _ _ (by omega) (by omega) (by omega) (by omega)
    · have := placed_append t0 a6 (placed_append (by omega) pG1 (placed_append (by omega) pG2 (placed_append (by omega) q1 q2)))
      refine placed_perm this ?_
      show List.Perm (hArrs _ ++ (eArrs G1 ++ (eArrs G2 ++ ([_] ++ [_])))) ((_ :: _ :: hArrs _) ++ (eArrs G1 ++ eArrs G2))
      rw [← List.append_assoc, ← List.append_assoc]
      refine List.perm_append_comm.trans ?_
      rw [List.append_assoc, List.append_assoc (hArrs H.1)]
      exact List.Perm.refl _

end FT.Fmm
