import Verif.Lemmas.TbEigRun
import Verif.Lemmas.HierNorm

/-! # Scalings of divide-and-conquer factorisations -/

namespace FT.Props.TbEig
open FT FT.Model FT.Props.Hier
set_option linter.unusedSectionVars false
variable {K : Type*} [Field K] [DecidableEq K]

/-- A double loop that changes one entry at a time. -/
theorem grid_run {m n : Int} {w : Int → Int} {step : Int → Int → Buf K → Option (Buf K)} {g : Int → Int → K → K} {A : Buf K}
    (hw : ∀ j, 0 ≤ j → j < n → w j ≤ m)
    (hst : ∀ i j, 0 ≤ i → i < w j → 0 ≤ j → j < n → ∀ B : Buf K, B.size = A.size → step i j B = some ⟨B.size, Function.update B.val (i + j * m) (g i j (B.val (i + j * m)))⟩) :
    ∃ A', forUp 0 n (fun j A => forUp 0 (w j) (fun i A => step i j A) A) A = some A' ∧ A'.size = A.size ∧
      ∀ i j, 0 ≤ i → i < m → 0 ≤ j → j < n → A'.val (i + j * m) = if i < w j then g i j (A.val (i + j * m)) else A.val (i + j * m) := by
  obtain ⟨A', e, p⟩ := forUp_spec (lo := 0) (hi := n) (s := A)
    (body := fun j A => forUp 0 (w j) (fun i A => step i j A) A)
    (fun j A' => A'.size = A.size ∧ ∀ i k, 0 ≤ i → i < m → 0 ≤ k → k < n → A'.val (i + k * m) = if k < j ∧ i < w k then g i k (A.val (i + k * m)) else A.val (i + k * m))
    ⟨rfl, fun i k _ _ k0 _ => by rw [if_neg (by omega)]⟩ (by
      intro j j0 j1 A1 ⟨h1, h2⟩
      have hwj := hw j j0 j1
      obtain ⟨A2, e2, p1, p2⟩ := forUp_spec (lo := 0) (hi := w j) (s := A1) (body := fun i A => step i j A)
        (fun r A' => A'.size = A.size ∧ ∀ i k, 0 ≤ i → i < m → 0 ≤ k → k < n → A'.val (i + k * m) = if (k < j ∧ i < w k) ∨ (k = j ∧ i < r) then g i k (A.val (i + k * m)) else A.val (i + k * m))
        ⟨h1, fun i k i0 i1 k0 k1 => by rw [h2 i k i0 i1 k0 k1]; congr 1; apply propext; omega⟩ (by
          intro r r0 r1 A2 ⟨q1, q2⟩
          refine ⟨_, hst r j r0 r1 j0 j1 A2 q1, q1, ?_⟩
          intro i k i0 i1 k0 k1
          dsimp only
          rw [q2 r j r0 (by omega) j0 j1, if_neg (by omega)]
          by_cases hik : i = r ∧ k = j
          · obtain ⟨rfl, rfl⟩ := hik
            rw [Function.update_self, if_pos (by omega)]
          · rw [Function.update_of_ne (fun h => hik (rc_inj' i0 i1 r0 (by omega) h)), q2 i k i0 i1 k0 k1]
            congr 1; apply propext; omega)
      refine ⟨A2, e2, p1, fun i k i0 i1 k0 k1 => ?_⟩
      rw [p2 i k i0 i1 k0 k1]
      congr 1; apply propext
      by_cases hk : k = j
      · subst hk; omega
      · omega)
  refine ⟨A', e, p.1, fun i j i0 i1 j0 j1 => ?_⟩
  rw [p.2 i j i0 i1 j0 j1]
  congr 1; apply propext; omega

theorem rc_bd {m n i j : Int} {s : Nat} (hs : m * n ≤ s) (i0 : 0 ≤ i) (i1 : i < m) (j0 : 0 ≤ j) (j1 : j < n) : 0 ≤ i + j * m ∧ i + j * m < s := by
  have := mul_nonneg j0 (by omega : 0 ≤ m)
  have h : (j + 1) * m ≤ n * m := Int.mul_le_mul_of_nonneg_right (by omega) (by omega)
  rw [Int.add_mul, Int.one_mul, Int.mul_comm n m] at h
  omega

theorem scaleTri_run {n : Int} {f : Int → Int → Option K} {g : Int → Int → K} {V : Buf K} (hV : n * n ≤ V.size)
    (hf : ∀ i j, 0 ≤ i → i ≤ j → j < n → f i j = some (g i j)) :
    ∃ V', scaleTri n f V = some V' ∧ V'.size = V.size ∧ ∀ i j, 0 ≤ i → i ≤ j → j < n → V'.val (i + j * n) = g i j * V.val (i + j * n) := by
  unfold scaleTri
  obtain ⟨V', e, s, v⟩ := grid_run (m := n) (n := n) (w := fun j => j + 1) (A := V)
    (step := fun i j V => do let a ← V.rd (i + j * n); let v ← f i j; V.wr (i + j * n) (a * v)) (g := fun i j a => g i j * a) (fun j _ _ => by omega) (by
      intro i j i0 i1 j0 j1 B hB
      obtain ⟨b0, b1⟩ := rc_bd (m := n) (n := n) (s := B.size) (by rw [hB]; exact hV) i0 (by omega) j0 j1
      rw [Buf.rd_of b0 b1, hf i j i0 (by omega) j1]
      rw [mul_comm (g i j)]
      exact Buf.wr_of (b := B) b0 b1)
  refine ⟨V', e, s, fun i j i0 i1 j1 => ?_⟩
  rw [v i j i0 (by omega) (by omega) j1, if_pos (by omega)]

/-- `F'` has the shape and the workspace of `F` and its entries are those of `F` multiplied by `f`. -/
structure EScaled (BS : Int) (f : Int → Int → K) (F F' : TbEig K) : Prop where
  n : F'.n = F.n
  sized : ESized BS F'
  scr : ∀ t, EScr t F' = EScr t F
  scrOk : ∀ t s, EScrOk t s F' = EScrOk t s F
  mat : ∀ i j, 0 ≤ i → i < F.n → 0 ≤ j → j < F.n → mat F' i j = f i j * mat F i j
  arrs : eArrs F' = eArrs F
  sparse : NoSparse F → NoSparse F'

/-- The same for the coupling of two halves. -/
structure CScaled (n : Int) (f : Int → Int → K) (c c' : Couple K) : Prop where
  sized : CplSized n c'
  scr : ∀ t, CplScr t n c' = CplScr t n c
  scrOk : ∀ t s, CplScrOk t s n c' = CplScrOk t s n c
  ent : ∀ i j, 0 ≤ i → i < n / 2 → 0 ≤ j → j < n - n / 2 → coupling n c' i j = f i j * coupling n c i j
  arrs : cArrs n c' = cArrs n c
  sparse : (∀ d, c = .fmm d → d.nnz ≤ 0) → ∀ d, c' = .fmm d → d.nnz ≤ 0

theorem noSparse_node {n : Int} {c : Couple K} {F1 F2 : TbEig K} : NoSparse (.node n c F1 F2) ↔ (∀ d, c = .fmm d → d.nnz ≤ 0) ∧ NoSparse F1 ∧ NoSparse F2 := by
  cases c with
  | fmm c => exact ⟨fun h => ⟨fun c' e => by cases e; exact h.1, h.2⟩, fun h => ⟨h.1 c rfl, h.2⟩⟩
  | adi L => exact ⟨fun h => ⟨fun c' e => (by cases e), h⟩, fun h => h.2⟩

theorem scaled_leaf {BS n : Int} {V V' : Buf K} {f : Int → Int → K} (hS : ESized BS (.leaf n V)) (hs : V'.size = V.size)
    (hv : ∀ i j, 0 ≤ i → i ≤ j → j < n → V'.val (i + j * n) = f i j * V.val (i + j * n)) : EScaled BS f (.leaf n V) (.leaf n V') := by
  refine ⟨rfl, ⟨hS.1, hS.2.1, by rw [hs]; exact hS.2.2⟩, fun _ => rfl, fun _ _ => rfl, fun i j i0 i1 j0 j1 => ?_, rfl, fun _ => trivial⟩
  rw [mat, mat]
  by_cases h : i ≤ j
  · rw [if_pos h, if_pos h, hv i j i0 h j1]
  · rw [if_neg h, if_neg h, mul_zero]

theorem scaled_node {BS n : Int} {c c' : Couple K} {F1 F2 F1' F2' : TbEig K} {f f1 f2 fc : Int → Int → K} (hS : ESized BS (.node n c F1 F2))
    (hc : CScaled n fc c c') (h1 : EScaled BS f1 F1 F1') (h2 : EScaled BS f2 F2 F2') (e1 : ∀ i j, 0 ≤ i → i < n / 2 → 0 ≤ j → j < n / 2 → f1 i j = f i j)
    (e2 : ∀ i j, 0 ≤ i → i < n - n / 2 → 0 ≤ j → j < n - n / 2 → f2 i j = f (i + n / 2) (j + n / 2))
    (ec : ∀ i k j, 0 ≤ i → i < n / 2 → 0 ≤ k → k < n / 2 → 0 ≤ j → j < n - n / 2 → f1 i k * fc k j = f i (j + n / 2)) :
    EScaled BS f (.node n c F1 F2) (.node n c' F1' F2') := by
  obtain ⟨n0, hB, -, ⟨hn1, -⟩, hn2, -⟩ := hS
  refine ⟨rfl, ⟨n0, hB, hc.sized, ⟨h1.n.trans hn1, h1.sized⟩, h2.n.trans hn2, h2.sized⟩, ?_, ?_, ?_, ?_, fun h => ?_⟩
  · intro t; funext a; simp only [EScr]; rw [hc.scr, h1.scr, h2.scr]
  · intro t s; simp only [EScrOk]; rw [hc.scrOk, h1.scrOk, h2.scrOk]
  · intro i j i0 i1 j0 j1
    simp only [TbEig.n] at i1 j1
    rw [mat, mat]
    by_cases hi : i < n / 2
    · rw [if_pos hi, if_pos hi]
      by_cases hj : j < n / 2
      · rw [if_pos hj, if_pos hj, h1.mat i j i0 (by omega) j0 (by omega), e1 i j i0 hi j0 hj]
      · rw [if_neg hj, if_neg hj, Finset.mul_sum]
        refine sum_Ico_congr fun k k0 k1 => ?_
        rw [h1.mat i k i0 (by omega) k0 (by omega), hc.ent k (j - n / 2) k0 k1 (by omega) (by omega)]
        have := ec i k (j - n / 2) i0 hi k0 k1 (by omega) (by omega)
        rw [show j - n / 2 + n / 2 = j by omega] at this
        rw [← this]; ring
    · rw [if_neg hi, if_neg hi]
      by_cases hj : j < n / 2
      · rw [if_pos hj, if_pos hj, mul_zero]
      · rw [if_neg hj, if_neg hj, h2.mat _ _ (by omega) (by omega) (by omega) (by omega), e2 _ _ (by omega) (by omega) (by omega) (by omega)]
        rw [show i - n / 2 + n / 2 = i by omega, show j - n / 2 + n / 2 = j by omega]
  · simp only [eArrs]; rw [hc.arrs, h1.arrs, h2.arrs]
  · obtain ⟨a, b, d⟩ := noSparse_node.1 h
    exact noSparse_node.2 ⟨hc.sparse a, h1.sparse b, h2.sparse d⟩

theorem scaleRowsTb_run {BS : Int} (alpha : K) (x : Buf K) : ∀ {F : TbEig K}, ESized BS F → ∀ {d : Int}, 0 ≤ d → d + F.n ≤ x.size →
    ∃ F', scaleRowsTb BS alpha x F d = some F' ∧ EScaled BS (fun i _ => alpha * x.val (d + i)) F F'
  | .leaf n V, hS, d, d0, d1 => by
    simp only [TbEig.n] at d1
    obtain ⟨V', e, s, v⟩ := scaleTri_run (f := fun i _ => do let v ← x.rd (d + i); some (alpha * v)) (g := fun i _ => alpha * x.val (d + i)) hS.2.2
      (fun i j i0 i1 j1 => by rw [Buf.rd_of (by omega) (by omega)]; rfl)
    exact ⟨.leaf n V', by rw [scaleRowsTb, if_pos hS.2.1, e]; rfl, scaled_leaf hS s v⟩
  | .node n c F1 F2, hS, d, d0, d1 => by
    have hS' := hS
    obtain ⟨n0, hB, hc, ⟨hn1, hs1⟩, hn2, hs2⟩ := hS
    simp only [TbEig.n] at d1
    obtain ⟨F1', r1, s1⟩ := scaleRowsTb_run alpha x hs1 d0 (by omega)
    obtain ⟨F2', r2, s2⟩ := scaleRowsTb_run alpha x hs2 (d := d + n / 2) (by omega) (by omega)
    refine ⟨.node n c F1' F2', by rw [scaleRowsTb, if_neg (by omega), r1]; simp [r2], ?_⟩
    refine scaled_node hS' (fc := fun _ _ => 1) ⟨hc, fun _ => rfl, fun _ _ => rfl, fun _ _ _ _ _ _ => by rw [one_mul], rfl, id⟩ s1 s2 (fun _ _ _ _ _ _ => rfl) ?_ ?_
    · intro i j _ _ _ _; rw [show d + n / 2 + i = d + (i + n / 2) by omega]
    · intro i k j _ _ _ _ _ _; rw [mul_one]

theorem scaleCouple_run {n : Int} (n0 : 0 ≤ n) (x : Buf K) : ∀ {c : Couple K}, CplSized n c → (∀ c', c = .fmm c' → c'.nnz ≤ 0) → ∀ {d : Int}, 0 ≤ d → d + n ≤ x.size →
    (∀ i, 0 ≤ i → i < n / 2 → x.val (d + i) ≠ 0) →
    ∃ c', scaleCouple n x d c = some c' ∧ CScaled n (fun i j => (x.val (d + i))⁻¹ * x.val (d + (j + n / 2))) c c'
  | .fmm c, hS, hns, d, d0, d1, hx => by
    obtain ⟨b0, hF, hX, hY, hp1, hp2, hs⟩ := hS
    obtain ⟨X', eX, sX, vX⟩ := grid_run (m := n / 2) (n := c.b) (w := fun _ => n / 2) (A := c.X)
      (step := fun i k X => do let a ← X.rd (i + k * (n / 2)); let v ← x.rd (d + i); let q ← divC a v; X.wr (i + k * (n / 2)) q) (g := fun i _ a => a / x.val (d + i)) (fun j _ _ => le_refl _) (by
        intro i k i0 i1 k0 k1 B hB
        obtain ⟨b0, b1⟩ := rc_bd (s := B.size) (by rw [hB]; exact hX) i0 i1 k0 k1
        rw [Buf.rd_of b0 b1, Buf.rd_of (b := x) (by omega) (by omega)]
        simp only [Option.bind_eq_bind, Option.bind_some]
        rw [divC_of (hx i i0 i1)]
        exact Buf.wr_of (b := B) b0 b1)
    obtain ⟨Y', eY, sY, vY⟩ := grid_run (m := n - n / 2) (n := c.b) (w := fun _ => n - n / 2) (A := c.Y)
      (step := fun i k Y => do let a ← Y.rd (i + k * (n - n / 2)); let v ← x.rd (d + (i + n / 2)); Y.wr (i + k * (n - n / 2)) (a * v)) (g := fun i _ a => a * x.val (d + (i + n / 2)))
      (fun j _ _ => le_refl _) (by
        intro i k i0 i1 k0 k1 B hB
        obtain ⟨b0, b1⟩ := rc_bd (s := B.size) (by rw [hB]; exact hY) i0 i1 k0 k1
        rw [Buf.rd_of b0 b1, Buf.rd_of (b := x) (by omega) (by omega)]
        exact Buf.wr_of (b := B) b0 b1)
    refine ⟨.fmm { c with X := X', Y := Y' }, ?_, ⟨b0, hF, by rw [sX]; exact hX, by rw [sY]; exact hY, hp1, hp2, hs⟩, fun _ => rfl, fun _ _ => rfl, ?_, rfl, fun h d e => by cases e; exact h c rfl⟩
    · unfold scaleCouple
      dsimp only at eX eY ⊢
      rw [eX]
      simp only [Option.bind_eq_bind, Option.bind_some]
      simp only [Option.bind_eq_bind] at eY
      rw [eY]
      rfl
    · intro i j i0 i1 j0 j1
      have hz := hns c rfl
      rw [coupling, coupling]
      dsimp only
      rw [Finset.Ico_eq_empty (a := 0) (b := c.nnz) (by omega)]
      simp only [Finset.sum_empty, add_zero]
      rw [mul_neg, Finset.mul_sum]
      congr 1
      refine sum_Ico_congr fun k k0 k1 => ?_
      rw [vX i k i0 i1 k0 k1, vY j k j0 j1 k0 k1, if_pos i1, if_pos j1]
      ring
  | .adi L, hS, hns, d, d0, d1, hx => by
    obtain ⟨hL, hm, hn⟩ := hS
    obtain ⟨H1, e1, s1⟩ := scaleCols_run 1 x hL (d := d + n / 2) (by omega) (by simp only [HMat.cols]; omega)
    obtain ⟨t, et, pt⟩ := forUp_spec (lo := 0) (hi := n / 2) (s := (⟨(n / 2).toNat, fun _ => 0⟩ : Buf K)) (body := fun i t => do let v ← x.rd (d + i); let q ← divC 1 v; t.wr i q)
      (fun k t => t.size = (n / 2).toNat ∧ ∀ i, 0 ≤ i → i < k → t.val i = (x.val (d + i))⁻¹) ⟨rfl, fun i _ _ => by omega⟩ (by
        intro k k0 k1 t ⟨h1, h2⟩
        refine ⟨⟨t.size, Function.update t.val k (x.val (d + k))⁻¹⟩, ?_, h1, ?_⟩
        · rw [Buf.rd_of (b := x) (by omega) (by omega)]
          simp only [Option.bind_eq_bind, Option.bind_some]
          rw [divC_of (hx k k0 k1), one_div]
          exact Buf.wr_of (b := t) k0 (by omega)
        · intro i i0 i1
          dsimp only
          by_cases h : i = k
          · rw [h, Function.update_self]
          · rw [Function.update_of_ne h]; exact h2 i i0 (by omega))
    obtain ⟨t1, t2⟩ := pt
    obtain ⟨L1, rfl, a1, a2, a3⟩ : ∃ L1, H1 = .low L1 ∧ L1.t1 = L.t1 ∧ L1.t2 = L.t2 ∧ L1.r = L.r := by
      rw [scaleCols] at e1
      cases h : (scaleC L.n L.r (fun i _ => do let v ← x.rd (d + n / 2 + i); some (1 * v)) L.V) with
      | none => rw [h] at e1; simp at e1
      | some V => rw [h] at e1; simp at e1; exact ⟨_, e1.symm, rfl, rfl, rfl⟩
    have r1 := s1.rows
    have c1 := s1.cols
    simp only [HMat.rows, HMat.cols] at r1 c1
    obtain ⟨H2, e2, s2⟩ := scaleRows_run 1 t s1.sized (d := 0) (le_refl _) (by simp only [HMat.rows]; omega)
    obtain ⟨L2, rfl, b1, b2, b3⟩ : ∃ L2, H2 = .low L2 ∧ L2.t1 = L1.t1 ∧ L2.t2 = L1.t2 ∧ L2.r = L1.r := by
      rw [scaleRows] at e2
      cases h : (scaleC L1.m L1.r (fun i _ => do let v ← t.rd (0 + i); some (1 * v)) L1.U) with
      | none => rw [h] at e2; simp at e2
      | some V => rw [h] at e2; simp at e2; exact ⟨_, e2.symm, rfl, rfl, rfl⟩
    have r2 := s2.rows
    have c2 := s2.cols
    simp only [HMat.rows, HMat.cols] at r2 c2
    refine ⟨.adi L2, ?_, ⟨s2.sized, by omega, by omega⟩, ?_, ?_, ?_, ?_, fun _ d e => by cases e⟩
    · unfold scaleCouple
      dsimp only
      rw [e1]
      simp only [Option.bind_eq_bind, Option.bind_some]
      simp only [Option.bind_eq_bind] at et
      rw [et]
      simp only [Option.bind_some]
      rw [e2]
      rfl
    · intro u; funext a; show Scr u (.low L2) a = Scr u (.low L) a; rw [s2.scr, s1.scr]
    · intro u s; simp only [CplScrOk]; rw [s2.scrOk, s1.scrOk]
    · intro i j i0 i1 j0 j1
      simp only [coupling]
      rw [s2.ent i j i0 (by simp only [HMat.rows]; omega) j0 (by simp only [HMat.cols]; omega), s1.ent i j i0 (by simp only [HMat.rows]; omega) j0 (by simp only [HMat.cols]; omega)]
      rw [Int.zero_add, t2 i i0 (by omega), show d + n / 2 + j = d + (j + n / 2) by omega]
      ring
    · simp only [cArrs, hArrs]; rw [b1, b2, b3, a1, a2, a3]

theorem scaleColsTb_run {BS : Int} (alpha : K) (x : Buf K) : ∀ {F : TbEig K}, ESized BS F → NoSparse F → ∀ {d : Int}, 0 ≤ d → d + F.n ≤ x.size →
    (∀ i, 0 ≤ i → i < F.n → x.val (d + i) ≠ 0) →
    ∃ F', scaleColsTb BS alpha x F d = some F' ∧ EScaled BS (fun _ j => alpha * x.val (d + j)) F F'
  | .leaf n V, hS, _, d, d0, d1, _ => by
    simp only [TbEig.n] at d1
    obtain ⟨V', e, s, v⟩ := scaleTri_run (f := fun _ j => do let v ← x.rd (d + j); some (alpha * v)) (g := fun _ j => alpha * x.val (d + j)) hS.2.2
      (fun i j i0 i1 j1 => by rw [Buf.rd_of (by omega) (by omega)]; rfl)
    exact ⟨.leaf n V', by rw [scaleColsTb, if_pos hS.2.1, e]; rfl, scaled_leaf hS s v⟩
  | .node n c F1 F2, hS, hns, d, d0, d1, hx => by
    have hS' := hS
    obtain ⟨n0, hB, hc, ⟨hn1, hs1⟩, hn2, hs2⟩ := hS
    simp only [TbEig.n] at d1 hx
    have hz := noSparse_node.1 hns
    obtain ⟨c', rc, sc⟩ := scaleCouple_run n0 x hc hz.1 d0 d1 (fun i i0 i1 => hx i i0 (by omega))
    obtain ⟨F1', r1, s1⟩ := scaleColsTb_run alpha x hs1 hz.2.1 d0 (by omega) (fun i i0 i1 => hx i i0 (by omega))
    obtain ⟨F2', r2, s2⟩ := scaleColsTb_run alpha x hs2 hz.2.2 (d := d + n / 2) (by omega) (by omega) (fun i i0 i1 => by
      rw [show d + n / 2 + i = d + (n / 2 + i) by omega]; exact hx _ (by omega) (by omega))
    refine ⟨.node n c' F1' F2', by rw [scaleColsTb, if_neg (by omega), rc]; simp [r1, r2], ?_⟩
    refine scaled_node hS' sc s1 s2 (fun _ _ _ _ _ _ => rfl) ?_ ?_
    · intro i j _ _ _ _; rw [show d + n / 2 + j = d + (j + n / 2) by omega]
    · intro i k j _ _ k0 k1 _ _
      have := hx k k0 (by omega)
      rw [mul_assoc, mul_inv_cancel_left₀ this]

/-- The matrix of a factorisation without zeros on the diagonal has none. -/
theorem regular_iff {BS : Int} : ∀ {F : TbEig K}, ESized BS F → (Regular F ↔ ∀ i, 0 ≤ i → i < F.n → mat F i i ≠ 0)
  | .leaf n V, _ => by
    simp only [TbEig.n, Regular, mat, if_pos (le_refl _)]
  | .node n c F1 F2, hS => by
    obtain ⟨n0, -, -, ⟨hn1, hs1⟩, hn2, hs2⟩ := hS
    simp only [TbEig.n, Regular]
    rw [regular_iff hs1, regular_iff hs2, hn1, hn2]
    constructor
    · rintro ⟨h1, h2⟩ i i0 i1
      rw [mat]
      by_cases h : i < n / 2
      · rw [if_pos h, if_pos h]; exact h1 i i0 h
      · rw [if_neg h, if_neg h]; exact h2 _ (by omega) (by omega)
    · intro h
      refine ⟨fun i i0 i1 => ?_, fun i i0 i1 => ?_⟩
      · have := h i i0 (by omega)
        rwa [mat, if_pos i1, if_pos i1] at this
      · have := h (i + n / 2) (by omega) (by omega)
        rwa [mat, if_neg (by omega), if_neg (by omega), show i + n / 2 - n / 2 = i by omega] at this

end FT.Props.TbEig
