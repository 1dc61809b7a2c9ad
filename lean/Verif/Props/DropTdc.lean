import Verif.Lemmas.DropTdc
import Verif.Props.Tdc

/-! # C80: dropping the precision of a divide-and-conquer eigendecomposition -/

namespace FT.Props
open FT

section
variable {K : Type*} [Field K] [LinearOrder K]

/-- **C80.** Every eigendecomposition whose arrays have the sizes the code relies on (`TFormed`), of any depth: `drop_precision_tdc_eigen` stays within all arrays and returns an object with the same
eigenvalues that multiplies, through `tdmv` and any number of times, by the same matrix and its transpose; and the object is again formed, so that it can be dropped once more. -/
theorem C80_drop {bs : Int} (jk : Nat → Nat → Int → K) (ji : Nat → Nat → Int → Int) {n : Int} {F : Tdc K} (h : TFormed bs n F) :
    ∀ key, ∃ G M, dropTdc bs jk ji key F = some G ∧ G.n = n ∧ TFormed bs n G ∧ (∀ i, 0 ≤ i → i < n → G.lambda.val i = F.lambda.val i) ∧ TActs n F M ∧ TActs n G M := by
  induction h with
  | leaf n V l h0 hb hV hl =>
    intro key
    obtain ⟨V', eV, sV, vV⟩ := copyFresh_eq (n := n * n) (src := V) (by omega) (jk key 0)
    obtain ⟨l', el, sl, vl⟩ := copyFresh_eq (n := n) (src := l) (by omega) (jk key 1)
    have hnn : 0 ≤ n * n := mul_nonneg h0 h0
    refine ⟨.leaf n V' l', _, ?_, rfl, .leaf n V' l' h0 hb (by omega) (by omega), vl, tacts_leaf hV,
      (tacts_leaf (l := l') (V := V') (by omega)).congr fun i j i0 i1 j0 j1 => vV _ (idx_lt i0 i1 j0 j1).1 (idx_lt i0 i1 j0 j1).2⟩
    unfold dropTdc
    rw [if_pos hb, eV, Option.bind_some, el, Option.map_some]
  | node n F0 F1 F2 z hb h0 hn f1 f2 hz i1 i2 =>
    intro key
    obtain ⟨G1, M1, e1, n1, t1, _, a1, b1⟩ := i1 (2 * key + 1)
    obtain ⟨G2, M2, e2, n2, t2, _, a2, b2⟩ := i2 (2 * key + 2)
    obtain ⟨G0, W, e0, n0, t0, v0, a0, b0⟩ := dropDpr1_spec h0 (jk key) (ji key)
    rw [hn] at a0 b0 v0
    have hn0 : 0 ≤ n := by have := h0.ok.iz0; have := h0.ok.id0; have := h0.ok.le; omega
    refine ⟨.node n G0 G1 G2 ⟨n.toNat, fun _ => 0⟩, _, ?_, rfl, .node n G0 G1 G2 _ hb t0 (n0.trans hn) t1 t2 (by show n ≤ ((n.toNat : Nat) : Int); omega), v0,
      tacts_node rfl hn0 a0 a1 a2 hz, tacts_node rfl hn0 b0 b1 b2 (by show n ≤ ((n.toNat : Nat) : Int); omega)⟩
    unfold dropTdc
    rw [if_neg (by omega), e0, Option.bind_some, e1, Option.bind_some, e2, Option.map_some]

end

/-- **C80.** Computing in higher precision and dropping: for every pencil that tears (as in `C67_tdc_partial`), `sdtdc_eig` followed by `drop_precision_tdc_eigen` gives ascending `λ` and an object
that multiplies by `M` and by its transpose, with `T M = S M diag(λ)` and `Mᵀ S M = I`, for any contents of fresh memory on both sides. -/
theorem C80_eig_then_drop {bs : Int} (hbs : 2 ≤ bs) {leaf : SymTri ℝ → SymTri ℝ → Option (Buf ℝ × Buf ℝ)} (hl : LeafOk bs leaf) {sqrt : ℝ → ℝ} (hsq : IsSqrt sqrt) {eps fmin : ℝ} (he : 0 ≤ eps)
    (hf : 0 ≤ fmin) {R : RootFinder ℝ} (hR : Finds R) (jk : Nat → Nat → Int → ℝ) (ji : Nat → Int → Int) (jk' : Nat → Nat → Int → ℝ) (ji' : Nat → Nat → Int → Int) {T S : SymTri ℝ} (hn : S.n = T.n)
    (hTa : T.a.size = T.n) (hTb : T.b.size = T.n - 1) (hSa : S.a.size = T.n) (hSb : S.b.size = T.n - 1) (h : Tears bs sqrt eps fmin T.n T.a.val T.b.val S.a.val S.b.val) {fuel : Nat} (hfu : T.n ≤ fuel)
    (key : Nat) :
    ∃ G M, ((sdtdcEig bs leaf sqrt eps fmin R jk ji fuel T S).bind (dropTdc bs jk' ji' key)) = some G ∧ G.n = T.n ∧ TActs T.n G M ∧
      Decomposes T.n (triMat T.a.val T.b.val) (triMat S.a.val S.b.val) M G.lambda.val := by
  obtain ⟨F, M, e, _, _, t, a, d⟩ :=
    tdc_core hbs hl hsq he hf hR (jk := jk) (ji := ji) h fuel T S hfu rfl hn hTa hTb hSa hSb (fun _ _ _ => rfl) (fun _ _ _ => rfl) (fun _ _ _ => rfl) fun _ _ _ => rfl
  obtain ⟨G, M', e', n', _, v, a', b'⟩ := C80_drop jk' ji' t key
  refine ⟨G, M, by rw [e, Option.bind_some, e'], n', b'.congr fun i j i0 i1 j0 j1 => a'.unique a i0 i1 j0 j1, ?_⟩
  refine ⟨fun i j i0 ij jn => by rw [v i i0 (by omega), v j (by omega) jn]; exact d.asc i j i0 ij jn, fun j j0 jn i i0 i1 => ?_, d.orth⟩
  rw [v j j0 jn]
  exact d.eig j j0 jn i i0 i1

/-! ## A case -/

/-- A pencil of size 2 split once (`wT`, `wS` of C67), with different contents of fresh memory on both sides. -/
example : ∃ G M, ((sdtdcEig 2 wLeaf Real.sqrt (1 / 4) (1 / 4) wFinder (fun _ _ _ => 7) (fun _ _ => 9) 2 wT wS).bind (dropTdc 2 (fun _ _ _ => 5) (fun _ _ _ => 3) 0)) = some G ∧ G.n = 2 ∧ TActs 2 G M ∧
    Decomposes 2 (triMat wTa wTb) (triMat wSa wSb) M G.lambda.val :=
  C80_eig_then_drop (le_refl _) wLeaf_ok wSqrt (by norm_num) (by norm_num) wFinder_finds _ _ _ _ (T := wT) (S := wS) rfl rfl rfl rfl rfl (wTears rfl) (fuel := 2) (le_refl (2 : Int)) 0

/-- A rank-one part with a scrambled order, one deflated entry and a 2 × 2 block. -/
def wDrop : Dpr1Eigen ℚ := ⟨⟨0, fun _ => 0⟩, ⟨4, fun i => i + 1⟩, ⟨3, fun i => i⟩, ⟨3, fun _ => 0⟩, ⟨3, fun i => i⟩, ⟨3, fun i => 2 - i⟩, ⟨3, fun i => i⟩, 3, 1, 0⟩

example : wDrop.Formed ∧ TFormed 3 3 (.node 3 wDrop (.leaf 1 ⟨1, fun _ => 1⟩ ⟨1, fun _ => 0⟩) (.leaf 2 ⟨4, fun i => i⟩ ⟨2, fun i => i⟩) ⟨3, fun _ => 0⟩) := by
  have h : wDrop.Formed := ⟨⟨by decide, by decide, by decide, ⟨by decide, fun k a b => by show 0 ≤ 2 - k; have : k < 3 := b; omega, fun k a b => by show 2 - k < 3; omega,
      fun k l _ _ _ _ e => by have : 2 - k = 2 - l := e; omega⟩, ⟨by decide, fun k a _ => a, fun k _ b => b, fun k l _ _ _ _ e => e⟩, by decide, by decide⟩, rfl, rfl, rfl⟩
  exact ⟨h, .node _ _ _ _ _ (le_refl _) h rfl (.leaf 1 _ _ (by decide) (by decide) rfl rfl) (.leaf 2 _ _ (by decide) (by decide) rfl rfl) (by decide)⟩

end FT.Props
