import Verif.Model.Bary
import Verif.Lemmas.EigVec

/-! # The loops of the barycentric matrix -/

set_option linter.unusedSectionVars false

namespace FT
variable {K : Type*} [Field K] [DecidableEq K]

theorem mj_bd {i j m n s : Int} (i0 : 0 ≤ i) (i1 : i < m) (j0 : 0 ≤ j) (j1 : j < n) (h : m * n ≤ s) : 0 ≤ i + m * j ∧ i + m * j < s := by
  have h1 : 0 ≤ m * j := Int.mul_nonneg (by omega) j0
  have h2 : m * (j + 1) ≤ m * n := Int.mul_le_mul_of_nonneg_left (by omega) (by omega)
  have h3 : m * (j + 1) = m * j + m := by ring
  omega

theorem mj_inj {i j i' j' m : Int} (i0 : 0 ≤ i) (i1 : i < m) (i0' : 0 ≤ i') (i1' : i' < m) (h : i + m * j = i' + m * j') : i = i' ∧ j = j' :=
  ij_inj i0 i1 i0' i1' (by rw [mul_comm j, mul_comm j']; exact h)

/-- Every entry of row `i` is replaced by a function of itself. -/
theorem row_map {m n i : Int} (i0 : 0 ≤ i) (i1 : i < m) {A : Buf (Option K)} (hA : m * n ≤ A.size) (g : Int → Option K) (body : Int → Buf (Option K) → Option (Buf (Option K)))
    (hb : ∀ j B, 0 ≤ j → j < n → B.size = A.size → B.val (i + m * j) = A.val (i + m * j) → body j B = B.wr (i + m * j) (g j)) :
    ∃ A', forUp 0 n body A = some A' ∧ A'.size = A.size ∧ (∀ j, 0 ≤ j → j < n → A'.val (i + m * j) = g j) ∧ ∀ q, (∀ j, 0 ≤ j → j < n → q ≠ i + m * j) → A'.val q = A.val q := by
  obtain ⟨A', e, p1, p2, p3, -⟩ := forUp_spec (lo := 0) (hi := n) (s := A) (body := body)
    (fun J B => B.size = A.size ∧ (∀ j, 0 ≤ j → j < J → j < n → B.val (i + m * j) = g j) ∧ (∀ q, (∀ j, 0 ≤ j → j < n → q ≠ i + m * j) → B.val q = A.val q) ∧
      ∀ j, J ≤ j → j < n → B.val (i + m * j) = A.val (i + m * j)) ⟨rfl, fun j h1 h2 => by omega, fun _ _ => rfl, fun _ _ _ => rfl⟩
    (fun j j0 j1 B hB => by
      obtain ⟨b1, b2, b3, b4⟩ := hB
      obtain ⟨h1, h2⟩ := mj_bd i0 i1 j0 j1 hA
      rw [hb j B j0 j1 b1 (b4 j le_rfl j1), Buf.wr_of h1 (by omega)]
      have ne : ∀ j', j' ≠ j → i + m * j' ≠ i + m * j := fun j' h e => h (mj_inj i0 i1 i0 i1 e).2
      refine ⟨_, rfl, b1, fun j' a1 a2 a3 => ?_, fun q hq => ?_, fun j' a1 a2 => ?_⟩
      · dsimp only
        by_cases h : j' = j
        · subst h; rw [Function.update_self]
        · rw [Function.update_of_ne (ne j' h)]; exact b2 j' a1 (by omega) a3
      · dsimp only; rw [Function.update_of_ne (hq j j0 j1)]; exact b3 q hq
      · dsimp only; rw [Function.update_of_ne (ne j' (by omega))]; exact b4 j' (by omega) a2)
  exact ⟨A', e, p1, fun j j0 j1 => p2 j j0 (by omega) j1, p3⟩

theorem baryFill_eq {m n : Int} {x y l : Buf K} (hx : m ≤ x.size) (hy : n ≤ y.size) (hl : n ≤ l.size) {A : Buf (Option K)} (hA : m * n ≤ A.size) :
    ∃ A', baryFill A x m y l n = some A' ∧ A'.size = A.size ∧ (∀ i j, 0 ≤ i → i < m → 0 ≤ j → j < n → A'.val (i + m * j) = divE (l.val j) (x.val i - y.val j)) ∧
      ∀ q, (∀ i j, 0 ≤ i → i < m → 0 ≤ j → j < n → q ≠ i + m * j) → A'.val q = A.val q := by
  unfold baryFill
  obtain ⟨A', e, p1, p2, p3⟩ := forUp_spec (lo := 0) (hi := n) (s := A)
    (body := fun j A => (y.rd j).bind fun yj => (l.rd j).bind fun lj => forUp 0 m (fun i A => (x.rd i).bind fun xi => A.wr (i + m * j) (divE lj (xi - yj))) A)
    (fun J B => B.size = A.size ∧ (∀ i j, 0 ≤ i → i < m → 0 ≤ j → j < J → j < n → B.val (i + m * j) = divE (l.val j) (x.val i - y.val j)) ∧
      ∀ q, (∀ i j, 0 ≤ i → i < m → 0 ≤ j → j < n → q ≠ i + m * j) → B.val q = A.val q) ⟨rfl, fun _ _ _ _ h1 h2 => by omega, fun _ _ => rfl⟩
    (fun j j0 j1 B hB => by
      obtain ⟨b1, b2, b3⟩ := hB
      rw [Buf.rd_of j0 (by omega), Option.bind_some, Buf.rd_of j0 (by omega), Option.bind_some]
      obtain ⟨C, e, c1, c2, c3⟩ := forUp_spec (lo := 0) (hi := m) (s := B) (body := fun i A => (x.rd i).bind fun xi => A.wr (i + m * j) (divE (l.val j) (xi - y.val j)))
        (fun I C => C.size = B.size ∧ (∀ i, 0 ≤ i → i < I → i < m → C.val (i + m * j) = divE (l.val j) (x.val i - y.val j)) ∧
          ∀ q, (∀ i, 0 ≤ i → i < m → q ≠ i + m * j) → C.val q = B.val q) ⟨rfl, fun i h1 h2 => by omega, fun _ _ => rfl⟩
        (fun i i0 i1 C hC => by
          obtain ⟨h1, h2⟩ := mj_bd i0 i1 j0 j1 hA
          rw [Buf.rd_of i0 (by omega), Option.bind_some, Buf.wr_of h1 (by omega)]
          refine ⟨_, rfl, hC.1, fun i' a1 a2 a3 => ?_, fun q hq => ?_⟩
          · dsimp only
            by_cases h : i' = i
            · subst h; rw [Function.update_self]
            · rw [Function.update_of_ne (by omega)]; exact hC.2.1 i' a1 (by omega) a3
          · dsimp only; rw [Function.update_of_ne (hq i i0 i1)]; exact hC.2.2 q hq)
      refine ⟨C, e, by omega, fun i' j' a1 a2 a3 a4 a5 => ?_, fun q hq => ?_⟩
      · by_cases h : j' = j
        · subst h; exact c2 i' a1 (by omega) a2
        · rw [c3 _ fun i h1 h2 e => h (mj_inj a1 a2 h1 h2 e).2]; exact b2 i' j' a1 a2 a3 (by omega) a5
      · rw [c3 q fun i h1 h2 => hq i j h1 h2 j0 j1]; exact b3 q hq)
  exact ⟨A', e, p1, fun i j i0 i1 j0 j1 => p2 i j i0 i1 j0 (by omega) j1, p3⟩

/-- The scan of a row of finite entries. -/
theorem baryScan_finite {m n i : Int} (i0 : 0 ≤ i) (i1 : i < m) {A : Buf (Option K)} (hA : m * n ≤ A.size) {f : Int → K} (hf : ∀ j, 0 ≤ j → j < n → A.val (i + m * j) = some (f j)) :
    baryScan A m n i = some (∑ j ∈ Finset.Ico 0 n, f j, -1) := by
  unfold baryScan
  obtain ⟨s, e, p⟩ := forUp_spec (lo := 0) (hi := n) (s := ((0, -1) : K × Int)) (body := fun j (s : K × Int) =>
    if s.2 ≠ -1 then some s
    else (A.rd (i + m * j)).bind fun a => match a with
      | some a => some (s.1 + a, s.2)
      | none => some (s.1, j)) (fun J s => s = (∑ j ∈ Finset.Ico 0 J, f j, -1)) (by simp)
    (fun j j0 j1 s p => by
      obtain ⟨h1, h2⟩ := mj_bd i0 i1 j0 j1 hA
      subst p
      refine ⟨(∑ j ∈ Finset.Ico 0 (j + 1), f j, -1), ?_, rfl⟩
      rw [if_neg (by simp), Buf.rd_of h1 h2, Option.bind_some, hf j j0 j1, sum_Ico_succ j0])
  refine e.trans ?_
  rw [p]
  rcases le_total 0 n with h | h
  · rw [max_eq_right h]
  · rw [max_eq_left h, Finset.Ico_eq_empty (by omega), Finset.Ico_eq_empty (by omega)]

/-- The scan of a row stops at the first entry that is not finite. -/
theorem baryScan_infinite {m n i k : Int} (i0 : 0 ≤ i) (i1 : i < m) {A : Buf (Option K)} (hA : m * n ≤ A.size) (k0 : 0 ≤ k) (k1 : k < n) (hk : A.val (i + m * k) = none)
    (hf : ∀ j, 0 ≤ j → j < k → A.val (i + m * j) ≠ none) : ∃ t, baryScan A m n i = some (t, k) := by
  unfold baryScan
  obtain ⟨s, e, p⟩ := forUp_spec (lo := 0) (hi := n) (s := ((0, -1) : K × Int)) (body := fun j (s : K × Int) =>
    if s.2 ≠ -1 then some s
    else (A.rd (i + m * j)).bind fun a => match a with
      | some a => some (s.1 + a, s.2)
      | none => some (s.1, j)) (fun J s => s.2 = if k < J then k else -1) (by rw [if_neg (by omega)])
    (fun j j0 j1 s p => by
      obtain ⟨h1, h2⟩ := mj_bd i0 i1 j0 j1 hA
      by_cases h : k < j
      · rw [if_pos h] at p
        exact ⟨s, if_pos (by omega), by rw [if_pos (by omega)]; exact p⟩
      · rw [if_neg h] at p
        rw [if_neg (by simp [p]), Buf.rd_of h1 h2, Option.bind_some]
        by_cases hjk : j = k
        · subst hjk
          rw [hk]
          exact ⟨_, rfl, by rw [if_pos (by omega)]⟩
        · obtain ⟨v, hv⟩ := Option.ne_none_iff_exists'.1 (hf j j0 (by omega))
          rw [hv]
          exact ⟨_, rfl, by rw [if_neg (by omega)]; exact p⟩)
  rw [max_eq_right (by omega), if_pos k1] at p
  exact ⟨s.1, e.trans (by rw [← p])⟩

/-- The row of the interpolation matrix for target `t`. -/
theorem baryRow_finite {m n i : Int} (i0 : 0 ≤ i) (i1 : i < m) {A : Buf (Option K)} (hA : m * n ≤ A.size) {f : Int → K} (hf : ∀ j, 0 ≤ j → j < n → A.val (i + m * j) = some (f j))
    (hs : ∑ j ∈ Finset.Ico 0 n, f j ≠ 0) :
    ∃ A', baryRow m n i A = some A' ∧ A'.size = A.size ∧ (∀ j, 0 ≤ j → j < n → A'.val (i + m * j) = some (f j / ∑ j ∈ Finset.Ico 0 n, f j)) ∧
      ∀ q, (∀ j, 0 ≤ j → j < n → q ≠ i + m * j) → A'.val q = A.val q := by
  unfold baryRow
  rw [baryScan_finite i0 i1 hA hf, Option.bind_some, if_neg (by simp)]
  refine row_map i0 i1 hA (fun j => some (f j / ∑ j ∈ Finset.Ico 0 n, f j)) _ fun j B j0 j1 h1 h2 => ?_
  obtain ⟨b1, b2⟩ := mj_bd i0 i1 j0 j1 hA
  rw [Buf.rd_of b1 (by omega), Option.bind_some, h2, hf j j0 j1]
  unfold divE mulE
  rw [if_neg hs, Option.bind_some, Option.map_some, mul_one_div]

theorem baryRow_infinite {m n i k : Int} (i0 : 0 ≤ i) (i1 : i < m) {A : Buf (Option K)} (hA : m * n ≤ A.size) (k0 : 0 ≤ k) (k1 : k < n) (hk : A.val (i + m * k) = none)
    (hf : ∀ j, 0 ≤ j → j < k → A.val (i + m * j) ≠ none) :
    ∃ A', baryRow m n i A = some A' ∧ A'.size = A.size ∧ (∀ j, 0 ≤ j → j < n → A'.val (i + m * j) = some (if j = k then 1 else 0)) ∧
      ∀ q, (∀ j, 0 ≤ j → j < n → q ≠ i + m * j) → A'.val q = A.val q := by
  unfold baryRow
  obtain ⟨t, e⟩ := baryScan_infinite i0 i1 hA k0 k1 hk hf
  obtain ⟨B, eB, b1, b2, b3⟩ := row_map i0 i1 hA (fun _ => some 0) (fun j A => A.wr (i + m * j) (some 0)) fun j B j0 j1 h1 h2 => rfl
  obtain ⟨h1, h2⟩ := mj_bd i0 i1 k0 k1 hA
  rw [e, Option.bind_some, if_pos (show k ≠ -1 by omega), eB, Option.bind_some, Buf.wr_of h1 (by omega)]
  refine ⟨_, rfl, b1, fun j j0 j1 => ?_, fun q hq => ?_⟩
  · dsimp only
    by_cases h : j = k
    · subst h; rw [Function.update_self, if_pos rfl]
    · rw [Function.update_of_ne fun e => h (mj_inj i0 i1 i0 i1 e).2, if_neg h]; exact b2 j j0 j1
  · dsimp only; rw [Function.update_of_ne (hq k k0 k1)]; exact b3 q hq

/-- The whole matrix: `P i g` says that `g` is the finite row of target `i`. -/
theorem baryMatrix_spec {m n : Int} {x y l : Buf K} (hx : m ≤ x.size) (hy : n ≤ y.size) (hl : n ≤ l.size) {A : Buf (Option K)} (hA : m * n ≤ A.size)
    (hs : ∀ i, 0 ≤ i → i < m → (∀ j, 0 ≤ j → j < n → x.val i ≠ y.val j) → ∑ j ∈ Finset.Ico 0 n, l.val j / (x.val i - y.val j) ≠ 0) :
    ∃ A', baryMatrix A x m y l n = some A' ∧ A'.size = A.size ∧ (∀ q, (∀ i j, 0 ≤ i → i < m → 0 ≤ j → j < n → q ≠ i + m * j) → A'.val q = A.val q) ∧
      ∀ i, 0 ≤ i → i < m →
        ((∀ j, 0 ≤ j → j < n → x.val i ≠ y.val j) ∧
          ∀ j, 0 ≤ j → j < n → A'.val (i + m * j) = some (l.val j / (x.val i - y.val j) / ∑ j ∈ Finset.Ico 0 n, l.val j / (x.val i - y.val j))) ∨
        ∃ k, 0 ≤ k ∧ k < n ∧ x.val i = y.val k ∧ (∀ j, 0 ≤ j → j < k → x.val i ≠ y.val j) ∧ ∀ j, 0 ≤ j → j < n → A'.val (i + m * j) = some (if j = k then 1 else 0) := by
  unfold baryMatrix
  obtain ⟨F, eF, f1, f2, f3⟩ := baryFill_eq hx hy hl hA
  rw [eF, Option.bind_some]
  let Row (i : Int) (B : Buf (Option K)) : Prop := ((∀ j, 0 ≤ j → j < n → x.val i ≠ y.val j) ∧
          ∀ j, 0 ≤ j → j < n → B.val (i + m * j) = some (l.val j / (x.val i - y.val j) / ∑ j ∈ Finset.Ico 0 n, l.val j / (x.val i - y.val j))) ∨
        ∃ k, 0 ≤ k ∧ k < n ∧ x.val i = y.val k ∧ (∀ j, 0 ≤ j → j < k → x.val i ≠ y.val j) ∧ ∀ j, 0 ≤ j → j < n → B.val (i + m * j) = some (if j = k then 1 else 0)
  have rowCongr : ∀ i (B C : Buf (Option K)), (∀ j, 0 ≤ j → j < n → C.val (i + m * j) = B.val (i + m * j)) → Row i B → Row i C := fun i B C h hR => by
    rcases hR with ⟨h1, h2⟩ | ⟨k, k0, k1, h1, h2, h3⟩
    · exact .inl ⟨h1, fun j j0 j1 => by rw [h j j0 j1]; exact h2 j j0 j1⟩
    · exact .inr ⟨k, k0, k1, h1, h2, fun j j0 j1 => by rw [h j j0 j1]; exact h3 j j0 j1⟩
  have hdiv : ∀ i j, x.val i ≠ y.val j → divE (l.val j) (x.val i - y.val j) = some (l.val j / (x.val i - y.val j)) := fun i j h => by unfold divE; rw [if_neg (sub_ne_zero.2 h)]
  obtain ⟨A', e, p1, p2, p3, -⟩ := forUp_spec (lo := 0) (hi := m) (s := F) (body := fun i A => baryRow m n i A)
    (fun I B => B.size = F.size ∧ (∀ q, (∀ i j, 0 ≤ i → i < m → 0 ≤ j → j < n → q ≠ i + m * j) → B.val q = F.val q) ∧ (∀ i, 0 ≤ i → i < I → i < m → Row i B) ∧
      ∀ i j, I ≤ i → i < m → 0 ≤ j → j < n → B.val (i + m * j) = F.val (i + m * j)) ⟨rfl, fun _ _ => rfl, fun i h1 h2 => by omega, fun _ _ _ _ _ _ => rfl⟩
    (fun i i0 i1 B hB => by
      obtain ⟨b1, b2, b3, b4⟩ := hB
      have hBA : m * n ≤ B.size := by omega
      have main : ∃ C, baryRow m n i B = some C ∧ C.size = B.size ∧ Row i C ∧ ∀ q, (∀ j, 0 ≤ j → j < n → q ≠ i + m * j) → C.val q = B.val q := by
        by_cases hall : ∀ j, 0 ≤ j → j < n → x.val i ≠ y.val j
        · obtain ⟨C, e, c1, c2, c3⟩ := baryRow_finite i0 i1 hBA (f := fun j => l.val j / (x.val i - y.val j))
            (fun j j0 j1 => by rw [b4 i j le_rfl i1 j0 j1, f2 i j i0 i1 j0 j1, hdiv i j (hall j j0 j1)]) (hs i i0 i1 hall)
          exact ⟨C, e, c1, .inl ⟨hall, c2⟩, c3⟩
        · push Not at hall
          obtain ⟨k', hk'⟩ := hall
          have hex : ∃ k : Nat, (k : Int) < n ∧ x.val i = y.val k := ⟨k'.toNat, by omega, by rw [Int.toNat_of_nonneg hk'.1]; exact hk'.2.2⟩
          classical
          obtain ⟨q1, q2⟩ := Nat.find_spec hex
          have qm : ∀ j, 0 ≤ j → j < (Nat.find hex : Int) → x.val i ≠ y.val j := fun j j0 j1 h => Nat.find_min hex (m := j.toNat) (by omega) ⟨by omega, by rw [Int.toNat_of_nonneg j0]; exact h⟩
          obtain ⟨C, e, c1, c2, c3⟩ := baryRow_infinite i0 i1 hBA (k := (Nat.find hex : Int)) (by omega) q1
            (by rw [b4 i _ le_rfl i1 (by omega) q1, f2 i _ i0 i1 (by omega) q1]; unfold divE; rw [if_pos (sub_eq_zero.2 q2)])
            (fun j j0 j1 => by rw [b4 i j le_rfl i1 j0 (by omega), f2 i j i0 i1 j0 (by omega), hdiv i j (qm j j0 j1)]; simp)
          exact ⟨C, e, c1, .inr ⟨_, by omega, q1, q2, qm, c2⟩, c3⟩
      obtain ⟨C, e, c1, c2, c3⟩ := main
      have ne : ∀ i' j', 0 ≤ i' → i' < m → i' ≠ i → ∀ j, 0 ≤ j → j < n → i' + m * j' ≠ i + m * j := fun i' j' h1 h2 h3 j _ _ e => h3 (mj_inj h1 h2 i0 i1 e).1
      refine ⟨C, e, by omega, fun q hq => ?_, fun i' a1 a2 a3 => ?_, fun i' j' a1 a2 a3 a4 => ?_⟩
      · rw [c3 q fun j j0 j1 => hq i j i0 i1 j0 j1]; exact b2 q hq
      · by_cases h : i' = i
        · subst h; exact c2
        · exact rowCongr i' B C (fun j j0 j1 => c3 _ (ne i' j a1 a3 h)) (b3 i' a1 (by omega) a3)
      · rw [c3 _ (ne i' j' (by omega) a2 (by omega))]; exact b4 i' j' (by omega) a2 a3 a4)
  exact ⟨A', e, by omega, fun q hq => by rw [p2 q hq, f3 q hq], fun i i0 i1 => p3 i i0 (by omega) i1⟩

end FT
