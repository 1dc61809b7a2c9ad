import Verif.Lemmas.EigFmm
import Verif.Lemmas.Tet
import Verif.Props.Sort

/-!
# Sorted eigenvalues and their intersections
-/

set_option linter.unusedSectionVars false

namespace FT.Fmm
open FT FT.Model FT.Prog FT.Props
variable {K : Type*} [Field K] [LinearOrder K] [IsStrictOrderedRing K]

/-- Sorting returns a permutation of the indices and the eigenvalues in increasing order. -/
theorem sortLam_run {n : Int} {lam : Buf K} (hl : n ≤ lam.size) : ∃ l p, sortLam n lam = some (l, p) ∧ l.size = lam.size ∧ IsPerm n p ∧ (∀ i, 0 ≤ i → i < n → l.val i = lam.val (p.val i)) ∧
    ∀ i j, 0 ≤ i → i ≤ j → j < n → l.val i ≤ l.val j := by
  obtain ⟨p0, e0, q1, q2⟩ := forUp_spec (lo := 0) (hi := n) (s := (⟨n.toNat, fun _ => 0⟩ : Buf Int)) (body := fun i (p : Buf Int) => p.wr i i)
    (fun J p => p.size = n.toNat ∧ ∀ i, 0 ≤ i → i < J → p.val i = i) ⟨rfl, fun i _ _ => by omega⟩
    (fun j j0 j1 p h => by
      refine ⟨⟨p.size, Function.update p.val j j⟩, Buf.wr_of j0 (by rw [h.1]; omega), h.1, fun i i0 i1 => ?_⟩
      show Function.update p.val j j i = i
      by_cases hi : i = j
      · rw [hi, Function.update_self]
      · rw [Function.update_of_ne hi, h.2 i i0 (by omega)])
  obtain ⟨S, π, e, f, ⟨a1, a2⟩, -, ⟨p1, p2⟩, so⟩ := C27_sort (lt := fun x y : K => decide (x < y)) (fun x y h => by simp only [decide_eq_true_eq, decide_eq_false_iff_not] at *; exact not_lt.2 (le_of_lt h))
    (lo := 0) (hi := n - 1) (s := ⟨lam, [], p0⟩) le_rfl (by show n - 1 < (lam.size : Int); omega) (fun c hc => by simp at hc) (by show n - 1 < (p0.size : Int); rw [q1]; omega)
  have so := so fun x y z h1 h2 => by simp only [decide_eq_false_iff_not, not_lt] at *; exact le_trans h2 h1
  have range : ∀ k, 0 ≤ k → k < n → 0 ≤ π k ∧ π k < n := fun k k0 k1 => by
    by_contra h
    have h2 := f (π k) (by omega)
    have := π.injective h2
    omega
  have hp : ∀ k, 0 ≤ k → k < n → S.p.val k = π k := fun k k0 k1 => by
    rw [p2 k]
    exact q2 _ (range k k0 k1).1 (by have := (range k k0 k1).2; omega)
  refine ⟨S.a, S.p, ?_, a1, ⟨?_, fun k k0 k1 => ?_, fun k k0 k1 => ?_, fun k l k0 k1 l0 l1 h => ?_⟩, fun i i0 i1 => ?_, fun i j i0 ij j1 => ?_⟩
  · unfold sortLam
    rw [e0, Option.bind_some, e]
    rfl
  · rw [p1]; show n ≤ (p0.size : Int); rw [q1]; omega
  · rw [hp k k0 k1]; exact (range k k0 k1).1
  · rw [hp k k0 k1]; exact (range k k0 k1).2
  · rw [hp k k0 k1, hp l l0 l1] at h; exact π.injective h
  · rw [a2 i, hp i i0 i1]
  · rcases eq_or_lt_of_le ij with rfl | h
    · exact le_rfl
    · have := so i j i0 h (by omega)
      simp only [decide_eq_false_iff_not, not_lt] at this
      exact this

/-- Reordering twice. -/
theorem permT_run {n : Int} {lam l : Buf K} {p : Buf Int} (hp : IsPerm n p) (hl : n ≤ l.size) (h : ∀ i, 0 ≤ i → i < n → l.val i = lam.val (p.val i)) :
    ∃ x, perm 'T' l p n = some (x, p) ∧ ∀ i, 0 ≤ i → i < n → x.val i = lam.val i := by
  obtain ⟨x, e, -, v, -⟩ := C28_perm_T hp hl
  refine ⟨x, e, fun i i0 i1 => ?_⟩
  obtain ⟨k, k0, k1, rfl⟩ := hp.surj i0 i1
  rw [v k k0 k1, h k k0 k1]

/-- The one pair of positions with given images. -/
theorem perm_sum {s m : Int} {p1 p2 : Buf Int} (h1 : IsPerm s p1) (h2 : IsPerm m p2) {e : Int → Int → K} {g : Int → Int → K}
    (he : ∀ a d, 0 ≤ a → a < s → 0 ≤ d → d < m → e a d = g (p1.val a) (p2.val d)) {i j : Int} (i0 : 0 ≤ i) (i1 : i < s) (j0 : 0 ≤ j) (j1 : j < m) :
    (∑ a ∈ Finset.Ico 0 s, ∑ d ∈ Finset.Ico 0 m, if p1.val a = i ∧ p2.val d = j then e a d else 0) = g i j := by
  obtain ⟨a, a0, a1, rfl⟩ := h1.surj i0 i1
  obtain ⟨d, d0, d1, rfl⟩ := h2.surj j0 j1
  rw [Finset.sum_eq_single a, Finset.sum_eq_single d, if_pos ⟨rfl, rfl⟩, he a d a0 a1 d0 d1]
  · intro k hk hne
    rw [Finset.mem_Ico] at hk
    exact if_neg fun h => hne (h2.inj k d hk.1 hk.2 d0 d1 h.2)
  · intro h; exact absurd (Finset.mem_Ico.2 ⟨d0, d1⟩) h
  · intro k hk hne
    rw [Finset.mem_Ico] at hk
    exact Finset.sum_eq_zero fun d' _ => if_neg fun h => hne (h1.inj k a hk.1 hk.2 a0 a1 h.1)
  · intro h; exact absurd (Finset.mem_Ico.2 ⟨a0, a1⟩) h

theorem meets_comm {eps x y : K} : meets eps x y ↔ meets eps y x := by unfold meets; rw [abs_sub_comm, max_comm]

/-- Past the first number above `y` that is not close to it there are no others. -/
theorem not_meets_above {eps x x' y : K} (he : eps ≤ 1) (hxy : y ≤ x) (hx : x ≤ x') (h : ¬ meets eps x y) : ¬ meets eps x' y := by
  unfold meets at *
  rw [not_lt] at *
  rw [abs_of_nonneg (show 0 ≤ x - y by linarith)] at h
  rw [abs_of_nonneg (show 0 ≤ x' - y by linarith)]
  rcases le_or_gt eps 0 with e0 | e0
  · have : 0 ≤ max |x'| |y| := le_max_of_le_left (abs_nonneg _)
    nlinarith
  rcases le_or_gt 0 y with hy | hy
  · rw [abs_of_nonneg hy, abs_of_nonneg (show 0 ≤ x by linarith), max_eq_left (by linarith)] at h
    rw [abs_of_nonneg hy, abs_of_nonneg (show 0 ≤ x' by linarith), max_eq_left (by linarith)]
    nlinarith
  · rcases le_or_gt |x'| |y| with hc | hc
    · rw [max_eq_right hc]
      have : eps * |y| ≤ eps * max |x| |y| := mul_le_mul_of_nonneg_left (le_max_right _ _) (le_of_lt e0)
      linarith
    · rw [max_eq_left (le_of_lt hc)]
      rcases le_or_gt 0 x' with h' | h'
      · rw [abs_of_nonneg h']
        nlinarith
      · rw [abs_of_neg h', abs_of_neg hy] at hc
        linarith

/-- The indices whose value is close to `y`. -/
def hits (tol : K) (x : Buf K) (i m : Int) (y : K) : List Int := (rUp i m).filter fun k => decide (meets tol (x.val k) y)

theorem hits_cons_pos {tol : K} {x : Buf K} {i m : Int} {y : K} (h : i < m) (hm : meets tol (x.val i) y) : hits tol x i m y = i :: hits tol x (i + 1) m y := by
  unfold hits; rw [rUp_cons h, List.filter_cons_of_pos (by simpa using hm)]

theorem hits_cons_neg {tol : K} {x : Buf K} {i m : Int} {y : K} (h : i < m) (hm : ¬ meets tol (x.val i) y) : hits tol x i m y = hits tol x (i + 1) m y := by
  unfold hits; rw [rUp_cons h, List.filter_cons_of_neg (by simpa using hm)]

theorem mem_hits {tol : K} {x : Buf K} {i m k : Int} {y : K} : k ∈ hits tol x i m y ↔ (i ≤ k ∧ k < m) ∧ meets tol (x.val k) y := by
  unfold hits; rw [List.mem_filter, mem_rUp, decide_eq_true_eq]

theorem hits_nil {tol : K} {x : Buf K} {i m : Int} {y : K} (h : ∀ k, i ≤ k → k < m → ¬ meets tol (x.val k) y) : hits tol x i m y = [] := by
  rw [List.eq_nil_iff_forall_not_mem]; intro k hk; rw [mem_hits] at hk; exact h k hk.1.1 hk.1.2 hk.2

/-- Indices below which nothing is close do not matter. -/
theorem hits_skip {tol : K} {x : Buf K} {m : Int} {y : K} : ∀ (d : Nat) (i : Int), i + d ≤ m → (∀ k, i ≤ k → k < i + d → ¬ meets tol (x.val k) y) → hits tol x i m y = hits tol x (i + d) m y
  | 0, i, _, _ => by rw [Nat.cast_zero, add_zero]
  | d + 1, i, hd, h => by
    push_cast at hd h ⊢
    rw [hits_cons_neg (by omega) (h i le_rfl (by omega)), hits_skip d (i + 1) (by omega) fun k k0 k1 => h k (by omega) (by omega)]
    congr 1; ring

/-- The inner loop. -/
theorem interScan_eq {σ : Type*} {m : Int} {x : Buf K} {y tol : K} {hit : Int → σ → Option σ} (ht : tol ≤ 1) (hx : m ≤ x.size) (hsort : ∀ i j, 0 ≤ i → i ≤ j → j < m → x.val i ≤ x.val j) :
    ∀ (f : Nat) (i : Int) (first : Bool) (istart : Int) (s : σ), 0 ≤ i → (m - i).toNat < f →
      interScan m x y tol hit f i first istart s = (exec hit (hits tol x i m y) s).map fun s => (if first then (hits tol x i m y).headD istart else istart, s)
  | 0, i, first, istart, s, i0, hf => absurd hf (Nat.not_lt_zero _)
  | f + 1, i, first, istart, s, i0, hf => by
    unfold interScan
    by_cases hi : i < m
    · rw [if_pos hi, Buf.rd_of i0 (by omega), Option.bind_some]
      by_cases hm : meets tol (x.val i) y
      · rw [if_pos hm, hits_cons_pos hi hm, exec_cons]
        cases hit i s with
        | none => rfl
        | some s' =>
          rw [Option.bind_some, Option.bind_some, interScan_eq ht hx hsort f (i + 1) false _ s' (by omega) (by omega)]
          cases first <;> rfl
      · rw [if_neg hm]
        by_cases hv : x.val i > y
        · rw [if_pos hv, hits_nil fun k k0 k1 => not_meets_above ht (le_of_lt hv) (hsort i k i0 k0 k1) hm]
          cases first <;> rfl
        · rw [if_neg hv, interScan_eq ht hx hsort f (i + 1) first istart s (by omega) (by omega), hits_cons_neg hi hm]
    · rw [if_neg hi, hits_nil fun k k0 k1 => absurd k1 (by omega)]
      cases first <;> rfl

/-- All pairs of close numbers. -/
def pairs (tol : K) (x : Buf K) (m : Int) (y : Buf K) (j0 n : Int) : List (Int × Int) := (rUp j0 n).flatMap fun j => (hits tol x 0 m (y.val j)).map fun i => (i, j)

theorem mem_pairs {tol : K} {x y : Buf K} {m n j0 : Int} {p : Int × Int} : p ∈ pairs tol x m y j0 n ↔ (0 ≤ p.1 ∧ p.1 < m) ∧ (j0 ≤ p.2 ∧ p.2 < n) ∧ meets tol (x.val p.1) (y.val p.2) := by
  unfold pairs
  rw [List.mem_flatMap]
  constructor
  · rintro ⟨j, hj, h⟩
    rw [List.mem_map] at h
    obtain ⟨i, hi, rfl⟩ := h
    rw [mem_hits] at hi
    exact ⟨hi.1, mem_rUp.1 hj, hi.2⟩
  · rintro ⟨h1, h2, h3⟩
    exact ⟨p.2, mem_rUp.2 h2, List.mem_map.2 ⟨p.1, mem_hits.2 ⟨h1, h3⟩, rfl⟩⟩

theorem rUp_nodup (lo hi : Int) : (rUp lo hi).Nodup := by
  unfold rUp
  exact List.Nodup.map (fun a b h => by simpa using h) List.nodup_range

theorem pairs_nodup {tol : K} {x y : Buf K} {m n j0 : Int} : (pairs tol x m y j0 n).Nodup := by
  unfold pairs
  rw [List.nodup_flatMap]
  refine ⟨fun j _ => List.Nodup.map (fun a b h => (Prod.mk.inj h).1) ((rUp_nodup 0 m).filter _), ?_⟩
  refine (rUp_nodup j0 n).imp fun {a b} hab => ?_
  intro p h1 h2
  obtain ⟨i, -, rfl⟩ := List.mem_map.1 h1
  obtain ⟨i', -, h⟩ := List.mem_map.1 h2
  exact hab (Prod.mk.inj h).2.symm

/-- The loop over both arrays runs `hit` on all pairs of close numbers. -/
theorem interLoop_eq {σ : Type*} {m n : Int} {x y : Buf K} {tol : K} {hit : Int → Int → σ → Option σ} (ht : tol ≤ 1) (hm : 0 ≤ m) (hx : m ≤ x.size) (hy : n ≤ y.size)
    (hsx : ∀ i j, 0 ≤ i → i ≤ j → j < m → x.val i ≤ x.val j) (hsy : ∀ i j, 0 ≤ i → i ≤ j → j < n → y.val i ≤ y.val j) (s : σ) :
    interLoop m x n y tol hit s = exec (fun p => hit p.2 p.1) (pairs tol x m y 0 n) s := by
  have key : ∀ (d : Nat) (j istart : Int) (s : σ), n - j = d → 0 ≤ j → 0 ≤ istart → istart ≤ m → (∀ i j', 0 ≤ i → i < istart → j ≤ j' → j' < n → ¬ meets tol (x.val i) (y.val j')) →
      (exec (fun j (st : Int × σ) => (y.rd j).bind fun v => interScan m x v tol (hit j) ((m - st.1).toNat + 1) st.1 true st.1 st.2) (rUp j n) (istart, s)).map (·.2)
        = exec (fun p => hit p.2 p.1) (pairs tol x m y j n) s := by
    intro d
    induction d with
    | zero =>
      intro j istart s hd _ _ _ _
      unfold pairs
      rw [show rUp j n = [] from by unfold rUp; rw [show (n - j).toNat = 0 by omega]; rfl]
      rfl
    | succ d ih =>
      intro j istart s hd j0 s0 s1 hinv
      push_cast at hd
      have hh : hits tol x istart m (y.val j) = hits tol x 0 m (y.val j) := by
        have := hits_skip (tol := tol) (x := x) (m := m) (y := y.val j) istart.toNat 0 (by omega) (fun k k0 k1 => hinv k j k0 (by omega) le_rfl (by omega))
        rw [this]; congr 1; omega
      have hp : pairs tol x m y j n = (hits tol x 0 m (y.val j)).map (fun i => (i, j)) ++ pairs tol x m y (j + 1) n := by
        unfold pairs; rw [rUp_cons (show j < n by omega), List.flatMap_cons]
      rw [hp, rUp_cons (show j < n by omega), exec_cons, exec_append, exec_map, Buf.rd_of j0 (by omega), Option.bind_some]
      dsimp only
      rw [interScan_eq ht hx hsx _ istart true istart s s0 (by omega), hh]
      cases he : exec (hit j) (hits tol x 0 m (y.val j)) s with
      | none => rfl
      | some s' =>
        rw [Option.map_some, Option.bind_some, Option.bind_some, if_pos rfl]
        have hhd : (hits tol x 0 m (y.val j) = [] ∧ (hits tol x 0 m (y.val j)).headD istart = istart) ∨ ∃ t, hits tol x 0 m (y.val j) = (hits tol x 0 m (y.val j)).headD istart :: t := by
          cases hits tol x 0 m (y.val j) with
          | nil => exact Or.inl ⟨rfl, rfl⟩
          | cons a t => exact Or.inr ⟨t, rfl⟩
        generalize hg : (hits tol x 0 m (y.val j)).headD istart = g at *
        rcases hhd with ⟨-, rfl⟩ | ⟨t, htl⟩
        · exact ih (j + 1) g s' (by omega) (by omega) s0 s1 fun i j' i0 i1 h0 h1 => hinv i j' i0 i1 (by omega) h1
        · have hmem : g ∈ hits tol x 0 m (y.val j) := by rw [htl]; simp
          obtain ⟨⟨g0, g1⟩, gm⟩ := mem_hits.1 hmem
          have hsorted : (hits tol x 0 m (y.val j)).Pairwise (· < ·) := by
            unfold hits
            refine List.Pairwise.filter _ ?_
            unfold rUp
            rw [List.pairwise_map]
            exact List.pairwise_lt_range.imp fun h => by omega
          refine ih (j + 1) g s' (by omega) (by omega) g0 (by omega) fun i j' i0 i1 h0 h1 => ?_
          have hn : ¬ meets tol (x.val i) (y.val j) := by
            intro hmi
            have : i ∈ hits tol x 0 m (y.val j) := mem_hits.2 ⟨⟨i0, by omega⟩, hmi⟩
            rw [htl, List.pairwise_cons] at hsorted
            rw [htl, List.mem_cons] at this
            rcases this with h | h
            · omega
            · have := hsorted.1 i h; omega
          have hle : x.val i ≤ y.val j := by
            by_contra h
            exact not_meets_above ht (le_of_lt (not_le.1 h)) (hsx i g i0 (le_of_lt i1) g1) hn gm
          intro hme
          exact not_meets_above ht hle (hsy j j' j0 (by omega) h1) (fun h => hn (meets_comm.1 h)) (meets_comm.1 hme)
  unfold interLoop
  rw [forUp_exec]
  rcases le_or_gt 0 n with h | h
  · exact key n.toNat 0 0 s (by omega) le_rfl le_rfl hm fun i j' i0 i1 => by omega
  · unfold pairs rUp
    rw [show (n - 0).toNat = 0 by omega]
    rfl

/-- Counting. -/
theorem exec_count {ι : Type*} : ∀ (l : List ι) (c : Int), exec (fun _ (c : Int) => some (c + 1)) l c = some (c + l.length)
  | [], c => by simp
  | a :: l, c => by rw [exec_cons, Option.bind_some, exec_count l]; congr 1; push_cast [List.length_cons]; ring

theorem count_eq {m n : Int} {x y : Buf K} {tol : K} (ht : tol ≤ 1) (hm : 0 ≤ m) (hx : m ≤ x.size) (hy : n ≤ y.size)
    (hsx : ∀ i j, 0 ≤ i → i ≤ j → j < m → x.val i ≤ x.val j) (hsy : ∀ i j, 0 ≤ i → i ≤ j → j < n → y.val i ≤ y.val j) :
    countIntersections m x n y tol = some ((pairs tol x m y 0 n).length : Int) := by
  unfold countIntersections
  rw [interLoop_eq ht hm hx hy hsx hsy, exec_count, zero_add]

/-- Storing the pairs. -/
theorem exec_store : ∀ (l : List (Int × Int)) (c : Int) (p q : Buf Int), 0 ≤ c → c + l.length ≤ p.size → c + l.length ≤ q.size →
    ∃ p' q', exec (fun r (s : Int × Buf Int × Buf Int) => (s.2.1.wr s.1 r.1).bind fun p => (s.2.2.wr s.1 r.2).bind fun q => some (s.1 + 1, p, q)) l (c, p, q) = some (c + l.length, p', q') ∧
      p'.size = p.size ∧ q'.size = q.size ∧ (∀ i, i < c → p'.val i = p.val i ∧ q'.val i = q.val i) ∧ ∀ k (hk : k < l.length), (p'.val (c + k), q'.val (c + k)) = l[k]
  | [], c, p, q, _, _, _ => ⟨p, q, by simp, rfl, rfl, fun i _ => ⟨rfl, rfl⟩, fun k hk => by simp at hk⟩
  | a :: l, c, p, q, c0, hp, hq => by
    push_cast [List.length_cons] at hp hq
    obtain ⟨p', q', e, s1, s2, v, w⟩ := exec_store l (c + 1) ⟨p.size, Function.update p.val c a.1⟩ ⟨q.size, Function.update q.val c a.2⟩ (by omega) (by show c + 1 + l.length ≤ (p.size : Int); omega) (by show c + 1 + l.length ≤ (q.size : Int); omega)
    refine ⟨p', q', ?_, s1, s2, fun i hi => ?_, fun k hk => ?_⟩
    · rw [exec_cons, Buf.wr_of c0 (by show c < (p.size : Int); omega), Option.bind_some, Buf.wr_of c0 (by show c < (q.size : Int); omega), Option.bind_some, Option.bind_some, e]
      congr 2; push_cast [List.length_cons]; ring
    · obtain ⟨v1, v2⟩ := v i (by omega)
      rw [v1, v2]
      exact ⟨Function.update_of_ne (by omega) _ _, Function.update_of_ne (by omega) _ _⟩
    · cases k with
      | zero =>
        obtain ⟨v1, v2⟩ := v c (by omega)
        rw [Nat.cast_zero, add_zero, v1, v2]
        show (Function.update p.val c a.1 c, Function.update q.val c a.2 c) = a
        rw [Function.update_self, Function.update_self]
      | succ k =>
        have := w k (by simpa using hk)
        rw [List.getElem_cons_succ, ← this]
        push_cast
        rw [show c + ((k : Int) + 1) = c + 1 + k by ring]

theorem produce_eq {m n : Int} {x y : Buf K} {tol : K} (ht : tol ≤ 1) (hm : 0 ≤ m) (hx : m ≤ x.size) (hy : n ≤ y.size)
    (hsx : ∀ i j, 0 ≤ i → i ≤ j → j < m → x.val i ≤ x.val j) (hsy : ∀ i j, 0 ≤ i → i ≤ j → j < n → y.val i ≤ y.val j) {p q : Buf Int}
    (hp : p.size = (pairs tol x m y 0 n).length) (hq : q.size = (pairs tol x m y 0 n).length) :
    ∃ p' q', produceIntersections m x n y tol p q = some (p', q') ∧ p'.size = p.size ∧ q'.size = q.size ∧
      ∀ k (hk : k < (pairs tol x m y 0 n).length), (p'.val k, q'.val k) = (pairs tol x m y 0 n)[k] := by
  unfold produceIntersections
  rw [interLoop_eq ht hm hx hy hsx hsy]
  obtain ⟨p', q', e, s1, s2, -, w⟩ := exec_store (pairs tol x m y 0 n) 0 p q le_rfl (by omega) (by omega)
  refine ⟨p', q', ?_, s1, s2, fun k hk => ?_⟩
  · exact congrArg (Option.map (·.2)) e
  · have := w k hk
    rwa [zero_add] at this

end FT.Fmm
