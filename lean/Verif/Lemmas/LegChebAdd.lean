import Verif.Model.LegCheb
import Verif.Lemmas.Accum

/-! # Loops that add to the entries of an array -/

namespace FT.Model.Lc
variable {K : Type*} [Field K] [DecidableEq K]

/-- The array `b` with `δ` added to its entries. -/
def bump (b : Buf K) (δ : Int → K) : Buf K := ⟨b.size, fun q => b.val q + δ q⟩

theorem bump_bump (b : Buf K) (δ ε : Int → K) : bump (bump b δ) ε = bump b fun q => δ q + ε q := Buf.ext' rfl fun q => add_assoc _ _ _

theorem bump_zero {b : Buf K} {δ : Int → K} (h : ∀ q, δ q = 0) : bump b δ = b := Buf.ext' rfl fun q => by show b.val q + δ q = _; rw [h, add_zero]

theorem bump_congr {b : Buf K} {δ ε : Int → K} (h : ∀ q, δ q = ε q) : bump b δ = bump b ε := by rw [funext h]

theorem addAt_eq {b : Buf K} {i : Int} {v : K} (h0 : 0 ≤ i) (h1 : i < b.size) : addAt b i v = some (bump b fun q => if q = i then v else 0) := by
  unfold addAt
  rw [Buf.rd_of h0 h1, Option.bind_some, Buf.wr_of h0 h1]
  congr 1
  refine Buf.ext' rfl fun q => ?_
  show Function.update b.val i (b.val i + v) q = b.val q + if q = i then v else 0
  by_cases h : q = i
  · subst h; rw [Function.update_self, if_pos rfl]
  · rw [Function.update_of_ne h, if_neg h, add_zero]

theorem mulAt_eq {b : Buf K} {i : Int} {v : K} (h0 : 0 ≤ i) (h1 : i < b.size) : mulAt b i v = some ⟨b.size, fun q => if q = i then b.val q * v else b.val q⟩ := by
  unfold mulAt
  rw [Buf.rd_of h0 h1, Option.bind_some, Buf.wr_of h0 h1]
  congr 1
  refine Buf.ext' rfl fun q => ?_
  show Function.update b.val i (b.val i * v) q = if q = i then b.val q * v else b.val q
  by_cases h : q = i
  · subst h; rw [Function.update_self, if_pos rfl]
  · rw [Function.update_of_ne h, if_neg h]

theorem forUp_bump {lo hi : Int} {body : Int → Buf K → Option (Buf K)} {b : Buf K} {δ : Int → Int → K}
    (hb : ∀ i Z, lo ≤ i → i < hi → Z.size = b.size → body i Z = some (bump Z (δ i))) :
    forUp lo hi body b = some (bump b fun q => ∑ i ∈ Finset.Ico lo hi, δ i q) := by
  obtain ⟨Z, e, p⟩ := forUp_spec (body := body) (lo := lo) (hi := hi) (s := b) (fun J Z => Z = bump b fun q => ∑ i ∈ Finset.Ico lo J, δ i q)
    (by rw [bump_zero]; intro q; simp)
    (fun j j0 j1 Z hZ => by
      subst hZ
      refine ⟨_, hb j _ j0 j1 rfl, ?_⟩
      rw [bump_bump]
      exact bump_congr fun q => (sum_Ico_succ j0 fun i => δ i q).symm)
  rw [e, p]
  rcases le_total lo hi with hl | hl
  · rw [max_eq_right hl]
  · rw [max_eq_left hl, Finset.Ico_self, Finset.Ico_eq_empty (by omega)]

theorem forStep_forUp {σ : Type*} {lo hi st : Int} {body : Int → σ → Option σ} {s : σ} (h : 0 ≤ (hi - lo + st - 1) / st) :
    forStep lo hi st body s = forUp 0 ((hi - lo + st - 1) / st) (fun k => body (lo + st * k)) s := by
  unfold forStep forUp stepCount
  rw [Int.sub_zero]
  apply loop_congr
  intro k _ s
  rw [zero_add]

theorem forStep_bump {lo hi : Int} {body : Int → Buf K → Option (Buf K)} {b : Buf K} {δ : Int → Int → K} (hlo : lo ≤ hi + 1)
    (hb : ∀ i Z, 0 ≤ i → lo + 2 * i < hi → Z.size = b.size → body (lo + 2 * i) Z = some (bump Z (δ i))) :
    forStep lo hi 2 body b = some (bump b fun q => ∑ i ∈ Finset.Ico 0 ((hi - lo + 1) / 2), δ i q) := by
  rw [forStep_forUp (by omega), show (hi - lo + 2 - 1) / 2 = (hi - lo + 1) / 2 by omega]
  exact forUp_bump fun i Z i0 i1 hZ => hb i Z i0 (by omega) hZ

/-- `b[f i] = v i` for all `i`. -/
theorem forUp_mulAt {lo hi : Int} {f : Int → Int} {v : Int → K} {b : Buf K} (hf : ∀ i, lo ≤ i → i < hi → 0 ≤ f i ∧ f i < b.size) (inj : ∀ i j, f i = f j → i = j) :
    ∃ b', forUp lo hi (fun i b => mulAt b (f i) (v i)) b = some b' ∧ b'.size = b.size ∧ (∀ i, lo ≤ i → i < hi → b'.val (f i) = b.val (f i) * v i) ∧
      ∀ q, (∀ i, lo ≤ i → i < hi → q ≠ f i) → b'.val q = b.val q := by
  obtain ⟨b', e, p⟩ := forUp_spec (body := fun i b => mulAt b (f i) (v i)) (lo := lo) (hi := hi) (s := b)
    (fun J Z => Z.size = b.size ∧ (∀ i, lo ≤ i → i < J → Z.val (f i) = b.val (f i) * v i) ∧ ∀ q, (∀ i, lo ≤ i → i < J → q ≠ f i) → Z.val q = b.val q)
    ⟨rfl, fun i a c => by omega, fun _ _ => rfl⟩
    (fun j j0 j1 Z ⟨h1, h2, h3⟩ => by
      refine ⟨_, mulAt_eq (hf j j0 j1).1 (by rw [h1]; exact (hf j j0 j1).2), h1, fun i i0 i1 => ?_, fun q hq => ?_⟩
      · show (if f i = f j then Z.val (f i) * v j else Z.val (f i)) = _
        by_cases h : i = j
        · subst h; rw [if_pos rfl, h3 (f i) fun k _ hk e => by have := inj _ _ e; omega]
        · rw [if_neg fun e => h (inj _ _ e), h2 i i0 (by omega)]
      · show (if q = f j then Z.val q * v j else Z.val q) = _
        rw [if_neg (hq j j0 (by omega)), h3 q fun i a c => hq i a (by omega)])
  refine ⟨b', e, p.1, fun i i0 i1 => p.2.1 i i0 (by omega), fun q hq => p.2.2 q fun i a c => hq i a (by omega)⟩

/-- `b[f i] = v i` for all `i`. -/
theorem forUp_wr {lo hi : Int} {f : Int → Int} {v : Int → K} {b : Buf K} {body : Int → Buf K → Option (Buf K)} (hf : ∀ i, lo ≤ i → i < hi → 0 ≤ f i ∧ f i < b.size)
    (hb : ∀ i Z, lo ≤ i → i < hi → Z.size = b.size → body i Z = Z.wr (f i) (v i)) (inj : ∀ i j, f i = f j → i = j) :
    ∃ b', forUp lo hi body b = some b' ∧ b'.size = b.size ∧ (∀ i, lo ≤ i → i < hi → b'.val (f i) = v i) ∧ ∀ q, (∀ i, lo ≤ i → i < hi → q ≠ f i) → b'.val q = b.val q := by
  obtain ⟨b', e, p⟩ := forUp_spec (body := body) (lo := lo) (hi := hi) (s := b)
    (fun J Z => Z.size = b.size ∧ (∀ i, lo ≤ i → i < J → Z.val (f i) = v i) ∧ ∀ q, (∀ i, lo ≤ i → i < J → q ≠ f i) → Z.val q = b.val q)
    ⟨rfl, fun i a c => by omega, fun _ _ => rfl⟩
    (fun j j0 j1 Z ⟨h1, h2, h3⟩ => by
      refine ⟨_, (hb j Z j0 j1 h1).trans (Buf.wr_of (hf j j0 j1).1 (by rw [h1]; exact (hf j j0 j1).2)), h1, fun i i0 i1 => ?_, fun q hq => ?_⟩
      · show Function.update Z.val (f j) (v j) (f i) = _
        by_cases h : i = j
        · subst h; rw [Function.update_self]
        · rw [Function.update_of_ne fun e => h (inj _ _ e), h2 i i0 (by omega)]
      · show Function.update Z.val (f j) (v j) q = _
        rw [Function.update_of_ne (hq j j0 (by omega)), h3 q fun i a c => hq i a (by omega)])
  refine ⟨b', e, p.1, fun i i0 i1 => p.2.1 i i0 (by omega), fun q hq => p.2.2 q fun i a c => hq i a (by omega)⟩

/-- Of a sum over the positions of a stride, one term is left. -/
theorem sum_stride {lo hi i bo st : Int} (hst : 0 < st) (f : Int → K) :
    ∑ k ∈ Finset.Ico lo hi, (if bo + i * st = bo + k * st then f k else 0) = if lo ≤ i ∧ i < hi then f i else 0 := by
  have : ∀ k, (bo + i * st = bo + k * st) = (k = i) := fun k => propext ⟨fun h => by
    have := Int.eq_of_mul_eq_mul_right (ne_of_gt hst) (show i * st = k * st by omega); omega, fun h => by rw [h]⟩
  simp only [this]
  split_ifs with h
  · exact sum_Ico_delta h.1 h.2 f
  · exact Finset.sum_eq_zero fun k hk => if_neg fun e => h (by subst e; exact Finset.mem_Ico.1 hk)

end FT.Model.Lc
