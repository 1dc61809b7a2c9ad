import Verif.Model.Fftw
import Verif.Lemmas.Ranges
import Verif.Lemmas.Accum

set_option linter.unusedSectionVars false

/-! # Lemmas on the stages of synthesis and analysis -/

namespace FT.Model
open FT
variable {K : Type*}

/-! ## Updating a list of distinct entries -/

theorem updExec {ι : Type*} (pos : ι → Int) (h : ι → K → Option K) (k : ι → K → K) :
    ∀ (l : List ι) (X : Buf K), (∀ a ∈ l, 0 ≤ pos a ∧ pos a < X.size) → (∀ a ∈ l, ∀ t, h a t = some (k a t)) →
    (l.map pos).Nodup → ∃ X', exec (fun a X => (X.rd (pos a)).bind fun t => (h a t).bind fun t' => X.wr (pos a) t') l X = some X' ∧
      X'.size = X.size ∧ (∀ a ∈ l, X'.val (pos a) = k a (X.val (pos a))) ∧ ∀ p, p ∉ l.map pos → X'.val p = X.val p := by
  intro l
  induction l with
  | nil => intro X _ _ _; exact ⟨X, rfl, rfl, by simp, fun _ _ => rfl⟩
  | cons a l ih =>
    intro X hb hh nd
    rw [List.map_cons, List.nodup_cons] at nd
    have ha := hb a (by simp)
    let X1 : Buf K := ⟨X.size, Function.update X.val (pos a) (k a (X.val (pos a)))⟩
    have e1 : ((X.rd (pos a)).bind fun t => (h a t).bind fun t' => X.wr (pos a) t') = some X1 := by
      rw [Buf.rd_of ha.1 ha.2]
      show ((h a (X.val (pos a))).bind fun t' => X.wr (pos a) t') = _
      rw [hh a (by simp)]
      exact Buf.wr_of ha.1 ha.2
    obtain ⟨X', e, sz, v, o⟩ := ih X1 (fun b hb' => hb b (by simp [hb'])) (fun b hb' => hh b (by simp [hb'])) nd.2
    refine ⟨X', by rw [exec_cons, e1]; exact e, sz, ?_, ?_⟩
    · intro b hb'
      rcases List.mem_cons.1 hb' with rfl | hb'
      · rw [o _ nd.1]; simp [X1]
      · have : pos b ≠ pos a := fun q => nd.1 (q ▸ List.mem_map_of_mem hb')
        rw [v b hb']; simp [X1, Function.update_of_ne this]
    · intro p hp
      rw [List.map_cons, List.mem_cons, not_or] at hp
      rw [o p hp.2]; simp [X1, Function.update_of_ne hp.1]

/-! ## Grids: what an array of `M` columns of length `N` holds -/

/-- `X` is an `N × M` array with entry `a c i` in row `i` of column `c`. -/
def Holds (N M : Int) (X : Buf K) (a : Int → Int → K) : Prop :=
  (X.size : Int) = N * M ∧ ∀ c i, 0 ≤ c → c < M → 0 ≤ i → i < N → X.val (i + c * N) = a c i

/-- Equality on the grid. -/
def GEq (N M : Int) (a b : Int → Int → K) : Prop := ∀ c i, 0 ≤ c → c < M → 0 ≤ i → i < N → a c i = b c i

/-- Nothing changed outside the array. -/
def Out (X X' : Buf K) : Prop := ∀ p : Int, ¬ (0 ≤ p ∧ p < X.size) → X'.val p = X.val p

theorem Holds.self {N M : Int} {X : Buf K} (h : (X.size : Int) = N * M) : Holds N M X (fun c i => X.val (i + c * N)) :=
  ⟨h, fun _ _ _ _ _ _ => rfl⟩

theorem Holds.congr {N M : Int} {X : Buf K} {a b : Int → Int → K} (h : Holds N M X a) (e : GEq N M a b) : Holds N M X b :=
  ⟨h.1, fun c i h0 h1 h2 h3 => (h.2 c i h0 h1 h2 h3).trans (e c i h0 h1 h2 h3)⟩

theorem grid_split {N M p : Int} (hN : 0 < N) (h0 : 0 ≤ p) (h1 : p < N * M) :
    ∃ c i, 0 ≤ c ∧ c < M ∧ 0 ≤ i ∧ i < N ∧ p = i + c * N := by
  refine ⟨p / N, p % N, Int.ediv_nonneg h0 hN.le, Int.ediv_lt_of_lt_mul hN (by rw [mul_comm]; exact h1), Int.emod_nonneg _ hN.ne', Int.emod_lt_of_pos _ hN, ?_⟩
  have := Int.emod_add_mul_ediv p N
  rw [mul_comm (p / N)]; exact this.symm

theorem grid_inj {N c c' i i' : Int} (h0 : 0 ≤ i) (h1 : i < N) (h0' : 0 ≤ i') (h1' : i' < N) (e : i + c * N = i' + c' * N) : c = c' ∧ i = i' := by
  have hN : 0 < N := by omega
  have a1 : (i + c * N) / N = c := by rw [Int.add_mul_ediv_right _ _ hN.ne', Int.ediv_eq_zero_of_lt h0 h1, zero_add]
  have a2 : (i' + c' * N) / N = c' := by rw [Int.add_mul_ediv_right _ _ hN.ne', Int.ediv_eq_zero_of_lt h0' h1', zero_add]
  have : c = c' := by rw [← a1, e, a2]
  subst this
  exact ⟨rfl, by omega⟩

theorem grid_bound {N M c i : Int} (h0 : 0 ≤ c) (h1 : c < M) (h2 : 0 ≤ i) (h3 : i < N) : 0 ≤ i + c * N ∧ i + c * N < N * M := by
  have hN : 0 < N := by omega
  have a1 : 0 ≤ c * N := mul_nonneg h0 hN.le
  have a2 : (c + 1) * N ≤ M * N := mul_le_mul_of_nonneg_right (by omega) hN.le
  have a3 : (c + 1) * N = c * N + N := by ring
  have a4 : M * N = N * M := mul_comm _ _
  constructor
  · omega
  · omega

theorem Holds.ext {N M : Int} (hN : 0 < N) {X X' : Buf K} {a : Int → Int → K} (h : Holds N M X a) (h' : Holds N M X' a) (o : Out X X') : X' = X := by
  have sz : X'.size = X.size := by have := h.1; have := h'.1; omega
  refine Buf.ext' sz fun p => ?_
  by_cases hp : 0 ≤ p ∧ p < X.size
  · obtain ⟨c, i, h0, h1, h2, h3, rfl⟩ := grid_split (M := M) hN hp.1 (by rw [← h.1]; exact hp.2)
    rw [h.2 c i h0 h1 h2 h3, h'.2 c i h0 h1 h2 h3]
  · exact o p hp

theorem Out.refl (X : Buf K) : Out X X := fun _ _ => rfl

theorem Out.trans {X Y Z : Buf K} (s : X.size = Y.size) (h : Out X Y) (h' : Out Y Z) : Out X Z := by
  intro p hp
  rw [h' p (by rw [← s]; exact hp), h p hp]

/-- The operation `f` takes an array holding `a` to one holding `v a`. -/
def Maps (N M : Int) (f : Buf K → Option (Buf K)) (v : (Int → Int → K) → Int → Int → K) : Prop :=
  ∀ X a, Holds N M X a → ∃ X', f X = some X' ∧ Holds N M X' (v a) ∧ Out X X'

theorem Maps.comp {N M : Int} {f g : Buf K → Option (Buf K)} {v w : (Int → Int → K) → Int → Int → K} (hf : Maps N M f v) (hg : Maps N M g w) :
    Maps N M (fun X => (f X).bind g) (fun a => w (v a)) := by
  intro X a h
  obtain ⟨X1, e1, h1, o1⟩ := hf X a h
  obtain ⟨X2, e2, h2, o2⟩ := hg X1 _ h1
  exact ⟨X2, by simp only [e1, Option.bind_some, e2], h2, o1.trans (by have := h.1; have := h1.1; omega) o2⟩

theorem Maps.congr {N M : Int} {f : Buf K → Option (Buf K)} {v w : (Int → Int → K) → Int → Int → K} (hf : Maps N M f v) (e : ∀ a, GEq N M (v a) (w a)) :
    Maps N M f w := fun X a h => by
  obtain ⟨X', e1, h1, o1⟩ := hf X a h
  exact ⟨X', e1, h1.congr (e a), o1⟩

/-- The operation `f` on an array and the plan's work array takes an array holding `a` to one holding `v a`. -/
def MapsP (N M : Int) (f : Buf K → Buf K → Option (Buf K × Buf K)) (v : (Int → Int → K) → Int → Int → K) : Prop :=
  ∀ X Y a, Holds N M X a → (Y.size : Int) = 2 * (N * (M / 2 + 1)) →
    ∃ X' Y', f X Y = some (X', Y') ∧ Holds N M X' (v a) ∧ Y'.size = Y.size ∧ Out X X'

theorem MapsP.after {N M : Int} {f : Buf K → Option (Buf K)} {g : Buf K → Buf K → Option (Buf K × Buf K)} {v w : (Int → Int → K) → Int → Int → K}
    (hf : Maps N M f v) (hg : MapsP N M g w) : MapsP N M (fun X Y => (f X).bind fun X => g X Y) (fun a => w (v a)) := by
  intro X Y a h hY
  obtain ⟨X1, e1, h1, o1⟩ := hf X a h
  obtain ⟨X2, Y2, e2, h2, s2, o2⟩ := hg X1 Y _ h1 hY
  exact ⟨X2, Y2, by simp only [e1, Option.bind_some, e2], h2, s2, o1.trans (by have := h.1; have := h1.1; omega) o2⟩

theorem MapsP.andThen {N M : Int} {f : Buf K → Option (Buf K)} {g : Buf K → Buf K → Option (Buf K × Buf K)} {v w : (Int → Int → K) → Int → Int → K}
    (hg : MapsP N M g w) (hf : Maps N M f v) : MapsP N M (fun X Y => (g X Y).bind fun r => (f r.1).bind fun X => some (X, r.2)) (fun a => v (w a)) := by
  intro X Y a h hY
  obtain ⟨X2, Y2, e2, h2, s2, o2⟩ := hg X Y _ h hY
  obtain ⟨X1, e1, h1, o1⟩ := hf X2 _ h2
  exact ⟨X1, Y2, by simp only [e2, Option.bind_some, e1], h1, s2, o2.trans (by have := h.1; have := h2.1; omega) o1⟩

theorem MapsP.congr {N M : Int} {f : Buf K → Buf K → Option (Buf K × Buf K)} {v w : (Int → Int → K) → Int → Int → K} (hf : MapsP N M f v) (e : ∀ a, GEq N M (v a) (w a)) :
    MapsP N M f w := fun X Y a h hY => by
  obtain ⟨X', Y', e1, h1, s1, o1⟩ := hf X Y a h hY
  exact ⟨X', Y', e1, h1.congr (e a), s1, o1⟩

/-! ## Stages on grids -/

/-- Multiply entry `(c, i)` by `φ c i`. -/
def scaleG [Mul K] (φ : Int → Int → K) (a : Int → Int → K) (c i : Int) : K := a c i * φ c i

/-- Apply `F c` to column `c`. -/
def colG (F : Int → Line K) (a : Int → Int → K) (c i : Int) : K := F c (a c) i

/-- Apply `f` to every row. -/
def rowG (f : Line K) (a : Int → Int → K) (c i : Int) : K := f (fun c => a c i) c

/-- Updates at distinct positions of the grid. -/
theorem upd_maps {ι : Type*} {N M : Int} (l : List ι) (pc pi : ι → Int) (pos : ι → Int) (h : ι → K → Option K) (k : Int → Int → K → K)
    (op : ι → Buf K → Option (Buf K))
    (hop : ∀ a ∈ l, ∀ X, op a X = (X.rd (pos a)).bind fun t => (h a t).bind fun t' => X.wr (pos a) t')
    (hpos : ∀ a ∈ l, pos a = pi a + pc a * N) (hr : ∀ a ∈ l, 0 ≤ pc a ∧ pc a < M ∧ 0 ≤ pi a ∧ pi a < N)
    (hh : ∀ a ∈ l, ∀ t, h a t = some (k (pc a) (pi a) t)) (nd : (l.map fun a => (pc a, pi a)).Nodup)
    (hk : ∀ c i, 0 ≤ c → c < M → 0 ≤ i → i < N → (∀ a ∈ l, ¬ (pc a = c ∧ pi a = i)) → ∀ t, k c i t = t) :
    Maps N M (exec op l) (fun a c i => k c i (a c i)) := by
  intro X a hX
  have nd' : (l.map pos).Nodup := by
    rw [List.nodup_iff_pairwise_ne, List.pairwise_map] at nd ⊢
    refine List.Pairwise.imp_of_mem ?_ nd
    intro x y hx hy hne e
    rw [hpos x hx, hpos y hy] at e
    obtain ⟨e1, e2⟩ := grid_inj (hr x hx).2.2.1 (hr x hx).2.2.2 (hr y hy).2.2.1 (hr y hy).2.2.2 e
    exact hne (by rw [e1, e2])
  have hb : ∀ x ∈ l, 0 ≤ pos x ∧ pos x < X.size := by
    intro x hx
    obtain ⟨q0, q1, q2, q3⟩ := hr x hx
    rw [hpos x hx, hX.1]; exact grid_bound q0 q1 q2 q3
  obtain ⟨X', e, sz, v, o⟩ := updExec pos h (fun a => k (pc a) (pi a)) l X hb hh nd'
  refine ⟨X', (exec_congr (fun a ha s => hop a ha s) X).trans e, ⟨by rw [sz]; exact hX.1, ?_⟩, ?_⟩
  · intro c i h0 h1 h2 h3
    by_cases hm : ∃ x ∈ l, pc x = c ∧ pi x = i
    · obtain ⟨x, hx, rfl, rfl⟩ := hm
      rw [← hpos x hx, v x hx, hpos x hx, hX.2 _ _ h0 h1 h2 h3]
    · have hm' : ∀ x ∈ l, ¬ (pc x = c ∧ pi x = i) := fun x hx q => hm ⟨x, hx, q⟩
      dsimp only
      rw [hk c i h0 h1 h2 h3 hm', o, hX.2 c i h0 h1 h2 h3]
      intro hp
      obtain ⟨x, hx, ex⟩ := List.mem_map.1 hp
      rw [hpos x hx] at ex
      exact hm' x hx (grid_inj (hr x hx).2.2.1 (hr x hx).2.2.2 h2 h3 ex)
  · intro p hp
    refine o p fun hp' => ?_
    obtain ⟨x, hx, rfl⟩ := List.mem_map.1 hp'
    exact hp (hb x hx)

/-- `f` depends only on the first `n` entries. -/
def Local (n : Int) (f : Line K) : Prop := ∀ x y, (∀ i, 0 ≤ i → i < n → x i = y i) → ∀ i, 0 ≤ i → i < n → f x i = f y i

theorem strided_ok {f : Line K} {n s off : Int} {X : Buf K} (h0 : 0 ≤ off) (h1 : off + s * (n - 1) < X.size) :
    strided f n s off X = some ⟨X.size, fun p => if off ≤ p ∧ (p - off) % s = 0 ∧ (p - off) / s < n then f (fun i => X.val (off + s * i)) ((p - off) / s) else X.val p⟩ := by
  unfold strided; rw [if_pos ⟨h0, h1⟩]

theorem planMany_spec {f : Line K} {n s D cnt off : Int} {X : Buf K} (hl : Local n f) (hs : 0 < s)
    (hb : ∀ q, 0 ≤ q → q < cnt → 0 ≤ off + D * q ∧ off + D * q + s * (n - 1) < X.size)
    (inj : ∀ q q' i i', 0 ≤ q → q < cnt → 0 ≤ q' → q' < cnt → 0 ≤ i → i < n → 0 ≤ i' → i' < n → D * q + s * i = D * q' + s * i' → q = q') :
    ∃ X', planMany f n s D cnt off X = some X' ∧ X'.size = X.size ∧
      (∀ q i, 0 ≤ q → q < cnt → 0 ≤ i → i < n → X'.val (off + D * q + s * i) = f (fun i => X.val (off + D * q + s * i)) i) ∧
      ∀ p, (∀ q i, 0 ≤ q → q < cnt → 0 ≤ i → i < n → p ≠ off + D * q + s * i) → X'.val p = X.val p := by
  unfold planMany
  have hit : ∀ q i, 0 ≤ i → i < n → off + D * q ≤ off + D * q + s * i ∧ (off + D * q + s * i - (off + D * q)) % s = 0 ∧
      (off + D * q + s * i - (off + D * q)) / s = i := by
    intro q i h0 h1
    have : off + D * q + s * i - (off + D * q) = s * i := by ring
    rw [this]
    exact ⟨by have := mul_nonneg hs.le h0; omega, Int.mul_emod_right _ _, Int.mul_ediv_cancel_left _ hs.ne'⟩
  have hit' : ∀ q p, off + D * q ≤ p → (p - (off + D * q)) % s = 0 → (p - (off + D * q)) / s < n →
      ∃ i, 0 ≤ i ∧ i < n ∧ p = off + D * q + s * i ∧ (p - (off + D * q)) / s = i := by
    intro q p h0 h1 h2
    refine ⟨(p - (off + D * q)) / s, Int.ediv_nonneg (by omega) hs.le, h2, ?_, rfl⟩
    have := Int.emod_add_mul_ediv (p - (off + D * q)) s
    omega
  obtain ⟨X', e, sz, v, w, o⟩ := forUp_spec (body := fun q X => strided f n s (off + D * q) X) (lo := 0) (hi := cnt) (s := X)
    (fun Q X' => X'.size = X.size ∧ (∀ q i, 0 ≤ q → q < Q → q < cnt → 0 ≤ i → i < n → X'.val (off + D * q + s * i) = f (fun i => X.val (off + D * q + s * i)) i) ∧
      (∀ q i, Q ≤ q → q < cnt → 0 ≤ q → 0 ≤ i → i < n → X'.val (off + D * q + s * i) = X.val (off + D * q + s * i)) ∧
      ∀ p, (∀ q i, 0 ≤ q → q < cnt → 0 ≤ i → i < n → p ≠ off + D * q + s * i) → X'.val p = X.val p)
    ⟨rfl, fun q i h0 h1 => by omega, fun _ _ _ _ _ _ _ => rfl, fun _ _ => rfl⟩
    (by
      rintro Q hQ0 hQ1 X1 ⟨sz, v, w, o⟩
      obtain ⟨b0, b1⟩ := hb Q hQ0 hQ1
      refine ⟨_, strided_ok b0 (by rw [sz]; exact b1), sz, ?_, ?_, ?_⟩
      · intro q i h0 h1 h2 h3 h4
        by_cases hq : q = Q
        · subst hq
          obtain ⟨c1, c2, c3⟩ := hit q i h3 h4
          dsimp only
          rw [if_pos ⟨c1, c2, by rw [c3]; exact h4⟩, c3]
          exact hl _ _ (fun j g0 g1 => w q j le_rfl h2 h0 g0 g1) i h3 h4
        · dsimp only
          rw [if_neg, v q i h0 (by omega) h2 h3 h4]
          rintro ⟨c1, c2, c3⟩
          obtain ⟨j, j0, j1, j2, -⟩ := hit' Q _ c1 c2 c3
          exact hq (inj q Q i j h0 h2 hQ0 hQ1 h3 h4 j0 j1 (by omega))
      · intro q i h0 h1 h2 h3 h4
        dsimp only
        rw [if_neg, w q i (by omega) h1 h2 h3 h4]
        rintro ⟨c1, c2, c3⟩
        obtain ⟨j, j0, j1, j2, -⟩ := hit' Q _ c1 c2 c3
        have := inj q Q i j h2 h1 hQ0 hQ1 h3 h4 j0 j1 (by omega)
        omega
      · intro p hp
        dsimp only
        rw [if_neg, o p hp]
        rintro ⟨c1, c2, c3⟩
        obtain ⟨j, j0, j1, j2, -⟩ := hit' Q _ c1 c2 c3
        exact hp Q j hQ0 hQ1 j0 j1 j2)
  exact ⟨X', e, sz, fun q i h0 h1 h2 h3 => v q i h0 (by omega) h1 h2 h3, o⟩

/-- A plan over the columns `o, o + d, o + 2d, …`. -/
theorem planCols {f : Line K} {N M d cnt o : Int} (hl : Local N f) (hN : 0 < N) (hd : 0 < d) (ho : 0 ≤ o) (hod : o < d)
    (hc : ∀ q, 0 ≤ q → (q < cnt ↔ o + d * q < M)) :
    Maps N M (fun X => planMany f N 1 (d * N) cnt (o * N) X) (fun a c i => if c % d = o then f (a c) i else a c i) := by
  intro X a hX
  have pe : ∀ q i : Int, o * N + d * N * q + 1 * i = i + (o + d * q) * N := fun q i => by ring
  obtain ⟨X', e, sz, v, u⟩ := planMany_spec (f := f) (n := N) (s := 1) (D := d * N) (cnt := cnt) (off := o * N) (X := X) hl one_pos
    (fun q h0 h1 => by
      have h2 := (hc q h0).1 h1
      have h3 : 0 ≤ d * q := mul_nonneg hd.le h0
      obtain ⟨b0, -⟩ := grid_bound (N := N) (M := M) (c := o + d * q) (i := 0) (by omega) h2 le_rfl hN
      obtain ⟨-, b1⟩ := grid_bound (N := N) (M := M) (c := o + d * q) (i := N - 1) (by omega) h2 (by omega) (by omega)
      have := pe q 0; have := pe q (N - 1)
      rw [hX.1]; constructor <;> omega)
    (fun q q' i i' h0 h1 h2 h3 h4 h5 h6 h7 e => by
      have e' : i + (o + d * q) * N = i' + (o + d * q') * N := by rw [← pe, ← pe]; omega
      have := (grid_inj h4 h5 h6 h7 e').1
      exact mul_left_cancel₀ hd.ne' (by omega))
  refine ⟨X', e, ⟨by rw [sz]; exact hX.1, ?_⟩, ?_⟩
  · intro c i h0 h1 h2 h3
    by_cases hm : c % d = o
    · have hq : c = o + d * (c / d) := by have := Int.emod_add_mul_ediv c d; omega
      have hq0 : 0 ≤ c / d := Int.ediv_nonneg h0 hd.le
      have := v (c / d) i hq0 ((hc _ hq0).2 (by omega)) h2 h3
      simp only [pe, ← hq] at this
      dsimp only
      rw [this, if_pos hm]
      exact hl _ _ (fun j g0 g1 => hX.2 c j h0 h1 g0 g1) i h2 h3
    · dsimp only
      rw [if_neg hm, u, hX.2 c i h0 h1 h2 h3]
      intro q j g0 g1 g2 g3 e
      rw [pe] at e
      have := (grid_inj h2 h3 g2 g3 e).1
      apply hm
      rw [this, Int.add_mul_emod_self_left, Int.emod_eq_of_lt ho hod]
  · intro p hp
    refine u p fun q i h0 h1 h2 h3 e => hp ?_
    have h4 := (hc q h0).1 h1
    have h5 : 0 ≤ d * q := mul_nonneg hd.le h0
    rw [e, pe, hX.1]
    exact grid_bound (by omega) h4 h2 h3

/-! ## The scaling loops -/

section Scale
variable [Field K] [DecidableEq K]

theorem scaleTo_maps {N M n m : Int} (hN : 0 < N) (h0 : 0 ≤ m) (h1 : m ≤ M) (hn : n = N * m) (t : K) :
    Maps N M (scaleTo n t) (scaleG fun c _ => if c < m then t else 1) := by
  subst hn
  have e : scaleTo (N * m) t = exec (fun i X => scaleAt i t X) (rUp 0 (N * m)) := by funext X; exact forUp_exec _ _ _ _
  rw [e]
  refine (upd_maps (rUp 0 (N * m)) (fun p => p / N) (fun p => p % N) (fun p => p) (fun _ x => some (x * t))
    (fun c _ x => x * if c < m then t else 1) _ ?_ ?_ ?_ ?_ ?_ ?_)
  · intro a _ X; rfl
  · intro a _; have := Int.emod_add_mul_ediv a N; rw [mul_comm (a / N)]; exact this.symm
  · intro a ha
    obtain ⟨a0, a1⟩ := mem_rUp.1 ha
    have : a / N < m := Int.ediv_lt_of_lt_mul hN (by rw [mul_comm]; exact a1)
    exact ⟨Int.ediv_nonneg a0 hN.le, by omega, Int.emod_nonneg _ hN.ne', Int.emod_lt_of_pos _ hN⟩
  · intro a ha x
    obtain ⟨a0, a1⟩ := mem_rUp.1 ha
    rw [if_pos (Int.ediv_lt_of_lt_mul hN (by rw [mul_comm]; exact a1))]
  · rw [List.nodup_iff_pairwise_ne, List.pairwise_map]
    refine (pairwise_rUp _ _).imp fun {x y} hxy e => ?_
    have e1 := congrArg Prod.fst e; have e2 := congrArg Prod.snd e
    dsimp only at e1 e2
    have := Int.emod_add_mul_ediv x N; have := Int.emod_add_mul_ediv y N
    rw [e1] at *; omega
  · intro c i c0 c1 i0 i1 hno x
    rw [if_neg, mul_one]
    intro hc
    obtain ⟨b0, b1⟩ := grid_bound (N := N) (M := m) c0 hc i0 i1
    refine hno (i + c * N) (mem_rUp.2 ⟨b0, b1⟩) ⟨?_, ?_⟩
    · rw [Int.add_mul_ediv_right _ _ hN.ne', Int.ediv_eq_zero_of_lt i0 i1, zero_add]
    · rw [Int.add_mul_emod_self_right, Int.emod_eq_of_lt i0 i1]

theorem divTo_maps {N M : Int} (hN : 0 < N) {t : K} (ht : t ≠ 0) :
    Maps N M (divTo (N * M) t) (fun a c i => a c i / t) := by
  have e : divTo (N * M) t = exec (fun i X => divAt i t X) (rUp 0 (N * M)) := by funext X; exact forUp_exec _ _ _ _
  rw [e]
  have hm : ∀ a ∈ rUp 0 (N * M), 0 ≤ a / N ∧ a / N < M ∧ 0 ≤ a % N ∧ a % N < N := by
    intro a ha
    obtain ⟨a0, a1⟩ := mem_rUp.1 ha
    exact ⟨Int.ediv_nonneg a0 hN.le, Int.ediv_lt_of_lt_mul hN (by rw [mul_comm]; exact a1), Int.emod_nonneg _ hN.ne', Int.emod_lt_of_pos _ hN⟩
  refine (upd_maps (rUp 0 (N * M)) (fun p => p / N) (fun p => p % N) (fun p => p) (fun _ x => divC x t) (fun _ _ x => x / t) _ ?_ ?_ hm ?_ ?_ ?_)
  · intro a _ X; rfl
  · intro a _; have := Int.emod_add_mul_ediv a N; rw [mul_comm (a / N)]; exact this.symm
  · intro a _ x; exact divC_of ht
  · rw [List.nodup_iff_pairwise_ne, List.pairwise_map]
    refine (pairwise_rUp _ _).imp fun {x y} hxy e => ?_
    have e1 := congrArg Prod.fst e; have e2 := congrArg Prod.snd e
    dsimp only at e1 e2
    have := Int.emod_add_mul_ediv x N; have := Int.emod_add_mul_ediv y N
    rw [e1] at *; omega
  · intro c i c0 c1 i0 i1 hno x
    exfalso
    obtain ⟨b0, b1⟩ := grid_bound (N := N) (M := M) c0 c1 i0 i1
    refine hno (i + c * N) (mem_rUp.2 ⟨b0, b1⟩) ⟨?_, ?_⟩
    · rw [Int.add_mul_ediv_right _ _ hN.ne', Int.ediv_eq_zero_of_lt i0 i1, zero_add]
    · rw [Int.add_mul_emod_self_right, Int.emod_eq_of_lt i0 i1]

/-- Scaling row `r` of every column of a list. -/
theorem scaleList_maps {N M r : Int} (hr0 : 0 ≤ r) (hr1 : r < N) (l : List Int) (pos : Int → Int) (hpos : ∀ j ∈ l, pos j = r + j * N)
    (hl : ∀ j ∈ l, 0 ≤ j ∧ j < M) (nd : l.Nodup) (t : K) :
    Maps N M (exec (fun j X => scaleAt (pos j) t X) l) (scaleG fun c i => if c ∈ l ∧ i = r then t else 1) := by
  refine (upd_maps l (fun j => j) (fun _ => r) pos (fun _ x => some (x * t)) (fun c i x => x * if c ∈ l ∧ i = r then t else 1) _ ?_ hpos ?_ ?_ ?_ ?_)
  · intro a _ X; rfl
  · intro a ha; exact ⟨(hl a ha).1, (hl a ha).2, hr0, hr1⟩
  · intro a ha x; rw [if_pos ⟨ha, rfl⟩]
  · rw [List.nodup_iff_pairwise_ne, List.pairwise_map]
    exact nd.imp fun {x y} hxy e => hxy (congrArg Prod.fst e)
  · intro c i c0 c1 i0 i1 hno x
    rw [if_neg, mul_one]
    rintro ⟨hc, rfl⟩
    exact hno c hc ⟨rfl, rfl⟩

theorem scalePairs_exec (lo M : Int) (pos : Int → Int) (t : K) :
    scalePairs lo M pos t = exec (fun j X => scaleAt (pos j) t X) ((rStep lo M 4).flatMap fun j => [j, j + 1]) := by
  funext X
  unfold scalePairs
  rw [forStep_exec, exec_flatMap]
  refine exec_congr (fun j _ X => ?_) X
  rw [exec_cons]
  show (scaleAt (pos j) t X).bind _ = _
  congr 1; funext X'
  rw [exec_singleton]

theorem mem_pairs {lo M c : Int} (hlo : 0 ≤ lo) (h4 : lo < 4) (hM : ∀ j, j % 4 = lo → j < M → j + 1 < M) :
    c ∈ ((rStep lo M 4).flatMap fun j => [j, j + 1]) ↔ lo ≤ c ∧ c < M ∧ (c % 4 = lo ∨ (c - 1) % 4 = lo) := by
  simp only [List.mem_flatMap, mem_rStep (show (0:Int) < 4 by norm_num), List.mem_cons, List.not_mem_nil, or_false]
  constructor
  · rintro ⟨j, ⟨⟨k, rfl⟩, h1⟩, rfl | rfl⟩
    · omega
    · have := hM (lo + 4 * k) (by omega) h1
      omega
  · rintro ⟨h0, h1, h2 | h2⟩
    · exact ⟨c, ⟨⟨((c - lo) / 4).toNat, by omega⟩, h1⟩, Or.inl rfl⟩
    · by_cases hc : c = lo
      · omega
      · exact ⟨c - 1, ⟨⟨((c - 1 - lo) / 4).toNat, by omega⟩, by omega⟩, Or.inr (by omega)⟩

theorem nodup_pairs (lo M : Int) : ((rStep lo M 4).flatMap fun j => [j, j + 1]).Nodup := by
  rw [List.nodup_flatMap]
  refine ⟨fun j _ => by simp, ?_⟩
  unfold rStep
  rw [List.pairwise_map]
  refine List.pairwise_lt_range.imp fun {x y} h => ?_
  intro z hz hz'
  simp only [List.mem_cons, List.not_mem_nil, or_false] at hz hz'
  omega

/-- The columns 0, 3, 4, 7, 8, … -/
def evenCol (c : Int) : Bool := c % 4 = 0 ∨ c % 4 = 3

theorem scalePairs_maps {N M lo r : Int} (hN : 0 < N) (hM : M % 2 = 1) (hM0 : 0 < M) (hlo : lo = 1 ∨ lo = 3) (hr0 : 0 ≤ r) (hr1 : r < N)
    (pos : Int → Int) (hpos : ∀ j, pos j = r + j * N) (t : K) :
    Maps N M (scalePairs lo M pos t) (scaleG fun c i => if (lo ≤ c ∧ (c % 4 = lo ∨ (c - 1) % 4 = lo)) ∧ i = r then t else 1) := by
  rw [scalePairs_exec]
  have hm : ∀ c, c ∈ ((rStep lo M 4).flatMap fun j => [j, j + 1]) ↔ lo ≤ c ∧ c < M ∧ (c % 4 = lo ∨ (c - 1) % 4 = lo) :=
    fun c => mem_pairs (by omega) (by omega) (fun j h0 h1 => by omega)
  refine (scaleList_maps hr0 hr1 _ pos (fun j _ => hpos j) (fun j hj => ?_) (nodup_pairs lo M) t).congr ?_
  · have := (hm j).1 hj; omega
  · intro a c i c0 c1 i0 i1
    unfold scaleG
    congr 1
    have := hm c
    dsimp only
    by_cases h : (lo ≤ c ∧ (c % 4 = lo ∨ (c - 1) % 4 = lo)) ∧ i = r
    · rw [if_pos h, if_pos ⟨this.2 ⟨h.1.1, c1, h.1.2⟩, h.2⟩]
    · rw [if_neg h, if_neg (fun q => h ⟨⟨(this.1 q.1).1, (this.1 q.1).2.2⟩, q.2⟩)]

theorem scaleAt_maps {N M r : Int} (hM : 0 < M) (hr0 : 0 ≤ r) (hr1 : r < N) (t : K) :
    Maps N M (scaleAt r t) (scaleG fun c i => if c = 0 ∧ i = r then t else 1) := by
  have e : scaleAt r t = exec (fun j X => scaleAt (r + j * N) t X) [0] := by
    funext X; rw [exec_singleton]; simp
  rw [e]
  refine (scaleList_maps hr0 hr1 [0] (fun j => r + j * N) (fun j _ => rfl) (by simpa using hM) (by simp) t).congr ?_
  intro a c i _ _ _ _
  simp [scaleG]

theorem scaleG_comp (φ ψ : Int → Int → K) (a : Int → Int → K) : scaleG ψ (scaleG φ a) = scaleG (fun c i => φ c i * ψ c i) a := by
  funext c i; simp only [scaleG]; ring

/-- First entries of the columns 0, 3, 4, 7, 8, … (`lo = 3`, with column 0 on its own) or of the others. -/
def markCols (e : Bool) (r : Int) (t : K) (c i : Int) : K := if evenCol c = e ∧ i = r then t else 1

theorem markEven_maps {N M r : Int} (hN : 0 < N) (hM : M % 2 = 1) (hM0 : 0 < M) (hr0 : 0 ≤ r) (hr1 : r < N)
    (pos : Int → Int) (hpos : ∀ j, pos j = r + j * N) (t : K) :
    Maps N M (fun X => (scaleAt r t X).bind (scalePairs 3 M pos t)) (scaleG (markCols true r t)) := by
  refine ((scaleAt_maps hM0 hr0 hr1 t).comp (scalePairs_maps hN hM hM0 (Or.inr rfl) hr0 hr1 pos hpos t)).congr ?_
  intro a c i c0 c1 i0 i1
  rw [scaleG_comp]
  unfold scaleG
  congr 1
  unfold markCols evenCol
  simp only [decide_eq_true_eq]
  by_cases hi : i = r
  · by_cases h0 : c = 0
    · rw [if_pos ⟨h0, hi⟩, if_neg (by omega), if_pos ⟨by omega, hi⟩, mul_one]
    · rw [if_neg (by omega), one_mul]
      by_cases h3 : c % 4 = 0 ∨ c % 4 = 3
      · rw [if_pos ⟨by omega, hi⟩, if_pos ⟨h3, hi⟩]
      · rw [if_neg (by omega), if_neg (fun q => h3 q.1)]
  · rw [if_neg (fun q => hi q.2), if_neg (fun q => hi q.2), if_neg (fun q => hi q.2), mul_one]

theorem markOdd_maps {N M r : Int} (hN : 0 < N) (hM : M % 2 = 1) (hM0 : 0 < M) (hr0 : 0 ≤ r) (hr1 : r < N)
    (pos : Int → Int) (hpos : ∀ j, pos j = r + j * N) (t : K) :
    Maps N M (scalePairs 1 M pos t) (scaleG (markCols false r t)) := by
  refine (scalePairs_maps hN hM hM0 (Or.inl rfl) hr0 hr1 pos hpos t).congr ?_
  intro a c i c0 c1 i0 i1
  unfold scaleG
  congr 1
  unfold markCols evenCol
  simp only [decide_eq_false_iff_not]
  by_cases hi : i = r
  · by_cases h3 : c % 4 = 0 ∨ c % 4 = 3
    · rw [if_neg (by omega), if_neg (fun q => q.1 h3)]
    · rw [if_pos ⟨by omega, hi⟩, if_pos ⟨h3, hi⟩]
  · rw [if_neg (fun q => hi q.2), if_neg (fun q => hi q.2)]

theorem execCols_maps {P : ColPlan K} {N M : Int} (hN : 0 < N) (h0 : Local N P.f0) (h1 : Local N P.f1) :
    Maps N M (execCols P N M) (colG fun c => if evenCol c then P.f0 else P.f1) := by
  have m0 := planCols (M := M) (d := 4) (cnt := (M + 3) / 4) (o := 0) h0 hN (by norm_num) le_rfl (by norm_num) (fun q _ => by omega)
  have m1 := planCols (M := M) (d := 4) (cnt := (M + 2) / 4) (o := 1) h1 hN (by norm_num) (by norm_num) (by norm_num) (fun q _ => by omega)
  have m2 := planCols (M := M) (d := 4) (cnt := (M + 1) / 4) (o := 2) h1 hN (by norm_num) (by norm_num) (by norm_num) (fun q _ => by omega)
  have m3 := planCols (M := M) (d := 4) (cnt := M / 4) (o := 3) h0 hN (by norm_num) (by norm_num) (by norm_num) (fun q _ => by omega)
  rw [zero_mul] at m0
  rw [one_mul] at m1
  refine (m0.comp (m1.comp (m2.comp m3))).congr ?_
  intro a c i c0 c1 i0 i1
  unfold colG evenCol
  have : c % 4 = 0 ∨ c % 4 = 1 ∨ c % 4 = 2 ∨ c % 4 = 3 := by omega
  rcases this with h | h | h | h <;> simp [h]

end Scale

/-! ## Packing and unpacking the Fourier coefficients -/

section Layout
variable [Field K] [DecidableEq K]

/-- The half-complex row `i` that the columns of a grid stand for: cosines in the even columns, sines in the
odd ones. -/
def packG (a : Int → Int → K) (i j : Int) : K × K := if j ≤ 0 then (a 0 i, 0) else (a (2 * j) i, -a (2 * j - 1) i)

/-- The columns that a half-complex row stands for. -/
def unpackG (z : Int → Int → K × K) (c i : Int) : K := if c % 2 = 0 then (z i (c / 2)).1 else -(z i ((c + 1) / 2)).2

/-- One assignment `Y[dst] = g(X[src])`. -/
def cp (X : Buf K) (a : Int × Int × (K → K)) (Y : Buf K) : Option (Buf K) := do let t ← X.rd a.2.1; Y.wr a.1 (a.2.2 t)

/-- A list of assignments in which no entry is given two different values. -/
theorem copyExec (X : Buf K) : ∀ (l : List (Int × Int × (K → K))) (Y : Buf K), (∀ a ∈ l, 0 ≤ a.1 ∧ a.1 < Y.size ∧ 0 ≤ a.2.1 ∧ a.2.1 < X.size) →
    (∀ a ∈ l, ∀ b ∈ l, a.1 = b.1 → a.2.2 (X.val a.2.1) = b.2.2 (X.val b.2.1)) →
    ∃ Y', exec (cp X) l Y = some Y' ∧ Y'.size = Y.size ∧ (∀ a ∈ l, Y'.val a.1 = a.2.2 (X.val a.2.1)) ∧ ∀ q, (∀ a ∈ l, a.1 ≠ q) → Y'.val q = Y.val q := by
  intro l
  induction l with
  | nil => intro Y _ _; exact ⟨Y, rfl, rfl, by simp, fun _ _ => rfl⟩
  | cons a l ih =>
    intro Y hb hf
    obtain ⟨b0, b1, b2, b3⟩ := hb a (by simp)
    let Y1 : Buf K := ⟨Y.size, Function.update Y.val a.1 (a.2.2 (X.val a.2.1))⟩
    have e1 : cp X a Y = some Y1 := by
      unfold cp; rw [Buf.rd_of b2 b3]; exact Buf.wr_of b0 b1
    obtain ⟨Y', e, sz, v, o⟩ := ih Y1 (fun b h => hb b (by simp [h])) (fun b h c h' => hf b (by simp [h]) c (by simp [h']))
    refine ⟨Y', by rw [exec_cons, e1]; exact e, sz, ?_, ?_⟩
    · intro b hb'
      rcases List.mem_cons.1 hb' with rfl | hb'
      · by_cases h : ∃ c ∈ l, c.1 = b.1
        · obtain ⟨c, hc, ec⟩ := h
          rw [← ec, v c hc]
          exact hf c (by simp [hc]) b (by simp) ec
        · rw [o _ (fun c hc ec => h ⟨c, hc, ec⟩)]; simp [Y1]
      · exact v b hb'
    · intro q hq
      rw [o q (fun c hc => hq c (by simp [hc]))]
      have : q ≠ a.1 := fun e => hq a (by simp) e.symm
      simp [Y1, Function.update_of_ne this]

theorem forUp_cp {lo hi : Int} (X : Buf K) (f : Int → List (Int × Int × (K → K))) (b : Int → Buf K → Option (Buf K)) (hb : ∀ i Y, b i Y = exec (cp X) (f i) Y) (Y : Buf K) :
    forUp lo hi b Y = exec (cp X) ((rUp lo hi).flatMap f) Y := by
  rw [forUp_exec, exec_flatMap]
  exact exec_congr (fun i _ Y => hb i Y) Y

/-- Two copying loops for the first column and for each frequency, as in all four layout changes. -/
def cpList (N hi : Int) (f0 : Int → List (Int × Int × (K → K))) (f1 f2 : Int → Int → List (Int × Int × (K → K))) : List (Int × Int × (K → K)) :=
  (rUp 0 N).flatMap f0 ++ (rUp 1 hi).flatMap fun j => (rUp 0 N).flatMap (f1 j) ++ (rUp 0 N).flatMap (f2 j)

theorem mem_cpList {N hi : Int} {f0 : Int → List (Int × Int × (K → K))} {f1 f2 : Int → Int → List (Int × Int × (K → K))} {x : Int × Int × (K → K)} :
    x ∈ cpList N hi f0 f1 f2 ↔ (∃ i, 0 ≤ i ∧ i < N ∧ x ∈ f0 i) ∨ ∃ j, 1 ≤ j ∧ j < hi ∧ ((∃ i, 0 ≤ i ∧ i < N ∧ x ∈ f1 j i) ∨ ∃ i, 0 ≤ i ∧ i < N ∧ x ∈ f2 j i) := by
  unfold cpList
  simp only [List.mem_append, List.mem_flatMap, mem_rUp, and_assoc]

theorem cpList_run {N hi : Int} (X : Buf K) {f0 : Int → List (Int × Int × (K → K))} {f1 f2 : Int → Int → List (Int × Int × (K → K))}
    {b0 : Int → Buf K → Option (Buf K)} {b1 b2 : Int → Int → Buf K → Option (Buf K)} (h0 : ∀ i Y, b0 i Y = exec (cp X) (f0 i) Y)
    (h1 : ∀ j i Y, b1 j i Y = exec (cp X) (f1 j i) Y) (h2 : ∀ j i Y, b2 j i Y = exec (cp X) (f2 j i) Y) (Y : Buf K) :
    ((forUp 0 N b0 Y).bind fun Y => forUp 1 hi (fun j Y => (forUp 0 N (b1 j) Y).bind fun Y => forUp 0 N (b2 j) Y) Y) = exec (cp X) (cpList N hi f0 f1 f2) Y := by
  unfold cpList
  rw [exec_append, forUp_cp X f0 b0 h0]
  congr 1; funext Y1
  refine forUp_cp X _ _ (fun j Y => ?_) Y1
  rw [exec_append, forUp_cp X (f1 j) (b1 j) (h1 j)]
  congr 1; funext Y2
  exact forUp_cp X (f2 j) (b2 j) (h2 j) Y2

theorem cp_one (X : Buf K) (d s : Int) (g : K → K) (Y : Buf K) : (do let t ← X.rd s; Y.wr d (g t)) = exec (cp X) [(d, s, g)] Y := by
  rw [exec_singleton]; rfl

/-- `Y` holds the half-complex rows `z`, the imaginary parts of frequency 0 aside. -/
def HoldsC (N M : Int) (Y : Buf K) (z : Int → Int → K × K) : Prop :=
  (Y.size : Int) = 2 * (N * (M / 2 + 1)) ∧ (∀ i j, 0 ≤ i → i < N → 0 ≤ j → j < M / 2 + 1 → Y.val (2 * (i + j * N)) = (z i j).1) ∧
    ∀ i j, 0 ≤ i → i < N → 1 ≤ j → j < M / 2 + 1 → Y.val (2 * (i + j * N) + 1) = (z i j).2

theorem dataR2C_holds {N M : Int} (hN : 0 < N) (hM : M % 2 = 1) (hM0 : 0 < M) {X Y : Buf K} {a : Int → Int → K} (hX : Holds N M X a)
    (hY : (Y.size : Int) = 2 * (N * (M / 2 + 1))) : ∃ Y', dataR2C N M X Y = some Y' ∧ HoldsC N M Y' (packG a) := by
  have bX : ∀ c i, 0 ≤ c → c < M → 0 ≤ i → i < N → 0 ≤ i + c * N ∧ i + c * N < X.size := by
    intro c i h0 h1 h2 h3; rw [hX.1]; exact grid_bound h0 h1 h2 h3
  have bY : ∀ j i, 0 ≤ j → j < M / 2 + 1 → 0 ≤ i → i < N → 0 ≤ i + j * N ∧ 2 * (i + j * N) + 1 < Y.size := by
    intro c i h0 h1 h2 h3; rw [hY]; have := grid_bound (M := M / 2 + 1) h0 h1 h2 h3; omega
  have eL : dataR2C N M X Y = exec (cp X) (cpList N (M / 2 + 1) (fun i => [(2 * i, i, id)]) (fun j i => [(2 * i + 2 * j * N, i + 2 * j * N, id)])
      (fun j i => [(2 * i + 1 + 2 * j * N, i + (2 * j - 1) * N, Neg.neg)])) Y :=
    cpList_run X (fun i Y => cp_one X (2 * i) i id Y) (fun j i Y => cp_one X (2 * i + 2 * j * N) (i + 2 * j * N) id Y)
      (fun j i Y => cp_one X (2 * i + 1 + 2 * j * N) (i + (2 * j - 1) * N) Neg.neg Y) Y
  -- every assignment, by frequency
  have hm : ∀ x, x ∈ cpList N (M / 2 + 1) (fun i => [(2 * i, i, id)]) (fun j i => [(2 * i + 2 * j * N, i + 2 * j * N, id)])
      (fun j i => [(2 * i + 1 + 2 * j * N, i + (2 * j - 1) * N, (Neg.neg : K → K))]) →
      ∃ j i, 0 ≤ j ∧ j < M / 2 + 1 ∧ 0 ≤ i ∧ i < N ∧ ((x.1 = 2 * (i + j * N) ∧ x.2.1 = i + 2 * j * N ∧ x.2.2 = id) ∨
        1 ≤ j ∧ x.1 = 2 * (i + j * N) + 1 ∧ x.2.1 = i + (2 * j - 1) * N ∧ x.2.2 = Neg.neg) := by
    intro x hx
    rcases mem_cpList.1 hx with ⟨i, i0, i1, h⟩ | ⟨j, j0, j1, ⟨i, i0, i1, h⟩ | ⟨i, i0, i1, h⟩⟩ <;> rw [List.mem_singleton] at h <;> subst h
    · exact ⟨0, i, le_rfl, by omega, i0, i1, Or.inl ⟨by ring, by ring, rfl⟩⟩
    · exact ⟨j, i, by omega, j1, i0, i1, Or.inl ⟨by ring, by ring, rfl⟩⟩
    · exact ⟨j, i, by omega, j1, i0, i1, Or.inr ⟨j0, by ring, by ring, rfl⟩⟩
  obtain ⟨Y', e, sz, v, -⟩ := copyExec X _ Y
    (fun x hx => by
      obtain ⟨j, i, j0, j1, i0, i1, ⟨e1, e2, -⟩ | ⟨j2, e1, e2, -⟩⟩ := hm x hx <;> rw [e1, e2] <;> have := bY j i j0 j1 i0 i1
      · have := bX (2 * j) i (by omega) (by omega) i0 i1; omega
      · have := bX (2 * j - 1) i (by omega) (by omega) i0 i1; omega)
    (fun x hx y hy hxy => by
      obtain ⟨j, i, j0, j1, i0, i1, ⟨e1, e2, e3⟩ | ⟨-, e1, e2, e3⟩⟩ := hm x hx <;>
      obtain ⟨j', i', j0', j1', i0', i1', ⟨e1', e2', e3'⟩ | ⟨-, e1', e2', e3'⟩⟩ := hm y hy <;> rw [e1, e1'] at hxy
      · obtain ⟨rfl, rfl⟩ := grid_inj i0 i1 i0' i1' (by omega : i + j * N = i' + j' * N)
        rw [e2, e3, e2', e3']
      · omega
      · omega
      · obtain ⟨rfl, rfl⟩ := grid_inj i0 i1 i0' i1' (by omega : i + j * N = i' + j' * N)
        rw [e2, e3, e2', e3'])
  refine ⟨Y', eL.trans e, by rw [sz]; exact hY, ?_, ?_⟩
  · intro i j i0 i1 j0 j1
    unfold packG
    by_cases hj : j ≤ 0
    · obtain rfl : j = 0 := by omega
      rw [if_pos le_rfl]
      have := v (2 * i, i, id) (mem_cpList.2 (Or.inl ⟨i, i0, i1, by simp⟩))
      rw [show 2 * (i + 0 * N) = 2 * i by ring]
      refine this.trans ?_
      have h := hX.2 0 i le_rfl hM0 i0 i1
      rwa [show i + 0 * N = i by ring] at h
    · rw [if_neg hj]
      have := v (2 * i + 2 * j * N, i + 2 * j * N, id) (mem_cpList.2 (Or.inr ⟨j, by omega, j1, Or.inl ⟨i, i0, i1, by simp⟩⟩))
      rw [show 2 * (i + j * N) = 2 * i + 2 * j * N by ring]
      exact this.trans (hX.2 (2 * j) i (by omega) (by omega) i0 i1)
  · intro i j i0 i1 j0 j1
    unfold packG
    rw [if_neg (by omega)]
    have := v (2 * i + 1 + 2 * j * N, i + (2 * j - 1) * N, Neg.neg) (mem_cpList.2 (Or.inr ⟨j, by omega, j1, Or.inr ⟨i, i0, i1, by simp⟩⟩))
    rw [show 2 * (i + j * N) + 1 = 2 * i + 1 + 2 * j * N by ring]
    exact this.trans (congrArg Neg.neg (hX.2 (2 * j - 1) i (by omega) (by omega) i0 i1))

theorem dataC2R_holds {N M : Int} (hN : 0 < N) (hM : M % 2 = 1) (hM0 : 0 < M) {X Y : Buf K} {z : Int → Int → K × K} (hY : HoldsC N M Y z)
    (hX : (X.size : Int) = N * M) : ∃ X', dataC2R N M Y X = some X' ∧ Holds N M X' (unpackG z) ∧ Out X X' := by
  have bX : ∀ c i, 0 ≤ c → c < M → 0 ≤ i → i < N → 0 ≤ i + c * N ∧ i + c * N < X.size := by
    intro c i h0 h1 h2 h3; rw [hX]; exact grid_bound h0 h1 h2 h3
  have bY : ∀ j i, 0 ≤ j → j < M / 2 + 1 → 0 ≤ i → i < N → 0 ≤ i + j * N ∧ 2 * (i + j * N) + 1 < Y.size := by
    intro c i h0 h1 h2 h3; rw [hY.1]; have := grid_bound (M := M / 2 + 1) h0 h1 h2 h3; omega
  have eL : dataC2R N M Y X = exec (cp Y) (cpList N (M / 2 + 1) (fun i => [(i, 2 * i, id)]) (fun j i => [(i + 2 * j * N, 2 * i + 2 * j * N, id)])
      (fun j i => [(i + (2 * j - 1) * N, 2 * i + 1 + 2 * j * N, Neg.neg)])) X :=
    cpList_run Y (fun i X => cp_one Y i (2 * i) id X) (fun j i X => cp_one Y (i + 2 * j * N) (2 * i + 2 * j * N) id X)
      (fun j i X => cp_one Y (i + (2 * j - 1) * N) (2 * i + 1 + 2 * j * N) Neg.neg X) X
  have hm : ∀ x, x ∈ cpList N (M / 2 + 1) (fun i => [(i, 2 * i, id)]) (fun j i => [(i + 2 * j * N, 2 * i + 2 * j * N, id)])
      (fun j i => [(i + (2 * j - 1) * N, 2 * i + 1 + 2 * j * N, (Neg.neg : K → K))]) →
      ∃ j i, 0 ≤ j ∧ j < M / 2 + 1 ∧ 0 ≤ i ∧ i < N ∧ ((x.1 = i + 2 * j * N ∧ x.2.1 = 2 * (i + j * N) ∧ x.2.2 = id) ∨
        1 ≤ j ∧ x.1 = i + (2 * j - 1) * N ∧ x.2.1 = 2 * (i + j * N) + 1 ∧ x.2.2 = Neg.neg) := by
    intro x hx
    rcases mem_cpList.1 hx with ⟨i, i0, i1, h⟩ | ⟨j, j0, j1, ⟨i, i0, i1, h⟩ | ⟨i, i0, i1, h⟩⟩ <;> rw [List.mem_singleton] at h <;> subst h
    · exact ⟨0, i, le_rfl, by omega, i0, i1, Or.inl ⟨by ring, by ring, rfl⟩⟩
    · exact ⟨j, i, by omega, j1, i0, i1, Or.inl ⟨by ring, by ring, rfl⟩⟩
    · exact ⟨j, i, by omega, j1, i0, i1, Or.inr ⟨j0, by ring, by ring, rfl⟩⟩
  have hbd : ∀ x ∈ cpList N (M / 2 + 1) (fun i => [(i, 2 * i, id)]) (fun j i => [(i + 2 * j * N, 2 * i + 2 * j * N, id)])
      (fun j i => [(i + (2 * j - 1) * N, 2 * i + 1 + 2 * j * N, (Neg.neg : K → K))]), 0 ≤ x.1 ∧ x.1 < X.size ∧ 0 ≤ x.2.1 ∧ x.2.1 < Y.size := by
    intro x hx
    obtain ⟨j, i, j0, j1, i0, i1, ⟨e1, e2, -⟩ | ⟨j2, e1, e2, -⟩⟩ := hm x hx <;> rw [e1, e2] <;> have := bY j i j0 j1 i0 i1
    · have := bX (2 * j) i (by omega) (by omega) i0 i1; omega
    · have := bX (2 * j - 1) i (by omega) (by omega) i0 i1; omega
  obtain ⟨X', e, sz, v, o⟩ := copyExec Y _ X hbd
    (fun x hx y hy hxy => by
      obtain ⟨j, i, j0, j1, i0, i1, ⟨e1, e2, e3⟩ | ⟨-, e1, e2, e3⟩⟩ := hm x hx <;>
      obtain ⟨j', i', j0', j1', i0', i1', ⟨e1', e2', e3'⟩ | ⟨-, e1', e2', e3'⟩⟩ := hm y hy <;> rw [e1, e1'] at hxy <;>
      obtain ⟨r1, rfl⟩ := grid_inj i0 i1 i0' i1' hxy
      · obtain rfl : j = j' := by omega
        rw [e2, e3, e2', e3']
      · omega
      · omega
      · obtain rfl : j = j' := by omega
        rw [e2, e3, e2', e3'])
  refine ⟨X', eL.trans e, ⟨by rw [sz]; exact hX, ?_⟩, ?_⟩
  · intro c i c0 c1 i0 i1
    unfold unpackG
    by_cases hc : c % 2 = 0
    · rw [if_pos hc]
      by_cases h0 : c = 0
      · subst h0
        have := v (i, 2 * i, id) (mem_cpList.2 (Or.inl ⟨i, i0, i1, by simp⟩))
        rw [show i + 0 * N = i by ring]
        refine this.trans ?_
        have h := hY.2.1 i 0 i0 i1 le_rfl (by omega)
        rwa [show 2 * (i + 0 * N) = 2 * i by ring] at h
      · obtain ⟨j, rfl⟩ : ∃ j, c = 2 * j := ⟨c / 2, by omega⟩
        have := v (i + 2 * j * N, 2 * i + 2 * j * N, id) (mem_cpList.2 (Or.inr ⟨j, by omega, by omega, Or.inl ⟨i, i0, i1, by simp⟩⟩))
        refine this.trans ?_
        have h := hY.2.1 i j i0 i1 (by omega) (by omega)
        rw [show 2 * j / 2 = j by omega]
        rwa [show 2 * (i + j * N) = 2 * i + 2 * j * N by ring] at h
    · rw [if_neg hc]
      obtain ⟨j, rfl⟩ : ∃ j, c = 2 * j - 1 := ⟨(c + 1) / 2, by omega⟩
      have := v (i + (2 * j - 1) * N, 2 * i + 1 + 2 * j * N, Neg.neg) (mem_cpList.2 (Or.inr ⟨j, by omega, by omega, Or.inr ⟨i, i0, i1, by simp⟩⟩))
      refine this.trans ?_
      have h := hY.2.2 i j i0 i1 (by omega) (by omega)
      rw [show (2 * j - 1 + 1) / 2 = j by omega]
      rw [show 2 * (i + j * N) + 1 = 2 * i + 1 + 2 * j * N by ring] at h
      exact congrArg Neg.neg h
  · intro p hp
    exact o p fun x hx e => hp (by have := hbd x hx; omega)

/-! ## The row transforms -/

/-- What the library guarantees of a complex-to-real transform: it depends on the half-complex row only,
and not on the imaginary part of frequency 0. -/
def LocalC (M : Int) (g : (Int → K × K) → Int → K) : Prop :=
  ∀ z z', (∀ j, 0 ≤ j → j < M / 2 + 1 → (z j).1 = (z' j).1) → (∀ j, 1 ≤ j → j < M / 2 + 1 → (z j).2 = (z' j).2) →
    ∀ c, 0 ≤ c → c < M → g z c = g z' c

/-- A real-to-complex transform depends on the row only. -/
def LocalR (M : Int) (h : (Int → K) → Int → K × K) : Prop :=
  ∀ x x', (∀ c, 0 ≤ c → c < M → x c = x' c) → ∀ j, 0 ≤ j → j < M / 2 + 1 → h x j = h x' j

theorem grid_mod {N c i : Int} (i0 : 0 ≤ i) (i1 : i < N) : (i + c * N) % N = i := by
  rw [Int.add_mul_emod_self_right, Int.emod_eq_of_lt i0 i1]

theorem grid_div {N c i : Int} (i0 : 0 ≤ i) (i1 : i < N) : (i + c * N) / N = c := by
  rw [Int.add_mul_ediv_right _ _ (by omega), Int.ediv_eq_zero_of_lt i0 i1, zero_add]

theorem execC2R_holds {g : (Int → K × K) → Int → K} {clob : Int → K} {N M : Int} (hg : LocalC M g) {X Y : Buf K}
    {z : Int → Int → K × K} (hY : HoldsC N M Y z) (hX : (X.size : Int) = N * M) :
    ∃ X' Y', execC2R (.c2r g) clob N M X Y = some (X', Y') ∧ Holds N M X' (fun c i => g (z i) c) ∧ Y'.size = Y.size ∧ Out X X' := by
  refine ⟨⟨X.size, fun p => if 0 ≤ p ∧ p < N * M then g (rowC N Y (p % N)) (p / N) else X.val p⟩,
        ⟨Y.size, fun q => if 0 ≤ q ∧ q < 2 * (N * (M / 2 + 1)) then clob q else Y.val q⟩, ?_, ⟨hX, ?_⟩, rfl, ?_⟩
  · unfold execC2R
    dsimp only
    rw [if_pos ⟨by rw [hY.1], by rw [hX]⟩]
  · intro c i c0 c1 i0 i1
    obtain ⟨b0, b1⟩ := grid_bound c0 c1 i0 i1
    dsimp only
    rw [if_pos ⟨b0, b1⟩, grid_mod i0 i1, grid_div i0 i1]
    exact hg _ _ (fun j j0 j1 => hY.2.1 i j i0 i1 j0 j1) (fun j j0 j1 => hY.2.2 i j i0 i1 j0 j1) c c0 c1
  · intro p hp
    dsimp only
    rw [if_neg (by rw [← hX]; exact hp)]

theorem execR2C_holds {h : (Int → K) → Int → K × K} {clob : Int → K} {N M : Int} (hh : LocalR M h) {X Y : Buf K}
    {a : Int → Int → K} (hX : Holds N M X a) (hY : (Y.size : Int) = 2 * (N * (M / 2 + 1))) :
    ∃ X' Y', execR2C (.r2c h) clob N M X Y = some (X', Y') ∧ HoldsC N M Y' (fun i j => h (fun c => a c i) j) ∧ Y'.size = Y.size ∧
      X'.size = X.size ∧ Out X X' := by
  refine ⟨⟨X.size, fun p => if 0 ≤ p ∧ p < N * M then clob p else X.val p⟩, ⟨Y.size, fun q => if 0 ≤ q ∧ q < 2 * (N * (M / 2 + 1)) then
          (if q % 2 = 0 then (h (fun c => X.val (q / 2 % N + c * N)) (q / 2 / N)).1
            else (h (fun c => X.val (q / 2 % N + c * N)) (q / 2 / N)).2) else Y.val q⟩, ?_, ⟨hY, ?_, ?_⟩, rfl, rfl, ?_⟩
  · unfold execR2C
    dsimp only
    rw [if_pos ⟨by rw [hY], by rw [hX.1]⟩]
  · intro i j i0 i1 j0 j1
    obtain ⟨b0, b1⟩ := grid_bound (M := M / 2 + 1) j0 j1 i0 i1
    dsimp only
    rw [if_pos ⟨by omega, by omega⟩, if_pos (by omega), show 2 * (i + j * N) / 2 = i + j * N by omega, grid_mod i0 i1, grid_div i0 i1]
    rw [hh _ (fun c => a c i) (fun c c0 c1 => hX.2 c i c0 c1 i0 i1) j j0 j1]
  · intro i j i0 i1 j0 j1
    obtain ⟨b0, b1⟩ := grid_bound (M := M / 2 + 1) (by omega : 0 ≤ j) j1 i0 i1
    dsimp only
    rw [if_pos ⟨by omega, by omega⟩, if_neg (by omega), show (2 * (i + j * N) + 1) / 2 = i + j * N by omega, grid_mod i0 i1, grid_div i0 i1]
    rw [hh _ (fun c => a c i) (fun c c0 c1 => hX.2 c i c0 c1 i0 i1) j (by omega) j1]
  · intro p hp
    dsimp only
    rw [if_neg (by rw [← hX.1]; exact hp)]

/-- Factor `t` everywhere and a further `s` in column 0. -/
def edge (t s : K) (c _ : Int) : K := t * if c = 0 then s else 1

theorem scale2_maps {N M : Int} (hN : 0 < N) (hM0 : 0 < M) (t s : K) :
    Maps N M (fun X => (scaleTo (N * M) t X).bind (scaleTo N s)) (scaleG (edge t s)) := by
  refine ((scaleTo_maps (N := N) (M := M) (n := N * M) hN hM0.le le_rfl rfl t).comp
    (scaleTo_maps (N := N) (M := M) (n := N) (m := 1) hN (by omega) (by omega) (by ring) s)).congr ?_
  intro a c i c0 c1 i0 i1
  rw [scaleG_comp]
  unfold scaleG edge
  congr 1
  dsimp only
  rw [if_pos c1]
  congr 1
  by_cases h : c = 0
  · rw [if_pos (by omega), if_pos h]
  · rw [if_neg (by omega), if_neg h]

theorem packG_congr {N M : Int} {a b : Int → Int → K} (h : GEq N M a b) {i : Int} (i0 : 0 ≤ i) (i1 : i < N) {j : Int} (j0 : 0 ≤ j) (j1 : j < M / 2 + 1) (hM : M % 2 = 1) (hM0 : 0 < M) :
    packG a i j = packG b i j := by
  unfold packG
  by_cases hj : j ≤ 0
  · rw [if_pos hj, if_pos hj, h 0 i le_rfl hM0 i0 i1]
  · rw [if_neg hj, if_neg hj, h (2 * j) i (by omega) (by omega) i0 i1, h (2 * j - 1) i (by omega) (by omega) i0 i1]

theorem rowsOut_maps {C : FConst K} {g : (Int → K × K) → Int → K} {clob : Int → K} {t : K} {N M : Int} (hN : 0 < N) (hM : M % 2 = 1) (hM0 : 0 < M)
    (hg : LocalC M g) : MapsP N M (rowsOut C (.c2r g) clob t N M) (fun a c i => g (packG (scaleG (edge t C.s2) a) i) c) := by
  intro X Y a hX hY
  obtain ⟨X1, e1, h1, o1⟩ := scale2_maps hN hM0 t C.s2 X a hX
  obtain ⟨Y1, e2, h2⟩ := dataR2C_holds hN hM hM0 h1 hY
  obtain ⟨X2, Y2, e3, h3, s3, o3⟩ := execC2R_holds (clob := clob) hg h2 h1.1
  refine ⟨X2, Y2, ?_, h3, by rw [s3]; have := h2.1; omega, o1.trans (by have := hX.1; have := h1.1; omega) o3⟩
  obtain ⟨X0, e0, e1'⟩ := Option.bind_eq_some_iff.1 e1
  unfold rowsOut
  rw [e0]
  refine Eq.trans (b := (scaleTo N C.s2 X0).bind fun X => (dataR2C N M X Y).bind fun Y => execC2R (.c2r g) clob N M X Y) rfl ?_
  rw [e1']
  refine Eq.trans (b := (dataR2C N M X1 Y).bind fun Y => execC2R (.c2r g) clob N M X1 Y) rfl ?_
  rw [e2]
  exact e3

theorem rowsIn_maps {C : FConst K} {h : (Int → K) → Int → K × K} {clob : Int → K} {t : K} {N M : Int} (hN : 0 < N) (hM : M % 2 = 1) (hM0 : 0 < M)
    (hh : LocalR M h) : MapsP N M (rowsIn C (.r2c h) clob t N M)
      (fun a => scaleG (edge t C.s12) (unpackG fun i j => h (fun c => a c i) j)) := by
  intro X Y a hX hY
  obtain ⟨X1, Y1, e1, h1, s1, s1', o1⟩ := execR2C_holds (clob := clob) hh hX hY
  obtain ⟨X2, e2, h2, o2⟩ := dataC2R_holds (X := X1) hN hM hM0 h1 (by rw [s1']; exact hX.1)
  obtain ⟨X3, e3, h3, o3⟩ := scale2_maps hN hM0 t C.s12 X2 _ h2
  have z2 : X1.size = X2.size := by have := hX.1; have := h2.1; omega
  refine ⟨X3, Y1, ?_, h3, s1, (o1.trans s1'.symm o2).trans (by omega) o3⟩
  obtain ⟨X0, e0, e3'⟩ := Option.bind_eq_some_iff.1 e3
  unfold rowsIn
  rw [e1]
  refine Eq.trans (b := (dataC2R N M Y1 X1).bind fun X => (scaleTo (N * M) t X).bind fun X => (scaleTo N C.s12 X).bind fun X => some (X, Y1)) rfl ?_
  rw [e2]
  refine Eq.trans (b := (scaleTo (N * M) t X2).bind fun X => (scaleTo N C.s12 X).bind fun X => some (X, Y1)) rfl ?_
  rw [e0]
  refine Eq.trans (b := (scaleTo N C.s12 X0).bind fun X => some (X, Y1)) rfl ?_
  rw [e3']
  rfl

/-! ## Programs -/

/-- Column work `f`, then the rows out. -/
theorem MapsP.out {N M : Int} {f : Buf K → Option (Buf K)} {v : (Int → Int → K) → Int → Int → K} {C : FConst K} {g : (Int → K × K) → Int → K} {clob : Int → K} {t : K}
    (hN : 0 < N) (hM : M % 2 = 1) (hM0 : 0 < M) (hg : LocalC M g) (hf : Maps N M f v) {prog : Buf K → Buf K → Option (Buf K × Buf K)}
    (hp : ∀ X Y X', f X = some X' → prog X Y = rowsOut C (.c2r g) clob t N M X' Y) :
    MapsP N M prog (fun a c i => g (packG (scaleG (edge t C.s2) (v a)) i) c) := by
  intro X Y a hX hY
  obtain ⟨X1, e1, h1, o1⟩ := hf X a hX
  obtain ⟨X2, Y2, e2, h2, s2, o2⟩ := rowsOut_maps (C := C) (clob := clob) (t := t) hN hM hM0 hg X1 Y _ h1 hY
  exact ⟨X2, Y2, (hp X Y X1 e1).trans e2, h2, s2, o1.trans (by have := hX.1; have := h1.1; omega) o2⟩

/-- The rows in, then column work `f`. -/
theorem MapsP.in' {N M : Int} {f : Buf K → Option (Buf K)} {v : (Int → Int → K) → Int → Int → K} {C : FConst K} {h : (Int → K) → Int → K × K} {clob : Int → K} {t : K}
    (hN : 0 < N) (hM : M % 2 = 1) (hM0 : 0 < M) (hh : LocalR M h) (hf : Maps N M f v) {prog : Buf K → Buf K → Option (Buf K × Buf K)}
    (hp : ∀ X Y X1 Y1 X2, rowsIn C (.r2c h) clob t N M X Y = some (X1, Y1) → f X1 = some X2 → prog X Y = some (X2, Y1)) :
    MapsP N M prog (fun a => v (scaleG (edge t C.s12) (unpackG fun i j => h (fun c => a c i) j))) := by
  intro X Y a hX hY
  obtain ⟨X2, Y2, e2, h2, s2, o2⟩ := rowsIn_maps (C := C) (clob := clob) (t := t) hN hM hM0 hh X Y _ hX hY
  obtain ⟨X1, e1, h1, o1⟩ := hf X2 _ h2
  exact ⟨X1, Y2, hp X Y X2 Y2 X1 e2 e1, h1, s2, o2.trans (by have := hX.1; have := h2.1; omega) o1⟩

end Layout

end FT.Model
