import Verif.Lemmas.Drivers

namespace FT
open Permute
variable {K : Type*} [CommRing K]

/-! ### The vector kernels as column transforms -/

theorem progMaps_kernV {V : VGeom} {RP : RotPlan K} (hG : GeomOK V.G) (hI : InB V.G RP) (hj : V.G.jst = 1 ∨ V.G.jst = 2) (hg : V.G.g = 1 ∨ V.G.g = 2)
    {L : Int} (hL : 0 < L) (hsl : 0 ≤ V.slack) (hper : 0 < V.per) {VS : Nat} (hVS : 1 ≤ VS) (hdv : V.per ∣ (VS : Int))
    {F : Int → (Int → K) → Int → K} {pos : Int → Int → Int} {D : Int → Prop} (hp : PosInj RP.n pos D) {sz : Nat} {d : Bool} {m1 m2 o S c0 : Int}
    (hm : 0 ≤ m1) (hm2 : m1 ≤ m2)
    (hlo : d = false → V.G.jst ∣ m2 - m1 ∧ ∀ j, m1 ≤ j → j < m2 - V.G.jst * L - V.G.jst * VS + 2 * V.G.jst → V.G.g * L ≤ V.G.top RP.n j + 1)
    (hD : ∀ e : Int, 0 ≤ e → e < VS → D (c0 + e))
    (hF : ∀ e : Int, 0 ≤ e → e < VS → F (c0 + e) = colF d V.G RP m1 (m2 + V.G.jst * (e / V.per)))
    (hpos : ∀ k e : Int, 0 ≤ e → e < VS → pos k (c0 + e) = o + e + k * S) (hfit : VFits VS RP.n o S sz) (junk : Int → Int → K) :
    ProgMaps F RP.n pos sz (fun c => c0 ≤ c ∧ c < c0 + VS) (kernVP d V L VS junk RP m1 m2 o S) := by
  have key := ProgMaps.each (F := F) (sz := sz) hp (nodup_rUp (lo := 0) (hi := VS)) (C := fun e c => c = c0 + e)
    (by rintro e he c rfl; exact hD e (mem_rUp.1 he).1 (mem_rUp.1 he).2)
    (by rintro a _ b _ hab c rfl; omega)
    (P := fun e => kernP d V.G RP m1 (m2 + V.G.jst * (e / V.per)) (o + e) S)
    (fun e he => by
      obtain ⟨h0, h1⟩ := mem_rUp.1 he
      obtain ⟨f1, f2, f3, f4⟩ := hfit
      exact progMaps_kern hG hI hm (hF e h0 h1) (fun k => hpos k e h0 h1) ⟨f3, by omega, by omega⟩)
  have hrun : ∀ A : Buf K, A.size = sz → (kernVP d V L VS junk RP m1 m2 o S).run A =
      (Prog.each (fun e _ => kernP d V.G RP m1 (m2 + V.G.jst * (e / V.per)) (o + e) S) (rUp 0 VS) ()).run A := by
    intro A hA
    have hfit' : VFits VS RP.n o S A.size := by rw [hA]; exact hfit
    rw [Prog.run_each_unit (fun e _ => (impl_kern d V.G RP m1 (m2 + V.G.jst * (e / V.per)) (o + e) S).run)]
    unfold kernVP kern
    cases d
    · simp only [Bool.false_eq_true, if_false]
      rw [(impl_kernelVLo2hi ..).run, kernelVLo2hi_eq hG hI hj hg hL hper hVS hdv hm hm2 (hlo rfl).1 (hlo rfl).2 hfit' junk, forUp_exec]
    · simp only [if_true]
      rw [(impl_kernelVHi2lo ..).run, kernelVHi2lo_eq hG hI hj hg hL hsl hper hdv hm hm2 hfit' junk, forUp_exec]
  refine ⟨?_, ?_⟩
  · have hw : (kernVP d V L VS junk RP m1 m2 o S).Within (LaneR VS RP.n o S) := by
      unfold kernVP
      cases d
      · simp only [Bool.false_eq_true, if_false]
        exact within_kernelVLo2hi hG hL hper hdv hVS hm hm2 (hlo rfl).2 junk
      · simp only [if_true]
        exact within_kernelVHi2lo hG hL hsl hper hdv hm hm2 junk
    refine hw.mono ?_
    rintro i ⟨k, e, h2, h3, h0, h1, rfl⟩
    exact ⟨c0 + e, k, ⟨by omega, by omega⟩, h2, by omega, by rw [hpos k e h0 h1]⟩
  · intro A hA
    obtain ⟨A', e, m⟩ := key.run A hA
    refine ⟨A', by rw [hrun A hA]; exact e, m.congrC fun c => ?_⟩
    constructor
    · rintro ⟨e, he, rfl⟩
      have := mem_rUp.1 he
      omega
    · intro h
      exact ⟨c - c0, mem_rUp.2 ⟨by omega, by omega⟩, by omega⟩

/-! ### Closed form of the warp permutation -/

theorem warpCols_lt (h : Int) (k n : Nat) {c : Int} (hc : c < h) : warpCols h k n c = c := by
  induction n generalizing k with
  | zero => rfl
  | succ n ih =>
    show colPerm h (2 ^ k) (warpCols h (k+1) n c) = c
    rw [ih]
    unfold colPerm
    rw [if_pos hc]

theorem warpCols_block (e n k : Nat) (hk : k + n = e + 1) {h b q r s : Int} (hb : h ≤ b) (hd : 4 * (2 : Int) ^ e ∣ b - h) (hq : 0 ≤ q)
    (hr : 0 ≤ r) (hr' : r < 2 ^ k) (hs : s = 0 ∨ s = 1) (hx : 2 ^ k * q + r < 2 * 2 ^ e) :
    warpCols h k n (b + s * (2 * 2 ^ e) + 2 ^ k * q + r) = b + 2 * 2 ^ k * q + s * 2 ^ k + r := by
  induction n generalizing k q r with
  | zero =>
    have hke : k = e + 1 := by omega
    subst hke
    have e1 : (2 : Int) ^ (e + 1) = 2 * 2 ^ e := by rw [pow_succ]; ring
    rw [e1] at hr' hx ⊢
    have hq0 : q = 0 := by
      by_contra hne
      have : 1 ≤ q := by omega
      have hpos : (0 : Int) < 2 ^ e := by positivity
      nlinarith
    subst hq0
    show b + s * (2 * 2 ^ e) + 2 * 2 ^ e * 0 + r = _
    ring
  | succ n ih =>
    have hu : (0 : Int) < 2 ^ k := by positivity
    have e1 : (2 : Int) ^ (k + 1) = 2 * 2 ^ k := by rw [pow_succ]; ring
    show colPerm h (2 ^ k) (warpCols h (k+1) n _) = _
    have hd' : 4 * (2 : Int) ^ k ∣ b - h := (Int.mul_dvd_mul_left 4 (pow_dvd_pow 2 (by omega : k ≤ e))).trans hd
    obtain ⟨w, hw⟩ := hd'
    have step : ∀ q' t : Int, q = 2 * q' + t → (t = 0 ∨ t = 1) → 
        colPerm h (2 ^ k) (warpCols h (k+1) n (b + s * (2 * 2 ^ e) + 2 ^ k * q + r)) = b + 2 * 2 ^ k * q + s * 2 ^ k + r := by
      intro q' t hqt ht
      have hq' : 0 ≤ q' := by omega
      have ex : b + s * (2 * 2 ^ e) + 2 ^ k * q + r = b + s * (2 * 2 ^ e) + 2 ^ (k+1) * q' + (2 ^ k * t + r) := by rw [hqt, e1]; ring
      have htr : 2 ^ k * t + r < 2 ^ (k + 1) ∧ 0 ≤ 2 ^ k * t + r := by
        rw [e1]
        rcases ht with rfl | rfl <;> constructor <;> omega
      rw [ex, ih (k + 1) (by omega) hq' htr.2 htr.1 (by rw [e1]; rw [hqt] at hx; have : 2 ^ k * (2 * q' + t) = 2 * 2 ^ k * q' + 2 ^ k * t := by ring
                                                        omega), e1]
      have nn : 0 ≤ 2 * (2 * 2 ^ k) * q' := by positivity
      have hmod : (b + 2 * (2 * 2 ^ k) * q' + s * (2 * 2 ^ k) + (2 ^ k * t + r) - h) % (4 * 2 ^ k) = s * (2 * 2 ^ k) + (2 ^ k * t + r) := by
        have : b + 2 * (2 * 2 ^ k) * q' + s * (2 * 2 ^ k) + (2 ^ k * t + r) - h = (4 * 2 ^ k) * (w + q') + (s * (2 * 2 ^ k) + (2 ^ k * t + r)) := by
          rw [show b = h + 4 * 2 ^ k * w by omega]; ring
        rw [this, mod_add_mul]
        · rcases hs with rfl | rfl <;> rcases ht with rfl | rfl <;> omega
        · rcases hs with rfl | rfl <;> rcases ht with rfl | rfl <;> omega
      unfold colPerm
      rw [hmod]
      subst hqt
      rcases hs with rfl | rfl <;> rcases ht with rfl | rfl
      · rw [if_neg (by omega), if_neg (by omega), if_neg (by omega)]; ring
      · rw [if_neg (by omega), if_pos (by omega)]; ring
      · rw [if_neg (by omega), if_neg (by omega), if_pos (by omega)]; ring
      · rw [if_neg (by omega), if_neg (by omega), if_neg (by omega)]; ring
    exact step (q / 2) (q % 2) (by omega) (by omega)

theorem warpCols_first (e : Nat) {h b x : Int} (hb : h ≤ b) (hd : 4 * (2 : Int) ^ e ∣ b - h) (h0 : 0 ≤ x) (h1 : x < 2 * 2 ^ e) :
    warpCols h 1 e (b + x) = b + 4 * (x / 2) + x % 2 ∧ warpCols h 1 e (b + 2 * 2 ^ e + x) = b + 4 * (x / 2) + 2 + x % 2 := by
  have a := warpCols_block e e 1 (by omega) hb hd (q := x / 2) (r := x % 2) (s := 0) (by omega) (by omega) (by omega) (Or.inl rfl) (by omega)
  have b := warpCols_block e e 1 (by omega) hb hd (q := x / 2) (r := x % 2) (s := 1) (by omega) (by omega) (by omega) (Or.inr rfl) (by omega)
  refine ⟨?_, ?_⟩
  · convert a using 2 <;> omega
  · convert b using 2 <;> omega

/-! ### The vector drivers -/

theorem fullCol {o N i : Int} {M : Int} (hN : 0 < N) (h : o ≤ i) (h' : i < o + N * M) : ∃ k c, 0 ≤ c ∧ c < M ∧ 0 ≤ k ∧ k < N ∧ i = posA o N k c := by
  refine ⟨(i - o) % N, (i - o) / N, Int.ediv_nonneg (by omega) (by omega), Int.ediv_lt_of_lt_mul hN (by rw [Int.mul_comm]; omega),
    Int.emod_nonneg _ (by omega), Int.emod_lt_of_pos _ hN, ?_⟩
  unfold posA
  have := Int.emod_add_mul_ediv (i - o) N
  rw [Int.mul_comm ((i - o) / N) N]
  omega

/-- The packed columns. -/
def posB (h o N L : Int) (k c : Int) : Int := o + laneFrom h N L k c

theorem posB_inj {h o N L : Int} (hL : 0 < L) (D : Int → Prop) : PosInj N (posB h o N L) D := by
  intro k c k' c' _ _ k0 k1 k0' k1' e
  unfold posB at e
  exact laneFrom_inj (N := N) (h := h) hL k0 k1 k0' k1' (by omega)

theorem posB_head {h o N L k c : Int} (hc : c < h) : posB h o N L k c = posA o N k c := by
  unfold posB posA laneFrom
  rw [if_pos hc]

theorem posB_lane {h o N L k c e : Int} (hL : 0 < L) (hc : h ≤ c) (hd : L ∣ c - h) (e0 : 0 ≤ e) (e1 : e < L) :
    posB h o N L k (c + e) = o + N * c + e + k * L := by
  obtain ⟨w, hw⟩ := hd
  unfold posB laneFrom lane
  rw [if_neg (by omega), show c + e - h = L * w + e by omega, div_add_mul hL e0 e1, mod_add_mul e0 e1]
  rw [show c = h + L * w by omega]
  ring

/-- Packing, transforming the packed columns and unpacking is transforming the columns. -/
theorem packed_transform {F : Int → (Int → K) → Int → K} {h o N M L : Int} (ho : 0 ≤ o) (hN : 0 ≤ N) (hL : 0 < L) (hM : L ∣ M - h) (hh : 0 ≤ h) (hhM : h ≤ M)
    (hF : FCongr F N) {A B1 B' A' : Buf K} (hp : PackedAs (laneFrom h N L) A B1 o N M)
    (hm : Mapped F N (posB h o N L) (fun c => 0 ≤ c ∧ c < M) B1 B') (hu : PackedAs (laneFrom h N L) A' B' o N M) (hw : OnlyWithin A A' o (N * M)) :
    Mapped F N (posA o N) (fun c => 0 ≤ c ∧ c < M) A A' := by
  refine ⟨hw.1, ?_, ?_⟩
  · rintro c ⟨c0, c1⟩ k k0 k1
    have := hu k c k0 k1 c0 c1
    unfold posA
    rw [← this]
    show B'.val (posB h o N L k c) = _
    rw [hm.2.1 c ⟨c0, c1⟩ k k0 k1]
    refine hF c _ _ (fun k k0 k1 => ?_) k k0 k1
    exact hp k c k0 k1 c0 c1
  · intro i hi
    refine hw.2 i ?_
    by_contra hne
    have h1 : o ≤ i ∧ i < o + N * M := by omega
    have hN' : 0 < N := by
      rcases hN.lt_or_eq with h | h
      · exact h
      · rw [← h, Int.zero_mul] at h1; omega
    obtain ⟨k, c, c0, c1, k0, k1, e⟩ := fullCol hN' h1.1 h1.2
    exact hi c k ⟨c0, c1⟩ k0 k1 e

/-- Moving columns, transforming them and moving them back. -/
theorem moved_transform {F : Int → (Int → K) → Int → K} {o N M : Int} {π ρ : Int → Int} (hN : 0 ≤ N) (hρ : ∀ c, 0 ≤ c → c < M → 0 ≤ ρ c ∧ ρ c < M) (hinv : ∀ c, π (ρ c) = c)
    (hF : FCongr F N) {A A1 A2 A' : Buf K} (h1 : ColMove π A A1 o N M) (hm : Mapped (fun c => F (π c)) N (posA o N) (fun c => 0 ≤ c ∧ c < M) A1 A2)
    (h2 : ColMove ρ A2 A' o N M) : Mapped F N (posA o N) (fun c => 0 ≤ c ∧ c < M) A A' := by
  refine ⟨by rw [h2.1, hm.1, h1.1], ?_, ?_⟩
  · rintro c ⟨c0, c1⟩ k k0 k1
    obtain ⟨r0, r1⟩ := hρ c c0 c1
    unfold posA
    rw [h2.2.1 k c k0 k1 c0 c1]
    show A2.val (posA o N k (ρ c)) = _
    rw [hm.2.1 (ρ c) ⟨r0, r1⟩ k k0 k1]
    simp only [hinv]
    refine hF c _ _ (fun k k0 k1 => ?_) k k0 k1
    unfold posA
    rw [h1.2.1 k (ρ c) k0 k1 r0 r1, hinv]
  · intro i hi
    have hout : i < o ∨ o + N * M ≤ i := by
      by_contra hne
      have h1 : o ≤ i ∧ i < o + N * M := by omega
      have hN' : 0 < N := by
        rcases hN.lt_or_eq with h | h
        · exact h
        · rw [← h, Int.zero_mul] at h1; omega
      obtain ⟨k, c, c0, c1, k0, k1, e⟩ := fullCol hN' h1.1 h1.2
      exact hi c k ⟨c0, c1⟩ k0 k1 e
    rw [h2.2.2 i hout, hm.2.2 i hi, h1.2.2 i hout]

/-- Order of column `c` on the sphere and the disk: `0, 1, 1, 2, 2, …`. -/
def pairOrd (c : Int) : Int := (c + 1) / 2

theorem simdPair_spec {V : VGeom} {RP : RotPlan K} (hG : GeomOK V.G) (hI : InB V.G RP) (hj : V.G.jst = 2) (hg : V.G.g = 1 ∨ V.G.g = 2)
    {L : Int} (hL : 0 < L) (hsl : 0 ≤ V.slack) (hper : V.per = 2) (d : Bool) (isa : Isa) {T : Nat} (hT : 0 < T) {S e : Nat} (hS : (S : Int) = 2 * 2 ^ e)
    (junk : Int → Int → K) {o M : Int} (ho : 0 ≤ o) (hN : 0 ≤ RP.n) (hM : 1 ≤ M) (hodd : M % 2 = 1)
    (hlo : d = false → ∀ m, 1 ≤ m → 2 * m ≤ M - 1 → ∀ j, 0 ≤ j → j < m - 2 * L - 2 * S + 4 → V.G.g * L ≤ V.G.top RP.n j + 1)
    {A B : Buf K} (hA : o + RP.n * M ≤ A.size) (hB : o + RP.n * M ≤ B.size) :
    ∃ A' B', SimdPair d V isa T L S junk RP o M A B A' B' ∧ colSpec d V.G RP (fun c => pairOrd c % 2) pairOrd o M A = some A' := by
  have hpw : (0 : Int) < 2 ^ e := by positivity
  have hS2 : (2 : Int) ≤ S := by omega
  have hS1 : (S : Int) / 2 = 2 ^ e := by omega
  have h4 : 4 * (2 : Int) ^ e = 2 * S := by omega
  have hh0 : 0 ≤ M % (2 * S) := Int.emod_nonneg _ (by omega)
  have hh1 : M % (2 * S) ≤ M := emod_le_self' (by omega) (by omega)
  have hhd : 2 * (S : Int) ∣ M - M % (2 * S) := ⟨M / (2 * S), by have := Int.mul_ediv_add_emod M (2 * S); omega⟩
  have hhodd : M % (2 * S) % 2 = 1 := by
    rw [Int.emod_emod_of_dvd _ (Dvd.intro _ rfl)]; exact hodd
  generalize hhdef : M % (2 * S) = h at *
  have hhS : (S : Int) ∣ M - h := (Dvd.intro_left 2 rfl).trans hhd
  obtain ⟨Q, hQ⟩ := hhd
  -- warp and pack
  obtain ⟨A1, eA1, mA1⟩ := warp_spec isa A e ho hN (by omega : 0 ≤ M) hA
  rw [h4, hhdef] at mA1
  obtain ⟨B1, eB1, pB1, wB1⟩ := packFrom_spec A1 B (L := S) (h := h) ho hN (by omega) hh0 hh1 hhS (by rw [mA1.1]; exact hA) hB
  set F := ordF d V.G RP (fun c => pairOrd c % 2) pairOrd with hFdef
  have hFC : FCongr F RP.n := ordF_congr hG hI (fun c => by omega)
  set π := warpCols h 1 e with hπ
  have hFC' : FCongr (fun c => F (π c)) RP.n := fun c => hFC (π c)
  have inj := posB_inj (h := h) (o := o) (N := RP.n) (L := S) (by omega) (fun _ => True)
  have hsz : o + RP.n * M ≤ B1.size := by rw [wB1.1]; exact hB
  have colfit : ∀ c, 0 ≤ c → c < M → 0 < (1 : Int) ∧ 0 ≤ o + RP.n * c ∧ o + RP.n * c + (RP.n - 1) * 1 < B1.size := by
    intro c c0 c1
    have a : 0 ≤ RP.n * c := Int.mul_nonneg hN c0
    have b : RP.n * (c + 1) ≤ RP.n * M := Int.mul_le_mul_of_nonneg_left (by omega) hN
    rw [Int.mul_add] at b
    omega
  -- serial part
  have ser : ProgMaps (fun c => F (π c)) RP.n (posB h o RP.n S) B1.size (fun c => ∃ m ∈ rUp 2 (h / 2 + 1), c ∈ [2 * m - 1, 2 * m])
      (Prog.each (fun m _ => colCalls d V.G RP o (m % 2) m [2 * m - 1, 2 * m]) (rUp 2 (h / 2 + 1)) ()) := by
    refine ProgMaps.each inj nodup_rUp (C := fun m c => c ∈ [2 * m - 1, 2 * m]) (fun _ _ _ _ => trivial) ?_ ?_
    · intro a _ b _ hab c h1 h2
      simp only [List.mem_cons, List.not_mem_nil, or_false] at h1 h2
      omega
    · intro m hm
      obtain ⟨m0, m1⟩ := mem_rUp.1 hm
      refine (ProgMaps.each inj (l := [2 * m - 1, 2 * m]) (C := fun a c => c = a) (by simp only [List.nodup_cons, List.mem_cons, List.not_mem_nil, or_false, not_false_eq_true, List.nodup_nil, and_true]; omega) (fun _ _ _ _ => trivial)
        (by rintro a _ b _ hab c rfl; exact hab)
        (P := fun c => kernP d V.G RP (m % 2) m (o + RP.n * c) 1) ?_).congrC (fun c => by simp)
      intro c hc
      simp only [List.mem_cons, List.not_mem_nil, or_false] at hc
      have hc' : c < h := by omega
      refine progMaps_kern hG hI (by omega) ?_ (fun k => by rw [posB_head hc']; unfold posA; ring) (colfit c (by omega) (by omega))
      simp only [hFdef, ordF, hπ, warpCols_lt h 1 e hc']
      rw [show pairOrd c = m by unfold pairOrd; omega]
  obtain ⟨B2, eB2, mB2⟩ := ser.run B1 rfl
  -- parallel part
  have hblk : ∀ m ∈ rStep ((h + 1) / 2) (M / 2 + 1) S, ∃ i : Nat, 2 * m - 1 = h + 2 * S * i ∧ 2 * m - 1 + 2 * S ≤ M ∧ (i : Int) < Q := by
    intro m hm
    obtain ⟨⟨i, hi⟩, hlt⟩ := (mem_rStep (by omega : (0 : Int) < S)).1 hm
    refine ⟨i, ?_, ?_, ?_⟩
    · rw [hi, Int.mul_assoc]; omega
    all_goals
      have hiQ : (i : Int) < Q := by
        by_contra hge
        have : 2 * S * Q ≤ 2 * S * (i : Int) := Int.mul_le_mul_of_nonneg_left (by omega) (by omega)
        rw [Int.mul_assoc, Int.mul_assoc] at this
        rw [Int.mul_assoc] at hQ
        omega
    · have : 2 * S * ((i : Int) + 1) ≤ 2 * S * Q := Int.mul_le_mul_of_nonneg_left (by omega) (by omega)
      simp only [Int.mul_add, Int.mul_assoc, Int.mul_one] at this
      rw [Int.mul_assoc] at hQ
      omega
    · exact hiQ
  have vec : ∀ m ∈ rStep ((h + 1) / 2) (M / 2 + 1) S, ProgMaps (fun c => F (π c)) RP.n (posB h o RP.n S) B1.size
      (fun c => 2 * m - 1 ≤ c ∧ c < 2 * m - 1 + 2 * S) (pairCalls d V L S junk RP o m) := by
    intro m hm
    obtain ⟨i, e1, e2, hiQ⟩ := hblk m hm
    have hm0 : 1 ≤ m := by
      have : 0 ≤ 2 * (S : Int) * i := Int.mul_nonneg (by omega) (by omega)
      omega
    have hdvd : 4 * (2 : Int) ^ e ∣ 2 * m - 1 - h := ⟨i, by rw [h4, e1]; ring⟩
    have hge : h ≤ 2 * m - 1 := by
      have : 0 ≤ 2 * (S : Int) * i := Int.mul_nonneg (by omega) (by omega)
      omega
    have vfit : ∀ c, h ≤ c → c + S ≤ M → VFits S RP.n (o + RP.n * c) S B1.size := by
      intro c c0 c1
      have a : 0 ≤ RP.n * c := Int.mul_nonneg hN (by omega)
      have b : RP.n * (c + S) ≤ RP.n * M := Int.mul_le_mul_of_nonneg_left (by omega) hN
      refine ⟨le_refl _, by omega, by omega, ?_⟩
      rw [Int.mul_add] at b
      rw [Int.sub_mul]; omega
    have call : ∀ (s : Int), (s = 0 ∨ s = 1) → ProgMaps (fun c => F (π c)) RP.n (posB h o RP.n S) B1.size
        (fun c => 2 * m - 1 + s * S ≤ c ∧ c < 2 * m - 1 + s * S + S)
        (kernVP d V L S junk RP ((m + s) % 2) (m + s) (o + RP.n * (2 * m - 1 + s * S)) S) := by
      intro s hs
      have hsS : 0 ≤ s * S ∧ s * S ≤ S := by rcases hs with rfl | rfl <;> omega
      refine progMaps_kernV (D := fun _ => True) hG hI (Or.inr hj) hg hL hsl (by omega) (by omega) ⟨2 ^ e, by rw [hper]; omega⟩ inj (by omega) (by omega) ?_ (fun _ _ _ => trivial) ?_ ?_
        (vfit _ (by omega) (by omega)) junk
      · intro hd
        refine ⟨⟨(m + s) / 2, by rw [hj]; omega⟩, fun j hj1 hj2 => hlo hd (m + s) (by omega) (by omega) j (by omega) (by rw [hj] at hj2; omega)⟩
      · intro x x0 x1
        obtain ⟨w1, w2⟩ := warpCols_first e hge hdvd x0 (by omega : x < 2 * 2 ^ e)
        simp only [hFdef, ordF, hπ]
        have : pairOrd (warpCols h 1 e (2 * m - 1 + s * S + x)) = m + s + 2 * (x / 2) := by
          unfold pairOrd
          rcases hs with rfl | rfl
          · rw [show 2 * m - 1 + 0 * (S : Int) + x = 2 * m - 1 + x by ring, w1]; omega
          · rw [show 2 * m - 1 + 1 * (S : Int) + x = 2 * m - 1 + 2 * 2 ^ e + x by omega, w2]; omega
        rw [this, hj, hper, show (m + s + 2 * (x / 2)) % 2 = (m + s) % 2 by omega]
      · intro k x x0 x1
        refine posB_lane (by omega) (by omega) ?_ x0 x1
        refine ⟨2 * i + s, ?_⟩
        rw [e1]; ring
    have c0 := call 0 (Or.inl rfl)
    have c1 := call 1 (Or.inr rfl)
    simp only [Int.add_zero, Int.zero_mul, Int.one_mul] at c0 c1
    refine (ProgMaps.bind (D := fun _ => True) inj hFC' (fun _ _ => trivial) (fun _ _ => trivial) ?_ c0 c1).congrC ?_
    · intro c; omega
    · intro c; omega
  obtain ⟨B', pB', mB'⟩ := ProgMaps.omp (D := fun _ => True) inj (by omega : (0 : Int) < S) hT (fun _ _ _ _ => trivial)
    (by
      intro a ha b hb hab c h1 h2
      obtain ⟨i, e1, -⟩ := hblk a ha
      obtain ⟨j, e2, -⟩ := hblk b hb
      rcases lt_trichotomy (i : Int) j with hij | hij | hij
      · have : 2 * S * ((i : Int) + 1) ≤ 2 * S * j := Int.mul_le_mul_of_nonneg_left (by omega) (by omega)
        rw [Int.mul_add] at this
        omega
      · rw [hij] at e1; omega
      · have : 2 * S * ((j : Int) + 1) ≤ 2 * S * i := Int.mul_le_mul_of_nonneg_left (by omega) (by omega)
        rw [Int.mul_add] at this
        omega) vec (A := B2) mB2.1
  have hserlt : ∀ c, (∃ m ∈ rUp 2 (h / 2 + 1), c ∈ [2 * m - 1, 2 * m]) → c < h ∧ 0 ≤ c := by
    rintro c ⟨m, hm, hc⟩
    have := mem_rUp.1 hm
    simp only [List.mem_cons, List.not_mem_nil, or_false] at hc
    omega
  have hvecge : ∀ c, (∃ m ∈ rStep ((h + 1) / 2) (M / 2 + 1) S, 2 * m - 1 ≤ c ∧ c < 2 * m - 1 + 2 * S) → h ≤ c ∧ c < M := by
    rintro c ⟨m, hm, hc⟩
    obtain ⟨i, e1, e2, -⟩ := hblk m hm
    have : 0 ≤ 2 * (S : Int) * i := Int.mul_nonneg (by omega) (by omega)
    omega
  have mB := Mapped.trans (D := fun _ => True) inj hFC' (fun _ _ => trivial) (fun _ _ => trivial)
    (fun c h1 h2 => by have := hserlt c h1; have := hvecge c h2; omega) mB2 mB'
  have mBx := mB.extend (D := fun _ => True) (C' := fun c => 0 ≤ c ∧ c < M) inj
    (by
      rintro c (hc | hc)
      · have := hserlt c hc; omega
      · have := hvecge c hc; omega) (fun _ _ => trivial)
    (by
      rintro c ⟨c0, c1⟩ hn x
      by_cases hch : c < h
      · by_cases hc3 : 3 ≤ c
        · exact absurd (Or.inl ⟨pairOrd c, mem_rUp.2 (by unfold pairOrd; omega), by
            simp only [List.mem_cons, List.not_mem_nil, or_false]; unfold pairOrd; omega⟩) hn
        · show F (π c) x = x
          simp only [hFdef, ordF, hπ, warpCols_lt h 1 e hch]
          exact colF_id (by unfold pairOrd; omega) (by omega) x
      · refine absurd (Or.inr ⟨(h + 1) / 2 + S * ((c - h) / (2 * S)), (mem_rStep (by omega)).2 ⟨⟨((c - h) / (2 * S)).toNat, ?_⟩, ?_⟩, ?_⟩) hn
        · rw [Int.toNat_of_nonneg (Int.ediv_nonneg (by omega) (by omega))]
        all_goals
          have d1 := Int.emod_add_mul_ediv (c - h) (2 * S)
          have d2 := Int.emod_nonneg (c - h) (by omega : 2 * (S : Int) ≠ 0)
          have d3 := Int.emod_lt_of_pos (c - h) (by omega : 0 < 2 * (S : Int))
          rw [Int.mul_assoc] at d1
        · omega
        · omega)
  -- unpack and warp back
  obtain ⟨A2, eA2, pA2, wA2⟩ := unpackFrom_spec A1 B' (L := S) (h := h) ho hN (by omega) hh0 hh1 hhS (by rw [mA1.1]; exact hA) (by rw [mBx.1]; exact hsz)
  have mA2 := packed_transform ho hN (by omega) hhS hh0 hh1 hFC' pB1 mBx pA2 wA2
  obtain ⟨A', eA', mA'⟩ := warp_t_spec isa A2 e ho hN (by omega : 0 ≤ M) (by rw [mA2.1, mA1.1]; exact hA)
  rw [h4, hhdef] at mA'
  have fin := moved_transform hN (fun c c0 c1 => by
      have := warpColsT_range (M := M) e 1 e (by omega) c0 c1
      rw [h4, hhdef] at this
      exact this) (warpCols_inv h 1 e) hFC mA1 mA2 mA'
  refine ⟨A', B', ⟨A1, B1, B2, A2, ?_, ?_, ?_, ?_, ?_, ?_⟩, ?_⟩
  · rw [hS1]; exact eA1
  · unfold permute_sph; rw [hhdef]; exact eB1
  · rw [hhdef]; exact eB2
  · rw [hhdef]; exact pB'
  · unfold permute_t_sph; rw [hhdef]; exact eA2
  · rw [hS1]; exact eA'
  · obtain ⟨X, eX, mX⟩ := colSpec_mapped (d := d) hG hI (m1 := fun c => pairOrd c % 2) (ord := pairOrd) (fun c => by omega) hN ho hA
    rw [eX, Mapped.unique mX fin]

theorem simdTri_spec {RP : RotPlan K} (hG : GeomOK geomTri) (hI : InB geomTri RP)
    {L : Int} (hL : 0 < L) (d : Bool) {T : Nat} (hT : 0 < T) {S : Nat} (hS : 1 ≤ S)
    (junk : Int → Int → K) {o M : Int} (ho : 0 ≤ o) (hN : 0 ≤ RP.n) (hM : 0 ≤ M)
    (hlo : d = false → ∀ m, 0 ≤ m → m + S ≤ M → ∀ j, 0 ≤ j → j < m - L - S + 2 → L ≤ geomTri.top RP.n j + 1)
    {A B : Buf K} (hA : o + RP.n * M ≤ A.size) (hB : o + RP.n * M ≤ B.size) :
    ∃ A' B', SimdTri d T L S junk RP o M A B A' B' ∧ colSpec d geomTri RP (fun _ => 0) (fun c => c) o M A = some A' := by
  have hh0 : 0 ≤ M % S := Int.emod_nonneg _ (by omega)
  have hh1 : M % S ≤ M := emod_le_self' (by omega) (by omega)
  have hhS : (S : Int) ∣ M - M % S := ⟨M / S, by have := Int.mul_ediv_add_emod M S; omega⟩
  generalize hhdef : M % S = h at *
  obtain ⟨Q, hQ⟩ := hhS
  obtain ⟨B1, eB1, pB1, wB1⟩ := packFrom_spec A B (L := S) (h := h) ho hN (by omega) hh0 hh1 ⟨Q, hQ⟩ hA hB
  set F := ordF d geomTri RP (fun _ => 0) (fun c => c) with hFdef
  have hFC : FCongr F RP.n := ordF_congr hG hI (fun c => le_refl _)
  have inj := posB_inj (h := h) (o := o) (N := RP.n) (L := S) (by omega) (fun _ => True)
  have hsz : o + RP.n * M ≤ B1.size := by rw [wB1.1]; exact hB
  have colfit : ∀ c, 0 ≤ c → c < M → 0 < (1 : Int) ∧ 0 ≤ o + RP.n * c ∧ o + RP.n * c + (RP.n - 1) * 1 < B1.size := by
    intro c c0 c1
    have a : 0 ≤ RP.n * c := Int.mul_nonneg hN c0
    have b : RP.n * (c + 1) ≤ RP.n * M := Int.mul_le_mul_of_nonneg_left (by omega) hN
    rw [Int.mul_add] at b
    omega
  have ser : ProgMaps F RP.n (posB h o RP.n S) B1.size (fun c => ∃ m ∈ rUp 1 h, c = m)
      (Prog.each (fun m _ => colCalls d geomTri RP o 0 m [m]) (rUp 1 h) ()) := by
    refine ProgMaps.each inj nodup_rUp (C := fun m c => c = m) (fun _ _ _ _ => trivial) ?_ ?_
    · rintro a _ b _ hab c rfl; exact hab
    · intro m hm
      obtain ⟨m0, m1⟩ := mem_rUp.1 hm
      refine (ProgMaps.each inj (l := [m]) (C := fun a c => c = a) (by simp) (fun _ _ _ _ => trivial)
        (by rintro a _ b _ hab c rfl; exact hab)
        (P := fun c => kernP d geomTri RP 0 m (o + RP.n * c) 1) ?_).congrC (fun c => by simp)
      intro c hc
      simp only [List.mem_cons, List.not_mem_nil, or_false] at hc
      subst hc
      exact progMaps_kern hG hI (by omega) rfl (fun k => by rw [posB_head m1]; unfold posA; ring) (colfit c (by omega) (by omega))
  obtain ⟨B2, eB2, mB2⟩ := ser.run B1 rfl
  have hblk : ∀ m ∈ rStep h M S, ∃ i : Nat, m = h + S * i ∧ m + S ≤ M := by
    intro m hm
    obtain ⟨⟨i, hi⟩, hlt⟩ := (mem_rStep (by omega : (0 : Int) < S)).1 hm
    refine ⟨i, hi, ?_⟩
    have hiQ : (i : Int) < Q := by
      by_contra hge
      have : S * Q ≤ S * (i : Int) := Int.mul_le_mul_of_nonneg_left (by omega) (by omega)
      omega
    have : S * ((i : Int) + 1) ≤ S * Q := Int.mul_le_mul_of_nonneg_left (by omega) (by omega)
    simp only [Int.mul_add, Int.mul_one] at this
    omega
  have vec : ∀ m ∈ rStep h M S, ProgMaps F RP.n (posB h o RP.n S) B1.size
      (fun c => m ≤ c ∧ c < m + S) (kernVP d vgTri L S junk RP 0 m (o + RP.n * m) S) := by
    intro m hm
    obtain ⟨i, e1, e2⟩ := hblk m hm
    have : 0 ≤ (S : Int) * i := Int.mul_nonneg (by omega) (by omega)
    refine progMaps_kernV (V := vgTri) (D := fun _ => True) hG hI (Or.inl rfl) (Or.inl rfl) hL (le_refl _) (by decide) hS ⟨S, by simp [vgTri]⟩ inj
      (le_refl _) (by omega) ?_ (fun _ _ _ => trivial) ?_ ?_ ?_ junk
    · intro hd
      refine ⟨⟨m, by simp [vgTri, geomTri]⟩, fun j hj1 hj2 => ?_⟩
      have := hlo hd m (by omega) e2 j hj1 (by simp only [vgTri, geomTri] at hj2; omega)
      simp only [vgTri, geomTri] at this ⊢
      omega
    · intro x x0 x1
      simp [hFdef, ordF, vgTri, geomTri]
    · intro k x x0 x1
      exact posB_lane (by omega) (by omega) ⟨i, by omega⟩ x0 x1
    · have a : 0 ≤ RP.n * m := Int.mul_nonneg hN (by omega)
      have b : RP.n * (m + S) ≤ RP.n * M := Int.mul_le_mul_of_nonneg_left (by omega) hN
      refine ⟨le_refl _, by omega, by omega, ?_⟩
      rw [Int.mul_add] at b
      rw [Int.sub_mul]; omega
  obtain ⟨B', pB', mB'⟩ := ProgMaps.omp (D := fun _ => True) inj (by omega : (0 : Int) < S) hT (fun _ _ _ _ => trivial)
    (by
      intro a ha b hb hab c h1 h2
      obtain ⟨i, e1, -⟩ := hblk a ha
      obtain ⟨j, e2, -⟩ := hblk b hb
      rcases lt_trichotomy (i : Int) j with hij | hij | hij
      · have : S * ((i : Int) + 1) ≤ S * j := Int.mul_le_mul_of_nonneg_left (by omega) (by omega)
        rw [Int.mul_add] at this
        omega
      · rw [hij] at e1; omega
      · have : S * ((j : Int) + 1) ≤ S * i := Int.mul_le_mul_of_nonneg_left (by omega) (by omega)
        rw [Int.mul_add] at this
        omega) vec (A := B2) mB2.1
  have hserlt : ∀ c, (∃ m ∈ rUp 1 h, c = m) → c < h ∧ 0 ≤ c := by
    rintro c ⟨m, hm, rfl⟩
    have := mem_rUp.1 hm
    omega
  have hvecge : ∀ c, (∃ m ∈ rStep h M S, m ≤ c ∧ c < m + S) → h ≤ c ∧ c < M := by
    rintro c ⟨m, hm, hc⟩
    obtain ⟨i, e1, e2⟩ := hblk m hm
    have : 0 ≤ (S : Int) * i := Int.mul_nonneg (by omega) (by omega)
    omega
  have mB := Mapped.trans (D := fun _ => True) inj hFC (fun _ _ => trivial) (fun _ _ => trivial)
    (fun c h1 h2 => by have := hserlt c h1; have := hvecge c h2; omega) mB2 mB'
  have mBx := mB.extend (D := fun _ => True) (C' := fun c => 0 ≤ c ∧ c < M) inj
    (by
      rintro c (hc | hc)
      · have := hserlt c hc; omega
      · have := hvecge c hc; omega) (fun _ _ => trivial)
    (by
      rintro c ⟨c0, c1⟩ hn x
      by_cases hch : c < h
      · by_cases hc3 : 1 ≤ c
        · exact absurd (Or.inl ⟨c, mem_rUp.2 (by omega), rfl⟩) hn
        · exact colF_id (by simp only; omega) hG.jst x
      · refine absurd (Or.inr ⟨h + S * ((c - h) / S), (mem_rStep (by omega)).2 ⟨⟨((c - h) / S).toNat, ?_⟩, ?_⟩, ?_⟩) hn
        · rw [Int.toNat_of_nonneg (Int.ediv_nonneg (by omega) (by omega))]
        all_goals
          have d1 := Int.emod_add_mul_ediv (c - h) S
          have d2 := Int.emod_nonneg (c - h) (by omega : (S : Int) ≠ 0)
          have d3 := Int.emod_lt_of_pos (c - h) (by omega : 0 < (S : Int))
        · omega
        · omega)
  obtain ⟨A', eA2, pA2, wA2⟩ := unpackFrom_spec A B' (L := S) (h := h) ho hN (by omega) hh0 hh1 ⟨Q, hQ⟩ hA (by rw [mBx.1]; exact hsz)
  have fin := packed_transform ho hN (by omega) ⟨Q, hQ⟩ hh0 hh1 hFC pB1 mBx pA2 wA2
  refine ⟨A', B', ⟨B1, B2, ?_, ?_, ?_, ?_⟩, ?_⟩
  · unfold permute_tri; rw [hhdef]; exact eB1
  · rw [hhdef]; exact eB2
  · rw [hhdef]; exact pB'
  · unfold permute_t_tri; rw [hhdef]; exact eA2
  · obtain ⟨X, eX, mX⟩ := colSpec_mapped (d := d) hG hI (m1 := fun _ => 0) (ord := fun c => c) (fun c => le_refl _) hN ho hA
    rw [eX, Mapped.unique mX fin]

theorem SimdPair.unique {V : VGeom} {RP : RotPlan K} {d : Bool} {isa : Isa} {T S : Nat} {L : Int} {junk : Int → Int → K} {o M : Int} {A B A' B' A'' B'' : Buf K}
    (h : SimdPair d V isa T L S junk RP o M A B A' B') (h' : SimdPair d V isa T L S junk RP o M A B A'' B'') : A' = A'' := by
  obtain ⟨A1, B1, B2, A2, e1, e2, e3, e4, e5, e6⟩ := h
  obtain ⟨X1, Y1, Y2, X2, f1, f2, f3, f4, f5, f6⟩ := h'
  rw [e1] at f1; cases f1
  rw [e2] at f2; cases f2
  rw [e3] at f3; cases f3
  obtain rfl := e4.unique f4
  rw [e5] at f5; cases f5
  rw [e6] at f6; cases f6
  rfl

theorem SimdTri.unique {RP : RotPlan K} {d : Bool} {T S : Nat} {L : Int} {junk : Int → Int → K} {o M : Int} {A B A' B' A'' B'' : Buf K}
    (h : SimdTri d T L S junk RP o M A B A' B') (h' : SimdTri d T L S junk RP o M A B A'' B'') : A' = A'' := by
  obtain ⟨B1, B2, e1, e2, e3, e4⟩ := h
  obtain ⟨Y1, Y2, f1, f2, f3, f4⟩ := h'
  rw [e1] at f1; cases f1
  rw [e2] at f2; cases f2
  obtain rfl := e3.unique f3
  rw [e4] at f4; cases f4
  rfl

end FT
