import Verif.Model.Tet
import Verif.Props.Transforms

/-! Operators on three-dimensional arrays, seen as `N × (L*M)` arrays with columns `c = j + L*k`. -/

namespace FT
variable {K : Type*} [CommRing K] {N L M : Int} {A B : Buf K}

omit [CommRing K] in
theorem forUp_mapped {F : Int → (Int → K) → Int → K} {n : Int} {pos : Int → Int → Int} {D : Int → Prop} (hp : PosInj n pos D) (hF : FCongr F n) {hi : Int}
    {body : Int → Buf K → Option (Buf K)} {C : Int → Int → Prop} (hC : ∀ i c, 0 ≤ i → i < hi → C i c → D c)
    (hd : ∀ i j c, 0 ≤ i → i < hi → 0 ≤ j → j < hi → i ≠ j → C i c → ¬ C j c)
    (h : ∀ i, 0 ≤ i → i < hi → ∀ B : Buf K, B.size = A.size → ∃ B', body i B = some B' ∧ Mapped F n pos (C i) B B') :
    ∃ B, forUp 0 hi body A = some B ∧ Mapped F n pos (fun c => ∃ i, 0 ≤ i ∧ i < hi ∧ C i c) A B := by
  unfold forUp
  rw [sub_zero]
  have := loop_spec (body := fun k s => body (0 + k) s) (n := hi.toNat) (s := A) (fun m B => Mapped F n pos (fun c => ∃ i, 0 ≤ i ∧ i < (m : Int) ∧ C i c) A B)
    ⟨rfl, fun c ⟨i, h1, h2, _⟩ => by omega, fun _ _ => rfl⟩ (by
      intro m hm B hB
      obtain ⟨B', e, mB⟩ := h m (by omega) (by omega) B hB.1
      refine ⟨B', by rw [zero_add]; exact e, ?_⟩
      have := Mapped.trans hp hF (fun c ⟨i, h1, h2, h3⟩ => hC i c h1 (by omega) h3) (fun c hc => hC m c (by omega) (by omega) hc)
        (fun c ⟨i, h1, h2, h3⟩ h4 => hd i m c h1 (by omega) (by omega) (by omega) (by omega) h3 h4) hB mB
      refine this.congrC fun c => ⟨?_, ?_⟩
      · rintro (⟨i, h1, h2, h3⟩ | h)
        · exact ⟨i, h1, by push_cast; omega, h3⟩
        · exact ⟨m, by omega, by push_cast; omega, h⟩
      · rintro ⟨i, h1, h2, h3⟩
        by_cases hi : i = m
        · exact Or.inr (hi ▸ h3)
        · exact Or.inl ⟨i, h1, by push_cast at h2; omega, h3⟩)
  obtain ⟨B, e, mB⟩ := this
  refine ⟨B, e, mB.congrC fun c => ⟨?_, ?_⟩⟩
  · rintro ⟨i, h1, h2, h3⟩; exact ⟨i, h1, by omega, h3⟩
  · rintro ⟨i, h1, h2, h3⟩; exact ⟨i, h1, by omega, h3⟩

theorem tetLeft_acts {P : Buf K} {t : Bool} (hN : 0 ≤ N) (hL : 0 ≤ L) (h0 : N * N ≤ P.size) (hA : N * (L * M) ≤ A.size) :
    ∃ B, tetLeft t P N L M A = some B ∧ Acts N (L * M) (colOp (matF (fun _ => opU t P N) N)) A B := by
  have := forUp_mapped (A := A) (F := matF (fun _ => opU t P N) N) (n := N) (pos := posA 0 N) (D := fun _ => True) (posA_inj 0 N _) (matF_congr _) (hi := M)
    (body := fun m => trmmLeft t P N N L (N * L * m) N) (C := fun m c => ∃ i, 0 ≤ i ∧ i < L ∧ c = L * m + 1 * i) (fun _ _ _ _ _ => trivial) (by
      rintro i j c i0 i1 j0 j1 hne ⟨a, a0, a1, rfl⟩ ⟨b, b0, b1, h⟩
      have := (posA_inj 0 L (fun _ => True)) a i b j trivial trivial a0 a1 b0 b1 (by unfold posA; simp only [mul_comm _ L]; omega)
      omega) (by
      intro m m0 m1 B hB
      have hLM : L * (m + 1) ≤ L * M := Int.mul_le_mul_of_nonneg_left (by omega) hL
      have hLm : 0 ≤ L * m := by positivity
      have e1 : L * (m + 1) = L * m + L := by ring
      obtain ⟨B', e, mB⟩ := trmmLeft_mapped (A := B) (M := L * M) (P := P) (t := t) (q := 1) (r := L * m) (nc := L) (F := matF (fun _ => opU t P N) N) hN h0 (by omega) hLm
        (by omega) (by rw [hB]; exact hA) (fun i _ _ => rfl)
      refine ⟨B', ?_, mB⟩
      rw [show N * L * m = L * m * N by ring]
      rw [one_mul] at e
      exact e)
  obtain ⟨B, e, mB⟩ := this
  refine ⟨B, e, Acts.of_mapped (mB.congrC fun c => ⟨?_, ?_⟩)⟩
  · rintro ⟨m, m0, m1, i, i0, i1, rfl⟩
    have hLM : L * (m + 1) ≤ L * M := Int.mul_le_mul_of_nonneg_left (by omega) hL
    have hLm : 0 ≤ L * m := by positivity
    have e1 : L * (m + 1) = L * m + L := by ring
    omega
  · rintro ⟨c0, c1⟩
    have hL1 : 0 < L := by
      by_contra h
      have : L = 0 := by omega
      subst this; omega
    have e2 := Int.emod_add_mul_ediv c L
    exact ⟨c / L, Int.ediv_nonneg c0 hL, Int.ediv_lt_of_lt_mul hL1 (by rw [mul_comm]; exact c1), c % L, Int.emod_nonneg _ (by omega), Int.emod_lt_of_pos _ hL1, by omega⟩

/-- Position of entry `j` of row `r = i + N*m` (row `i` of slab `m`). -/
def posR (N L j r : Int) : Int := r % N + N * (j + L * (r / N))

theorem posR_inj (hN : 0 < N) (D : Int → Prop) : PosInj L (posR N L) D := by
  intro j r j' r' _ _ j0 j1 j0' j1' h
  unfold posR at h
  have b := Int.emod_nonneg r (show N ≠ 0 by omega)
  have b1 := Int.emod_lt_of_pos r hN
  have b' := Int.emod_nonneg r' (show N ≠ 0 by omega)
  have b1' := Int.emod_lt_of_pos r' hN
  have k1 := (posA_inj 0 N (fun _ => True)) (r % N) (j + L * (r / N)) (r' % N) (j' + L * (r' / N)) trivial trivial b b1 b' b1' (by
    unfold posA; rw [mul_comm _ N, mul_comm _ N]; omega)
  have k2 := (posA_inj 0 L (fun _ => True)) j (r / N) j' (r' / N) trivial trivial j0 j1 j0' j1' (by
    unfold posA; rw [mul_comm _ L, mul_comm _ L]; omega)
  refine ⟨k2.1, ?_⟩
  have e := Int.emod_add_mul_ediv r N
  have e' := Int.emod_add_mul_ediv r' N
  rw [k1.1, k2.2] at e
  omega

/-- Right multiplication of every slab. -/
def slabRight (W : Int → Int → K) (L : Int) : AOp K := fun x k c => sumTo L fun j => x k (j + L * (c / L)) * W j (c % L)

def rowF (W : Int → Int → K) (L : Int) (_ : Int) (x : Int → K) (c : Int) : K := sumTo L fun j => x j * W j c

theorem rowF_congr (W : Int → Int → K) : FCongr (rowF W L) L := fun _ _ _ h _ _ _ => sumTo_congr fun j j0 j1 => by rw [h j j0 j1]

theorem trmmRight_mapped {P : Buf K} {t : Bool} {m : Int} (hN : 0 < N) (hL : L ≤ N) (hL0 : 0 ≤ L) (hP : N * N ≤ P.size) (m0 : 0 ≤ m) (m1 : m < M) (hA : N * (L * M) ≤ A.size) :
    ∃ B, trmmRight t P N N L (N * L * m) N A = some B ∧ Mapped (rowF (opU t P N) L) L (posR N L) (fun r => r / N = m) A B := by
  unfold trmmRight
  by_cases h0 : N ≤ 0 ∨ L ≤ 0
  · rw [if_pos h0]
    exact ⟨A, rfl, rfl, fun c _ k _ _ => by omega, fun _ _ => rfl⟩
  · rw [if_neg h0]
    have hL1 : 0 < L := by omega
    have h1 : (L - 1) * N + L ≤ P.size := by
      have : (L - 1) * N + L ≤ N * N := by nlinarith
      omega
    have hNL : 0 ≤ N * L := by positivity
    have h2 : N * L * m + (L - 1) * N + N ≤ A.size := by
      have e1 : N * L * m + (L - 1) * N + N = N * L * (m + 1) := by ring
      have : N * L * (m + 1) ≤ N * L * M := Int.mul_le_mul_of_nonneg_left (by omega) hNL
      have e2 : N * L * M = N * (L * M) := by ring
      omega
    rw [if_pos ⟨le_refl _, hL, h1, by positivity, h2⟩]
    refine ⟨_, rfl, rfl, ?_, ?_⟩
    · rintro r rfl j j0 j1
      have b := Int.emod_nonneg r (show N ≠ 0 by omega)
      have b1 := Int.emod_lt_of_pos r hN
      have e0 : posR N L j r - N * L * (r / N) = r % N + j * N := by unfold posR; ring
      have ed : (r % N + j * N) / N = j := by rw [Int.add_mul_ediv_right _ _ (by omega), Int.ediv_eq_zero_of_lt b b1]; ring
      have em : (r % N + j * N) % N = r % N := by rw [Int.add_mul_emod_self_right, Int.emod_eq_of_lt b b1]
      simp only [e0, ed, em]
      rw [if_pos ⟨by positivity, j1, b1⟩]
      unfold rowF
      refine sumTo_congr fun l _ _ => ?_
      congr 2
      unfold posR
      ring
    · intro p hp
      simp only
      rw [if_neg]
      rintro ⟨h3, h4, h5⟩
      have e := Int.emod_add_mul_ediv (p - N * L * m) N
      have b := Int.emod_nonneg (p - N * L * m) (show N ≠ 0 by omega)
      have g1 : ((p - N * L * m) % N + N * m) / N = m := by rw [Int.add_mul_ediv_left _ _ (by omega), Int.ediv_eq_zero_of_lt b h5]; ring
      have g2 : ((p - N * L * m) % N + N * m) % N = (p - N * L * m) % N := by rw [Int.add_mul_emod_self_left, Int.emod_eq_of_lt b h5]
      refine hp ((p - N * L * m) % N + N * m) ((p - N * L * m) / N) g1 (Int.ediv_nonneg h3 (by omega)) h4 ?_
      unfold posR
      rw [g1, g2, Int.mul_add, ← Int.mul_assoc]
      omega

theorem tetRight_acts {P : Buf K} {t : Bool} (hN : 0 < N) (hL : L ≤ N) (hL0 : 0 ≤ L) (hP : N * N ≤ P.size) (hA : N * (L * M) ≤ A.size) :
    ∃ B, tetRight t P N L M A = some B ∧ Acts N (L * M) (slabRight (opU t P N) L) A B := by
  obtain ⟨B, e, mB⟩ := forUp_mapped (A := A) (F := rowF (opU t P N) L) (n := L) (pos := posR N L) (D := fun _ => True) (posR_inj hN _) (rowF_congr _) (hi := M)
    (body := fun m => trmmRight t P N N L (N * L * m) N) (C := fun m r => r / N = m) (fun _ _ _ _ _ => trivial)
    (by rintro i j c _ _ _ _ hne h h'; omega) (fun m m0 m1 B hB => trmmRight_mapped hN hL hL0 hP m0 m1 (by rw [hB]; exact hA))
  have hL1 : ∀ c, 0 ≤ c → c < L * M → 0 < L := by
    intro c c0 c1
    by_contra h
    have : L = 0 := by omega
    subst this; omega
  refine ⟨B, e, mB.1, fun k c k0 k1 c0 c1 => ?_, fun p hp => mB.2.2 p fun r j hr j0 j1 hpe => ?_⟩
  · have hL1 := hL1 c c0 c1
    have e2 := Int.emod_add_mul_ediv c L
    have q0 : 0 ≤ c / L := Int.ediv_nonneg c0 hL0
    have q1 : c / L < M := Int.ediv_lt_of_lt_mul hL1 (by rw [mul_comm]; exact c1)
    have g1 : (k + N * (c / L)) / N = c / L := by rw [Int.add_mul_ediv_left _ _ (by omega), Int.ediv_eq_zero_of_lt k0 k1]; ring
    have g2 : (k + N * (c / L)) % N = k := by rw [Int.add_mul_emod_self_left, Int.emod_eq_of_lt k0 k1]
    have := mB.2.1 (k + N * (c / L)) ⟨c / L, q0, q1, g1⟩ (c % L) (Int.emod_nonneg _ (by omega)) (Int.emod_lt_of_pos _ hL1)
    have ep : ∀ j, posR N L j (k + N * (c / L)) = k + (j + L * (c / L)) * N := by intro j; unfold posR; rw [g1, g2]; ring
    simp only [ep, e2] at this
    exact this
  · obtain ⟨m, m0, m1, rfl⟩ := hr
    have b := Int.emod_nonneg r (show N ≠ 0 by omega)
    have b1 := Int.emod_lt_of_pos r hN
    refine hp (r % N) (j + L * (r / N)) b b1 (by positivity) ?_ (by rw [hpe]; unfold posR; ring)
    have : L * (r / N + 1) ≤ L * M := Int.mul_le_mul_of_nonneg_left (by omega) hL0
    have e1 : L * (r / N + 1) = L * (r / N) + L := by ring
    omega

/-- Multiplication along the third axis. -/
def thirdOp (W : Int → Int → K) (L n : Int) : AOp K := fun x k c => sumTo n fun j => W (c / L) j * x k (c % L + L * j)

/-- Position of entry `k` of the line `c` (`c = i + N*j`) along the third axis. -/
def posT (N L k c : Int) : Int := c + k * (N * L)

theorem posT_inj : PosInj M (posT N L) (fun c => 0 ≤ c ∧ c < N * L) := by
  rintro k c k' c' ⟨h1, h2⟩ ⟨h3, h4⟩ _ _ _ _ h
  have := (posA_inj 0 (N * L) (fun _ => True)) c k c' k' trivial trivial h1 h2 h3 h4 (by unfold posA; unfold posT at h; omega)
  exact ⟨this.2, this.1⟩

theorem blasTrmv_mapped {P : Buf K} {t : Bool} {o : Int} (hN : 0 < N) (hP : N * N ≤ P.size) (h0 : 0 ≤ o) (h1 : o < N * L) (hA : N * (L * N) ≤ A.size) :
    ∃ B, blasTrmv t P N N o (N * L) A = some B ∧ Mapped (matF (fun _ => opU t P N) N) N (posT N L) (fun c => c = o) A B := by
  unfold blasTrmv
  rw [if_neg (by omega)]
  have hNL : 0 < N * L := by omega
  have g1 : (N - 1) * N + N ≤ P.size := by
    have : (N - 1) * N + N = N * N := by ring
    omega
  have g2 : o + (N - 1) * (N * L) < A.size := by
    have : N * (L * N) = (N - 1) * (N * L) + N * L := by ring
    omega
  rw [if_pos ⟨hNL, le_refl _, g1, h0, g2⟩]
  refine ⟨_, rfl, rfl, ?_, ?_⟩
  · rintro c rfl k k0 k1
    have e0 : posT N L k c - c = k * (N * L) := by unfold posT; ring
    have ed : k * (N * L) / (N * L) = k := Int.mul_ediv_cancel _ (by omega)
    have em : k * (N * L) % (N * L) = 0 := Int.mul_emod_left _ _
    simp only [e0, ed, em]
    rw [if_pos ⟨by positivity, trivial, k1⟩]
    rfl
  · intro p hp
    simp only
    rw [if_neg]
    rintro ⟨h3, h4, h5⟩
    have e := Int.emod_add_mul_ediv (p - o) (N * L)
    refine hp o ((p - o) / (N * L)) rfl (Int.ediv_nonneg h3 (by omega)) h5 ?_
    unfold posT
    rw [mul_comm]
    omega

theorem tetThird_acts {P : Buf K} {t : Bool} (hN : 0 < N) (hL : 0 ≤ L) (hP : N * N ≤ P.size) (hA : N * (L * N) ≤ A.size) :
    ∃ B, tetThird t P N L A = some B ∧ Acts N (L * N) (thirdOp (opU t P N) L N) A B := by
  have hb : ∀ n l, 0 ≤ n → n < N → 0 ≤ l → l < L → 0 ≤ n + N * l ∧ n + N * l < N * L := by
    intro n l n0 n1 l0 l1
    have : N * (l + 1) ≤ N * L := Int.mul_le_mul_of_nonneg_left (by omega) (by omega)
    have e : N * (l + 1) = N * l + N := by ring
    have : 0 ≤ N * l := by positivity
    omega
  have hj : ∀ n l n' l', 0 ≤ n → n < N → 0 ≤ n' → n' < N → n + N * l = n' + N * l' → n = n' ∧ l = l' := by
    intro n l n' l' a b c d h
    exact (posA_inj 0 N (fun _ => True)) n l n' l' trivial trivial a b c d (by unfold posA; rw [mul_comm l, mul_comm l']; omega)
  obtain ⟨B, e, mB⟩ := forUp_mapped (A := A) (F := matF (fun _ => opU t P N) N) (n := N) (pos := posT N L) (D := fun c => 0 ≤ c ∧ c < N * L) posT_inj (matF_congr _) (hi := N)
    (body := fun n => forUp 0 L fun l => blasTrmv t P N N (n + N * l) (N * L)) (C := fun n c => ∃ l, 0 ≤ l ∧ l < L ∧ c = n + N * l)
    (by rintro i c i0 i1 ⟨l, l0, l1, rfl⟩; exact hb i l i0 i1 l0 l1)
    (by rintro i j c i0 i1 j0 j1 hne ⟨l, l0, l1, rfl⟩ ⟨l', l0', l1', h⟩; exact hne (hj _ _ _ _ i0 i1 j0 j1 h).1)
    (by
      intro n n0 n1 B hB
      exact forUp_mapped (A := B) (F := matF (fun _ => opU t P N) N) (n := N) (pos := posT N L) (D := fun c => 0 ≤ c ∧ c < N * L) posT_inj (matF_congr _) (hi := L)
        (body := fun l => blasTrmv t P N N (n + N * l) (N * L)) (C := fun l c => c = n + N * l)
        (by rintro i c i0 i1 rfl; exact hb n i n0 n1 i0 i1)
        (by rintro i j c i0 i1 j0 j1 hne rfl h; exact hne (hj _ _ _ _ n0 n1 n0 n1 h).2)
        (fun l l0 l1 C hC => blasTrmv_mapped hN hP (hb n l n0 n1 l0 l1).1 (hb n l n0 n1 l0 l1).2 (by rw [hC, hB]; exact hA)))
  refine ⟨B, e, mB.1, fun k c k0 k1 c0 c1 => ?_, fun p hp => mB.2.2 p fun c j hr j0 j1 hpe => ?_⟩
  · have hL1 : 0 < L := by
      by_contra h
      have : L = 0 := by omega
      subst this; omega
    have e2 := Int.emod_add_mul_ediv c L
    have q0 : 0 ≤ c / L := Int.ediv_nonneg c0 hL
    have q1 : c / L < N := Int.ediv_lt_of_lt_mul hL1 (by rw [mul_comm]; exact c1)
    have := mB.2.1 (k + N * (c % L)) ⟨k, k0, k1, c % L, Int.emod_nonneg _ (by omega), Int.emod_lt_of_pos _ hL1, rfl⟩ (c / L) q0 q1
    have ep : ∀ j, posT N L j (k + N * (c % L)) = k + (c % L + L * j) * N := by intro j; unfold posT; ring
    simp only [ep, e2] at this
    exact this
  · obtain ⟨n, n0, n1, l, l0, l1, rfl⟩ := hr
    refine hp n (l + L * j) n0 n1 (by positivity) ?_ (by rw [hpe]; unfold posT; ring)
    have : L * (j + 1) ≤ L * N := Int.mul_le_mul_of_nonneg_left (by omega) hL
    have e1 : L * (j + 1) = L * j + L := by ring
    omega

/-! ### Congruence, inverses, adjoints -/

theorem divmod_slab {c j : Int} (hL : 0 < L) (j0 : 0 ≤ j) (j1 : j < L) (q : Int) : (j + L * q) / L = q ∧ (j + L * q) % L = j :=
  ⟨by rw [Int.add_mul_ediv_left _ _ (by omega), Int.ediv_eq_zero_of_lt j0 j1]; ring, by rw [Int.add_mul_emod_self_left, Int.emod_eq_of_lt j0 j1]⟩

theorem slab_bounds {c : Int} (hL : 0 ≤ L) (c0 : 0 ≤ c) (c1 : c < L * M) :
    0 < L ∧ 0 ≤ c / L ∧ c / L < M ∧ 0 ≤ c % L ∧ c % L < L ∧ ∀ j q, 0 ≤ j → j < L → 0 ≤ q → q < M → 0 ≤ j + L * q ∧ j + L * q < L * M := by
  have hL1 : 0 < L := by
    by_contra h
    have : L = 0 := by omega
    subst this; omega
  refine ⟨hL1, Int.ediv_nonneg c0 hL, Int.ediv_lt_of_lt_mul hL1 (by rw [mul_comm]; exact c1), Int.emod_nonneg _ (by omega), Int.emod_lt_of_pos _ hL1, fun j q j0 j1 q0 q1 => ?_⟩
  have : L * (q + 1) ≤ L * M := Int.mul_le_mul_of_nonneg_left (by omega) hL
  have e1 : L * (q + 1) = L * q + L := by ring
  have : 0 ≤ L * q := by positivity
  omega

theorem slabRight_congr (W : Int → Int → K) (hL : 0 ≤ L) : OpCongr N (L * M) (slabRight W L) := by
  intro x y h k c k0 k1 c0 c1
  obtain ⟨_, q0, q1, _, _, hb⟩ := slab_bounds hL c0 c1
  exact sumTo_congr fun j j0 j1 => by rw [h k _ k0 k1 (hb j _ j0 j1 q0 q1).1 (hb j _ j0 j1 q0 q1).2]

theorem thirdOp_congr (W : Int → Int → K) (hL : 0 ≤ L) : OpCongr N (L * M) (thirdOp W L M) := by
  intro x y h k c k0 k1 c0 c1
  obtain ⟨_, _, _, q0, q1, hb⟩ := slab_bounds hL c0 c1
  exact sumTo_congr fun j j0 j1 => by rw [h k _ k0 k1 (hb _ j q0 q1 j0 j1).1 (hb _ j q0 q1 j0 j1).2]

theorem slabRight_id {V W : Int → Int → K} (hL : 0 ≤ L) (h : MulOne L W V) : OpId N (L * M) fun x => slabRight V L (slabRight W L x) := by
  intro x k c _ _ c0 c1
  obtain ⟨hL1, q0, q1, r0, r1, hb⟩ := slab_bounds hL c0 c1
  have := mulOne_cancel h.transpose (fun j => x k (j + L * (c / L))) r0 r1
  simp only [mul_comm (V _ _), mul_comm (W _ _)] at this
  have e := Int.emod_add_mul_ediv c L
  rw [e] at this
  refine Eq.trans ?_ this
  refine sumTo_congr fun j j0 j1 => ?_
  simp only [slabRight]
  rw [(divmod_slab (c := c) hL1 j0 j1 _).1, (divmod_slab (c := c) hL1 j0 j1 _).2]

theorem thirdOp_id {V W : Int → Int → K} (hL : 0 ≤ L) (h : MulOne M V W) : OpId N (L * M) fun x => thirdOp V L M (thirdOp W L M x) := by
  intro x k c _ _ c0 c1
  obtain ⟨hL1, q0, q1, r0, r1, hb⟩ := slab_bounds hL c0 c1
  have := mulOne_cancel h (fun j => x k (c % L + L * j)) q0 q1
  have e := Int.emod_add_mul_ediv c L
  simp only [e] at this
  refine Eq.trans ?_ this
  refine sumTo_congr fun j j0 j1 => ?_
  simp only [thirdOp]
  rw [(divmod_slab (c := c) hL1 r0 r1 _).1, (divmod_slab (c := c) hL1 r0 r1 _).2]

theorem sumTo_slabs (hL : 0 ≤ L) (hM : 0 ≤ M) (f : Int → K) : sumTo (L * M) f = sumTo M fun m => sumTo L fun j => f (j + L * m) := by
  unfold sumTo
  obtain ⟨l, rfl⟩ := Int.eq_ofNat_of_zero_le hL
  obtain ⟨n, rfl⟩ := Int.eq_ofNat_of_zero_le hM
  have e : ((l : Int) * n).toNat = l * n := by omega
  simp only [e, Int.toNat_natCast]
  clear e hL hM
  induction n with
  | zero => simp
  | succ n ih =>
    rw [Nat.mul_succ, Finset.sum_range_add, ih, Finset.sum_range_succ]
    congr 1
    refine Finset.sum_congr rfl fun j _ => ?_
    congr 1
    push_cast
    ring

theorem slabRight_adj {W V : Int → Int → K} (hL : 0 ≤ L) (hM : 0 ≤ M) (h : ∀ i j, V i j = W j i) : OpAdj N (L * M) (slabRight W L) (slabRight V L) := by
  intro x y
  unfold dot2
  rw [sumTo_slabs hL hM, sumTo_slabs hL hM]
  refine sumTo_congr fun m m0 m1 => ?_
  have := rightOp_adj (N := N) (M := L) h (fun k j => x k (j + L * m)) (fun k j => y k (j + L * m))
  unfold dot2 rightOp at this
  refine Eq.trans ?_ (this.trans ?_)
  · refine sumTo_congr fun c c0 c1 => sumTo_congr fun k k0 k1 => ?_
    simp only [slabRight]
    rw [(divmod_slab (c := c) (by omega) c0 c1 _).1, (divmod_slab (c := c) (by omega) c0 c1 _).2]
  · refine sumTo_congr fun c c0 c1 => sumTo_congr fun k k0 k1 => ?_
    simp only [slabRight]
    rw [(divmod_slab (c := c) (by omega) c0 c1 _).1, (divmod_slab (c := c) (by omega) c0 c1 _).2]

theorem thirdOp_adj {W V : Int → Int → K} (hL : 0 ≤ L) (hM : 0 ≤ M) (h : ∀ i j, V i j = W j i) : OpAdj N (L * M) (thirdOp W L M) (thirdOp V L M) := by
  intro x y
  unfold dot2
  rw [sumTo_slabs hL hM, sumTo_slabs hL hM, sumTo_comm]
  conv_rhs => rw [sumTo_comm]
  refine sumTo_congr fun j j0 j1 => ?_
  have e : ∀ (z : Int → Int → K) (U : Int → Int → K) m k, thirdOp U L M z k (j + L * m) = sumTo M fun q => U m q * z k (j + L * q) := by
    intro z U m k
    simp only [thirdOp]
    rw [(divmod_slab (c := j) (by omega) j0 j1 _).1, (divmod_slab (c := j) (by omega) j0 j1 _).2]
  simp only [e, sumTo_mul, mul_sumTo]
  rw [sumTo_comm]
  conv_rhs => rw [sumTo_comm]
  refine sumTo_congr fun k _ _ => ?_
  rw [sumTo_comm]
  exact sumTo_congr fun a _ _ => sumTo_congr fun b _ _ => by rw [h]; ring

/-! ### Normalisation -/

/-- Weight of entry `(i, j, k)`, `c = j + L*k`. -/
def wt3 (h w : K) (L : Int) (i c : Int) : K := (if c / L = 0 then h else 1) * (if c % L = 0 then h else 1) * (if i = 0 then h else 1) * w

theorem prod_row {i c b : Int} (w : K) (i0 : 0 ≤ i) (i1 : i < N) : (∏ a ∈ Finset.range N.toNat, (if i + c * N = (a : Int) + b * N then w else 1)) = if b = c then w else 1 := by
  have inj : ∀ a : Nat, a < N.toNat → i + c * N = (a : Int) + b * N → i = a ∧ c = b := fun a ha h =>
    (posA_inj 0 N (fun _ => True)) i c a b trivial trivial i0 i1 (by omega) (by omega) (by unfold posA; omega)
  by_cases hb : b = c
  · subst hb
    rw [prod_single i.toNat (by omega) (fun a ha hne => if_neg fun h => by have := (inj a ha h).1; omega), if_pos (by omega), if_pos rfl]
  · rw [if_neg hb]
    exact Finset.prod_eq_one fun a ha => if_neg fun h => hb (inj a (Finset.mem_range.1 ha) h).2.symm

theorem chebNorm3_acts {h w : K} (hN : 1 ≤ N) (hL : 1 ≤ L) (hM : 1 ≤ M) (hA : N * (L * M) ≤ A.size) :
    ∃ B, chebNorm3 h w N L M A = some B ∧ Acts N (L * M) (diagOp (wt3 h w L)) A B := by
  have hLM : L ≤ L * M := by nlinarith
  have rng : ∀ i c, 0 ≤ i → i < N → 0 ≤ c → c < L * M → 0 ≤ i + c * N ∧ i + c * N < A.size := by
    intro i c i0 i1 c0 c1
    have : N * (c + 1) ≤ N * (L * M) := Int.mul_le_mul_of_nonneg_left (by omega) (by omega)
    have e : N * (c + 1) = c * N + N := by ring
    have : 0 ≤ c * N := by positivity
    omega
  have colr : ∀ j k, 0 ≤ j → j < L → 0 ≤ k → k < M → 0 ≤ j + k * L ∧ j + k * L < L * M := by
    intro j k j0 j1 k0 k1
    have : L * (k + 1) ≤ L * M := Int.mul_le_mul_of_nonneg_left (by omega) (by omega)
    have e : L * (k + 1) = k * L + L := by ring
    have : 0 ≤ k * L := by positivity
    omega
  have row : ∀ (v : K) (c : Int), 0 ≤ c → c < L * M → ∀ B : Buf K, B.size = A.size →
      ∃ C, forUp 0 N (fun i => scaleAt v (i + c * N)) B = some C ∧ Scaled (fun p => ∏ i ∈ Finset.range N.toNat, (if p = (i : Int) + c * N then v else 1)) B C := by
    intro v c c0 c1 B hB
    exact forUp_scaled (A := B) (hi := N) (body := fun i => scaleAt v (i + c * N)) (g := fun i p => if p = i + c * N then v else 1)
      fun i i0 i1 C hC => scaleAt_scaled (rng i c i0 i1 c0 c1).1 (by rw [hC, hB]; exact (rng i c i0 i1 c0 c1).2)
  obtain ⟨A1, e1, s1⟩ := forUp_scaled (A := A) (hi := L) (body := fun j => forUp 0 N fun i => scaleAt h (i + j * N))
    (g := fun j p => ∏ i ∈ Finset.range N.toNat, (if p = (i : Int) + j * N then h else 1)) (fun j j0 j1 B hB => row h j j0 (by omega) B hB)
  obtain ⟨A2, e2, s2⟩ := forUp_scaled (A := A1) (hi := M)
    (body := fun k A => (forUp 0 N (fun i => scaleAt h (i + k * L * N)) A).bind fun A =>
      forUp 0 L (fun j A => (scaleAt h ((j + k * L) * N) A).bind fun A => forUp 0 N (fun i => scaleAt w (i + (j + k * L) * N)) A) A)
    (g := fun k p => (∏ i ∈ Finset.range N.toNat, (if p = (i : Int) + k * L * N then h else 1)) *
      ∏ j ∈ Finset.range L.toNat, ((if p = ((j : Int) + k * L) * N then h else 1) * ∏ i ∈ Finset.range N.toNat, (if p = (i : Int) + (j + k * L) * N then w else 1))) (by
      intro k k0 k1 B hB
      obtain ⟨C, eC, sC⟩ := row h (k * L) (by positivity) (by have := colr 0 k (by omega) (by omega) k0 k1; omega) B (by rw [hB, s1.size])
      obtain ⟨D, eD, sD⟩ := forUp_scaled (A := C) (hi := L)
        (body := fun j A => (scaleAt h ((j + k * L) * N) A).bind fun A => forUp 0 N (fun i => scaleAt w (i + (j + k * L) * N)) A)
        (g := fun j p => (if p = (j + k * L) * N then h else 1) * ∏ i ∈ Finset.range N.toNat, (if p = (i : Int) + (j + k * L) * N then w else 1)) (by
          intro j j0 j1 E hE
          have cr := colr j k j0 j1 k0 k1
          have r0 := rng 0 _ (le_refl _) (by omega) cr.1 cr.2
          obtain ⟨F, eF, sF⟩ := scaleAt_scaled (A := E) (w := h) (p := (j + k * L) * N) (by omega) (by rw [hE, sC.size, hB, s1.size]; omega)
          obtain ⟨G, eG, sG⟩ := row w (j + k * L) cr.1 cr.2 F (by rw [sF.size, hE, sC.size, hB, s1.size])
          exact ⟨G, by rw [eF, Option.bind_some, eG], sF.trans sG⟩)
      exact ⟨D, by rw [eC, Option.bind_some, eD], sC.trans sD⟩)
  refine ⟨A2, by unfold chebNorm3; rw [e1, Option.bind_some, e2], (s1.trans s2).size, ?_, ?_⟩
  · intro i c i0 i1 c0 c1
    rw [(s1.trans s2).val]
    unfold diagOp
    congr 1
    obtain ⟨hL1, q0, q1, r0, r1, -⟩ := slab_bounds (L := L) (M := M) (by omega) c0 c1
    have ec := Int.emod_add_mul_ediv c L
    have ec' : c = c % L + c / L * L := by rw [mul_comm]; omega
    simp only [prod_row _ i0 i1]
    have uniq : ∀ (j k : Int), 0 ≤ j → j < L → j + k * L = c → j = c % L ∧ k = c / L := by
      intro j k j0 j1 hh
      subst hh
      rw [mul_comm k L]
      exact ⟨(divmod_slab (c := 0) hL1 j0 j1 k).2.symm, (divmod_slab (c := 0) hL1 j0 j1 k).1.symm⟩
    have k1 : (∏ j ∈ Finset.range L.toNat, (if (j : Int) = c then h else 1)) = if c / L = 0 then h else 1 := by
      by_cases hc : c / L = 0
      · rw [hc, mul_zero, add_zero] at ec
        rw [prod_single c.toNat (by omega) (fun a _ hne => if_neg (by omega)), if_pos hc, if_pos (by omega)]
      · rw [if_neg hc]
        refine Finset.prod_eq_one fun a ha => if_neg fun hh => hc ?_
        have := uniq a 0 (by omega) (by have := Finset.mem_range.1 ha; omega) (by omega)
        omega
    have hit : ∀ j k : Int, i + c * N = (j + k * L) * N ↔ i = 0 ∧ c = j + k * L := by
      intro j k
      constructor
      · intro hh
        exact (posA_inj 0 N (fun _ => True)) i c 0 (j + k * L) trivial trivial i0 i1 (le_refl _) (by omega) (by unfold posA; omega)
      · rintro ⟨rfl, rfl⟩; ring
    rw [k1, prod_single (c / L).toNat (by omega)]
    · rw [Int.toNat_of_nonneg q0, prod_single (c % L).toNat (by omega)]
      · rw [Int.toNat_of_nonneg r0]
        simp only [hit]
        rw [if_pos ec'.symm]
        unfold wt3
        rw [mul_assoc, mul_assoc]
        congr 1
        congr 1
        · by_cases hz : c % L = 0
          · rw [if_pos hz, if_pos (by omega)]
          · rw [if_neg hz, if_neg (by omega)]
        · congr 1
          by_cases hz : i = 0
          · rw [if_pos hz, if_pos ⟨hz, ec'⟩]
          · rw [if_neg hz, if_neg (fun hh => hz hh.1)]
      · intro j hj hne
        have : ¬ ((j : Int) + c / L * L = c) := fun hh => hne (by have := (uniq j _ (by omega) (by omega) hh).1; omega)
        rw [if_neg this, if_neg (fun hh => this ((hit _ _).1 hh).2.symm), one_mul]
    · intro k hk hne
      have no : ∀ j : Int, 0 ≤ j → j < L → ¬ (j + k * L = c) := fun j j0 j1 hh => hne (by have := (uniq j k j0 j1 hh).2; omega)
      rw [if_neg (by have := no 0 (by omega) hL1; omega), one_mul]
      refine Finset.prod_eq_one fun j hj => ?_
      have hj := Finset.mem_range.1 hj
      have := no j (by omega) (by omega)
      rw [if_neg this, if_neg (fun hh => this ((hit _ _).1 hh).2.symm), one_mul]
  · intro p hp
    rw [(s1.trans s2).val]
    have z : ∀ (v : K) (c : Int), 0 ≤ c → c < L * M → (∏ i ∈ Finset.range N.toNat, (if p = (i : Int) + c * N then v else 1)) = 1 := fun v c c0 c1 =>
      Finset.prod_eq_one fun i hi => if_neg (hp i c (by omega) (by have := Finset.mem_range.1 hi; omega) c0 c1)
    have z1 : (∏ j ∈ Finset.range L.toNat, ∏ i ∈ Finset.range N.toNat, (if p = (i : Int) + (j : Int) * N then h else 1)) = 1 :=
      Finset.prod_eq_one fun j hj => z h j (by omega) (by have := Finset.mem_range.1 hj; omega)
    rw [z1, one_mul, Finset.prod_eq_one, mul_one]
    intro k hk
    have hk := Finset.mem_range.1 hk
    have c0 := colr 0 k (by omega) (by omega) (by omega) (by omega)
    rw [z h (k * L) (by omega) (by omega), one_mul]
    refine Finset.prod_eq_one fun j hj => ?_
    have hj := Finset.mem_range.1 hj
    have cr := colr j k (by omega) (by omega) (by omega) (by omega)
    rw [z w _ cr.1 cr.2, mul_one, if_neg]
    have := hp 0 _ (le_refl _) (by omega) cr.1 cr.2
    omega

theorem wt3_inv {h w h' w' : K} (h1 : h * h' = 1) (h2 : w * w' = 1) (L k c : Int) : wt3 h w L k c * wt3 h' w' L k c = 1 := by
  unfold wt3
  have e : ∀ (p : Prop) [Decidable p], (if p then h else 1) * (if p then h' else 1) = 1 := by
    intro p _; split_ifs
    · exact h1
    · exact mul_one 1
  calc _ = ((if c / L = 0 then h else 1) * (if c / L = 0 then h' else 1)) * ((if c % L = 0 then h else 1) * (if c % L = 0 then h' else 1)) *
        ((if k = 0 then h else 1) * (if k = 0 then h' else 1)) * (w * w') := by ring
    _ = 1 := by rw [e, e, e, h2]; ring

theorem rUp_cons {lo hi : Int} (h : lo < hi) : rUp lo hi = lo :: rUp (lo + 1) hi := by
  refine eq_of_pairwise (pairwise_rUp _ _) (List.pairwise_cons.2 ⟨fun a ha => ?_, pairwise_rUp _ _⟩) fun x => ?_
  · rw [mem_rUp] at ha; omega
  · rw [List.mem_cons, mem_rUp, mem_rUp]; omega

end FT
