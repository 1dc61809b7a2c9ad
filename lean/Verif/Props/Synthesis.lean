import Verif.Props.FftwReal

/-!
# C57, C58: synthesis evaluates the series on the grid; the transpose is the transpose

The series are written out in `sphSeries`, `diskSeries`, … in terms of the points of the grid, without
reference to the model.  Position `p` of an array of columns of length `N` is row `p % N` of column `p / N`.
-/

namespace FT.Props
open FT FT.Model FT.Fftw Real
set_option linter.unusedSectionVars false

/-! ## The specification -/

/-- On arrays of `n` entries, and whatever the work array of size `w` holds, the program multiplies by the
matrix `Ψ`. -/
def Applies (n w : Int) (f : Buf ℝ → Buf ℝ → Option (Buf ℝ × Buf ℝ)) (Ψ : Int → Int → ℝ) : Prop :=
  ∀ X Y : Buf ℝ, (X.size : Int) = n → (Y.size : Int) = w →
    ∃ X1 Y1, f X Y = some (X1, Y1) ∧ X1.size = X.size ∧ ∀ p, 0 ≤ p → p < n → X1.val p = ∑ q ∈ Finset.Ico 0 n, Ψ p q * X.val q

/-- `⟨f x, z⟩ = ⟨x, g z⟩` for all arrays `x`, `z` of `n` entries. -/
def Adjoint (n w : Int) (f g : Buf ℝ → Buf ℝ → Option (Buf ℝ × Buf ℝ)) : Prop :=
  ∀ X Z Y Y' : Buf ℝ, (X.size : Int) = n → (Z.size : Int) = n → (Y.size : Int) = w → (Y'.size : Int) = w →
    ∃ X1 Y1 Z1 Y2, f X Y = some (X1, Y1) ∧ g Z Y' = some (Z1, Y2) ∧
      ∑ p ∈ Finset.Ico 0 n, X1.val p * Z.val p = ∑ p ∈ Finset.Ico 0 n, X.val p * Z1.val p

/-- A program without a work array. -/
def noWork (f : Buf ℝ → Option (Buf ℝ)) (X Y : Buf ℝ) : Option (Buf ℝ × Buf ℝ) := (f X).map fun X => (X, Y)

/-- The functions of longitude: `1/√(2π)`, then `sin(m φ)/√π` in column `2m - 1` and `cos(m φ)/√π` in column
`2m`. -/
noncomputable def fourier (c : Int) (φ : ℝ) : ℝ :=
  if c = 0 then 1 / √(2 * π) else if c % 2 = 0 then cos ((c / 2 : Int) * φ) / √π else sin (((c + 1) / 2 : Int) * φ) / √π

/-- The order `m` of the longitude function in column `c`. -/
def order (c : Int) : Int := (c + 1) / 2

/-- Cosines of colatitude. -/
noncomputable def cosine (j : Int) (θ : ℝ) : ℝ := cos (j * θ)

/-- Sines of colatitude on a grid of `n` points; the last, which oscillates between the grid points as
`±1`, is counted half. -/
noncomputable def sine (n j : Int) (θ : ℝ) : ℝ := (if j = n - 1 then 1 / 2 else 1) * sin ((j + 1) * θ)

/-- Fourier series on the sphere: cosines for even orders, sines for odd orders. -/
noncomputable def sphSeries (N M p q : Int) : ℝ :=
  fourier (q / N) (circ M (p / N)) * if order (q / N) % 2 = 0 then cosine (q % N) (grid N (p % N)) else sine N (q % N) (grid N (p % N))

/-- Vector fields on the sphere: sines for even orders, cosines for odd orders. -/
noncomputable def sphvSeries (N M p q : Int) : ℝ :=
  fourier (q / N) (circ M (p / N)) * if order (q / N) % 2 = 0 then sine N (q % N) (grid N (p % N)) else cosine (q % N) (grid N (p % N))

/-- Chebyshev–Fourier series on the disk, in `r = cos(θ/2)`: `T_{2j}(r)` for even orders, `T_{2j+1}(r)` for odd
orders. -/
noncomputable def diskSeries (N M p q : Int) : ℝ :=
  fourier (q / N) (circ M (p / N)) * cos ((2 * (q % N) + if order (q / N) % 2 = 0 then 0 else 1 : Int) * (grid N (p % N) / 2))

/-- The square of the radius at the colatitude `θ` of an annulus of inner radius `ρ`:
`(2 r² - 1 - ρ²) / (1 - ρ²) = cos θ`. -/
noncomputable def radius2 (rho θ : ℝ) : ℝ := cos (θ / 2) ^ 2 + rho ^ 2 * sin (θ / 2) ^ 2

/-- Chebyshev–Fourier series on the annulus: cosines, with the weight `√(2/(1-ρ²)) r` for odd orders. -/
noncomputable def annSeries (rho : ℝ) (N M p q : Int) : ℝ :=
  fourier (q / N) (circ M (p / N)) * (cosine (q % N) (grid N (p % N)) * if order (q / N) % 2 = 0 then 1 else √(2 * radius2 rho (grid N (p % N)) / (1 - rho ^ 2)))

/-- Chebyshev series on the disk in Cartesian coordinates: cosines in `y`; in `x` cosines for even and sines
for odd columns. -/
noncomputable def rectSeries (N M p q : Int) : ℝ :=
  cosine (q / N) (grid M (p / N)) * if (q / N) % 2 = 0 then cosine (q % N) (grid N (p % N)) else sine N (q % N) (grid N (p % N))

/-- Bivariate Chebyshev series. -/
noncomputable def triSeries (N M p q : Int) : ℝ := cosine (q / N) (grid M (p / N)) * cosine (q % N) (grid N (p % N))

/-- Trivariate Chebyshev series. -/
noncomputable def tetSeries (N L M p q : Int) : ℝ :=
  cosine (q / N / L) (grid M (p / N / L)) * (cosine (q / N % L) (grid L (p / N % L)) * cosine (q % N) (grid N (p % N)))

/-- Multiplication by `e^{it}` on pairs of a real and an imaginary part. -/
noncomputable def turn (t : ℝ) (b b' : Int) : ℝ := if b = b' then cos t else if b = 1 then sin t else -sin t

/-- The frequency of column `c`: `0, -1, 1, -2, 2, …`. -/
def freq (c : Int) : Int := if c % 2 = 0 then c / 2 else -((c + 1) / 2)

/-- Complex Fourier series on the sphere of spin `S`: columns of `N` complex numbers; cosines where order and
spin have the same parity, sines where not. -/
noncomputable def spinSeries (S N M p q : Int) : ℝ :=
  let c := q / (2 * N)
  turn (freq c * circ M (p / (2 * N))) (p % 2) (q % 2) / √(2 * π) *
    if (order c + S) % 2 = 0 then cosine (q % (2 * N) / 2) (grid N (p % (2 * N) / 2)) else sine N (q % (2 * N) / 2) (grid N (p % (2 * N) / 2))

/-! ## Sums over arrays -/

theorem sum_flat {N M : Int} (hN : 0 < N) (hM : 0 ≤ M) (g : Int → ℝ) : ∑ q ∈ Finset.Ico 0 (N * M), g q = ∑ c ∈ Finset.Ico 0 M, ∑ j ∈ Finset.Ico 0 N, g (j + c * N) := by
  induction M, hM using Int.leInduction with
  | base => simp
  | succ M hM ih =>
    rw [sum_Ico_succ hM, ← ih]
    have hm : 0 ≤ N * M := by positivity
    have : ∀ n, 0 ≤ n → ∑ q ∈ Finset.Ico 0 (N * M + n), g q = ∑ q ∈ Finset.Ico 0 (N * M), g q + ∑ j ∈ Finset.Ico 0 n, g (j + M * N) := by
      intro n hn
      induction n, hn using Int.leInduction with
      | base => simp
      | succ n hn ih2 =>
        rw [← add_assoc, sum_Ico_succ (by omega), ih2, sum_Ico_succ hn, add_assoc]
        congr 3
        ring
    rw [← this N hN.le]
    congr 2
    ring

theorem flat_pos {N M c i : Int} (hN : 0 < N) (c0 : 0 ≤ c) (c1 : c < M) (i0 : 0 ≤ i) (i1 : i < N) : 0 ≤ i + c * N ∧ i + c * N < N * M ∧ (i + c * N) / N = c ∧ (i + c * N) % N = i := by
  refine ⟨by positivity, by nlinarith, ?_, ?_⟩
  · rw [Int.add_mul_ediv_right _ _ hN.ne', Int.ediv_eq_zero_of_lt i0 i1, zero_add]
  · rw [Int.add_mul_emod_self_right, Int.emod_eq_of_lt i0 i1]

theorem flat_split {N M p : Int} (hN : 0 < N) (p0 : 0 ≤ p) (p1 : p < N * M) : 0 ≤ p / N ∧ p / N < M ∧ 0 ≤ p % N ∧ p % N < N ∧ p % N + p / N * N = p := by
  refine ⟨Int.ediv_nonneg p0 hN.le, Int.ediv_lt_of_lt_mul hN (by rw [mul_comm]; exact p1), Int.emod_nonneg _ hN.ne', Int.emod_lt_of_pos _ hN, ?_⟩
  rw [mul_comm]; exact Int.emod_add_mul_ediv p N

theorem adjoint_of_matrix {n w : Int} {f g : Buf ℝ → Buf ℝ → Option (Buf ℝ × Buf ℝ)} {Ψ : Int → Int → ℝ} (hf : Applies n w f Ψ) (hg : Applies n w g fun p q => Ψ q p) : Adjoint n w f g := by
  intro X Z Y Y' hX hZ hY hY'
  obtain ⟨X1, Y1, e1, -, h1⟩ := hf X Y hX hY
  obtain ⟨Z1, Y2, e2, -, h2⟩ := hg Z Y' hZ hY'
  refine ⟨X1, Y1, Z1, Y2, e1, e2, ?_⟩
  rw [sum_Ico_congr (fun p p0 p1 => by rw [h1 p p0 p1, Finset.sum_mul]), sum_Ico_congr (f := fun p : Int => X.val p * Z1.val p) (fun p p0 p1 => by rw [h2 p p0 p1, Finset.mul_sum]), Finset.sum_comm]
  exact Finset.sum_congr rfl fun q _ => Finset.sum_congr rfl fun p _ => by ring

/-- If `f'` undoes `f` and `g` undoes `g'`, then `f', g'` are adjoint when `f, g` are. -/
theorem adjoint_inv {n w : Int} {f g f' g' : Buf ℝ → Buf ℝ → Option (Buf ℝ × Buf ℝ)} (h : Adjoint n w f g)
    (hf : ∀ X Y Y' : Buf ℝ, (X.size : Int) = n → (Y.size : Int) = w → (Y'.size : Int) = w → ∃ X1 Y1 Y2, f' X Y = some (X1, Y1) ∧ f X1 Y' = some (X, Y2) ∧ X1.size = X.size)
    (hg : ∀ X Y Y' : Buf ℝ, (X.size : Int) = n → (Y.size : Int) = w → (Y'.size : Int) = w → ∃ X1 Y1 Y2, g' X Y = some (X1, Y1) ∧ g X1 Y' = some (X, Y2) ∧ X1.size = X.size) :
    Adjoint n w f' g' := by
  intro X Z Y Y' hX hZ hY hY'
  obtain ⟨X1, Y1, Y2, e1, e2, s1⟩ := hf X Y Y hX hY hY
  obtain ⟨Z1, Y3, Y4, e3, e4, s3⟩ := hg Z Y' Y' hZ hY' hY'
  refine ⟨X1, Y1, Z1, Y3, e1, e3, ?_⟩
  obtain ⟨X', _, Z', _, d1, d2, e⟩ := h X1 Z1 Y Y' (by omega) (by omega) hY hY'
  rw [e2] at d1
  rw [e4] at d2
  simp only [Option.some.injEq, Prod.mk.injEq] at d1 d2
  rw [← d1.1, ← d2.1] at e
  exact e.symm

theorem applies_of {N M w : Int} (hN : 0 < N) (hM : 0 ≤ M) {f : Buf ℝ → Buf ℝ → Option (Buf ℝ × Buf ℝ)} {v : (Int → Int → ℝ) → Int → Int → ℝ}
    (hf : ∀ X Y a, Holds N M X a → (Y.size : Int) = w → ∃ X' Y', f X Y = some (X', Y') ∧ Holds N M X' (v a)) {Ψ : Int → Int → ℝ}
    (hv : ∀ a k i, 0 ≤ k → k < M → 0 ≤ i → i < N → v a k i = ∑ c ∈ Finset.Ico 0 M, ∑ j ∈ Finset.Ico 0 N, Ψ (i + k * N) (j + c * N) * a c j) : Applies (N * M) w f Ψ := by
  intro X Y hX hY
  obtain ⟨X1, Y1, e1, h1⟩ := hf X Y _ (Holds.self hX) hY
  refine ⟨X1, Y1, e1, by have := h1.1; omega, fun p p0 p1 => ?_⟩
  obtain ⟨c0, c1, i0, i1, e⟩ := flat_split hN p0 p1
  have := h1.2 _ _ c0 c1 i0 i1
  rw [hv _ _ _ c0 c1 i0 i1, e] at this
  rw [this, sum_flat hN hM]

/-! ## Rows -/

/-- The longitude function of the complex-to-real transform. -/
noncomputable def harm (c : Int) (φ : ℝ) : ℝ := if c = 0 then 1 else 2 * (if c % 2 = 0 then cos ((c / 2 : Int) * φ) else sin (((c + 1) / 2 : Int) * φ))

theorem sum_pairs {m : Int} (hm : 0 ≤ m) (b : Int → ℝ) : ∑ c ∈ Finset.Ico 0 (2 * m + 1), b c = b 0 + ∑ j ∈ Finset.Ico 1 (m + 1), (b (2 * j) + b (2 * j - 1)) := by
  induction m, hm using Int.leInduction with
  | base => simp [show Finset.Ico (0 : Int) 1 = {0} from rfl]
  | succ m hm ih =>
    rw [show 2 * (m + 1) + 1 = (2 * m + 1) + 1 + 1 by ring, sum_Ico_succ (by omega), sum_Ico_succ (by omega), ih, sum_Ico_succ (by omega : (1 : Int) ≤ m + 1),
      show 2 * (m + 1) - 1 = 2 * m + 1 by ring, show 2 * (m + 1) = 2 * m + 1 + 1 by ring]
    ring

theorem hc2r_pack {M : Int} (hM0 : 0 < M) (hM : M % 2 = 1) (b : Int → Int → ℝ) (i k : Int) :
    hc2r M (packG b i) k = ∑ c ∈ Finset.Ico 0 M, b c i * harm c (circ M k) := by
  rw [show (∑ c ∈ Finset.Ico 0 M, b c i * harm c (circ M k)) = ∑ c ∈ Finset.Ico 0 (2 * (M / 2) + 1), b c i * harm c (circ M k) by
    rw [show 2 * (M / 2) + 1 = M by omega], sum_pairs (by omega)]
  unfold hc2r
  rw [Finset.mul_sum]
  congr 1
  · simp [packG, harm]
  · refine sum_Ico_congr fun j j0 j1 => ?_
    simp only [packG, arg_ring]
    rw [if_neg (by omega)]
    unfold harm
    rw [if_neg (by omega), if_pos (by omega), if_neg (by omega), if_neg (by omega), show 2 * j / 2 = j by omega, show (2 * j - 1 + 1) / 2 = j by omega]
    ring

/-- The longitude function of the real-to-complex transform. -/
noncomputable def harmT (c : Int) (φ : ℝ) : ℝ := if c % 2 = 0 then cos ((c / 2 : Int) * φ) else sin (((c + 1) / 2 : Int) * φ)

theorem unpack_r2hc {M : Int} (a : Int → Int → ℝ) (c i : Int) :
    unpackG (fun i j => r2hc M (fun k => a k i) j) c i = ∑ k ∈ Finset.Ico 0 M, a k i * harmT c (circ M k) := by
  unfold unpackG r2hc harmT
  simp only [arg_ring, neg_neg]
  split_ifs <;> rfl

/-! ## Columns -/

theorem out_eval {N M : Int} (hM0 : 0 < M) (hM : M % 2 = 1) {μ ω : Int → Int → ℝ} {F : Int → Line ℝ} {A : Int → Int → Int → ℝ} {Ψ : Int → Int → ℝ}
    (hF : ∀ c, MatOf N (A c) (F c))
    (h : ∀ c j k i, 0 ≤ c → c < M → 0 ≤ j → j < N → 0 ≤ k → k < M → 0 ≤ i → i < N → A c i j * μ c j * ω c i * harm c (circ M k) = Ψ (i + k * N) (j + c * N)) (a : Int → Int → ℝ) (k i : Int)
    (k0 : 0 ≤ k) (k1 : k < M) (i0 : 0 ≤ i) (i1 : i < N) :
    outG μ ω F (hc2r M) a k i = ∑ c ∈ Finset.Ico 0 M, ∑ j ∈ Finset.Ico 0 N, Ψ (i + k * N) (j + c * N) * a c j := by
  unfold outG
  rw [hc2r_pack hM0 hM]
  refine sum_Ico_congr fun c c0 c1 => ?_
  unfold scaleG colG
  dsimp only
  rw [hF c _ i i0 i1, Finset.sum_mul, Finset.sum_mul]
  refine sum_Ico_congr fun j j0 j1 => ?_
  rw [← h c j k i c0 c1 j0 j1 k0 k1 i0 i1]
  ring

theorem in_eval {N M : Int} {μ ω : Int → Int → ℝ} {F : Int → Line ℝ} {A : Int → Int → Int → ℝ} {Ψ : Int → Int → ℝ}
    (hF : ∀ c, MatOf N (A c) (F c))
    (h : ∀ c j k i, 0 ≤ c → c < M → 0 ≤ j → j < N → 0 ≤ k → k < M → 0 ≤ i → i < N → A c j i * μ c j * ω c i * harmT c (circ M k) = Ψ (i + k * N) (j + c * N)) (a : Int → Int → ℝ) (c j : Int)
    (c0 : 0 ≤ c) (c1 : c < M) (j0 : 0 ≤ j) (j1 : j < N) :
    inG μ ω F (r2hc M) a c j = ∑ k ∈ Finset.Ico 0 M, ∑ i ∈ Finset.Ico 0 N, Ψ (i + k * N) (j + c * N) * a k i := by
  rw [Finset.sum_comm]
  unfold inG
  unfold scaleG colG
  dsimp only
  rw [hF c _ j j0 j1, Finset.sum_mul]
  refine sum_Ico_congr fun i i0 i1 => ?_
  rw [unpack_r2hc, Finset.sum_mul, Finset.mul_sum, Finset.sum_mul]
  refine sum_Ico_congr fun k k0 k1 => ?_
  rw [← h c j k i c0 c1 j0 j1 k0 k1 i0 i1]
  ring

theorem evenCol_order {c : Int} : evenCol c = true ↔ order c % 2 = 0 := by
  unfold evenCol order
  simp only [decide_eq_true_eq]
  omega

theorem sqrt_two_pi : √(2 * π) = √2 * √π := Real.sqrt_mul (by norm_num) _

theorem harm_fourier (c : Int) (φ : ℝ) (i : Int) : 2 * edge consts.q14 consts.s2 c i * harm c φ = fourier c φ := by
  have h1 := sqrt_pi_ne
  have h2 : √2 ≠ 0 := by positivity
  have h3 : √2 * √2 = 2 := Real.mul_self_sqrt (by norm_num)
  unfold edge harm fourier consts
  dsimp only
  split_ifs
  · rw [sqrt_two_pi]; field_simp; nlinarith
  · field_simp; norm_num
  · field_simp; norm_num

theorem harmT_fourier (c : Int) (φ : ℝ) (i : Int) : 2 * edge consts.q12 consts.s12 c i * harmT c φ = fourier c φ := by
  have h1 := sqrt_pi_ne
  have h2 : √2 ≠ 0 := by positivity
  unfold edge harmT fourier consts
  dsimp only
  split_ifs with h
  · rw [sqrt_two_pi, h]; simp; field_simp
  · omega
  · field_simp
  · field_simp

/-- The matrix of the cosine synthesis of every column with its first coefficient doubled. -/
theorem cosS_mat {N i j : Int} : (if j = 0 then (1 : ℝ) else 2) * cos ((j : ℝ) * grid N i) * (if j = 0 then 2 else 1) = 2 * cosine j (grid N i) := by
  unfold cosine; split_ifs <;> ring

theorem sinS_mat {N i j : Int} : (if j = N - 1 then (1 : ℝ) else 2) * sin (((j + 1 : Int) : ℝ) * grid N i) = 2 * sine N j (grid N i) := by
  unfold sine; push_cast; split_ifs <;> ring

theorem sinA_mat {N i j : Int} : 2 * sin (((j + 1 : Int) : ℝ) * grid N i) * (if j = N - 1 then 1 / 2 else 1) = 2 * sine N j (grid N i) := by
  unfold sine; push_cast; ring

variable {N M : Int} {u u' : Int → ℝ}

theorem mat_ite {F G : Line ℝ} {A B : Int → Int → ℝ} (hF : MatOf N A F) (hG : MatOf N B G) (c : Int) : MatOf N (if evenCol c then A else B) (if evenCol c then F else G) := by
  split_ifs
  · exact hF
  · exact hG

theorem MapsP.applies {f : Buf ℝ → Buf ℝ → Option (Buf ℝ × Buf ℝ)} {v : (Int → Int → ℝ) → Int → Int → ℝ} (hN : 0 < N) (hM : 0 ≤ M) (hf : MapsP N M f v) {Ψ : Int → Int → ℝ}
    (hv : ∀ a k i, 0 ≤ k → k < M → 0 ≤ i → i < N → v a k i = ∑ c ∈ Finset.Ico 0 M, ∑ j ∈ Finset.Ico 0 N, Ψ (i + k * N) (j + c * N) * a c j) :
    Applies (N * M) (2 * (N * (M / 2 + 1))) f Ψ :=
  applies_of hN hM (fun X Y a hX hY => by obtain ⟨X', Y', e, h, -⟩ := hf X Y a hX hY; exact ⟨X', Y', e, h⟩) hv

/-- A series in longitude and colatitude. -/
noncomputable def series (N M : Int) (pol : Int → Int → Int → ℝ) (p q : Int) : ℝ := fourier (q / N) (circ M (p / N)) * pol (q / N) (q % N) (p % N)

theorem series_at (hN : 0 < N) (pol : Int → Int → Int → ℝ) {c j k i : Int} (c0 : 0 ≤ c) (c1 : c < M) (j0 : 0 ≤ j) (j1 : j < N) (k0 : 0 ≤ k) (k1 : k < M) (i0 : 0 ≤ i) (i1 : i < N) :
    series N M pol (i + k * N) (j + c * N) = fourier c (circ M k) * pol c j i := by
  unfold series
  rw [(flat_pos hN c0 c1 j0 j1).2.2.1, (flat_pos hN c0 c1 j0 j1).2.2.2, (flat_pos hN k0 k1 i0 i1).2.2.1, (flat_pos hN k0 k1 i0 i1).2.2.2]

theorem out_series {f : Buf ℝ → Buf ℝ → Option (Buf ℝ × Buf ℝ)} {μ ω w : Int → Int → ℝ} {F : Int → Line ℝ} {A pol : Int → Int → Int → ℝ} (hN : 0 < N) (hM0 : 0 < M) (hM : M % 2 = 1)
    (hf : MapsP N M f (outG μ ω F (hc2r M))) (hF : ∀ c, MatOf N (A c) (F c)) (hω : ∀ c i, ω c i = w c i * edge consts.q14 consts.s2 c i)
    (hp : ∀ c j i, 0 ≤ c → 0 ≤ i → i < N → A c i j * μ c j * w c i = 2 * pol c j i) :
    Applies (N * M) (2 * (N * (M / 2 + 1))) f (series N M pol) := by
  refine MapsP.applies hN hM0.le hf (out_eval hM0 hM hF fun c j k i c0 c1 j0 j1 k0 k1 i0 i1 => ?_)
  rw [series_at hN pol c0 c1 j0 j1 k0 k1 i0 i1, ← harm_fourier c _ i, hω]
  linear_combination edge consts.q14 consts.s2 c i * harm c (circ M k) * hp c j i c0 i0 i1

theorem in_series {f : Buf ℝ → Buf ℝ → Option (Buf ℝ × Buf ℝ)} {μ ω w : Int → Int → ℝ} {F : Int → Line ℝ} {A pol : Int → Int → Int → ℝ} (hN : 0 < N) (hM0 : 0 < M)
    (hf : MapsP N M f (inG μ ω F (r2hc M))) (hF : ∀ c, MatOf N (A c) (F c)) (hω : ∀ c i, ω c i = edge consts.q12 consts.s12 c i * w c i)
    (hp : ∀ c j i, 0 ≤ c → 0 ≤ i → i < N → A c j i * μ c j * w c i = 2 * pol c j i) :
    Applies (N * M) (2 * (N * (M / 2 + 1))) f (fun p q => series N M pol q p) := by
  refine MapsP.applies hN hM0.le hf (in_eval (Ψ := series N M pol) hF fun c j k i c0 c1 j0 j1 k0 k1 i0 i1 => ?_)
  rw [series_at hN pol c0 c1 j0 j1 k0 k1 i0 i1, ← harmT_fourier c _ i, hω]
  linear_combination edge consts.q12 consts.s12 c i * harmT c (circ M k) * hp c j i c0 i0 i1

theorem evenCol_cases (c : Int) : (evenCol c = true ∧ order c % 2 = 0) ∨ (evenCol c = false ∧ ¬ order c % 2 = 0) := by
  by_cases h : order c % 2 = 0
  · exact Or.inl ⟨evenCol_order.2 h, h⟩
  · exact Or.inr ⟨by rw [Bool.eq_false_iff]; exact fun e => h (evenCol_order.1 e), h⟩

theorem sph_kernel (hN : 0 < N) (hM0 : 0 < M) (hM : M % 2 = 1) :
    Applies (N * M) (2 * (N * (M / 2 + 1))) (sphSynthesis 'N' consts (sphS N M) u N M) (sphSeries N M) ∧
    Applies (N * M) (2 * (N * (M / 2 + 1))) (sphSynthesis 'T' consts (sphA N M) u' N M) (fun p q => sphSeries N M q p) := by
  obtain ⟨sN, -, sT, -⟩ := sph_maps (C := consts) (u := u) (u' := u') hN hM0 hM (sph_pair hN hM0 hM) rfl rfl (row_pair hM0 hM)
  constructor
  · refine out_series (w := fun _ _ => 1) (pol := fun c j i => if order c % 2 = 0 then cosine j (grid N i) else sine N j (grid N i)) hN hM0 hM sN (mat_ite (redft01_mat hN) (rodft01_mat hN)) (fun _ _ => (one_mul _).symm) fun c j i _ _ _ => ?_
    unfold markCols
    obtain ⟨h1, h2⟩ | ⟨h1, h2⟩ := evenCol_cases c
    · simp only [h1, h2, true_and, if_true, mul_one]; exact cosS_mat
    · simp only [h1, h2, if_false, Bool.false_eq_true, false_and, mul_one]; exact sinS_mat
  · refine in_series (w := fun _ _ => 1) (pol := fun c j i => if order c % 2 = 0 then cosine j (grid N i) else sine N j (grid N i)) hN hM0 sT (mat_ite (redft10_mat N) (rodft10_mat N)) (fun _ _ => (mul_one _).symm) fun c j i _ _ _ => ?_
    unfold markCols
    obtain ⟨h1, h2⟩ | ⟨h1, h2⟩ := evenCol_cases c
    · simp only [h1, h2, if_true, mul_one, Bool.true_eq_false, false_and, if_false]; rfl
    · simp only [h1, h2, if_false, Bool.false_eq_true, true_and, mul_one]; exact sinA_mat

theorem sphv_kernel (hN : 0 < N) (hM0 : 0 < M) (hM : M % 2 = 1) :
    Applies (N * M) (2 * (N * (M / 2 + 1))) (sphvSynthesis 'N' consts (sphvS N M) u N M) (sphvSeries N M) ∧
    Applies (N * M) (2 * (N * (M / 2 + 1))) (sphvSynthesis 'T' consts (sphvA N M) u' N M) (fun p q => sphvSeries N M q p) := by
  obtain ⟨sN, -, sT, -⟩ := sphv_maps (C := consts) (u := u) (u' := u') hN hM0 hM (sphv_pair hN hM0 hM) rfl rfl (row_pair hM0 hM)
  constructor
  · refine out_series (w := fun _ _ => 1) (pol := fun c j i => if order c % 2 = 0 then sine N j (grid N i) else cosine j (grid N i)) hN hM0 hM sN (mat_ite (rodft01_mat hN) (redft01_mat hN)) (fun _ _ => (one_mul _).symm) fun c j i _ _ _ => ?_
    unfold markCols
    obtain ⟨h1, h2⟩ | ⟨h1, h2⟩ := evenCol_cases c
    · simp only [h1, h2, if_true, Bool.true_eq_false, if_false, false_and, mul_one]; exact sinS_mat
    · simp only [h1, h2, if_false, Bool.false_eq_true, true_and, mul_one]; exact cosS_mat
  · refine in_series (w := fun _ _ => 1) (pol := fun c j i => if order c % 2 = 0 then sine N j (grid N i) else cosine j (grid N i)) hN hM0 sT (mat_ite (rodft10_mat N) (redft10_mat N)) (fun _ _ => (mul_one _).symm) fun c j i _ _ _ => ?_
    unfold markCols
    obtain ⟨h1, h2⟩ | ⟨h1, h2⟩ := evenCol_cases c
    · simp only [h1, h2, if_true, mul_one, true_and]; exact sinA_mat
    · simp only [h1, h2, if_false, Bool.false_eq_true, false_and, mul_one]; rfl

theorem disk_pol {N c j i : Int} : cos ((2 * j + if order c % 2 = 0 then 0 else 1 : Int) * (grid N i / 2)) = if order c % 2 = 0 then cosine j (grid N i) else cos (((j : ℝ) + 1 / 2) * grid N i) := by
  unfold cosine
  split_ifs <;> push_cast <;> congr 1 <;> ring

theorem disk_kernel (hN : 0 < N) (hM0 : 0 < M) (hM : M % 2 = 1) :
    Applies (N * M) (2 * (N * (M / 2 + 1))) (diskSynthesis 'N' consts (diskS N M) u N M) (diskSeries N M) ∧
    Applies (N * M) (2 * (N * (M / 2 + 1))) (diskSynthesis 'T' consts (diskA N M) u' N M) (fun p q => diskSeries N M q p) := by
  obtain ⟨sN, -, sT, -⟩ := disk_maps (C := consts) (u := u) (u' := u') hN hM0 hM (disk_pair hN hM0 hM) rfl rfl (row_pair hM0 hM)
  constructor
  · refine out_series (w := fun _ _ => 1) (pol := fun c j i => cos ((2 * j + if order c % 2 = 0 then 0 else 1 : Int) * (grid N i / 2))) hN hM0 hM sN (mat_ite (redft01_mat hN) (redft11_mat N)) (fun _ _ => (one_mul _).symm) fun c j i _ _ _ => ?_
    unfold markCols
    rw [disk_pol]
    obtain ⟨h1, h2⟩ | ⟨h1, h2⟩ := evenCol_cases c
    · simp only [h1, h2, true_and, if_true, mul_one]; exact cosS_mat
    · simp only [h1, h2, if_false, Bool.false_eq_true, false_and, mul_one]
      unfold grid; congr 2; ring
  · refine in_series (w := fun _ _ => 1) (pol := fun c j i => cos ((2 * j + if order c % 2 = 0 then 0 else 1 : Int) * (grid N i / 2))) hN hM0 sT (mat_ite (redft10_mat N) (redft11_mat N)) (fun _ _ => (mul_one _).symm) fun c j i _ _ _ => ?_
    rw [disk_pol]
    obtain ⟨h1, h2⟩ | ⟨h1, h2⟩ := evenCol_cases c
    · simp only [h1, h2, true_and, if_true, mul_one]; rfl
    · simp only [h1, h2, if_false, Bool.false_eq_true, mul_one]

theorem ann_kernel (hN : 0 < N) (hM0 : 0 < M) (hM : M % 2 = 1) {rho : ℝ} (hr : rho ^ 2 < 1) :
    Applies (N * M) (2 * (N * (M / 2 + 1))) (annSynthesis 'N' consts (annS rho N M) u N M) (annSeries rho N M) ∧
    Applies (N * M) (2 * (N * (M / 2 + 1))) (annSynthesis 'T' consts (annA rho N M) u' N M) (fun p q => annSeries rho N M q p) := by
  obtain ⟨sN, -, sT, -⟩ := ann_maps (C := consts) (u := u) (u' := u') hN hM0 hM (ann_pair hN hM0 hM hr) rfl rfl (row_pair hM0 hM)
  constructor
  · refine out_series (w := wt (annW rho N)) (pol := fun c j i => cosine j (grid N i) * if order c % 2 = 0 then 1 else √(2 * radius2 rho (grid N i) / (1 - rho ^ 2))) hN hM0 hM sN (fun _ => redft01_mat hN) (fun _ _ => rfl) fun c j i _ _ _ => ?_
    have := cosS_mat (N := N) (i := i) (j := j)
    unfold wt
    rw [annW_eq hN]
    obtain ⟨h1, h2⟩ | ⟨h1, h2⟩ := evenCol_cases c
    · simp only [h1, h2, if_true]; linear_combination this
    · simp only [h1, h2, if_false, Bool.false_eq_true]; unfold radius2; linear_combination (√(2 * (cos (grid N i / 2) ^ 2 + rho ^ 2 * sin (grid N i / 2) ^ 2) / (1 - rho ^ 2))) * this
  · refine in_series (w := wt (annW rho N)) (pol := fun c j i => cosine j (grid N i) * if order c % 2 = 0 then 1 else √(2 * radius2 rho (grid N i) / (1 - rho ^ 2))) hN hM0 sT (fun _ => redft10_mat N) (fun _ _ => rfl) fun c j i _ _ _ => ?_
    unfold wt
    rw [annW_eq hN]
    obtain ⟨h1, h2⟩ | ⟨h1, h2⟩ := evenCol_cases c
    · simp only [h1, h2, if_true]; unfold cosine; ring
    · simp only [h1, h2, if_false, Bool.false_eq_true]; unfold radius2 cosine; ring

theorem Maps.applies {f : Buf ℝ → Option (Buf ℝ)} {v : (Int → Int → ℝ) → Int → Int → ℝ} (hN : 0 < N) (hM : 0 ≤ M) (hf : Maps N M f v) {Ψ : Int → Int → ℝ}
    (hv : ∀ a k i, 0 ≤ k → k < M → 0 ≤ i → i < N → v a k i = ∑ c ∈ Finset.Ico 0 M, ∑ j ∈ Finset.Ico 0 N, Ψ (i + k * N) (j + c * N) * a c j) :
    Applies (N * M) 0 (noWork f) Ψ :=
  applies_of hN hM (fun X Y a hX _ => by obtain ⟨X', e, h, -⟩ := hf X a hX; exact ⟨X', Y, by unfold noWork; rw [e]; rfl, h⟩) hv

theorem rect_at (hN : 0 < N) {c j k i : Int} (c0 : 0 ≤ c) (c1 : c < M) (j0 : 0 ≤ j) (j1 : j < N) (k0 : 0 ≤ k) (k1 : k < M) (i0 : 0 ≤ i) (i1 : i < N) :
    rectSeries N M (i + k * N) (j + c * N) = cosine c (grid M k) * if c % 2 = 0 then cosine j (grid N i) else sine N j (grid N i) := by
  unfold rectSeries
  rw [(flat_pos hN c0 c1 j0 j1).2.2.1, (flat_pos hN c0 c1 j0 j1).2.2.2, (flat_pos hN k0 k1 i0 i1).2.2.1, (flat_pos hN k0 k1 i0 i1).2.2.2]

theorem mat_ite2 {F G : Line ℝ} {A B : Int → Int → ℝ} (hF : MatOf N A F) (hG : MatOf N B G) (c : Int) : MatOf N (if c % 2 = 0 then A else B) (if c % 2 = 0 then F else G) := by
  split_ifs
  · exact hF
  · exact hG

theorem rect_kernel (hN : 0 < N) (hM0 : 0 < M) :
    Applies (N * M) 0 (noWork (rectSynthesis 'N' (rectS N M) N M)) (rectSeries N M) ∧
    Applies (N * M) 0 (noWork (rectSynthesis 'T' (rectA N M) N M)) (fun p q => rectSeries N M q p) := by
  obtain ⟨sN, -, sT, -⟩ := rect_maps hN hM0 (S := rectS N M) (A := rectA N M) ⟨(redft_pair hN).1, (redft_pair hN).2, (rodft_pair hN).1, (rodft_pair hN).2, (redft_pair hM0).1, (redft_pair hM0).2⟩
  constructor
  · refine Maps.applies hN hM0.le sN fun a k i k0 k1 i0 i1 => ?_
    unfold rowG
    rw [show (rectS N M).y = redft01 M from rfl, redft01_mat hM0 _ k k0 k1]
    refine sum_Ico_congr fun c c0 c1 => ?_
    unfold scaleG colG
    dsimp only
    rw [mat_ite2 (F := (rectS N M).x1) (G := (rectS N M).x2) (redft01_mat hN) (rodft01_mat hN) c _ i i0 i1, Finset.sum_mul, Finset.mul_sum]
    refine sum_Ico_congr fun j j0 j1 => ?_
    rw [rect_at hN c0 c1 j0 j1 k0 k1 i0 i1]
    rw [show (if c < 1 then (2 : ℝ) else 1) = if c = 0 then 2 else 1 from if_congr (by omega) rfl rfl]
    have h1 := cosS_mat (N := M) (i := k) (j := c)
    by_cases h : c % 2 = 0
    · simp only [h, if_true, true_and]
      linear_combination (1 / 4 * a c j) * ((if j = 0 then (1 : ℝ) else 2) * cos ((j : ℝ) * grid N i) * (if j = 0 then 2 else 1)) * h1 + (1 / 2 * a c j * cosine c (grid M k)) * cosS_mat (N := N) (i := i) (j := j)
    · simp only [h, if_false, false_and]
      linear_combination (1 / 4 * a c j) * ((if j = N - 1 then (1 : ℝ) else 2) * sin (((j + 1 : Int) : ℝ) * grid N i)) * h1 + (1 / 2 * a c j * cosine c (grid M k)) * sinS_mat (N := N) (i := i) (j := j)
  · refine Maps.applies (Ψ := fun p q => rectSeries N M q p) hN hM0.le sT fun a c j c0 c1 j0 j1 => ?_
    rw [Finset.sum_comm]
    unfold scaleG colG
    dsimp only
    rw [mat_ite2 (F := (rectA N M).x1) (G := (rectA N M).x2) (redft10_mat N) (rodft10_mat N) c _ j j0 j1, Finset.sum_mul]
    refine sum_Ico_congr fun i i0 i1 => ?_
    unfold rowG
    rw [show (rectA N M).y (fun c => a c i) c = _ from redft10_mat M _ c c0 c1, Finset.sum_mul, Finset.mul_sum, Finset.sum_mul]
    refine sum_Ico_congr fun k k0 k1 => ?_
    rw [rect_at hN c0 c1 j0 j1 k0 k1 i0 i1]
    by_cases h : c % 2 = 0
    · simp only [h, if_true, show ¬ ((0 : Int) = 1) by decide, false_and, if_false]
      unfold cosine; ring
    · simp only [show c % 2 = 1 by omega, show ¬ ((1 : Int) = 0) by decide, if_false, true_and]
      have := sinA_mat (N := N) (i := i) (j := j)
      unfold cosine
      linear_combination (1 / 2 * a k i * cos (c * grid M k)) * this

/-! ### The triangle and the tetrahedron -/

theorem count_rUp {n p : Int} : (rUp 0 n).count p = if 0 ≤ p ∧ p < n then 1 else 0 := by
  rw [List.Nodup.count (pairwise_rUp 0 n |>.imp fun h => (ne_of_lt h))]
  simp only [mem_rUp]

theorem tri_count (hN : 0 < N) {c i : Int} (c0 : 0 ≤ c) (c1 : c < N) (i0 : 0 ≤ i) (i1 : i < N) :
    (sideList N N).count (i + c * N) = (if c = 0 then 1 else 0) + if i = 0 then 1 else 0 := by
  unfold sideList
  rw [List.count_append, count_rUp]
  congr 1
  · refine if_congr ⟨fun h => ?_, fun h => by subst h; omega⟩ rfl rfl
    by_contra hc
    have : 1 * N ≤ c * N := Int.mul_le_mul_of_nonneg_right (by omega) hN.le
    omega
  · by_cases h : i = 0
    · rw [if_pos h, h, zero_add, List.count_map_of_injective _ _ (fun a b e => Int.eq_of_mul_eq_mul_right hN.ne' e), count_rUp, if_pos ⟨c0, c1⟩]
    · rw [if_neg h, List.count_eq_zero]
      intro hm
      obtain ⟨j, -, e⟩ := List.mem_map.1 hm
      have h1 := (flat_pos (M := N) hN c0 c1 i0 i1).2.2.2
      rw [← e, Int.mul_emod_left] at h1
      exact h h1.symm

theorem tri_at (hN : 0 < N) {c j k i : Int} (c0 : 0 ≤ c) (c1 : c < M) (j0 : 0 ≤ j) (j1 : j < N) (k0 : 0 ≤ k) (k1 : k < M) (i0 : 0 ≤ i) (i1 : i < N) :
    triSeries N M (i + k * N) (j + c * N) = cosine c (grid M k) * cosine j (grid N i) := by
  unfold triSeries
  rw [(flat_pos hN c0 c1 j0 j1).2.2.1, (flat_pos hN c0 c1 j0 j1).2.2.2, (flat_pos hN k0 k1 i0 i1).2.2.1, (flat_pos hN k0 k1 i0 i1).2.2.2]

theorem cosS_pow {N i j : Int} : (if j = 0 then (1 : ℝ) else 2) * cos ((j : ℝ) * grid N i) * 2 ^ (if j = 0 then 1 else 0) = 2 * cosine j (grid N i) := by
  unfold cosine; split_ifs <;> ring

theorem one_kernel {f : Buf ℝ → Option (Buf ℝ)} (hf : ∀ X, f X = some X) {n : Int} {Ψ : Int → Int → ℝ} (hn : n = 1) (h : Ψ 0 0 = 1) : Applies n 0 (noWork f) Ψ := by
  subst hn
  intro X Y hX hY
  refine ⟨X, Y, by unfold noWork; rw [hf]; rfl, rfl, fun p p0 p1 => ?_⟩
  obtain rfl : p = 0 := by omega
  rw [show Finset.Ico (0 : Int) 1 = {0} from rfl, Finset.sum_singleton, h, one_mul]

theorem tri_kernel (hN : 0 < N) :
    Applies (N * N) 0 (noWork (triSynthesis 'N' (triS N N) N N)) (triSeries N N) ∧
    Applies (N * N) 0 (noWork (triSynthesis 'T' (triA N N) N N)) (fun p q => triSeries N N q p) := by
  by_cases h1 : N = 1
  · subst h1
    constructor <;> refine one_kernel (fun X => ?_) (by norm_num) ?_
    · simp [triSynthesis]
    · simp [triSeries, cosine]
    · simp [triSynthesis]
    · simp [triSeries, cosine]
  obtain ⟨sN, -, sT, -⟩ := tri_maps (f := triS N N) (g := triA N N) hN hN ⟨by omega, by omega⟩ (cos_pair hN) (cos_pair hN)
  constructor
  · refine Maps.applies hN hN.le sN fun a k i k0 k1 i0 i1 => ?_
    unfold both triS
    dsimp only
    rw [redft01_mat hN _ k k0 k1]
    refine sum_Ico_congr fun c c0 c1 => ?_
    rw [redft01_mat hN _ i i0 i1, Finset.mul_sum]
    refine sum_Ico_congr fun j j0 j1 => ?_
    rw [tri_at hN c0 c1 j0 j1 k0 k1 i0 i1, tri_count hN c0 c1 j0 j1, pow_add]
    have e1 := cosS_pow (N := N) (i := k) (j := c)
    have e2 := cosS_pow (N := N) (i := i) (j := j)
    linear_combination (1 / 4 * a c j) * ((if j = 0 then (1 : ℝ) else 2) * cos ((j : ℝ) * grid N i) * 2 ^ (if j = 0 then 1 else 0)) * e1 + (1 / 2 * a c j * cosine c (grid N k)) * e2
  · refine Maps.applies (Ψ := fun p q => triSeries N N q p) hN hN.le sT fun a c j c0 c1 j0 j1 => ?_
    unfold both triA
    dsimp only
    rw [redft10_mat N _ c c0 c1]
    refine sum_Ico_congr fun k k0 k1 => ?_
    rw [redft10_mat N _ j j0 j1, Finset.mul_sum]
    refine sum_Ico_congr fun i i0 i1 => ?_
    rw [tri_at hN c0 c1 j0 j1 k0 k1 i0 i1]
    unfold cosine; ring

theorem tet_pos (hN : 0 < N) {r t s : Int} (r0 : 0 ≤ r) (r1 : r < N) (t0 : 0 ≤ t) (t1 : t < N) (s0 : 0 ≤ s) (s1 : s < N) :
    (s + N * (t + N * r)) % N = s ∧ (s + N * (t + N * r)) / N % N = t ∧ (s + N * (t + N * r)) / N / N = r := by
  have e : s + N * (t + N * r) = s + (t + r * N) * N := by ring
  have hA := flat_pos (M := N) hN r0 r1 t0 t1
  have hB := flat_pos (M := N * N) hN hA.1 hA.2.1 s0 s1
  rw [e, hB.2.2.1]
  exact ⟨hB.2.2.2, hA.2.2.2, hA.2.2.1⟩

theorem tet_count (hN : 0 < N) {r t s : Int} (r0 : 0 ≤ r) (r1 : r < N) (t0 : 0 ≤ t) (t1 : t < N) (s0 : 0 ≤ s) (s1 : s < N) :
    (faceList N N N).count (s + N * (t + N * r)) = (if r = 0 then 1 else 0) + ((if s = 0 then 1 else 0) + if t = 0 then 1 else 0) := by
  obtain ⟨es, et, er⟩ := tet_pos hN r0 r1 t0 t1 s0 s1
  have key : ∀ (l : List Int) (P : Prop) [Decidable P], l.Nodup → (s + N * (t + N * r) ∈ l ↔ P) → l.count (s + N * (t + N * r)) = if P then 1 else 0 := by
    intro l P _ nd h
    rw [List.Nodup.count nd]
    exact if_congr h rfl rfl
  have nd2 : ∀ (pos : Int → Int → Int), (∀ a b a' b', 0 ≤ a → a < N → 0 ≤ b → b < N → 0 ≤ a' → a' < N → 0 ≤ b' → b' < N → pos a b = pos a' b' → a = a' ∧ b = b') →
      ((rUp 0 N).flatMap fun a => (rUp 0 N).map (pos a)).Nodup := by
    intro pos inj
    have ndr : (rUp 0 N).Nodup := (pairwise_rUp 0 N).imp fun h => ne_of_lt h
    rw [List.nodup_flatMap]
    refine ⟨fun a ha => ?_, ?_⟩
    · refine (List.nodup_map_iff_inj_on ndr).2 fun b hb b' hb' e => ?_
      rw [mem_rUp] at ha hb hb'
      exact (inj a b a b' ha.1 ha.2 hb.1 hb.2 ha.1 ha.2 hb'.1 hb'.2 e).2
    · refine (List.Pairwise.and_mem.1 (pairwise_rUp 0 N)).imp fun {a a'} h => ?_
      obtain ⟨ha, ha', hlt⟩ := h
      rw [mem_rUp] at ha ha'
      intro x hx hx'
      obtain ⟨b, hb, rfl⟩ := List.mem_map.1 hx
      obtain ⟨b', hb', e⟩ := List.mem_map.1 hx'
      rw [mem_rUp] at hb hb'
      have := (inj a' b' a b ha'.1 ha'.2 hb'.1 hb'.2 ha.1 ha.2 hb.1 hb.2 e).1
      omega
  have three_inj : ∀ r t s r' t' s' : Int, 0 ≤ r → r < N → 0 ≤ t → t < N → 0 ≤ s → s < N → 0 ≤ r' → r' < N → 0 ≤ t' → t' < N → 0 ≤ s' → s' < N →
      s + N * (t + N * r) = s' + N * (t' + N * r') → s = s' ∧ t = t' ∧ r = r' := by
    intro r t s r' t' s' a1 a2 a3 a4 a5 a6 b1 b2 b3 b4 b5 b6 e
    have p := tet_pos hN a1 a2 a3 a4 a5 a6
    have q := tet_pos hN b1 b2 b3 b4 b5 b6
    rw [e] at p
    exact ⟨p.1.symm.trans q.1, p.2.1.symm.trans q.2.1, p.2.2.symm.trans q.2.2⟩
  unfold faceList
  rw [List.count_append, List.count_append]
  congr 1
  · refine key _ _ (nd2 (fun j i => i + j * N) fun a b a' b' a0 a1 b0 b1 a0' a1' b0' b1' e => ?_) ?_
    · have := three_inj 0 a b 0 a' b' le_rfl hN a0 a1 b0 b1 le_rfl hN a0' a1' b0' b1' (by linear_combination e)
      exact ⟨this.2.1, this.1⟩
    · simp only [List.mem_flatMap, List.mem_map, mem_rUp]
      constructor
      · rintro ⟨j, hj, i, hi, e⟩
        exact (three_inj 0 j i r t s le_rfl hN hj.1 hj.2 hi.1 hi.2 r0 r1 t0 t1 s0 s1 (by linear_combination e)).2.2.symm
      · rintro rfl
        exact ⟨t, ⟨t0, t1⟩, s, ⟨s0, s1⟩, by ring⟩
  · congr 1
    · refine key _ _ (nd2 (fun k j => (j + k * N) * N) fun a b a' b' a0 a1 b0 b1 a0' a1' b0' b1' e => ?_) ?_
      · have := three_inj a b 0 a' b' 0 a0 a1 b0 b1 le_rfl hN a0' a1' b0' b1' le_rfl hN (by linear_combination e)
        exact ⟨this.2.2, this.2.1⟩
      · simp only [List.mem_flatMap, List.mem_map, mem_rUp]
        constructor
        · rintro ⟨k, hk, j, hj, e⟩
          exact (three_inj k j 0 r t s hk.1 hk.2 hj.1 hj.2 le_rfl hN r0 r1 t0 t1 s0 s1 (by linear_combination e)).1.symm
        · rintro rfl
          exact ⟨r, ⟨r0, r1⟩, t, ⟨t0, t1⟩, by ring⟩
    · refine key _ _ (nd2 (fun k i => i + k * N * N) fun a b a' b' a0 a1 b0 b1 a0' a1' b0' b1' e => ?_) ?_
      · have := three_inj a 0 b a' 0 b' a0 a1 le_rfl hN b0 b1 a0' a1' le_rfl hN b0' b1' (by linear_combination e)
        exact ⟨this.2.2, this.1⟩
      · simp only [List.mem_flatMap, List.mem_map, mem_rUp]
        constructor
        · rintro ⟨k, hk, i, hi, e⟩
          exact (three_inj k 0 i r t s hk.1 hk.2 le_rfl hN hi.1 hi.2 r0 r1 t0 t1 s0 s1 (by linear_combination e)).2.1.symm
        · rintro rfl
          exact ⟨r, ⟨r0, r1⟩, s, ⟨s0, s1⟩, by ring⟩

theorem tet_at (hN : 0 < N) {r t s r' t' s' : Int} (r0 : 0 ≤ r) (r1 : r < N) (t0 : 0 ≤ t) (t1 : t < N) (s0 : 0 ≤ s) (s1 : s < N) (r0' : 0 ≤ r') (r1' : r' < N) (t0' : 0 ≤ t') (t1' : t' < N) (s0' : 0 ≤ s') (s1' : s' < N) :
    tetSeries N N N (s + N * (t + N * r)) (s' + N * (t' + N * r')) = cosine r' (grid N r) * (cosine t' (grid N t) * cosine s' (grid N s)) := by
  unfold tetSeries
  obtain ⟨a1, a2, a3⟩ := tet_pos hN r0 r1 t0 t1 s0 s1
  obtain ⟨b1, b2, b3⟩ := tet_pos hN r0' r1' t0' t1' s0' s1'
  rw [a1, a2, a3, b1, b2, b3]

theorem Maps3.applies {f : Buf ℝ → Option (Buf ℝ)} {v : (Int → Int → Int → ℝ) → Int → Int → Int → ℝ} (hN : 0 < N) (hf : Maps3 N N N f v) {Ψ : Int → Int → ℝ}
    (hv : ∀ a r t s, 0 ≤ r → r < N → 0 ≤ t → t < N → 0 ≤ s → s < N →
      v a r t s = ∑ r' ∈ Finset.Ico 0 N, ∑ t' ∈ Finset.Ico 0 N, ∑ s' ∈ Finset.Ico 0 N, Ψ (s + N * (t + N * r)) (s' + N * (t' + N * r')) * a r' t' s') :
    Applies (N * N * N) 0 (noWork f) Ψ := by
  intro X Y hX hY
  obtain ⟨X1, e1, h1, -⟩ := hf X (fun r t s => X.val (s + N * (t + N * r))) ⟨hX, fun r t s _ _ _ _ _ _ => rfl⟩
  refine ⟨X1, Y, by unfold noWork; rw [e1]; rfl, by have := h1.1; omega, fun p p0 p1 => ?_⟩
  obtain ⟨c0, c1, s0, s1, e⟩ := flat_split (M := N * N) hN p0 (by rw [← mul_assoc]; exact p1)
  obtain ⟨r0, r1, t0, t1, e'⟩ := flat_split hN c0 c1
  have := h1.2 _ _ _ r0 r1 t0 t1 s0 s1
  rw [hv _ _ _ _ r0 r1 t0 t1 s0 s1, show p % N + N * (p / N % N + N * (p / N / N)) = p by rw [mul_comm N (p / N / N), e', mul_comm N, e]] at this
  rw [this, mul_assoc, sum_flat hN (by positivity), sum_flat hN hN.le]
  refine Finset.sum_congr rfl fun r _ => Finset.sum_congr rfl fun t _ => Finset.sum_congr rfl fun s _ => ?_
  rw [show s + (t + r * N) * N = s + N * (t + N * r) by ring]

theorem tet_kernel (hN : 0 < N) :
    Applies (N * N * N) 0 (noWork (tetSynthesis 'N' (tetS N N N) N N N)) (tetSeries N N N) ∧
    Applies (N * N * N) 0 (noWork (tetSynthesis 'T' (tetA N N N) N N N)) (fun p q => tetSeries N N N q p) := by
  by_cases h1 : N = 1
  · subst h1
    constructor <;> refine one_kernel (fun X => ?_) (by norm_num) ?_
    · simp [tetSynthesis]
    · simp [tetSeries, cosine]
    · simp [tetSynthesis]
    · simp [tetSeries, cosine]
  obtain ⟨sN, -, sT, -⟩ := tet_maps (f := tetS N N N) (g := tetA N N N) hN hN hN ⟨by omega, by omega, by omega⟩ ⟨cos_pair hN, cos_pair hN, cos_pair hN⟩
  constructor
  · refine Maps3.applies hN sN fun a r t s r0 r1 t0 t1 s0 s1 => ?_
    unfold three tetS
    dsimp only
    rw [redft01_mat hN _ r r0 r1]
    refine sum_Ico_congr fun r' r0' r1' => ?_
    rw [redft01_mat hN _ t t0 t1, Finset.mul_sum]
    refine sum_Ico_congr fun t' t0' t1' => ?_
    rw [redft01_mat hN _ s s0 s1, Finset.mul_sum, Finset.mul_sum]
    refine sum_Ico_congr fun s' s0' s1' => ?_
    rw [tet_at hN r0 r1 t0 t1 s0 s1 r0' r1' t0' t1' s0' s1', tet_count hN r0' r1' t0' t1' s0' s1', pow_add, pow_add]
    have e1 := cosS_pow (N := N) (i := r) (j := r')
    have e2 := cosS_pow (N := N) (i := t) (j := t')
    have e3 := cosS_pow (N := N) (i := s) (j := s')
    rw [show ∀ a1 a2 a3 p1 p2 p3 x : ℝ, a1 * (a2 * (a3 * (x * (p1 * (p3 * p2)) * (1 / 8)))) = (a1 * p1) * (a2 * p2) * (a3 * p3) * x / 8 from fun _ _ _ _ _ _ _ => by ring, e1, e2, e3]
    ring
  · refine Maps3.applies (Ψ := fun p q => tetSeries N N N q p) hN sT fun a r t s r0 r1 t0 t1 s0 s1 => ?_
    unfold three tetA
    dsimp only
    rw [redft10_mat N _ r r0 r1, Finset.sum_mul]
    refine sum_Ico_congr fun r' r0' r1' => ?_
    rw [redft10_mat N _ t t0 t1, Finset.mul_sum, Finset.sum_mul]
    refine sum_Ico_congr fun t' t0' t1' => ?_
    rw [redft10_mat N _ s s0 s1, Finset.mul_sum, Finset.mul_sum, Finset.sum_mul]
    refine sum_Ico_congr fun s' s0' s1' => ?_
    rw [tet_at hN r0' r1' t0' t1' s0' s1' r0 r1 t0 t1 s0 s1]
    unfold cosine; ring

/-! ### Spin-weighted functions -/

theorem sum_swap (hM : M % 2 = 1) (g : Int → ℝ) : ∑ j ∈ Finset.Ico 0 M, g j = ∑ c ∈ Finset.Ico 0 M, g (swapTo M c) := by
  refine Finset.sum_nbij' (fun j => swapFrom M j) (fun c => swapTo M c) ?_ ?_ ?_ ?_ ?_
  · intro j hj; rw [Finset.mem_Ico] at hj ⊢; exact swapFrom_mem hM hj.1 hj.2
  · intro j hj; rw [Finset.mem_Ico] at hj ⊢; exact swapTo_mem hM hj.1 hj.2
  · intro j hj; rw [Finset.mem_Ico] at hj; exact swap_to_from hM hj.1 hj.2
  · intro j hj; rw [Finset.mem_Ico] at hj; exact swap_from_to hM hj.1 hj.2
  · intro j hj; rw [Finset.mem_Ico] at hj; rw [swap_to_from hM hj.1 hj.2]

theorem freq_angle (hM0 : 0 < M) (c k : Int) : ∃ n : Int, 2 * π * (swapTo M c : Int) * k / M = freq c * circ M k + n * (2 * π) := by
  have hM' : (M : ℝ) ≠ 0 := by exact_mod_cast hM0.ne'
  unfold swapTo freq circ
  split_ifs
  · exact ⟨0, by push_cast; ring⟩
  · exact ⟨k, by push_cast; field_simp; ring⟩

theorem cos_freq (hM0 : 0 < M) (c k : Int) : cos (2 * π * (swapTo M c : Int) * k / M) = cos (freq c * circ M k) := by
  obtain ⟨n, e⟩ := freq_angle hM0 c k
  rw [e, cos_add_int_mul_two_pi]

theorem sin_freq (hM0 : 0 < M) (c k : Int) : sin (2 * π * (swapTo M c : Int) * k / M) = sin (freq c * circ M k) := by
  obtain ⟨n, e⟩ := freq_angle hM0 c k
  rw [e, sin_add_int_mul_two_pi]

theorem sum_two {N : Int} (hN : 0 ≤ N) (g : Int → ℝ) : ∑ j ∈ Finset.Ico 0 (2 * N), g j = ∑ j ∈ Finset.Ico 0 N, (g (2 * j) + g (2 * j + 1)) := by
  rw [sum_flat (by norm_num) hN]
  refine Finset.sum_congr rfl fun j _ => ?_
  rw [show Finset.Ico (0 : Int) 2 = {0, 1} from rfl, Finset.sum_pair (by decide)]
  congr 2 <;> ring

/-- The function of colatitude in column `c`. -/
noncomputable def spinPol (S N c j i : Int) : ℝ := if (order c + S) % 2 = 0 then cosine j (grid N i) else sine N j (grid N i)

theorem spin_at (hN : 0 < N) {S c j k i b b' : Int} (c0 : 0 ≤ c) (c1 : c < M) (j0 : 0 ≤ j) (j1 : j < N) (k0 : 0 ≤ k) (k1 : k < M) (i0 : 0 ≤ i) (i1 : i < N)
    (hb : b = 0 ∨ b = 1) (hb' : b' = 0 ∨ b' = 1) :
    spinSeries S N M (2 * i + b + k * (2 * N)) (2 * j + b' + c * (2 * N)) = turn (freq c * circ M k) b b' / √(2 * π) * spinPol S N c j i := by
  unfold spinSeries spinPol
  have h1 := flat_pos (N := 2 * N) (i := 2 * j + b') (by omega) c0 c1 (by omega) (by omega)
  have h2 := flat_pos (N := 2 * N) (i := 2 * i + b) (by omega) k0 k1 (by omega) (by omega)
  dsimp only
  rw [h1.2.2.1, h1.2.2.2, h2.2.2.1, h2.2.2.2, show (2 * i + b + k * (2 * N)) % 2 = b by rw [show 2 * i + b + k * (2 * N) = b + (i + k * N) * 2 by ring, Int.add_mul_emod_self_right]; omega,
    show (2 * j + b' + c * (2 * N)) % 2 = b' by rw [show 2 * j + b' + c * (2 * N) = b' + (j + c * N) * 2 by ring, Int.add_mul_emod_self_right]; omega,
    show (2 * i + b) / 2 = i by omega, show (2 * j + b') / 2 = j by omega]

theorem MapsS.applies {f : Buf ℝ → Buf ℝ → Option (Buf ℝ × Buf ℝ)} {v : (Int → Int → ℝ) → Int → Int → ℝ} (hN : 0 < N) (hM : 0 ≤ M) (hf : MapsS N M f v) {Ψ : Int → Int → ℝ}
    (hv : ∀ a k i b, 0 ≤ k → k < M → 0 ≤ i → i < N → b = 0 ∨ b = 1 → v a k (2 * i + b) =
      ∑ c ∈ Finset.Ico 0 M, ∑ j ∈ Finset.Ico 0 N, (Ψ (2 * i + b + k * (2 * N)) (2 * j + 0 + c * (2 * N)) * a c (2 * j) + Ψ (2 * i + b + k * (2 * N)) (2 * j + 1 + c * (2 * N)) * a c (2 * j + 1))) :
    Applies (2 * N * M) (2 * N * M) f Ψ := by
  refine applies_of (N := 2 * N) (by omega) hM (fun X Y a hX hY => by obtain ⟨X', Y', e, h, -⟩ := hf X Y a hX hY; exact ⟨X', Y', e, h⟩) fun a k i k0 k1 i0 i1 => ?_
  have := hv a k (i / 2) (i % 2) k0 k1 (by omega) (by omega) (by omega)
  rw [show 2 * (i / 2) + i % 2 = i by omega] at this
  rw [this]
  refine Finset.sum_congr rfl fun c _ => ?_
  rw [sum_two hN.le]
  refine Finset.sum_congr rfl fun j _ => ?_
  rw [add_zero]

theorem out_spin {f : Buf ℝ → Buf ℝ → Option (Buf ℝ × Buf ℝ)} {S : Int} {μ : Int → Int → ℝ} {F : Int → Line ℝ} {A : Int → Int → Int → ℝ} (hN : 0 < N) (hM0 : 0 < M) (hM : M % 2 = 1)
    (hf : MapsS N M f (outS M (fun c i => μ c (i / 2)) consts.r12 (fun c => cplx (F c)) (dft 1 M))) (hF : ∀ c, MatOf N (A c) (F c))
    (hp : ∀ c j i, 0 ≤ c → A c i j * μ c j = 2 * spinPol S N c j i) :
    Applies (2 * N * M) (2 * N * M) f (spinSeries S N M) := by
  refine MapsS.applies hN hM0.le hf fun a k i b k0 k1 i0 i1 hb => ?_
  have col : ∀ c b, 0 ≤ c → (b = 0 ∨ b = 1) → scaleG (fun _ _ => consts.r12) (colG (fun c => cplx (F c)) (scaleG (fun c i => μ c (i / 2)) a)) c (2 * i + b) =
      ∑ j ∈ Finset.Ico 0 N, spinPol S N c j i / √(2 * π) * a c (2 * j + b) := by
    intro c b c0 hb
    unfold scaleG colG cplx
    dsimp only
    rw [show (2 * i + b) / 2 = i by omega, show (2 * i + b) % 2 = b by omega, hF c _ i i0 i1, Finset.sum_mul]
    refine Finset.sum_congr rfl fun j _ => ?_
    rw [show (2 * j + b) / 2 = j by omega]
    have := hp c j i c0
    have h2 := sqrt_two_pi_ne
    unfold consts
    dsimp only
    field_simp
    linear_combination (a c (2 * j + b)) * this
  unfold outS ofRows dft
  rw [show (2 * i + b) / 2 = i by omega, show (2 * i + b) % 2 = b by omega]
  dsimp only
  have row : ∀ c, 0 ≤ c → c < M → rowOf (fun c i => scaleG (fun _ _ => consts.r12) (colG (fun c => cplx (F c)) (scaleG (fun c i => μ c (i / 2)) a)) (swapFrom M c) i) i (swapTo M c) =
      (∑ j ∈ Finset.Ico 0 N, spinPol S N c j i / √(2 * π) * a c (2 * j + 0), ∑ j ∈ Finset.Ico 0 N, spinPol S N c j i / √(2 * π) * a c (2 * j + 1)) := by
    intro c c0 c1
    unfold rowOf
    dsimp only
    rw [swap_from_to hM c0 c1, ← col c 1 c0 (Or.inr rfl), ← col c 0 c0 (Or.inl rfl), add_zero]
  obtain rfl | rfl := hb
  · rw [if_pos rfl, sum_swap hM]
    refine sum_Ico_congr fun c c0 c1 => ?_
    rw [row c c0 c1, cos_freq hM0, sin_freq hM0, Finset.sum_mul, Finset.sum_mul, Finset.mul_sum, ← Finset.sum_sub_distrib]
    refine sum_Ico_congr fun j j0 j1 => ?_
    rw [spin_at hN c0 c1 j0 j1 k0 k1 i0 i1 (Or.inl rfl) (Or.inl rfl), spin_at hN c0 c1 j0 j1 k0 k1 i0 i1 (Or.inl rfl) (Or.inr rfl)]
    unfold turn
    rw [if_pos rfl, if_neg (by decide), if_neg (by decide), add_zero]
    ring
  · rw [if_neg (by decide), sum_swap hM]
    refine sum_Ico_congr fun c c0 c1 => ?_
    rw [row c c0 c1, cos_freq hM0, sin_freq hM0, Finset.sum_mul, Finset.sum_mul, Finset.mul_sum, ← Finset.sum_add_distrib]
    refine sum_Ico_congr fun j j0 j1 => ?_
    rw [spin_at hN c0 c1 j0 j1 k0 k1 i0 i1 (Or.inr rfl) (Or.inl rfl), spin_at hN c0 c1 j0 j1 k0 k1 i0 i1 (Or.inr rfl) (Or.inr rfl)]
    unfold turn
    rw [if_neg (by decide), if_pos rfl, if_pos rfl, add_zero]
    ring

theorem in_spin {f : Buf ℝ → Buf ℝ → Option (Buf ℝ × Buf ℝ)} {S : Int} {μ : Int → Int → ℝ} {F : Int → Line ℝ} {A : Int → Int → Int → ℝ} (hN : 0 < N) (hM0 : 0 < M)
    (hf : MapsS N M f (inS M (fun c i => μ c (i / 2)) consts.r12 (fun c => cplx (F c)) (dft (-1) M))) (hF : ∀ c, MatOf N (A c) (F c))
    (hp : ∀ c j i, 0 ≤ c → A c j i * μ c j = 2 * spinPol S N c j i) :
    Applies (2 * N * M) (2 * N * M) f (fun p q => spinSeries S N M q p) := by
  refine MapsS.applies (Ψ := fun p q => spinSeries S N M q p) hN hM0.le hf fun a c j b c0 c1 j0 j1 hb => ?_
  have h2 := sqrt_two_pi_ne
  rw [Finset.sum_comm]
  unfold inS scaleG colG cplx
  dsimp only
  rw [show (2 * j + b) / 2 = j by omega, show (2 * j + b) % 2 = b by omega, hF c _ j j0 j1, Finset.sum_mul]
  refine sum_Ico_congr fun i i0 i1 => ?_
  have e := hp c j i c0
  unfold ofRows dft rowOf
  rw [show (2 * i + b) / 2 = i by omega, show (2 * i + b) % 2 = b by omega]
  dsimp only
  obtain rfl | rfl := hb
  · rw [if_pos rfl, Finset.sum_mul, Finset.mul_sum, Finset.sum_mul]
    refine sum_Ico_congr fun k k0 k1 => ?_
    rw [show 2 * π * (k : ℝ) * (swapTo M c : Int) / M = 2 * π * (swapTo M c : Int) * k / M by ring, cos_freq hM0, sin_freq hM0]
    rw [spin_at hN c0 c1 j0 j1 k0 k1 i0 i1 (Or.inl rfl) (Or.inl rfl), spin_at hN c0 c1 j0 j1 k0 k1 i0 i1 (Or.inr rfl) (Or.inl rfl)]
    unfold turn consts
    rw [if_pos rfl, if_neg (by decide), if_pos rfl]
    dsimp only
    field_simp
    linear_combination (a k (2 * i) * cos (freq c * circ M k) + a k (2 * i + 1) * sin (freq c * circ M k)) * e
  · rw [if_neg (by decide), Finset.sum_mul, Finset.mul_sum, Finset.sum_mul]
    refine sum_Ico_congr fun k k0 k1 => ?_
    rw [show 2 * π * (k : ℝ) * (swapTo M c : Int) / M = 2 * π * (swapTo M c : Int) * k / M by ring, cos_freq hM0, sin_freq hM0]
    rw [spin_at hN c0 c1 j0 j1 k0 k1 i0 i1 (Or.inl rfl) (Or.inr rfl), spin_at hN c0 c1 j0 j1 k0 k1 i0 i1 (Or.inr rfl) (Or.inr rfl)]
    unfold turn consts
    rw [if_neg (by decide), if_neg (by decide), if_pos rfl]
    dsimp only
    field_simp
    linear_combination (a k (2 * i + 1) * cos (freq c * circ M k) - a k (2 * i) * sin (freq c * circ M k)) * e

theorem spin_kernel (hN : 0 < N) (hM0 : 0 < M) (hM : M % 2 = 1) (S : Int) :
    Applies (2 * N * M) (2 * N * M) (spinSynthesis 'N' consts (spinS S N M) u N M) (spinSeries S N M) ∧
    Applies (2 * N * M) (2 * N * M) (spinSynthesis 'C' consts (spinA S N M) u' N M) (fun p q => spinSeries S N M q p) := by
  obtain ⟨sN, -, sT, -⟩ := spin_maps (C := consts) (u := u) (u' := u') hN hM0 hM (spin_pair hN hM0 hM S)
  by_cases hS : S % 2 = 0
  · have eS : spinS S N M = ⟨S, redft01 N, rodft01 N, dft 1 M⟩ := if_pos hS
    have eA : spinA S N M = ⟨S, redft10 N, rodft10 N, dft (-1) M⟩ := if_pos hS
    rw [eS] at sN sT ⊢
    rw [eA] at sT ⊢
    constructor
    · refine out_spin hN hM0 hM sN (mat_ite (redft01_mat hN) (rodft01_mat hN)) fun c j i c0 => ?_
      unfold markCols spinPol
      obtain ⟨h1, h2⟩ | ⟨h1, h2⟩ := evenCol_cases c
      · simp only [h1, show (order c + S) % 2 = 0 by omega, hS, decide_true, true_and, if_true]; exact cosS_mat
      · simp only [h1, show ¬ (order c + S) % 2 = 0 by omega, hS, decide_true, if_false, Bool.false_eq_true, false_and, mul_one]; exact sinS_mat
    · refine in_spin hN hM0 sT (mat_ite (redft10_mat N) (rodft10_mat N)) fun c j i c0 => ?_
      unfold markCols spinPol
      obtain ⟨h1, h2⟩ | ⟨h1, h2⟩ := evenCol_cases c
      · simp only [h1, show (order c + S) % 2 = 0 by omega, hS, ne_eq, not_true_eq_false, decide_false, Bool.true_eq_false, if_true, false_and, if_false, mul_one]; rfl
      · simp only [h1, show ¬ (order c + S) % 2 = 0 by omega, hS, ne_eq, not_true_eq_false, decide_false, if_false, Bool.false_eq_true, true_and]; exact sinA_mat
  · have eS : spinS S N M = ⟨S, rodft01 N, redft01 N, dft 1 M⟩ := if_neg hS
    have eA : spinA S N M = ⟨S, rodft10 N, redft10 N, dft (-1) M⟩ := if_neg hS
    rw [eS] at sN sT ⊢
    rw [eA] at sT ⊢
    constructor
    · refine out_spin hN hM0 hM sN (mat_ite (rodft01_mat hN) (redft01_mat hN)) fun c j i c0 => ?_
      unfold markCols spinPol
      obtain ⟨h1, h2⟩ | ⟨h1, h2⟩ := evenCol_cases c
      · simp only [h1, show ¬ (order c + S) % 2 = 0 by omega, hS, decide_false, Bool.true_eq_false, if_true, false_and, if_false, mul_one]; exact sinS_mat
      · simp only [h1, show (order c + S) % 2 = 0 by omega, hS, decide_false, if_false, Bool.false_eq_true, true_and, if_true]; exact cosS_mat
    · refine in_spin hN hM0 sT (mat_ite (rodft10_mat N) (redft10_mat N)) fun c j i c0 => ?_
      unfold markCols spinPol
      obtain ⟨h1, h2⟩ | ⟨h1, h2⟩ := evenCol_cases c
      · simp only [h1, show ¬ (order c + S) % 2 = 0 by omega, hS, ne_eq, not_false_eq_true, decide_true, if_true, true_and, if_false]; exact sinA_mat
      · simp only [h1, show (order c + S) % 2 = 0 by omega, hS, ne_eq, not_false_eq_true, decide_true, if_false, Bool.false_eq_true, false_and, if_true, mul_one]; rfl

/-! ## C57 -/

/-- **C57, sphere.** The entry in row `i` of column `k` becomes the value of the series at colatitude
`π (i + 1/2) / N` and longitude `2 π k / M`. -/
theorem C57_sphere (hN : 0 < N) (hM0 : 0 < M) (hM : M % 2 = 1) :
    Applies (N * M) (2 * (N * (M / 2 + 1))) (sphSynthesis 'N' consts (sphS N M) u N M) (sphSeries N M) := (sph_kernel (u' := u) hN hM0 hM).1

/-- **C57, vector fields on the sphere.** -/
theorem C57_sphere_vector (hN : 0 < N) (hM0 : 0 < M) (hM : M % 2 = 1) :
    Applies (N * M) (2 * (N * (M / 2 + 1))) (sphvSynthesis 'N' consts (sphvS N M) u N M) (sphvSeries N M) := (sphv_kernel (u' := u) hN hM0 hM).1

/-- **C57, disk.** -/
theorem C57_disk (hN : 0 < N) (hM0 : 0 < M) (hM : M % 2 = 1) :
    Applies (N * M) (2 * (N * (M / 2 + 1))) (diskSynthesis 'N' consts (diskS N M) u N M) (diskSeries N M) := (disk_kernel (u' := u) hN hM0 hM).1

/-- **C57, annulus.** -/
theorem C57_annulus (hN : 0 < N) (hM0 : 0 < M) (hM : M % 2 = 1) {rho : ℝ} (hr : rho ^ 2 < 1) :
    Applies (N * M) (2 * (N * (M / 2 + 1))) (annSynthesis 'N' consts (annS rho N M) u N M) (annSeries rho N M) := (ann_kernel (u' := u) hN hM0 hM hr).1

/-- **C57, disk in Cartesian coordinates.** -/
theorem C57_rectdisk (hN : 0 < N) (hM0 : 0 < M) :
    Applies (N * M) 0 (noWork (rectSynthesis 'N' (rectS N M) N M)) (rectSeries N M) := (rect_kernel hN hM0).1

/-- **C57, triangle,** for square arrays only: see `C57_triangle_defect`. -/
theorem C57_triangle_partial (hN : 0 < N) : Applies (N * N) 0 (noWork (triSynthesis 'N' (triS N N) N N)) (triSeries N N) := (tri_kernel hN).1

/-- **C57, tetrahedron,** for cubic arrays only. -/
theorem C57_tetrahedron_partial (hN : 0 < N) : Applies (N * N * N) 0 (noWork (tetSynthesis 'N' (tetS N N N) N N N)) (tetSeries N N N) := (tet_kernel hN).1

/-- **C57, functions of spin `S` on the sphere.** -/
theorem C57_spin_sphere (hN : 0 < N) (hM0 : 0 < M) (hM : M % 2 = 1) (S : Int) :
    Applies (2 * N * M) (2 * N * M) (spinSynthesis 'N' consts (spinS S N M) u N M) (spinSeries S N M) := (spin_kernel (u' := u) hN hM0 hM S).1

/-- On an array of three columns of length two the synthesis on the triangle does not evaluate the series: the
plan of src/fftw.c L284 gives the sizes to the library in the order for row-major arrays, while the scaling of
L292-311 takes the columns to have length `N`.  The array given here stands for `cos ψ`; the synthesis returns
`-1` where the value is `cos(π/6)`. -/
theorem C57_triangle_defect : ¬ Applies (2 * 3) 0 (noWork (triSynthesis 'N' (triS 2 3) 2 3)) (triSeries 2 3) := by
  intro h
  obtain ⟨sN, -⟩ := tri_maps (N := 2) (M := 3) (f := triS 2 3) (g := triA 2 3) (by norm_num) (by norm_num) ⟨by norm_num, by norm_num⟩ (cos_pair (by norm_num)) (cos_pair (by norm_num))
  obtain ⟨X1, Y1, e1, -, h1⟩ := h ⟨6, fun p => if p = 2 then 1 else 0⟩ ⟨0, fun _ => 0⟩ (by norm_num) (by norm_num)
  obtain ⟨X2, e2, h2, -⟩ := sN ⟨6, fun p => if p = 2 then 1 else 0⟩ (fun c i => if i + c * 3 = 2 then 1 else 0) ⟨by norm_num, fun c i _ _ _ _ => rfl⟩
  unfold noWork at e1
  rw [e2, Option.map_some, Option.some.injEq, Prod.mk.injEq] at e1
  obtain ⟨rfl, -⟩ := e1
  have a := h1 1 (by norm_num) (by norm_num)
  have b := h2.2 0 1 (by norm_num) (by norm_num) (by norm_num) (by norm_num)
  rw [show (1 : Int) + 0 * 3 = 1 by norm_num, a] at b
  unfold both triS at b
  dsimp only at b
  rw [redft01_mat (by norm_num) _ 0 (by norm_num) (by norm_num), show Finset.Ico (0 : Int) (2 * 3) = {0, 1, 2, 3, 4, 5} from rfl, show Finset.Ico (0 : Int) 2 = {0, 1} from rfl, Finset.sum_pair (by decide),
    redft01_mat (by norm_num) _ 1 (by norm_num) (by norm_num), redft01_mat (by norm_num) _ 1 (by norm_num) (by norm_num), show Finset.Ico (0 : Int) 3 = {0, 1, 2} from rfl] at b
  rw [show (sideList 2 3) = [0, 1, 0, 2, 4] from rfl] at b
  simp [triSeries, cosine, grid] at b
  rw [show 2 * (π * (1 + 2⁻¹) / 3) = π by ring, cos_pi, show π * 2⁻¹ / 3 = π / 6 by ring, cos_pi_div_six] at b
  have := Real.sqrt_nonneg 3
  linarith

/-! ## C58 -/

theorem undone_adj {f g f' g' : Buf ℝ → Buf ℝ → Option (Buf ℝ × Buf ℝ)} (h : Adjoint (N * M) (2 * (N * (M / 2 + 1))) f g) (hf : Undone N M f' f) (hg : Undone N M g' g) :
    Adjoint (N * M) (2 * (N * (M / 2 + 1))) f' g' := adjoint_inv h hf hg

theorem undone1_adj {f g f' g' : Buf ℝ → Option (Buf ℝ)} {n : Int} (h : Adjoint n 0 (noWork f) (noWork g)) (hf : ∀ X : Buf ℝ, (X.size : Int) = n → ∃ X1, f' X = some X1 ∧ f X1 = some X ∧ X1.size = X.size)
    (hg : ∀ X : Buf ℝ, (X.size : Int) = n → ∃ X1, g' X = some X1 ∧ g X1 = some X ∧ X1.size = X.size) : Adjoint n 0 (noWork f') (noWork g') := by
  refine adjoint_inv h (fun X Y Y' hX _ _ => ?_) (fun X Y Y' hX _ _ => ?_)
  · obtain ⟨X1, e1, e2, s⟩ := hf X hX
    exact ⟨X1, Y, Y', by unfold noWork; rw [e1]; rfl, by unfold noWork; rw [e2]; rfl, s⟩
  · obtain ⟨X1, e1, e2, s⟩ := hg X hX
    exact ⟨X1, Y, Y', by unfold noWork; rw [e1]; rfl, by unfold noWork; rw [e2]; rfl, s⟩

/-- **C58, sphere:** with `'T'`, synthesis and analysis are the transposes of what they are with `'N'`. -/
theorem C58_sphere (hN : 0 < N) (hM0 : 0 < M) (hM : M % 2 = 1) :
    Adjoint (N * M) (2 * (N * (M / 2 + 1))) (sphSynthesis 'N' consts (sphS N M) u N M) (sphSynthesis 'T' consts (sphA N M) u' N M) ∧
    Adjoint (N * M) (2 * (N * (M / 2 + 1))) (sphAnalysis 'N' consts (sphA N M) u' N M) (sphAnalysis 'T' consts (sphS N M) u N M) := by
  have h := adjoint_of_matrix (sph_kernel (u := u) (u' := u') hN hM0 hM).1 (sph_kernel (u := u) (u' := u') hN hM0 hM).2
  have c := C41_sphere (u := u) (u' := u') hN hM0 hM consts_ok (sph_pair hN hM0 hM)
  exact ⟨h, undone_adj h c.2.1 c.2.2.2⟩

/-- **C58, vector fields on the sphere.** -/
theorem C58_sphere_vector (hN : 0 < N) (hM0 : 0 < M) (hM : M % 2 = 1) :
    Adjoint (N * M) (2 * (N * (M / 2 + 1))) (sphvSynthesis 'N' consts (sphvS N M) u N M) (sphvSynthesis 'T' consts (sphvA N M) u' N M) ∧
    Adjoint (N * M) (2 * (N * (M / 2 + 1))) (sphvAnalysis 'N' consts (sphvA N M) u' N M) (sphvAnalysis 'T' consts (sphvS N M) u N M) := by
  have h := adjoint_of_matrix (sphv_kernel (u := u) (u' := u') hN hM0 hM).1 (sphv_kernel (u := u) (u' := u') hN hM0 hM).2
  have c := C41_sphere_vector (u := u) (u' := u') hN hM0 hM consts_ok (sphv_pair hN hM0 hM)
  exact ⟨h, undone_adj h c.2.1 c.2.2.2⟩

/-- **C58, disk.** -/
theorem C58_disk (hN : 0 < N) (hM0 : 0 < M) (hM : M % 2 = 1) :
    Adjoint (N * M) (2 * (N * (M / 2 + 1))) (diskSynthesis 'N' consts (diskS N M) u N M) (diskSynthesis 'T' consts (diskA N M) u' N M) ∧
    Adjoint (N * M) (2 * (N * (M / 2 + 1))) (diskAnalysis 'N' consts (diskA N M) u' N M) (diskAnalysis 'T' consts (diskS N M) u N M) := by
  have h := adjoint_of_matrix (disk_kernel (u := u) (u' := u') hN hM0 hM).1 (disk_kernel (u := u) (u' := u') hN hM0 hM).2
  have c := C41_disk (u := u) (u' := u') hN hM0 hM consts_ok (disk_pair hN hM0 hM)
  exact ⟨h, undone_adj h c.2.1 c.2.2.2⟩

/-- **C58, annulus.** -/
theorem C58_annulus (hN : 0 < N) (hM0 : 0 < M) (hM : M % 2 = 1) {rho : ℝ} (hr : rho ^ 2 < 1) :
    Adjoint (N * M) (2 * (N * (M / 2 + 1))) (annSynthesis 'N' consts (annS rho N M) u N M) (annSynthesis 'T' consts (annA rho N M) u' N M) ∧
    Adjoint (N * M) (2 * (N * (M / 2 + 1))) (annAnalysis 'N' consts (annA rho N M) u' N M) (annAnalysis 'T' consts (annS rho N M) u N M) := by
  have h := adjoint_of_matrix (ann_kernel (u := u) (u' := u') hN hM0 hM hr).1 (ann_kernel (u := u) (u' := u') hN hM0 hM hr).2
  have c := C41_annulus (u := u) (u' := u') hN hM0 hM consts_ok (ann_pair hN hM0 hM hr)
  exact ⟨h, undone_adj h c.2.1 c.2.2.2⟩

/-- **C58, disk in Cartesian coordinates.** -/
theorem C58_rectdisk (hN : 0 < N) (hM0 : 0 < M) :
    Adjoint (N * M) 0 (noWork (rectSynthesis 'N' (rectS N M) N M)) (noWork (rectSynthesis 'T' (rectA N M) N M)) ∧
    Adjoint (N * M) 0 (noWork (rectAnalysis 'N' (rectA N M) N M)) (noWork (rectAnalysis 'T' (rectS N M) N M)) := by
  have h := adjoint_of_matrix (rect_kernel (N := N) (M := M) hN hM0).1 (rect_kernel hN hM0).2
  have c := C41_rectdisk (S := rectS N M) (A := rectA N M) hN hM0 ⟨(redft_pair hN).1, (redft_pair hN).2, (rodft_pair hN).1, (rodft_pair hN).2, (redft_pair hM0).1, (redft_pair hM0).2⟩
  exact ⟨h, undone1_adj h c.2.1 c.2.2.2⟩

/-- **C58, triangle,** for square arrays only. -/
theorem C58_triangle_partial (hN : 0 < N) :
    Adjoint (N * N) 0 (noWork (triSynthesis 'N' (triS N N) N N)) (noWork (triSynthesis 'T' (triA N N) N N)) ∧
    Adjoint (N * N) 0 (noWork (triAnalysis 'N' (triA N N) N N)) (noWork (triAnalysis 'T' (triS N N) N N)) := by
  have h := adjoint_of_matrix (tri_kernel hN).1 (tri_kernel hN).2
  have c := C41_triangle (f := triS N N) (g := triA N N) hN hN (cos_pair hN) (cos_pair hN)
  exact ⟨h, undone1_adj h c.2.1 c.2.2.2⟩

/-- **C58, tetrahedron,** for cubic arrays only. -/
theorem C58_tetrahedron_partial (hN : 0 < N) :
    Adjoint (N * N * N) 0 (noWork (tetSynthesis 'N' (tetS N N N) N N N)) (noWork (tetSynthesis 'T' (tetA N N N) N N N)) ∧
    Adjoint (N * N * N) 0 (noWork (tetAnalysis 'N' (tetA N N N) N N N)) (noWork (tetAnalysis 'T' (tetS N N N) N N N)) := by
  have h := adjoint_of_matrix (tet_kernel hN).1 (tet_kernel hN).2
  have c := C41_tetrahedron (f := tetS N N N) (g := tetA N N N) hN hN hN ⟨cos_pair hN, cos_pair hN, cos_pair hN⟩
  exact ⟨h, undone1_adj h c.2.1 c.2.2.2⟩

/-- **C58, functions of spin `S` on the sphere:** with `'C'`, synthesis and analysis are the conjugate transposes
of what they are with `'N'`. -/
theorem C58_spin_sphere (hN : 0 < N) (hM0 : 0 < M) (hM : M % 2 = 1) (S : Int) :
    Adjoint (2 * N * M) (2 * N * M) (spinSynthesis 'N' consts (spinS S N M) u N M) (spinSynthesis 'C' consts (spinA S N M) u' N M) ∧
    Adjoint (2 * N * M) (2 * N * M) (spinAnalysis 'N' consts (spinA S N M) u' N M) (spinAnalysis 'C' consts (spinS S N M) u N M) := by
  have h := adjoint_of_matrix (spin_kernel (u := u) (u' := u') hN hM0 hM S).1 (spin_kernel (u := u) (u' := u') hN hM0 hM S).2
  have c := C41_spin_sphere (u := u) (u' := u') hN hM0 hM consts_ok (spin_pair hN hM0 hM S)
  exact ⟨h, adjoint_inv h c.2.1 c.2.2.2⟩

/-- With `'T'`, as test/test_fftw.c L503-506 calls them, the functions for the sphere with spin do nothing, so
that they are not the transposes of the functions with `'N'`. -/
theorem C58_spin_sphere_defect :
    (∀ (P : SpinPlan ℝ) (X Y : Buf ℝ), spinSynthesis 'T' consts P u N M X Y = some (X, Y) ∧ spinAnalysis 'T' consts P u N M X Y = some (X, Y)) ∧
    ¬ Adjoint (2 * 1 * 1) (2 * 1 * 1) (spinSynthesis 'N' consts (spinS 0 1 1) u 1 1) (spinSynthesis 'T' consts (spinA 0 1 1) u' 1 1) := by
  have idT : ∀ (N M : Int) (u : Int → ℝ) (P : SpinPlan ℝ) (X Y : Buf ℝ), spinSynthesis 'T' consts P u N M X Y = some (X, Y) := fun N M u P X Y => rfl
  refine ⟨fun P X Y => ⟨rfl, rfl⟩, fun h => ?_⟩
  obtain ⟨X1, Y1, Z1, Y2, e1, e2, e⟩ := h ⟨2, fun p => if p = 0 then 1 else 0⟩ ⟨2, fun p => if p = 0 then 1 else 0⟩ ⟨2, fun _ => 0⟩ ⟨2, fun _ => 0⟩ (by norm_num) (by norm_num) (by norm_num) (by norm_num)
  rw [idT, Option.some.injEq, Prod.mk.injEq] at e2
  obtain ⟨rfl, -⟩ := e2
  obtain ⟨X2, Y3, e3, -, h3⟩ := C57_spin_sphere (u := u) (N := 1) (M := 1) (by norm_num) (by norm_num) (by norm_num) 0 ⟨2, fun p => if p = 0 then 1 else 0⟩ ⟨2, fun _ => 0⟩ (by norm_num) (by norm_num)
  rw [e3, Option.some.injEq, Prod.mk.injEq] at e1
  obtain ⟨rfl, -⟩ := e1
  have a := h3 0 (by norm_num) (by norm_num)
  rw [show Finset.Ico (0 : Int) (2 * 1 * 1) = {0, 1} from rfl, Finset.sum_pair (by decide)] at a
  rw [show Finset.Ico (0 : Int) (2 * 1 * 1) = {0, 1} from rfl, Finset.sum_pair (by decide), Finset.sum_pair (by decide)] at e
  simp [spinSeries, turn, freq, cosine, order] at a e
  rw [a] at e
  have h1 : 1 < √π := Real.lt_sqrt_of_sq_lt (by have := two_le_pi; linarith)
  have h2 : 1 < √2 := Real.lt_sqrt_of_sq_lt (by norm_num)
  rw [← mul_inv, inv_eq_one] at e
  nlinarith

example (u : Int → ℝ) := C57_sphere (N := 6) (M := 11) (u := u) (by norm_num) (by norm_num) (by norm_num)
example (u : Int → ℝ) := C57_sphere_vector (N := 6) (M := 11) (u := u) (by norm_num) (by norm_num) (by norm_num)
example (u : Int → ℝ) := C57_disk (N := 6) (M := 21) (u := u) (by norm_num) (by norm_num) (by norm_num)
example (u : Int → ℝ) := C57_annulus (N := 6) (M := 21) (u := u) (by norm_num) (by norm_num) (by norm_num) (rho := 2 / 3) (by norm_num)
example := C57_rectdisk (N := 6) (M := 8) (by norm_num) (by norm_num)
example := C57_triangle_partial (N := 6) (by norm_num)
example := C57_tetrahedron_partial (N := 6) (by norm_num)
example (u : Int → ℝ) := C57_spin_sphere (N := 6) (M := 11) (u := u) (by norm_num) (by norm_num) (by norm_num) (-1)
example (u u' : Int → ℝ) := C58_sphere (N := 6) (M := 11) (u := u) (u' := u') (by norm_num) (by norm_num) (by norm_num)
example (u u' : Int → ℝ) := C58_annulus (N := 6) (M := 11) (u := u) (u' := u') (by norm_num) (by norm_num) (by norm_num) (rho := 2 / 3) (by norm_num)
example := C58_triangle_partial (N := 6) (by norm_num)
example (u u' : Int → ℝ) := C58_spin_sphere (N := 6) (M := 11) (u := u) (u' := u') (by norm_num) (by norm_num) (by norm_num) 3

/-- The series on the sphere is not degenerate: the coefficient in row 1 of column 0 contributes `cos θ / √(2π)`. -/
example : sphSeries 2 3 1 1 = cos (grid 2 1) / √(2 * π) := by
  unfold sphSeries fourier order cosine
  norm_num
  ring

end FT.Props
