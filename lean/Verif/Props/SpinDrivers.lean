import Verif.Props.SpinFunctions
import Verif.Lemmas.SpinDrivers

/-!
# Property C77: the drivers for the spin-weighted sphere
-/

namespace FT.Props.Fun
open FT FT.Poly FT.Props.Ops Polynomial
variable {K : Type*} [Field K] [LinearOrder K] [IsStrictOrderedRing K] {F : Libm K}

/-- The columns `0, 1, 2, 3, 4, …` hold the orders `0, -1, 1, -2, 2, …`. -/
def spinOrd (c : Int) : Int := if c % 2 = 0 then c / 2 else -((c + 1) / 2)

/-- `ft_execute_spinsph_hi2lo` and `ft_execute_spinsph_lo2hi` end, whatever the instruction set, the number of threads and their schedule, with the same array, which has the same
size; if no column has more coefficients of spin `P.s` than its order allows (before `hi2lo`, after `lo2hi`), the array before and the array after are coefficients of the same functions, one in the
functions of spin `P.s` and the order of the column, one in the associated Legendre functions of order 0 or 1. -/
def SpinDriversConvert (F : Libm K) (P : SpinPlan K) : Prop :=
  ∀ M : Int, M % 2 = 1 → 3 ≤ M → ∀ A : Buf K, 2 * P.n * M ≤ A.size →
    (∃ A', (∀ x : SpinChoice K, x.OK (2 * P.n * M) → RunSpin x true P M A A' ∧ ∀ A'', RunSpin x true P M A A'' → A'' = A') ∧ A'.size = A.size ∧
      ∀ c, 0 ≤ c → c < M → ShortC P.n (P.n * c) 1 (P.n - max |spinOrd c| |P.s|) A → ShortC P.n (P.n * c) 1 (P.n - spinPar P.s (spinOrd c)) A' ∧
        ∀ p : K × K, p.2 ^ 2 = 1 - p.1 ^ 2 → ∀ b, b = 0 ∨ b = 1 →
          ∑ i ∈ Finset.Ico 0 P.n, A'.val (2 * (P.n * c + i * 1) + b) * sphFun F p (spinPar P.s (spinOrd c)) i =
            ∑ i ∈ Finset.Ico 0 P.n, A.val (2 * (P.n * c + i * 1) + b) * spinFun F P.s p (spinOrd c) i) ∧
    ∃ A', (∀ x : SpinChoice K, x.OK (2 * P.n * M) → RunSpin x false P M A A' ∧ ∀ A'', RunSpin x false P M A A'' → A'' = A') ∧ A'.size = A.size ∧
      ∀ c, 0 ≤ c → c < M → ShortC P.n (P.n * c) 1 (P.n - max |spinOrd c| |P.s|) A' →
        ∀ p : K × K, p.2 ^ 2 = 1 - p.1 ^ 2 → ∀ b, b = 0 ∨ b = 1 →
          ∑ i ∈ Finset.Ico 0 P.n, A'.val (2 * (P.n * c + i * 1) + b) * spinFun F P.s p (spinOrd c) i =
            ∑ i ∈ Finset.Ico 0 P.n, A.val (2 * (P.n * c + i * 1) + b) * sphFun F p (spinPar P.s (spinOrd c)) i

theorem runSpin_spec {P : SpinPlan K} (hP : SpinGood P) (d : Bool) {M : Int} (hodd : M % 2 = 1) (hM : 3 ≤ M) (hN : 0 ≤ P.n) {A : Buf K} (hA : 2 * P.n * M ≤ A.size) :
    ∃ A', (∀ x : SpinChoice K, x.OK (2 * P.n * M) → RunSpin x d P M A A' ∧ ∀ A'', RunSpin x d P M A A'' → A'' = A') ∧
      Mapped (fun c => spinF d P (ordS c)) (2 * P.n) (posA 0 (2 * P.n)) (fun c => 0 ≤ c ∧ c < M) A A' := by
  obtain ⟨A', eA, mA⟩ := spinSpec_mapped hP d hN hA
  refine ⟨A', ?_, mA⟩
  intro x hx
  cases x with
  | one isa T =>
    obtain ⟨X, r, e⟩ := spinDriver_spec hP isa d hx (by omega) hodd hN hA
    rw [eA] at e
    cases e
    exact ⟨r, fun A'' h => h.unique r⟩
  | avx T B =>
    obtain ⟨X, B', r, e⟩ := spinDriverAvx_spec hP d hx.1 hM hodd hN hA hx.2
    rw [eA] at e
    cases e
    refine ⟨⟨B', r⟩, ?_⟩
    rintro A'' ⟨B'', h⟩
    exact h.unique r

/-- **C77**, the drivers. -/
theorem C77_drivers (hF : IsLibm F) (n s : Int) (hn : 0 ≤ n) : ∃ P, planRotspinsphere F.sqrt n s = some P ∧ P.n = n ∧ P.s = s ∧ SpinDriversConvert F P := by
  obtain ⟨P, e, hN, hs, hP, hC⟩ := spin_plan hF n s hn
  refine ⟨P, e, hN, hs, ?_⟩
  intro M hodd hM A hA
  subst hN
  have col : ∀ (A : Buf K) c i b, A.val (2 * (P.n * c + i * 1) + b) = A.val (posA 0 (2 * P.n) (2 * (0 + i * 1) + b) c) := fun A c i b => by unfold posA; congr 1; ring
  have ext : ∀ (d : Bool) (m : Int) (x : Int → K) (C : Buf K), kernSpin d P m 0 1 ⟨(2 * P.n).toNat, x⟩ = some C → C.val = spinF d P m x := by
    intro d m x C h
    obtain ⟨C', h', v⟩ := kernSpin_col hP d m x
    rw [h] at h'
    cases h'
    exact v
  have fit : ∀ x : Int → K, 2 * (0 + (P.n - 1) * 1) + 1 < ((⟨(2 * P.n).toNat, x⟩ : Buf K).size : Int) := fun x => by
    show 2 * (0 + (P.n - 1) * 1) + 1 < ((2 * P.n).toNat : Int)
    omega
  constructor
  · obtain ⟨A', r, m⟩ := runSpin_spec hP true hodd hM hn hA
    refine ⟨A', r, m.1, ?_⟩
    intro c c0 c1 hz
    obtain ⟨C, eC, -, zC, fC⟩ := (hC (spinOrd c) 0 1 (by omega) le_rfl ⟨(2 * P.n).toNat, fun k => A.val (posA 0 (2 * P.n) k c)⟩ (fit _)).1 (fun b i hb i0 i1 i2 => by
      rw [← hz b i hb i0 i1 i2, col])
    have vC := ext true (spinOrd c) _ C eC
    have hv : ∀ i b, b = 0 ∨ b = 1 → 0 ≤ i → i < P.n → A'.val (2 * (P.n * c + i * 1) + b) = C.val (2 * (0 + i * 1) + b) := by
      intro i b hb i0 i1
      rw [col, vC]
      exact m.2.1 c ⟨c0, c1⟩ _ (by omega) (by omega)
    refine ⟨fun b i hb i0 i1 i2 => (hv i b hb i0 i2).trans (zC b i hb i0 i1 i2), ?_⟩
    intro p hp b hb
    have := fC p hp b hb
    refine Eq.trans (Finset.sum_congr rfl (fun i hi => ?_)) (this.trans (Finset.sum_congr rfl (fun i hi => ?_)))
    · obtain ⟨i0, i1⟩ := Finset.mem_Ico.1 hi
      rw [hv i b hb i0 i1]
    · rw [col]
  · obtain ⟨A', r, m⟩ := runSpin_spec hP false hodd hM hn hA
    refine ⟨A', r, m.1, ?_⟩
    intro c c0 c1 hz p hp b hb
    obtain ⟨C, eC, -, fC⟩ := (hC (spinOrd c) 0 1 (by omega) le_rfl ⟨(2 * P.n).toNat, fun k => A.val (posA 0 (2 * P.n) k c)⟩ (fit _)).2
    have vC := ext false (spinOrd c) _ C eC
    have hv : ∀ i b, b = 0 ∨ b = 1 → 0 ≤ i → i < P.n → A'.val (2 * (P.n * c + i * 1) + b) = C.val (2 * (0 + i * 1) + b) := by
      intro i b hb i0 i1
      rw [col, vC]
      exact m.2.1 c ⟨c0, c1⟩ _ (by omega) (by omega)
    have := fC (fun b i hb i0 i1 i2 => (hv i b hb i0 i2).symm.trans (hz b i hb i0 i1 i2)) p hp b hb
    refine Eq.trans (Finset.sum_congr rfl (fun i hi => ?_)) (this.trans (Finset.sum_congr rfl (fun i hi => ?_)))
    · obtain ⟨i0, i1⟩ := Finset.mem_Ico.1 hi
      rw [hv i b hb i0 i1]
    · rw [col]

/-- The AVX drivers touch the columns of orders `-1` and `1` whatever the number of columns: on an array of one column of two complex numbers, with spin 1, they leave the array. -/
theorem C77_one_column_defect (hF : IsLibm F) : ∃ P, planRotspinsphere F.sqrt 2 1 = some P ∧ ∀ (T : Nat) (d : Bool) (A B A' B' : Buf K), A.size = 4 → ¬ SpinDriverAvx d T P 1 A B A' B' := by
  obtain ⟨P, e, hN, hs, hP, -⟩ := spin_plan hF 2 1 (by omega)
  refine ⟨P, e, ?_⟩
  rintro T d A B A' B' hA ⟨A1, B1, h, -⟩
  obtain ⟨X, eX, mX⟩ := (progMaps_spin (d := d) (ord := ordS) hP .scalar (M := 1) (sz := 4) (by omega) (by rw [hN]; norm_num) (m := 0) (c := 0) le_rfl (by omega) rfl (pos := posA 0 (2 * P.n)) (fun _ => rfl)).run A hA
  rw [Int.mul_zero] at eX
  have hX : X.size = 4 := mX.1.trans hA
  unfold spinAvxHead at h
  rw [Prog.run_bind, eX] at h
  simp only [Option.bind_some] at h
  rw [Prog.run_bind, (impl_kernSpin_scalar ..).run, kernSpin_exec] at h
  have hops : spinOps d P (-1) = [(true, 0, 0)] := by
    unfold spinOps
    rw [hN, hs]
    cases d <;> rfl
  have hb := hP.inb2 0 0 0 le_rfl le_rfl (by rw [hs]; norm_num) le_rfl (by rw [hN]; norm_num)
  have hn : ∀ c t, spinRot2 t P 0 P.n c 0 0 X = none := by
    intro c t
    unfold spinRot2
    rw [Buf.rd_of hb.1 hb.2.1, Buf.rd_of hb.1 hb.2.2]
    simp only [Option.bind_some]
    have : ∀ (s c' : K) (Y : Int), applyGivensC s c' (P.n + 0 * c) Y X = none ∧ applyGivensTC s c' (P.n + 0 * c) Y X = none := by
      intro s c' Y
      unfold applyGivensC applyGivensTC applyGivens applyGivensT
      have : X.rd (2 * (P.n + 0 * c)) = none := by
        rw [hN, Int.zero_mul]
        unfold Buf.rd
        rw [if_neg (by omega)]
      rw [this]
      exact ⟨rfl, rfl⟩
    cases t
    · exact (this _ _ _).1
    · exact (this _ _ _).2
  rw [hops] at h
  have h0 : |(|(-1 : Int)| - |P.s|)| = 0 := by rw [hs]; rfl
  simp only [exec, spinStep, if_true, h0, hn, Option.bind_none, Option.map_none] at h
  cases h

/-- Spin -1, three degrees, three columns. -/
example (A : Buf ℝ) (hA : A.size = 18) : ∃ P, planRotspinsphere realLibm.sqrt 3 (-1) = some P ∧
    ∃ A', RunSpin (.one .vec2 2) true P 3 A A' ∧ RunSpin (.avx 4 ⟨18, fun _ => 7⟩) true P 3 A A' := by
  obtain ⟨P, e, h1, h2, h3⟩ := C77_drivers realLibm_ok 3 (-1) (by omega)
  refine ⟨P, e, ?_⟩
  obtain ⟨⟨A', r, -⟩, -⟩ := h3 3 (by norm_num) (by omega) A (by rw [h1, hA]; norm_num)
  exact ⟨A', (r (.one .vec2 2) (show 0 < 2 by omega)).1, (r (.avx 4 ⟨18, fun _ => 7⟩) ⟨by omega, by rw [h1]; norm_num⟩).1⟩

end FT.Props.Fun
