import Verif.Model.KernelProg
import Verif.Lemmas.RotSimd5

namespace FT
variable {K : Type*} [CommRing K]

/-- `p` is, uninterrupted, the function `f`. -/
structure Impl (p : Prog K Unit) (f : Buf K → Option (Buf K)) : Prop where
  run : ∀ A, p.run A = (f A).map fun A => ((), A)

section fn
variable {σ : Type*}
theorem forUp_fn (lo hi : Int) (f : Int → σ → Option σ) : forUp lo hi f = exec f (rUp lo hi) := by
  funext s; exact forUp_exec ..
theorem forDown_fn (lo hi : Int) (f : Int → σ → Option σ) : forDown hi lo f = exec f (rDown hi lo) := by
  funext s; exact forDown_exec ..
theorem forStep_fn (lo hi st : Int) (f : Int → σ → Option σ) : forStep lo hi st f = exec f (rStep lo hi st) := by
  funext s; exact forStep_exec ..
theorem forStepDown_fn (lo hi st : Int) (f : Int → σ → Option σ) : forStepDown hi lo st f = exec f (rStepDown hi lo st) := by
  funext s; exact forStepDown_exec ..
end fn

theorem Impl.bind {p : Prog K Unit} {q : Unit → Prog K Unit} {f g : Buf K → Option (Buf K)} (hp : Impl p f) (hq : Impl (q ()) g) :
    Impl (p.bind q) (fun A => (f A).bind g) := by
  refine ⟨fun A => ?_⟩
  rw [Prog.run_bind, hp.run A]
  show _ = ((f A).bind g).map _
  cases f A with
  | none => rfl
  | some B => exact hq.run B

theorem Impl.each {ι : Type*} {body : ι → Unit → Prog K Unit} {f : ι → Buf K → Option (Buf K)} {l : List ι}
    (h : ∀ i, Impl (body i ()) (f i)) : Impl (Prog.each body l ()) (exec f l) := by
  exact ⟨Prog.run_each_unit (fun i _ => (h i).run)⟩

theorem impl_tab {G : Geom} {RP : RotPlan K} {k j : Int} {p : K → K → Prog K Unit} {f : K → K → Buf K → Option (Buf K)}
    (h : ∀ s c, Impl (p s c) (f s c)) :
    Impl (tabP G RP k j p) (fun A => (RP.s.rd (G.ix RP.n k j)).bind fun s => (RP.c.rd (G.ix RP.n k j)).bind fun c => f s c A) := by
  refine ⟨fun A => ?_⟩
  unfold tabP
  rw [Prog.run_bind, Prog.run_ofOption]
  cases RP.s.rd (G.ix RP.n k j) with
  | none => rfl
  | some s =>
    simp only [Option.map_some, Option.bind_some]
    rw [Prog.run_bind, Prog.run_ofOption]
    cases RP.c.rd (G.ix RP.n k j) with
    | none => rfl
    | some c => exact (h s c).run A

theorem impl_applyGivens (s c : K) (X Y : Int) : Impl (applyGivensP s c X Y) (applyGivens s c X Y) := by
  refine ⟨fun A => ?_⟩
  unfold applyGivensP applyGivens
  simp only [Prog.run]
  cases A.rd X with
  | none => rfl
  | some x =>
    cases A.rd Y with
    | none => rfl
    | some y =>
      simp only [Option.bind_some]
      cases A.wr X (c * x + s * y) with
      | none => rfl
      | some B => simp only [Option.bind_some]; cases B.wr Y (c * y - s * x) <;> rfl

theorem impl_applyGivensT (s c : K) (X Y : Int) : Impl (applyGivensTP s c X Y) (applyGivensT s c X Y) := by
  refine ⟨fun A => ?_⟩
  unfold applyGivensTP applyGivensT
  simp only [Prog.run]
  cases A.rd X with
  | none => rfl
  | some x =>
    cases A.rd Y with
    | none => rfl
    | some y =>
      simp only [Option.bind_some]
      cases A.wr X (c * x - s * y) with
      | none => rfl
      | some B => simp only [Option.bind_some]; cases B.wr Y (c * y + s * x) <;> rfl

theorem impl_vGivens (VS : Nat) (s c : K) (X Y : Int) : Impl (vGivensP VS s c X Y) (vGivens VS s c X Y) := by
  refine ⟨fun A => ?_⟩
  unfold vGivensP vGivens
  simp only [Prog.run]
  cases vld A X VS with
  | none => rfl
  | some x =>
    cases vld A Y VS with
    | none => rfl
    | some y =>
      simp only [Option.bind_some]
      cases vst A X VS (fun e => c * x e + s * y e) with
      | none => rfl
      | some B => simp only [Option.bind_some]; cases vst B Y VS (fun e => c * y e - s * x e) <;> rfl

theorem impl_vGivensT (VS : Nat) (s c : K) (X Y : Int) : Impl (vGivensTP VS s c X Y) (vGivensT VS s c X Y) := by
  refine ⟨fun A => ?_⟩
  unfold vGivensTP vGivensT
  simp only [Prog.run]
  cases vld A X VS with
  | none => rfl
  | some x =>
    cases vld A Y VS with
    | none => rfl
    | some y =>
      simp only [Option.bind_some]
      cases vst A X VS (fun e => c * x e - s * y e) with
      | none => rfl
      | some B => simp only [Option.bind_some]; cases vst B Y VS (fun e => c * y e + s * x e) <;> rfl

theorem impl_kernelHi2lo (G : Geom) (RP : RotPlan K) (m1 m2 o S : Int) :
    Impl (kernelHi2loP G RP m1 m2 o S) (kernelHi2lo G RP m1 m2 o S) := by
  unfold kernelHi2loP
  have : kernelHi2lo G RP m1 m2 o S = exec (fun j => exec (fun k => rotAt G RP o S k j) (rDown (G.top RP.n j) 0))
      (rStepDown (m2 - G.jst) m1 G.jst) := by
    funext A
    unfold kernelHi2lo
    simp only [forStepDown_fn, forDown_fn]
  rw [this]
  exact Impl.each fun j => Impl.each fun k => impl_tab fun s c => impl_applyGivens s c _ _

theorem impl_kernelLo2hi (G : Geom) (RP : RotPlan K) (m1 m2 o S : Int) :
    Impl (kernelLo2hiP G RP m1 m2 o S) (kernelLo2hi G RP m1 m2 o S) := by
  unfold kernelLo2hiP
  have : kernelLo2hi G RP m1 m2 o S = exec (fun j => exec (fun k => rotAtT G RP o S k j) (rUp 0 (G.top RP.n j + 1)))
      (rStep m1 m2 G.jst) := by
    funext A
    unfold kernelLo2hi
    simp only [forStep_fn, forUp_fn]
  rw [this]
  exact Impl.each fun j => Impl.each fun k => impl_tab fun s c => impl_applyGivensT s c _ _

theorem run_loadRegs (VS : Nat) (cnt b o S : Int) (X : Buf (Int → K)) (A : Buf K) :
    (loadRegsP VS cnt b o S X).run A = (loadRegs VS cnt b o S A X).map fun X => (X, A) := by
  unfold loadRegsP loadRegs
  rw [Prog.run_each, forUp_exec]
  generalize rUp 0 cnt = l
  induction l generalizing X with
  | nil => rfl
  | cons i l ih =>
    rw [exec_cons, exec_cons]
    have : (Prog.ld (o + (b + i) * S) VS fun v => Prog.ofOption ((X, A).1.wr i v)).run (X, A).2 =
        (vld A (o + (b + i) * S) VS).bind fun v => (X.wr i v).map fun X => (X, A) := by
      simp only [Prog.run, Prog.run_ofOption]
    rw [this]
    cases vld A (o + (b + i) * S) VS with
    | none => rfl
    | some v =>
      simp only [Option.bind_some]
      cases X.wr i v with
      | none => rfl
      | some Y => exact ih Y

theorem impl_storeRegs (VS : Nat) (cnt b o S : Int) (X : Buf (Int → K)) :
    Impl (storeRegsP VS cnt b o S X) (storeRegs VS cnt b o S X) := by
  unfold storeRegsP
  have : storeRegs VS cnt b o S X = exec (fun l A => (X.rd l).bind fun v => vst A (o + (b + l) * S) VS v) (rUp 0 cnt) := by
    funext A; unfold storeRegs; rw [forUp_exec]
  rw [this]
  refine Impl.each fun l => ⟨fun A => ?_⟩
  rw [Prog.run_bind, Prog.run_ofOption]
  cases X.rd l with
  | none => rfl
  | some v =>
    simp only [Option.map_some, Option.bind_some, Prog.run]
    cases vst A (o + (b + l) * S) VS v <;> rfl

theorem impl_tileHi2lo (VS : Nat) (L : Int) (G : Geom) (RP : RotPlan K) (o S j k : Int) (X : Buf (Int → K)) :
    Impl (tileHi2loP VS L G RP o S j k X) (tileHi2lo VS L G RP o S j k X) := by
  refine ⟨fun A => ?_⟩
  unfold tileHi2loP tileHi2lo
  rw [Prog.run_bind, run_loadRegs]
  cases loadRegs VS ((G.g + 1) * L) (k + 1 - L) o S A X with
  | none => rfl
  | some X =>
    simp only [Option.map_some, Option.bind_some]
    rw [Prog.run_bind, Prog.run_ofOption]
    rw [Option.bind_map, Option.map_bind]
    congr 1
    funext Y
    exact (impl_storeRegs VS _ _ o S Y).run A

theorem impl_tileLo2hi (VS : Nat) (L : Int) (G : Geom) (RP : RotPlan K) (o S j k : Int) (X : Buf (Int → K)) :
    Impl (tileLo2hiP VS L G RP o S j k X) (tileLo2hi VS L G RP o S j k X) := by
  refine ⟨fun A => ?_⟩
  unfold tileLo2hiP tileLo2hi
  rw [Prog.run_bind, run_loadRegs]
  cases loadRegs VS ((G.g + 1) * L) (k + G.g - G.g * L) o S A X with
  | none => rfl
  | some X =>
    simp only [Option.map_some, Option.bind_some]
    rw [Prog.run_bind, Prog.run_ofOption]
    rw [Option.bind_map, Option.map_bind]
    congr 1
    funext Y
    exact (impl_storeRegs VS _ _ o S Y).run A

theorem impl_kernelVHi2lo (V : VGeom) (L : Int) (VS : Nat) (junk : Int → Int → K) (RP : RotPlan K) (m1 m2 o S : Int) :
    Impl (kernelVHi2loP V L VS junk RP m1 m2 o S) (kernelVHi2lo V L VS junk RP m1 m2 o S) := by
  unfold kernelVHi2loP kernelVHi2lo
  simp only [forUp_fn, forStepDown_fn, forDown_fn]
  refine Impl.bind (Impl.each fun s => Impl.each fun t => impl_kernelHi2lo ..) (Impl.bind (Impl.each fun j => Impl.bind
    (Impl.each fun k => impl_tileHi2lo ..) (Impl.each fun lj => Impl.each fun lk => impl_tab fun s c => impl_vGivens ..))
    (Impl.each fun j => Impl.each fun k => impl_tab fun s c => impl_vGivens ..))

theorem impl_kernelVLo2hi (V : VGeom) (L : Int) (VS : Nat) (junk : Int → Int → K) (RP : RotPlan K) (m1 m2 o S : Int) :
    Impl (kernelVLo2hiP V L VS junk RP m1 m2 o S) (kernelVLo2hi V L VS junk RP m1 m2 o S) := by
  unfold kernelVLo2hiP kernelVLo2hi
  simp only [forUp_fn, forStep_fn]
  refine Impl.bind (Impl.each fun j => Impl.bind (Impl.each fun lj => Impl.each fun lk => impl_tab fun s c => impl_vGivensT ..)
    (Impl.each fun k => impl_tileLo2hi ..)) (Impl.bind (Impl.each fun j => Impl.each fun k => impl_tab fun s c => impl_vGivensT ..)
    (Impl.each fun s => Impl.each fun t => impl_kernelLo2hi ..))

end FT
