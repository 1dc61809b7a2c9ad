import Verif.Core.Share
import Verif.Lemmas.Accum

/-! # Parallel loops whose iterations share what they read -/

namespace FT
variable {K : Type*} {α β σ ι : Type*}

namespace Prog

/-- `Acc`, and every value returned satisfies `Q`. -/
def AccQ (R W : Int → Prop) (Q : α → Prop) : Prog K α → Prop
  | ret a => Q a
  | fail => True
  | rd p k => R p ∧ ∀ x, (k x).AccQ R W Q
  | wr p _ k => W p ∧ k.AccQ R W Q
  | ld p w k => (∀ e : Int, 0 ≤ e → e < w → R (p + e)) ∧ ∀ x, (k x).AccQ R W Q
  | st p w _ k => (∀ e : Int, 0 ≤ e → e < w → W (p + e)) ∧ k.AccQ R W Q

theorem AccQ.acc {R W : Int → Prop} {Q : α → Prop} {p : Prog K α} (h : p.AccQ R W Q) : p.Acc R W := by
  induction p with
  | ret a => trivial
  | fail => trivial
  | rd p k ih => exact ⟨h.1, fun x => ih x (h.2 x)⟩
  | wr p v k ih => exact ⟨h.1, ih h.2⟩
  | ld p W k ih => exact ⟨h.1, fun x => ih x (h.2 x)⟩
  | st p W v k ih => exact ⟨h.1, ih h.2⟩

theorem Acc.accQ {R W : Int → Prop} {p : Prog K α} (h : p.Acc R W) : p.AccQ R W fun _ => True := by
  induction p with
  | ret a => trivial
  | fail => trivial
  | rd p k ih => exact ⟨h.1, fun x => ih x (h.2 x)⟩
  | wr p v k ih => exact ⟨h.1, ih h.2⟩
  | ld p W k ih => exact ⟨h.1, fun x => ih x (h.2 x)⟩
  | st p W v k ih => exact ⟨h.1, ih h.2⟩

theorem AccQ.bind {R W : Int → Prop} {Q : α → Prop} {Q' : β → Prop} {p : Prog K α} {f : α → Prog K β} (hp : p.AccQ R W Q)
    (hf : ∀ a, Q a → (f a).AccQ R W Q') : (p.bind f).AccQ R W Q' := by
  induction p with
  | ret a => exact hf a hp
  | fail => trivial
  | rd p k ih => exact ⟨hp.1, fun x => ih x (hp.2 x)⟩
  | wr p v k ih => exact ⟨hp.1, ih hp.2⟩
  | ld p W k ih => exact ⟨hp.1, fun x => ih x (hp.2 x)⟩
  | st p W v k ih => exact ⟨hp.1, ih hp.2⟩

theorem AccQ.ofOption {R W : Int → Prop} {Q : α → Prop} {o : Option α} (h : ∀ a, o = some a → Q a) : (Prog.ofOption o : Prog K α).AccQ R W Q := by
  cases o with
  | none => trivial
  | some a => exact h a rfl

theorem Acc.ofOption_bind {R W : Int → Prop} {o : Option α} {f : α → Prog K β} (h : ∀ a, o = some a → (f a).Acc R W) :
    ((Prog.ofOption o : Prog K α).bind f).Acc R W := by
  cases o with
  | none => trivial
  | some a => exact h a rfl

/-- Loops with a register about which something is known. -/
theorem AccQ.each_up {R W : Int → Prop} {body : Int → σ → Prog K σ} {lo hi : Int} (P : Int → σ → Prop)
    (h : ∀ i, lo ≤ i → i < hi → ∀ s, P i s → (body i s).AccQ R W (P (i + 1))) {s : σ} (h0 : P lo s) :
    (Prog.each body (rUp lo hi) s).AccQ R W fun _ => True := by
  have key : ∀ (n : Nat) (lo : Int), (hi - lo).toNat = n → (∀ i, lo ≤ i → i < hi → ∀ s, P i s → (body i s).AccQ R W (P (i + 1))) →
      ∀ s, P lo s → (Prog.each body (rUp lo hi) s).AccQ R W fun _ => True := by
    intro n
    induction n with
    | zero =>
      intro lo hn _ s _
      have : rUp lo hi = [] := by unfold rUp; rw [hn]; rfl
      rw [this]; trivial
    | succ n ih =>
      intro lo hn h s hs
      have : rUp lo hi = lo :: rUp (lo + 1) hi := by
        unfold rUp
        rw [hn, List.range_succ_eq_map, List.map_cons, List.map_map, show (hi - (lo + 1)).toNat = n by omega]
        congr 1
        · simp
        · refine List.map_congr_left fun k _ => ?_
          simp only [Function.comp]
          push_cast
          omega
      rw [this]
      exact (h lo (le_refl _) (by omega) s hs).bind fun s' hs' => ih (lo + 1) (by omega) (fun i a b => h i (by omega) b) s' hs'
  exact key _ lo rfl h s h0

end Prog

section
variable [Zero K]

/-- A sequence of iterations none of which writes where another reads: each acts as if alone on the initial memory. -/
theorem each_share {R W : ι → Int → Prop} {body : ι → Prog K Unit} {A : Buf K} {l : List ι} (hnd : l.Nodup) (hWR : ∀ a i, W a i → R a i)
    (hR : ∀ a ∈ l, ∀ b ∈ l, ∀ i, a ≠ b → W a i → ¬ R b i) (hW : ∀ a ∈ l, (body a).Acc (R a) (W a)) {F : ι → Buf K}
    (hF : ∀ a ∈ l, (body a).run A = some ((), F a)) :
    ∃ B, (Prog.each (fun a _ => body a) l ()).run A = some ((), B) ∧ B.size = A.size ∧
      (∀ a ∈ l, ∀ i, R a i → B.val i = (F a).val i) ∧ ∀ i, (∀ a ∈ l, ¬ W a i) → B.val i = A.val i := by
  have key : ∀ (l' : List ι) (C : Buf K), (∀ a ∈ l', a ∈ l) → l'.Nodup → C.size = A.size →
      (∀ a ∈ l', ∀ i, R a i → C.val i = A.val i) →
      ∃ B, (Prog.each (fun a _ => body a) l' ()).run C = some ((), B) ∧ B.size = C.size ∧
        (∀ a ∈ l', ∀ i, R a i → B.val i = (F a).val i) ∧ ∀ i, (∀ a ∈ l', ¬ W a i) → B.val i = C.val i := by
    intro l'
    induction l' with
    | nil => intro C _ _ _ _; exact ⟨C, rfl, rfl, fun a ha => by simp at ha, fun _ _ => rfl⟩
    | cons a l' ih =>
      intro C hsub hnd hC hag
      have ha := hsub a (by simp)
      obtain ⟨-, -, C', c1, c2, c3, c4⟩ := Prog.run_acc (hWR a) (hW a ha) hC (hag a (by simp)) (hF a ha)
      rw [List.nodup_cons] at hnd
      obtain ⟨B, b1, b2, b3, b4⟩ := ih C' (fun b hb => hsub b (by simp [hb])) hnd.2 (by omega) (fun b hb i hi => by
        have hne : a ≠ b := by rintro rfl; exact hnd.1 hb
        rw [c4 i (fun h => hR a ha b (hsub b (by simp [hb])) i hne h hi)]
        exact hag b (by simp [hb]) i hi)
      refine ⟨B, ?_, b2.trans c2, ?_, ?_⟩
      · rw [Prog.each, Prog.run_bind, c1, Option.bind_some]; exact b1
      · intro b hb i hi
        rcases List.mem_cons.1 hb with rfl | hb
        · rw [b4 i (fun c hc hci => hR c (hsub c (by simp [hc])) b ha i (by rintro rfl; exact hnd.1 hc) hci hi), c3 i hi]
        · exact b3 b hb i hi
      · intro i hi
        rw [b4 i (fun b hb => hi b (by simp [hb])), c4 i (hi a (by simp))]
  exact key l A (fun _ h => h) hnd rfl (fun _ _ _ _ => rfl)

/-- `#pragma omp parallel for` with any assignment of iterations to threads: on every schedule no access is undefined, and at the end
each iteration has acted as if alone on the initial memory. -/
theorem for_share {lo hi : Int} {owner : Int → Nat} {T : Nat} (hown : ∀ m, lo ≤ m → m < hi → owner m < T) {R W : Int → Int → Prop}
    (hWR : ∀ a i, W a i → R a i) (hR : ∀ a b, lo ≤ a → a < hi → lo ≤ b → b < hi → ∀ i, a ≠ b → W a i → ¬ R b i) {body : Int → Prog K Unit} {A : Buf K}
    (hW : ∀ a, lo ≤ a → a < hi → (body a).Acc (R a) (W a)) {F : Int → Buf K} (hF : ∀ a, lo ≤ a → a < hi → (body a).run A = some ((), F a))
    {Post : Buf K → Prop} (hp : ∀ B : Buf K, B.size = A.size → (∀ a, lo ≤ a → a < hi → ∀ i, R a i → B.val i = (F a).val i) →
      (∀ i, (∀ a, lo ≤ a → a < hi → ¬ W a i) → B.val i = A.val i) → Post B) :
    ParPost T (forThread lo hi owner body) A Post := by
  have mem : ∀ t a, a ∈ (rUp lo hi).filter (fun m => owner m = t) ↔ (lo ≤ a ∧ a < hi) ∧ owner a = t := by
    intro t a; rw [List.mem_filter, mem_rUp]; simp
  have nd : ∀ t, ((rUp lo hi).filter (fun m => owner m = t)).Nodup := fun t =>
    List.Nodup.filter _ ((pairwise_rUp lo hi).imp (fun h => by omega))
  have each := fun t => each_share (R := R) (W := W) (body := body) (A := A) (nd t) hWR
    (fun a ha b hb => hR a b ((mem t a).1 ha).1.1 ((mem t a).1 ha).1.2 ((mem t b).1 hb).1.1 ((mem t b).1 hb).1.2)
    (fun a ha => hW a ((mem t a).1 ha).1.1 ((mem t a).1 ha).1.2) (F := F) (fun a ha => hF a ((mem t a).1 ha).1.1 ((mem t a).1 ha).1.2)
  choose G g1 g2 g3 g4 using each
  refine parPost_share (T := T) (R := fun t i => ∃ a, (lo ≤ a ∧ a < hi) ∧ owner a = t ∧ R a i) (W := fun t i => ∃ a, (lo ≤ a ∧ a < hi) ∧ owner a = t ∧ W a i)
    (F := G) ?_ ?_ ?_ (fun t _ => g1 t) ?_
  · rintro t i ⟨a, h1, h2, h3⟩; exact ⟨a, h1, h2, hWR a i h3⟩
  · rintro t u i htu ⟨a, h1, h2, h3⟩ ⟨b, k1, k2, k3⟩
    exact hR a b h1.1 h1.2 k1.1 k1.2 i (by rintro rfl; exact htu (h2.symm.trans k2)) h3 k3
  · intro t _
    refine Prog.Acc.each (fun a ha _ => ?_) ()
    obtain ⟨h1, h2⟩ := (mem t a).1 ha
    exact (hW a h1.1 h1.2).mono (fun i hi => ⟨a, h1, h2, hi⟩) (fun i hi => ⟨a, h1, h2, hi⟩)
  · intro B hs hB1 hB2
    refine hp B hs (fun a a0 a1 i hi => ?_) (fun i hi => ?_)
    · rw [hB1 (owner a) (hown a a0 a1) i ⟨a, ⟨a0, a1⟩, rfl, hi⟩]
      exact g3 _ a ((mem _ a).2 ⟨⟨a0, a1⟩, rfl⟩) i hi
    · refine hB2 i ?_
      rintro t _ ⟨a, h1, -, h3⟩
      exact hi a h1.1 h1.2 h3

/-- A parallel region may be followed by another. -/
theorem ParPost.mono {T : Nat} {P : Nat → Prog K Unit} {A : Buf K} {Q Q' : Buf K → Prop} (h : ParPost T P A Q) (hq : ∀ B, Q B → Q' B) : ParPost T P A Q' :=
  ⟨h.1, fun s hs => by obtain ⟨c, e, k⟩ := h.2 s hs; exact ⟨c, e, fun hd => hq _ (k hd)⟩⟩

theorem Regions.mono {T : Nat} {Q Q' : Buf K → Prop} (hq : ∀ B, Q B → Q' B) : ∀ {rs : List (Nat → Prog K Unit)} {A : Buf K}, Regions T rs A Q → Regions T rs A Q'
  | [], _, h => hq _ h
  | _ :: _, _, h => ParPost.mono h fun _ h' => Regions.mono hq h'

end

end FT
