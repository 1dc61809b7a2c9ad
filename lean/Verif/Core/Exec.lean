import Verif.Lemmas.Loop

/-!
# Running a list of operations, and when operations may be reordered or undone
-/

namespace FT
variable {σ ι κ : Type*}

/-- Run the operations `l` one after the other; undefined behaviour propagates. -/
def exec (f : ι → σ → Option σ) : List ι → σ → Option σ
  | [], s => some s
  | a :: l, s => (f a s).bind (exec f l)

@[simp] theorem exec_nil (f : ι → σ → Option σ) (s : σ) : exec f [] s = some s := rfl

theorem exec_cons (f : ι → σ → Option σ) (a : ι) (l : List ι) (s : σ) :
    exec f (a :: l) s = (f a s).bind (exec f l) := rfl

theorem exec_append (f : ι → σ → Option σ) (l m : List ι) (s : σ) :
    exec f (l ++ m) s = (exec f l s).bind (exec f m) := by
  induction l generalizing s with
  | nil => rfl
  | cons a l ih =>
    rw [List.cons_append, exec_cons, exec_cons]
    cases f a s with
    | none => rfl
    | some s' => exact ih s'

theorem exec_singleton (f : ι → σ → Option σ) (a : ι) (s : σ) : exec f [a] s = f a s := by
  rw [exec_cons]; cases f a s <;> rfl

theorem exec_map (f : ι → σ → Option σ) (g : κ → ι) (l : List κ) (s : σ) :
    exec f (l.map g) s = exec (fun k => f (g k)) l s := by
  induction l generalizing s with
  | nil => rfl
  | cons a l ih =>
    rw [List.map_cons, exec_cons, exec_cons]
    congr 1; funext s'; exact ih s'

theorem exec_flatMap (f : ι → σ → Option σ) (g : κ → List ι) (l : List κ) (s : σ) :
    exec f (l.flatMap g) s = exec (fun k => exec f (g k)) l s := by
  induction l generalizing s with
  | nil => rfl
  | cons a l ih =>
    rw [List.flatMap_cons, exec_append, exec_cons]
    congr 1; funext s'; exact ih s'

theorem exec_congr {f g : ι → σ → Option σ} {l : List ι} (h : ∀ a ∈ l, ∀ s, f a s = g a s) (s : σ) :
    exec f l s = exec g l s := by
  induction l generalizing s with
  | nil => rfl
  | cons a l ih =>
    rw [exec_cons, exec_cons, h a (by simp)]
    congr 1; funext s'; exact ih (fun b hb => h b (by simp [hb])) s'

/-- A loop runs its iterations one after the other. -/
theorem loop_eq_exec (body : Nat → σ → Option σ) (n : Nat) (s : σ) :
    loop body n s = exec body (List.range n) s := by
  induction n generalizing s with
  | zero => rfl
  | succ n ih =>
    rw [loop_succ, List.range_succ, exec_append, ih]
    congr 1; funext s'; rw [exec_singleton]

/-- All operations succeed when an invariant makes each of them succeed. -/
theorem exec_total {f : ι → σ → Option σ} {l : List ι} {s : σ} (P : σ → Prop) (h0 : P s)
    (hstep : ∀ a ∈ l, ∀ s, P s → ∃ s', f a s = some s' ∧ P s') :
    ∃ s', exec f l s = some s' ∧ P s' := by
  induction l generalizing s with
  | nil => exact ⟨s, rfl, h0⟩
  | cons a l ih =>
    obtain ⟨s1, h1, p1⟩ := hstep a (by simp) s h0
    obtain ⟨s2, h2, p2⟩ := ih p1 (fun b hb => hstep b (by simp [hb]))
    exact ⟨s2, by rw [exec_cons, h1]; exact h2, p2⟩

theorem exec_preserves {f : ι → σ → Option σ} {l : List ι} {s s' : σ} (P : σ → Prop) (h0 : P s)
    (hstep : ∀ a ∈ l, ∀ s s', P s → f a s = some s' → P s') (h : exec f l s = some s') : P s' := by
  induction l generalizing s with
  | nil => simp only [exec, Option.some.injEq] at h; rwa [← h]
  | cons a l ih =>
    rw [exec_cons] at h
    cases h1 : f a s with
    | none => rw [h1] at h; cases h
    | some s1 =>
      rw [h1] at h
      exact ih (hstep a (by simp) s s1 h0 h1) (fun b hb => hstep b (by simp [hb])) h

/-- Undoing the operations in reverse order. -/
theorem exec_undo {f g : ι → σ → Option σ} {l : List ι} {s s' : σ} (P : σ → Prop) (h0 : P s)
    (hstep : ∀ a ∈ l, ∀ s s', P s → f a s = some s' → g a s' = some s ∧ P s')
    (h : exec f l s = some s') : exec g l.reverse s' = some s := by
  induction l generalizing s with
  | nil => simp only [exec, Option.some.injEq] at h; subst h; rfl
  | cons a l ih =>
    rw [exec_cons] at h
    cases h1 : f a s with
    | none => rw [h1] at h; cases h
    | some s1 =>
      rw [h1] at h
      obtain ⟨hg, p1⟩ := hstep a (by simp) s s1 h0 h1
      have := ih p1 (fun b hb => hstep b (by simp [hb])) h
      rw [List.reverse_cons, exec_append, this, Option.bind_some, exec_singleton, hg]

/-- Moving one operation to the front, past operations it commutes with. -/
theorem exec_move_front {f : ι → σ → Option σ} {a : ι} {u : List ι} (P : σ → Prop)
    (hP : ∀ b ∈ a :: u, ∀ s s', P s → f b s = some s' → P s')
    (hc : ∀ b ∈ u, ∀ s, P s → (f b s).bind (f a) = (f a s).bind (f b)) {s : σ} (h0 : P s) :
    exec f (u ++ [a]) s = exec f (a :: u) s := by
  induction u generalizing s with
  | nil => rfl
  | cons b u ih =>
    have ihb : ∀ s, P s → exec f (u ++ [a]) s = exec f (a :: u) s := fun s hs =>
      ih (fun c hc' => hP c (by simp only [List.mem_cons] at *; tauto)) (fun c hc' => hc c (by simp [hc'])) hs
    rw [List.cons_append, exec_cons]
    have : (f b s).bind (exec f (u ++ [a])) = (f b s).bind (exec f (a :: u)) := by
      cases hb : f b s with
      | none => rfl
      | some s1 => exact ihb s1 (hP b (by simp) s s1 h0 hb)
    rw [this]
    show (f b s).bind (fun s => (f a s).bind (exec f u)) = (f a s).bind (fun s => (f b s).bind (exec f u))
    rw [← Option.bind_assoc, ← Option.bind_assoc, hc b (by simp) s h0]

/-- **Reordering.**  Two lists with the same operations, each without repetition, give the same result if every pair
of operations that occurs in different order in the two lists commutes.  The order in `l₁` is given by `R₁`, the order
in `l₂` by `R₂`. -/
theorem exec_reorder {f : ι → σ → Option σ} (P : σ → Prop) {R₁ R₂ : ι → ι → Prop} {l₁ l₂ : List ι}
    (h₁ : l₁.Pairwise R₁) (h₂ : l₂.Pairwise R₂) (n₁ : l₁.Nodup) (n₂ : l₂.Nodup)
    (hmem : ∀ a, a ∈ l₁ ↔ a ∈ l₂)
    (hP : ∀ b ∈ l₁, ∀ s s', P s → f b s = some s' → P s')
    (hc : ∀ a ∈ l₁, ∀ b ∈ l₁, a ≠ b → R₁ a b → R₂ b a → ∀ s, P s →
      (f b s).bind (f a) = (f a s).bind (f b)) {s : σ} (h0 : P s) :
    exec f l₁ s = exec f l₂ s := by
  induction l₁ generalizing l₂ s with
  | nil =>
    have : l₂ = [] := List.eq_nil_iff_forall_not_mem.2 (fun a ha => by simpa using (hmem a).2 ha)
    rw [this]
  | cons a t ih =>
    obtain ⟨u, v, rfl⟩ := List.append_of_mem ((hmem a).1 (by simp))
    have hsplit : u ++ a :: v = (u ++ [a]) ++ v := by simp
    rw [List.pairwise_cons] at h₁
    rw [List.nodup_cons] at n₁
    have n2' := n₂
    rw [List.nodup_append] at n2'
    obtain ⟨nu, nav, hdis⟩ := n2'
    rw [List.nodup_cons] at nav
    have hau : a ∉ u := fun h => hdis a h a (by simp) rfl
    have memt : ∀ b, b ∈ u → b ∈ t := by
      intro b hb
      have := (hmem b).2 (by simp [hb])
      rcases List.mem_cons.1 this with h | h
      · subst h; exact absurd hb hau
      · exact h
    rw [hsplit, exec_append, exec_move_front P (a := a) (u := u)
      (by
        intro b hb s s' hs e
        apply hP b _ s s' hs e
        rcases List.mem_cons.1 hb with h | h
        · simp [h]
        · simp [memt b h])
      (by
        intro b hb s hs
        have hR2 : R₂ b a := by
          rw [List.pairwise_append] at h₂
          exact h₂.2.2 b hb a (by simp)
        exact hc a (by simp) b (by simp [memt b hb]) (fun e => hau (e ▸ hb)) (h₁.1 b (memt b hb)) hR2 s hs) h0]
    rw [exec_cons, exec_cons]
    cases ha : f a s with
    | none => rfl
    | some s1 =>
      rw [Option.bind_some, Option.bind_some, ← exec_append]
      have hs1 := hP a (by simp) s s1 h0 ha
      apply ih h₁.2
      · rw [List.pairwise_append] at h₂ ⊢
        refine ⟨h₂.1, (List.pairwise_cons.1 h₂.2.1).2, fun b hb c hc => h₂.2.2 b hb c (by simp [hc])⟩
      · exact n₁.2
      · rw [List.nodup_append]
        exact ⟨nu, nav.2, fun b hb c hc => hdis b hb c (by simp [hc])⟩
      · intro b
        constructor
        · intro hb
          have := (hmem b).1 (by simp [hb])
          simp only [List.mem_append, List.mem_cons] at this ⊢
          rcases this with h | h | h
          · exact Or.inl h
          · subst h; exact absurd hb n₁.1
          · exact Or.inr h
        · intro hb
          have hb' := (hmem b).2 (by
            simp only [List.mem_append, List.mem_cons] at hb ⊢
            tauto)
          rcases List.mem_cons.1 hb' with h | h
          · subst h
            rcases List.mem_append.1 hb with h | h
            · exact absurd h hau
            · exact absurd h nav.1
          · exact h
      · exact fun b hb => hP b (by simp [hb])
      · exact fun b hb c hc' => hc b (by simp [hb]) c (by simp [hc'])
      · exact hs1

end FT
