import Verif.Core.Mem
import Mathlib.Tactic.Ring
import Mathlib.Tactic.Linarith

namespace FT
variable {σ α : Type*}

/-- A doubly nested loop is a single loop. -/
theorem loop_nested (b : Nat → Nat → σ → Option σ) (m n : Nat) (s : σ) :
    loop (fun k s => loop (b k) n s) m s = loop (fun t => b (t / n) (t % n)) (m * n) s := by
  induction m with
  | zero => simp
  | succ m ih =>
    rw [loop_succ, ih, Nat.succ_mul, loop_add]
    congr 1; funext s'
    apply loop_congr
    intro k hk s
    have hn : 0 < n := by omega
    rw [Nat.mul_comm m n, Nat.mul_add_div hn, Nat.div_eq_of_lt hk, Nat.add_zero, Nat.mul_add_mod,
      Nat.mod_eq_of_lt hk]

/-- A loop that moves `src[g t]` to `dst[f t]`. -/
theorem scatter_spec (src dst : Buf α) (f g : Nat → Int) (T : Nat)
    (hg : ∀ t, t < T → 0 ≤ g t ∧ g t < src.size) (hf : ∀ t, t < T → 0 ≤ f t ∧ f t < dst.size)
    (inj : ∀ t u, t < T → u < T → f t = f u → t = u) :
    ∃ d, loop (fun t (d : Buf α) => (src.rd (g t)).bind fun v => d.wr (f t) v) T dst = some d ∧
      d.size = dst.size ∧ (∀ t, t < T → d.val (f t) = src.val (g t)) ∧
      (∀ i, (∀ t, t < T → f t ≠ i) → d.val i = dst.val i) := by
  have := loop_spec (body := fun t (d : Buf α) => (src.rd (g t)).bind fun v => d.wr (f t) v)
    (n := T) (s := dst)
    (fun k d => d.size = dst.size ∧ (∀ t, t < k → d.val (f t) = src.val (g t)) ∧
      (∀ i, (∀ t, t < k → f t ≠ i) → d.val i = dst.val i))
    ⟨rfl, by simp, by simp⟩ (by
      rintro k hk d ⟨hs, hv, hu⟩
      refine ⟨⟨d.size, Function.update d.val (f k) (src.val (g k))⟩, ?_, hs, ?_, ?_⟩
      · rw [Buf.rd_of (hg k hk).1 (hg k hk).2]
        exact Buf.wr_of (hf k hk).1 (by rw [hs]; exact (hf k hk).2)
      · intro t ht
        by_cases h : t = k
        · subst h; simp
        · have : f t ≠ f k := fun e => h (inj t k (by omega) hk e)
          simp only [Function.update_of_ne this]
          exact hv t (by omega)
      · intro i hi
        have : i ≠ f k := fun e => hi k (by omega) e.symm
        simp only [Function.update_of_ne this]
        exact hu i (fun t ht => hi t (by omega)))
  exact this

theorem whileF_step {cond : σ → Bool} {body : σ → Option σ} {f : Nat} {s : σ} (h : cond s = true) :
    whileF cond body (f+1) s = (body s).bind (whileF cond body f) := by simp [whileF, h]

theorem whileF_done {cond : σ → Bool} {body : σ → Option σ} {f : Nat} {s : σ} (h : cond s = false) :
    whileF cond body f s = some s := by cases f <;> simp [whileF, h]

/-- Enough fuel stays enough. -/
theorem whileF_mono {cond : σ → Bool} {body : σ → Option σ} {f g : Nat} (hfg : f ≤ g) {s r : σ}
    (h : whileF cond body f s = some r) : whileF cond body g s = some r := by
  induction f generalizing g s with
  | zero =>
    unfold whileF at h
    split at h
    · cases h
    · next hc => cases h; exact whileF_done (by simpa using hc)
  | succ f ih =>
    obtain ⟨g, rfl⟩ : ∃ g', g = g' + 1 := ⟨g - 1, by omega⟩
    by_cases hc : cond s = true
    · rw [whileF_step hc] at h ⊢
      cases hb : body s with
      | none => rw [hb] at h; cases h
      | some s' => rw [hb] at h; exact ih (by omega) h
    · have hc : cond s = false := by simpa using hc
      rw [whileF_done hc] at h ⊢; exact h

end FT
