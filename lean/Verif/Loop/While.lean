/-!
# `lax.while_loop`

`lax.while_loop(cond, body, init)` is modelled by a big-step relation which also counts the
iterations. A loop that does not terminate relates to nothing.
-/

namespace Verif

/-- `WhileRuns cond body n s t`: started in `s`, the loop performs exactly `n` iterations and stops
in `t`. -/
inductive WhileRuns {σ : Type} (cond : σ → Bool) (body : σ → σ) : Nat → σ → σ → Prop where
  | stop {s} : cond s = false → WhileRuns cond body 0 s s
  | step {n s t} : cond s = true → WhileRuns cond body n (body s) t → WhileRuns cond body (n + 1) s t

/-- `n` applications of `body`. -/
def iter {σ : Type} (body : σ → σ) : Nat → σ → σ
  | 0, s => s
  | n + 1, s => iter body n (body s)

/-- The states the loop goes through, including the first and the last one. -/
inductive WhileReaches {σ : Type} (cond : σ → Bool) (body : σ → σ) : σ → σ → Prop where
  | refl {s} : WhileReaches cond body s s
  | step {s t} : cond s = true → WhileReaches cond body (body s) t → WhileReaches cond body s t

variable {σ : Type} {cond : σ → Bool} {body : σ → σ}

theorem iter_succ' (body : σ → σ) (n : Nat) (s : σ) : iter body (n + 1) s = body (iter body n s) := by
  induction n generalizing s with
  | zero => rfl
  | succ n ih => rw [iter, ih]; rfl

theorem iter_add (body : σ → σ) (m n : Nat) (s : σ) : iter body (m + n) s = iter body n (iter body m s) := by
  induction m generalizing s with
  | zero => simp [iter]
  | succ m ih => rw [Nat.succ_add, iter, ih]; rfl

/-- The loop computes the first iterate on which the condition is false. -/
theorem whileRuns_iff {n : Nat} {s t : σ} : WhileRuns cond body n s t ↔
    t = iter body n s ∧ cond (iter body n s) = false ∧ ∀ k, k < n → cond (iter body k s) = true := by
  constructor
  · intro h
    induction h with
    | stop h => exact ⟨rfl, h, by simp⟩
    | step h _ ih =>
      obtain ⟨h1, h2, h3⟩ := ih
      refine ⟨h1, h2, ?_⟩
      intro k hk
      cases k with
      | zero => exact h
      | succ k => exact h3 k (by omega)
  · rintro ⟨rfl, h2, h3⟩
    induction n generalizing s with
    | zero => exact .stop h2
    | succ n ih =>
      refine .step (h3 0 (by omega)) (ih h2 ?_)
      intro k hk
      exact h3 (k + 1) (by omega)

theorem WhileRuns.det {n m : Nat} {s t u : σ} (h : WhileRuns cond body n s t) (h' : WhileRuns cond body m s u) :
    n = m ∧ t = u := by
  induction h generalizing m with
  | stop h => cases h' with
    | stop => exact ⟨rfl, rfl⟩
    | step h'' => simp [h] at h''
  | step h _ ih => cases h' with
    | stop h'' => simp [h] at h''
    | step _ h'' => have := ih h''; exact ⟨by omega, this.2⟩

theorem whileReaches_iff {s t : σ} : WhileReaches cond body s t ↔
    ∃ n, t = iter body n s ∧ ∀ k, k < n → cond (iter body k s) = true := by
  constructor
  · intro h
    induction h with
    | refl => exact ⟨0, rfl, by simp⟩
    | step h _ ih =>
      obtain ⟨n, h1, h2⟩ := ih
      refine ⟨n + 1, h1, ?_⟩
      intro k hk
      cases k with
      | zero => exact h
      | succ k => exact h2 k (by omega)
  · rintro ⟨n, rfl, h⟩
    induction n generalizing s with
    | zero => exact .refl
    | succ n ih => exact .step (h 0 (by omega)) (ih (fun k hk => h (k+1) (by omega)))

/-- An invariant of the loop holds in every state it goes through. -/
theorem WhileReaches.inv {s t : σ} (P : σ → Prop) (h : WhileReaches cond body s t) (h0 : P s)
    (hstep : ∀ u, P u → cond u = true → P (body u)) : P t := by
  induction h with
  | refl => exact h0
  | step hc _ ih => exact ih (hstep _ h0 hc)

/-- A loop with a decreasing measure terminates, and the measure bounds the number of iterations. -/
theorem whileRuns_of_measure (P : σ → Prop) (μ : σ → Nat) (s : σ) (h0 : P s)
    (hstep : ∀ u, P u → cond u = true → P (body u) ∧ μ (body u) < μ u) :
    ∃ n t, n ≤ μ s ∧ WhileRuns cond body n s t ∧ P t := by
  generalize hm : μ s = m
  induction m using Nat.strongRecOn generalizing s with
  | _ m ih =>
    cases hc : cond s with
    | false => exact ⟨0, s, by omega, .stop hc, h0⟩
    | true =>
      obtain ⟨h1, h2⟩ := hstep s h0 hc
      obtain ⟨n, t, hn, hr, hP⟩ := ih (μ (body s)) (by omega) (body s) h1 rfl
      exact ⟨n + 1, t, by omega, .step hc hr, hP⟩

end Verif
