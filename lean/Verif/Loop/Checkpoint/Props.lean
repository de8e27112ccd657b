import Verif.Loop.Checkpoint.OptLemmas
import Verif.Loop.Checkpoint.Entry

/-!
# Properties of the checkpointed while loop (C18-C22, C53)

Throughout: `c` is the number of checkpoints, `n` the number of steps the plain loop takes, `M` the
largest integer of the dtype, and `n ≤ m` if there is a `max_steps = m`.
-/

namespace Verif
namespace Checkpoint

variable {W V C B : Type}

/-- **C18 (values).** The forward pass which saves checkpoints takes the same number of steps as the
plain loop, to the same final value, whatever the checkpointing does. -/
theorem forward_value (cond : W → Bool) (body : W → W) (strip : W → V) (M : Int) (c : Nat)
    (maxSteps : Option Nat) (fill : V) (init final : W) (n : Nat)
    (hrun : WhileRuns cond body n init final) :
    ∃ s, WhileRuns (fwdCond cond) (fwdBody body strip c maxSteps) n (fwdInit M c fill init) s ∧ s.val = final := by
  have hval : ∀ k, (iter (fwdBody body strip c maxSteps) k (fwdInit M c fill init)).val = iter body k init := by
    intro k
    induction k with
    | zero => rfl
    | succ k ih => rw [iter_succ', iter_succ', ← ih]; rfl
  obtain ⟨h1, h2, h3⟩ := whileRuns_iff.1 hrun
  refine ⟨_, whileRuns_iff.2 ⟨rfl, ?_, ?_⟩, ?_⟩
  · simp only [fwdCond, hval]; exact h2
  · intro k hk; simp only [fwdCond, hval]; exact h3 k hk
  · rw [hval, h1]

/-- **C18.** For every number of checkpoints, every number of steps and every body: the backward
pass terminates, and returns exactly the cotangents of reverse-mode differentiation through the
unrolled loop. -/
theorem checkpointed_grad_exact (cond : W → Bool) (body : W → W) (vjp : W → C → B × C) (add : B → B → B)
    (strip : W → V) (refill : V → W) (M : Int) (c : Nat) (maxSteps : Option Nat) (fill : V) (init : W) (n : Nat)
    (gF : C) (b0 : B)
    (hc : 1 ≤ c) (hM : (n : Int) < M) (hmax : ∀ m, maxSteps = some m → n ≤ m)
    (hbuf : BufferContract body vjp strip refill init n)
    (s : Fwd W V) (hfwd : WhileRuns (fwdCond cond) (fwdBody body strip c maxSteps) n (fwdInit M c fill init) s) :
    ∃ N t, WhileRuns bwdCond (bwdBody body vjp strip refill add M c maxSteps) N
        (bwdInit M c maxSteps (fwdFinish c maxSteps s) gF b0) t ∧
      (t.gradVal, t.gradBody) = backprop body vjp add n init gF b0 := by
  have hs := (whileRuns_iff.1 hfwd).1
  have hinv := fwdInv_iter hc hM hmax strip body fill init
  rw [← hs] at hinv
  obtain ⟨hst, hns, hearly, -⟩ := finish_stack hM hmax hinv
  have h0 := bwd_init (M := M) (maxSteps := maxSteps) (body := body) (vjp := vjp) (add := add) (init := init) (gF := gF) (b0 := b0)
    (fun h => hmax c h) hc hst hns hearly
  obtain ⟨N, t, -, hr, G, hP⟩ := whileRuns_of_measure (cond := bwdCond)
    (body := bwdBody body vjp strip refill add M c maxSteps)
    (fun s => ∃ G, BwdInv M c n (fun j => strip (iter body j init)) body vjp add init gF b0 s G) measure _ ⟨n, h0⟩ (by
      rintro u ⟨G, hG⟩ hcu
      have hsG := hG.stepGrad
      have hpos : 0 < G := by simp only [bwdCond, decide_eq_true_eq] at hcu; omega
      refine ⟨?_, bwd_measure hM (fun h => hmax c h) hbuf hpos hG⟩
      rcases bwd_step hM (fun h => hmax c h) hbuf hpos hG with h | h
      · exact ⟨_, h.2⟩
      · exact ⟨_, h.2.2.2⟩)
  refine ⟨N, t, hr, ?_⟩
  have hstop := (whileRuns_iff.1 hr).2.1
  rw [← (whileRuns_iff.1 hr).1] at hstop
  have hsG := hP.stepGrad
  have hG0 : G = 0 := by simp only [bwdCond, decide_eq_false_iff_not] at hstop; omega
  subst hG0
  simpa [iter] using hP.grad

/-- **C18 (no buffers).** Without buffers there is no hypothesis on the body at all. -/
theorem checkpointed_grad_exact_no_buffers (cond : W → Bool) (body : W → W) (vjp : W → C → B × C) (add : B → B → B)
    (M : Int) (c : Nat) (maxSteps : Option Nat) (fill init final : W) (n : Nat) (gF : C) (b0 : B)
    (hc : 1 ≤ c) (hM : (n : Int) < M) (hmax : ∀ m, maxSteps = some m → n ≤ m)
    (hrun : WhileRuns cond body n init final) :
    ∃ s N t, WhileRuns (fwdCond cond) (fwdBody body id c maxSteps) n (fwdInit M c fill init) s ∧ s.val = final ∧
      WhileRuns bwdCond (bwdBody body vjp id id add M c maxSteps) N
        (bwdInit M c maxSteps (fwdFinish c maxSteps s) gF b0) t ∧
      (t.gradVal, t.gradBody) = backprop body vjp add n init gF b0 := by
  obtain ⟨s, hs, hv⟩ := forward_value cond body id M c maxSteps fill init final n hrun
  obtain ⟨N, t, h⟩ := checkpointed_grad_exact cond body vjp add id id M c maxSteps fill init n gF b0 hc hM hmax
    (bufferContract_id _ _ _ _) s hs
  exact ⟨s, N, t, hs, hv, h⟩

/-- A loop of five steps with two checkpoints, and a non-commutative cotangent. -/
example : WhileRuns (fun x : Int => decide (x < 50)) (fun x => 2 * x + 1) 5 1 63 := by
  rw [whileRuns_iff]
  refine ⟨by decide, by decide, ?_⟩
  decide
example : backprop (fun x : Int => 2 * x + 1) (fun x (g : List Int) => ([x], x :: g)) (· ++ ·) 5 1 [99] [] =
    ([1, 3, 7, 15, 31, 99], [31, 15, 7, 3, 1]) := by decide

/-- **C20.** After the forward pass the checkpoint memory is a sorted stack: with `n` steps, the
first `min n c` slots hold strictly increasing steps below `n`, starting with step 0, together with the
values the loop had at exactly those steps; all other slots are marked unused. -/
theorem forward_checkpoints_valid (cond : W → Bool) (body : W → W) (strip : W → V) (M : Int) (c : Nat)
    (maxSteps : Option Nat) (fill : V) (init : W) (n : Nat)
    (hc : 1 ≤ c) (hM : (n : Int) < M) (hmax : ∀ m, maxSteps = some m → n ≤ m)
    (s : Fwd W V) (hfwd : WhileRuns (fwdCond cond) (fwdBody body strip c maxSteps) n (fwdInit M c fill init) s) :
    let saved := fwdFinish c maxSteps s
    saved.numSteps = n ∧
    (∀ i, i < min n c → ∃ j : Nat, saved.rsteps i = j ∧ j < n ∧ saved.resid i = strip (iter body j init)) ∧
    (∀ i j, i < j → j < min n c → saved.rsteps i < saved.rsteps j) ∧
    (0 < n → saved.rsteps 0 = 0) ∧
    (∀ i, min n c ≤ i → i < c → saved.rsteps i = M) := by
  intro saved
  have hs := (whileRuns_iff.1 hfwd).1
  have hinv := fwdInv_iter hc hM hmax strip body fill init
  rw [← hs] at hinv
  obtain ⟨hst, hns, -, hun⟩ := finish_stack hM hmax hinv
  exact ⟨hns, hst.used, hst.sorted, fun h => hst.zero (by omega), fun i h1 h2 => hun i (by omega) h2⟩

/-- **C19, forward.** When the forward pass has taken `k` steps and is about to take another one: a checkpoint is only ever written to one
of the `c` slots, each slot in use holds a value the loop really had together with its step, no step is held
twice, and the initial value is never evicted. -/
theorem forward_memory (body : W → W) (strip : W → V) (M : Int) (c : Nat)
    (maxSteps : Option Nat) (fill : V) (init : W) (k : Nat)
    (hc : 1 ≤ c) (hM : (k : Int) < M) (hmax : ∀ m, maxSteps = some m → k < m) :
    let u := iter (fwdBody body strip c maxSteps) k (fwdInit M c fill init)
    u.step = k ∧
    ((shouldSave c maxSteps (u2m1 c) u.step u.sw u.wm u.rsteps).1 = true →
      0 ≤ (shouldSave c maxSteps (u2m1 c) u.step u.sw u.wm u.rsteps).2.1 ∧
      (shouldSave c maxSteps (u2m1 c) u.step u.sw u.wm u.rsteps).2.1 < c) ∧
    (∀ i, i < min k c → ∃ j : Nat, u.rsteps i = j ∧ j < k ∧ u.resid i = strip (iter body j init)) ∧
    (∀ i j, i < min k c → j < min k c → u.rsteps i = u.rsteps j → i = j) ∧
    (0 < k → u.rsteps 0 = 0) := by
  intro u
  have hinv : FwdInv M c maxSteps strip body init k u :=
    fwdInv_iter hc hM (fun m h => by have := hmax m h; omega) strip body fill init
  have hsave := shouldSave_step hc hM hmax hinv.mem hinv.sw hinv.wm
  refine ⟨hinv.step, ?_, ?_, ?_, fun h => hinv.mem.zero (by omega)⟩
  · rw [hinv.step]
    intro h
    obtain ⟨i, hi, hic, -⟩ := hsave.2.2.1 h
    rw [hi]; omega
  · intro i hi; exact hinv.mem.used i (by omega) (by omega)
  · intro i j hi hj h; exact hinv.mem.inj i j (by omega) (by omega) (by omega) (by omega) h

/-- **C20 (internal error).** The internal error of the Stumm-Walther schedule cannot occur: it is not
raised by any step of any run that uses the schedule. -/
theorem stummWalther_never_errors (body : W → W) (strip : W → V) (M : Int) (c : Nat)
    (maxSteps : Option Nat) (fill : V) (init : W) (k : Nat)
    (hc : 1 ≤ c) (hM : (k : Int) < M) (hmax : ∀ m, maxSteps = some m → k < m)
    (hcm : maxSteps ≠ some c)
    (hsw : (k : Int) < u2m1 c ∨ ∃ m : Nat, maxSteps = some m ∧ (m : Int) ≤ u2m1 c) :
    stummWaltherError k (iter (fwdBody body strip c maxSteps) k (fwdInit M c fill init)).sw = false := by
  have hk : (k : Int) < u2m1 c := by
    rcases hsw with h | ⟨m, h1, h2⟩
    · exact h
    · have := hmax m h1; omega
  have hmax' : ∀ m, maxSteps = some m → k ≤ m := fun m h => by have := hmax m h; omega
  have hinv := fwdInv_iter hc hM hmax' strip body fill init
  have hsw := hinv.sw hcm (Or.inl (by omega))
  rcases Nat.lt_trichotomy k c with h | h | h
  · rw [hsw.early h]
    have : ¬ (k : Int) = c := by omega
    simp [stummWaltherError, this]
  · obtain ⟨h1, h2, h3⟩ := hsw.mid h
    subst h
    simp only [stummWaltherError, stummWalther, h1, h2]
    simp
    omega
  · obtain ⟨j, t, hp⟩ := phase_iter hc hM hmax' hcm h (by omega) strip body fill init
    exact (phase_step hk hp).1

/-- **C19/C21, backward.** At every moment of the backward pass while there is still a cotangent to
propagate: the value in hand is the value of its step, which lies before the step of the cotangent; the stack
has at most `c` entries, each holding a value the loop really had and its step, in increasing order and none
beyond the value in hand; a save always goes to a free slot below `c`; a U-turn is only made at the right
step, and there is then a checkpoint strictly before it to go back to. -/
theorem backward_memory (cond : W → Bool) (body : W → W) (vjp : W → C → B × C) (add : B → B → B)
    (strip : W → V) (refill : V → W) (M : Int) (c : Nat) (maxSteps : Option Nat) (fill : V) (init : W) (n : Nat)
    (gF : C) (b0 : B)
    (hc : 1 ≤ c) (hM : (n : Int) < M) (hmax : ∀ m, maxSteps = some m → n ≤ m)
    (hbuf : BufferContract body vjp strip refill init n)
    (s : Fwd W V) (hfwd : WhileRuns (fwdCond cond) (fwdBody body strip c maxSteps) n (fwdInit M c fill init) s)
    (t : Bwd V C B)
    (hreach : WhileReaches bwdCond (bwdBody body vjp strip refill add M c maxSteps)
        (bwdInit M c maxSteps (fwdFinish c maxSteps s) gF b0) t)
    (hpos : 0 < t.stepGrad) :
    0 ≤ t.stepVal ∧ t.stepVal < t.stepGrad ∧ t.stepGrad ≤ n ∧ t.val = strip (iter body t.stepVal.toNat init) ∧
    0 ≤ t.index ∧ t.index ≤ c ∧
    (∀ i : Nat, i < t.index → ∃ j : Nat, t.rsteps i = j ∧ j ≤ t.stepVal ∧ t.resid i = strip (iter body j init)) ∧
    (∀ i j : Nat, i < j → j < t.index → t.rsteps i < t.rsteps j) ∧
    (t.stepVal < t.stepNext) ∧ (t.stepNext < t.stepGrad → t.index < c) ∧
    (performUTurn c maxSteps t = true → t.stepVal + 1 = t.stepGrad ∧
      (1 < t.stepGrad → 1 ≤ t.index ∧ t.rsteps (t.index - 1).toNat < t.stepVal)) := by
  have hs := (whileRuns_iff.1 hfwd).1
  have hinv := fwdInv_iter hc hM hmax strip body fill init
  rw [← hs] at hinv
  obtain ⟨hst, hns, hearly, -⟩ := finish_stack hM hmax hinv
  have h0 := bwd_init (M := M) (maxSteps := maxSteps) (body := body) (vjp := vjp) (add := add) (init := init) (gF := gF) (b0 := b0)
    (fun h => hmax c h) hc hst hns hearly
  obtain ⟨G, hG⟩ := hreach.inv
    (fun s => ∃ G, BwdInv M c n (fun j => strip (iter body j init)) body vjp add init gF b0 s G) ⟨n, h0⟩ (by
      rintro u ⟨G, hG⟩ hcu
      have hsG := hG.stepGrad
      have hpos : 0 < G := by simp only [bwdCond, decide_eq_true_eq] at hcu; omega
      rcases bwd_step hM (fun h => hmax c h) hbuf hpos hG with h | h
      · exact ⟨_, h.2⟩
      · exact ⟨_, h.2.2.2⟩)
  have hsG := hG.stepGrad
  have hle := hG.le
  obtain ⟨sv, idx, hi⟩ := hG.ctrl (by omega)
  have h1 := hi.stepVal
  have h2 := hi.index
  have h3 := hi.lt
  have h4 := hi.stack.le
  refine ⟨by omega, by omega, by omega, ?_, by omega, by omega, ?_, ?_, ?_, ?_, ?_⟩
  · rw [hi.val, h1]; rfl
  · intro i hi'
    obtain ⟨j, ha, -, hb⟩ := hi.stack.used i (by omega)
    have := hi.below i (by omega)
    exact ⟨j, ha, by omega, hb⟩
  · intro i j hij hj; exact hi.stack.sorted i j hij (by omega)
  · rcases hi.next with h | h <;> omega
  · intro h
    rcases hi.next with h' | h' <;> omega
  · intro hp
    have hu : sv + 1 = G := by
      by_cases hcm : maxSteps = some c
      · exact (hi.dense (hmax c hcm)).1
      · simp only [performUTurn, if_neg hcm, decide_eq_true_eq] at hp; omega
    refine ⟨by omega, ?_⟩
    intro h
    have hone : 1 ≤ idx := by
      rcases hi.bottom with h' | h'
      · exact h'
      · omega
    have := hi.strict hu (idx - 1) (by omega)
    have he : (t.index - 1).toNat = idx - 1 := by omega
    rw [he]
    exact ⟨by omega, by omega⟩

/-- The example loop above meets the hypotheses of `backward_memory` in its initial state. -/
example : (0 : Int) < (bwdInit (V := Int) (C := Int) (B := Unit) 1000 2 none
    (fwdFinish 2 none (iter (fwdBody (fun x : Int => 2 * x + 1) id 2 none) 5 (fwdInit 1000 2 0 1))) 1 ()).stepGrad := by
  decide

/-- **C21.** The backward pass takes at least `n` and at most `n (n + 1) / 2` iterations, and exactly
`n`, so recomputes nothing, if there is a checkpoint for every step. -/
theorem backward_iterations (cond : W → Bool) (body : W → W) (vjp : W → C → B × C) (add : B → B → B)
    (strip : W → V) (refill : V → W) (M : Int) (c : Nat) (maxSteps : Option Nat) (fill : V) (init : W) (n : Nat)
    (gF : C) (b0 : B)
    (hc : 1 ≤ c) (hM : (n : Int) < M) (hmax : ∀ m, maxSteps = some m → n ≤ m)
    (hbuf : BufferContract body vjp strip refill init n)
    (s : Fwd W V) (hfwd : WhileRuns (fwdCond cond) (fwdBody body strip c maxSteps) n (fwdInit M c fill init) s) :
    ∃ N t, WhileRuns bwdCond (bwdBody body vjp strip refill add M c maxSteps) N
        (bwdInit M c maxSteps (fwdFinish c maxSteps s) gF b0) t ∧
      n ≤ N ∧ 2 * N ≤ n * (n + 1) ∧ (n ≤ c → N = n) := by
  have hs := (whileRuns_iff.1 hfwd).1
  have hinv := fwdInv_iter hc hM hmax strip body fill init
  rw [← hs] at hinv
  obtain ⟨hst, hns, hearly, -⟩ := finish_stack hM hmax hinv
  have h0 := bwd_init (M := M) (maxSteps := maxSteps) (body := body) (vjp := vjp) (add := add) (init := init) (gF := gF) (b0 := b0)
    (fun h => hmax c h) hc hst hns hearly
  obtain ⟨N, t, hN, hr, -⟩ := whileRuns_of_measure (cond := bwdCond)
    (body := bwdBody body vjp strip refill add M c maxSteps)
    (fun s => ∃ G, BwdInv M c n (fun j => strip (iter body j init)) body vjp add init gF b0 s G) measure _ ⟨n, h0⟩ (by
      rintro u ⟨G, hG⟩ hcu
      have hsG := hG.stepGrad
      have hpos : 0 < G := by simp only [bwdCond, decide_eq_true_eq] at hcu; omega
      refine ⟨?_, bwd_measure hM (fun h => hmax c h) hbuf hpos hG⟩
      rcases bwd_step hM (fun h => hmax c h) hbuf hpos hG with h | h
      · exact ⟨_, h.2⟩
      · exact ⟨_, h.2.2.2⟩)
  refine ⟨N, t, hr, ?_, ?_, ?_⟩
  · -- each iteration lowers the step of the cotangent by at most one
    have hlow : ∀ k, k ≤ N → ∃ G, n ≤ G + k ∧ BwdInv M c n (fun j => strip (iter body j init)) body vjp add init gF b0
        (iter (bwdBody body vjp strip refill add M c maxSteps) k (bwdInit M c maxSteps (fwdFinish c maxSteps s) gF b0)) G := by
      intro k
      induction k with
      | zero => intro _; exact ⟨n, by omega, h0⟩
      | succ k ih =>
        intro hk
        obtain ⟨G, hG1, hG2⟩ := ih (by omega)
        have hcu := (whileRuns_iff.1 hr).2.2 k (by omega)
        have hsG := hG2.stepGrad
        have hpos : 0 < G := by simp only [bwdCond, decide_eq_true_eq] at hcu; omega
        rw [iter_succ']
        rcases bwd_step hM (fun h => hmax c h) hbuf hpos hG2 with h | h
        · exact ⟨_, by omega, h.2⟩
        · exact ⟨_, by omega, h.2.2.2⟩
    obtain ⟨G, hG1, hG2⟩ := hlow N (Nat.le_refl N)
    have hstop := (whileRuns_iff.1 hr).2.1
    have hsG := hG2.stepGrad
    simp only [bwdCond, decide_eq_false_iff_not] at hstop
    omega
  · have ht := two_tri n
    have hm : measure (bwdInit (C := C) (B := B) M c maxSteps (fwdFinish c maxSteps s) gF b0) ≤ n + tri n := by
      rcases Nat.eq_zero_or_pos n with hn | hn
      · have hz : ¬ (bwdInit (C := C) (B := B) M c maxSteps (fwdFinish c maxSteps s) gF b0).stepGrad > 0 := by
          have := h0.stepGrad; omega
        simp [measure, hz]
      · obtain ⟨sv, idx, hi⟩ := h0.ctrl hn
        have h1 := hi.stepVal
        have h2 := h0.stepGrad
        simp only [measure, h1, h2]
        rw [if_pos (by omega)]
        simp only [Int.toNat_natCast]
        omega
    have : n * (n + 1) = n * n + n := by rw [Nat.mul_add]; omega
    omega
  · intro hnc
    obtain ⟨t', ht', -⟩ := whileRuns_of_countdown (cond := bwdCond) (body := bwdBody body vjp strip refill add M c maxSteps)
      (fun r s => BwdInv M c n (fun j => strip (iter body j init)) body vjp add init gF b0 s r) (by
        intro r u hu hcu
        have hsG := hu.stepGrad
        have hpos : 0 < r := by simp only [bwdCond, decide_eq_true_eq] at hcu; omega
        rcases bwd_step hM (fun h => hmax c h) hbuf hpos hu with h | h
        · exact ⟨r - 1, by omega, h.2⟩
        · exact absurd hnc h.2.1) (by
        intro r u hu hcu
        have hsG := hu.stepGrad
        simp only [bwdCond, decide_eq_false_iff_not] at hcu
        omega) n _ h0
    exact (hr.det ht').1

/-- **C53.** If the number of steps is below `(c + 1) (c + 2) / 2`, and in particular with the default
number of checkpoints, every step without a checkpoint is recomputed exactly once: the backward pass takes
`n + (n - c)` iterations, one U-turn for each step and one recomputation for each step beyond the `c` checkpoints. -/
theorem recomputed_once (cond : W → Bool) (body : W → W) (vjp : W → C → B × C) (add : B → B → B)
    (strip : W → V) (refill : V → W) (M : Int) (c : Nat) (maxSteps : Option Nat) (fill : V) (init : W) (n : Nat)
    (gF : C) (b0 : B)
    (hc : 1 ≤ c) (hM : (n : Int) < M) (hmax : ∀ m, maxSteps = some m → n ≤ m)
    (hbuf : BufferContract body vjp strip refill init n)
    (hfew : 2 * n < (c + 1) * (c + 2))
    (s : Fwd W V) (hfwd : WhileRuns (fwdCond cond) (fwdBody body strip c maxSteps) n (fwdInit M c fill init) s) :
    ∃ t, WhileRuns bwdCond (bwdBody body vjp strip refill add M c maxSteps) (n + (n - c))
        (bwdInit M c maxSteps (fwdFinish c maxSteps s) gF b0) t := by
  rcases Nat.lt_or_ge c n with hcn | hcn
  · have hs := (whileRuns_iff.1 hfwd).1
    have hinv := fwdInv_iter hc hM hmax strip body fill init
    have hu : (n : Int) ≤ u2m1 c := by
      unfold u2m1
      have h2 : 2 * (n : Int) < ((c : Int) + 1) * (c + 2) := by exact_mod_cast hfew
      -- the product of two consecutive numbers is even
      have heven : ((c : Int) + 1) * (c + 2) % 2 = 0 := by
        rcases Int.emod_two_eq_zero_or_one (c : Int) with h | h <;> simp [Int.mul_emod, Int.add_emod, h]
      omega
    have hg := finish_gap hc hM hmax hcn hu (strip := strip) (body := body) (fill := fill) (init := init)
    rw [← hs] at hinv hg
    obtain ⟨hst, hns, -⟩ := finish_stack hM hmax hinv
    have hmin : min n c = c := by omega
    rw [hmin] at hst
    have hcm : maxSteps ≠ some c := fun h => by have := hmax c h; omega
    have h0 := opt_init (M := M) (body := body) (vjp := vjp) (add := add) (init := init) (gF := gF) (b0 := b0) hcm hc hcn hst hns hg.1 hg.2
    obtain ⟨t, ht, -⟩ := whileRuns_of_countdown (cond := bwdCond) (body := bwdBody body vjp strip refill add M c maxSteps)
      (OptRun M c n (fun j => strip (iter body j init)) body vjp add init gF b0)
      (fun r u hu hcu => opt_step hM hcm hcn hbuf hu hcu)
      (by
        rintro r u ⟨G, hG, h1, -⟩ hcu
        have hsG := hG.stepGrad
        simp only [bwdCond, decide_eq_false_iff_not] at hcu
        exact h1 (by omega)) _ _ h0
    refine ⟨t, ?_⟩
    have : n + (n - c) = 2 * n - c := by omega
    rw [this]; exact ht
  · obtain ⟨N, t, hr, -, -, hN⟩ := backward_iterations cond body vjp add strip refill M c maxSteps fill init n gF b0 hc hM hmax hbuf s hfwd
    have : N = n + (n - c) := by have := hN hcn; omega
    exact ⟨t, this ▸ hr⟩

/-- Five steps and two checkpoints meet the hypothesis. -/
example : 2 * 5 < (2 + 1) * (2 + 2) := by decide

/-- **C22.** The default number of checkpoints for `m ≥ 1` steps is the smallest positive number `c`
with `m < (c + 1) (c + 2) / 2`. -/
theorem default_checkpoints_least (m : Nat) (hm : 1 ≤ m) :
    1 ≤ defaultCheckpoints m ∧
    2 * (m : Int) < (defaultCheckpoints m + 1) * (defaultCheckpoints m + 2) ∧
    ∀ c : Int, 1 ≤ c → 2 * (m : Int) < (c + 1) * (c + 2) → defaultCheckpoints m ≤ c := by
  obtain ⟨h1, h2, h3⟩ := default_spec m hm
  refine ⟨h1, h2, ?_⟩
  intro c hc h
  by_contra hlt
  have hle : c + 1 ≤ defaultCheckpoints m := by omega
  nlinarith

/-- **C22 (decision).** What the arguments lead to, in all cases: neither argument, or fewer than one
checkpoint, is a `ValueError`; otherwise zero steps return the initial value; otherwise the number of
checkpoints is the given or default one, but no more than the steps. -/
theorem resolve_spec (checkpoints : Option Int) (maxSteps : Option Nat) :
    (checkpoints = none → maxSteps = none → resolve checkpoints maxSteps = .error .valueError) ∧
    (∀ c, checkpoints = some c → c < 1 → resolve checkpoints maxSteps = .error .valueError) ∧
    (∀ c, checkpoints = some c → 1 ≤ c → maxSteps = some 0 → resolve checkpoints maxSteps = .ok .returnInit) ∧
    (∀ c, checkpoints = some c → 1 ≤ c → maxSteps = none → resolve checkpoints maxSteps = .ok (.run c)) ∧
    (∀ c m, checkpoints = some c → 1 ≤ c → maxSteps = some m → 1 ≤ m →
      resolve checkpoints maxSteps = .ok (.run (min c m))) ∧
    (∀ m, checkpoints = none → maxSteps = some m → 1 ≤ m →
      resolve checkpoints maxSteps = .ok (.run (min (defaultCheckpoints m) m))) := by
  refine ⟨?_, ?_, ?_, ?_, ?_, ?_⟩
  · rintro rfl rfl; rfl
  · rintro c rfl h; simp [resolve, plan, h]
  · rintro c rfl h rfl
    have : ¬ c < 1 := by omega
    simp [resolve, plan, this]
  · rintro c rfl h rfl
    have : ¬ c < 1 := by omega
    simp [resolve, plan, this]
  · rintro c m rfl h rfl hm
    have : ¬ c < 1 := by omega
    obtain ⟨k, rfl⟩ : ∃ k, m = k + 1 := ⟨m - 1, by omega⟩
    simp [resolve, plan, this]
  · rintro m rfl rfl hm
    obtain ⟨h1, h2, -⟩ := default_spec m hm
    have : ¬ defaultCheckpoints m < 1 := by omega
    obtain ⟨k, rfl⟩ : ∃ k, m = k + 1 := ⟨m - 1, by omega⟩
    simp only [resolve, plan, this, if_false]
    rw [if_neg (by simp only [not_and, not_not]; exact fun _ => h2)]

/-- **C22 (finding).** Zero steps with the default number of checkpoints is a `ValueError`, although
zero steps with any valid explicit number of checkpoints returns the initial value. -/
theorem default_zero_steps_raises : resolve none (some 0) = .error .valueError ∧
    ∀ c, 1 ≤ c → resolve (some c) (some 0) = .ok .returnInit := by
  constructor
  · simp [resolve, plan, default_zero]
  · intro c hc
    exact (resolve_spec (some c) (some 0)).2.2.1 c rfl hc rfl

/-- **C22 (consequence).** With the default number of checkpoints the loop stays below the bound of
`recomputed_once` for any number of steps it may take. -/
theorem default_recomputes_once (m n : Nat) (hm : 1 ≤ m) (hn : n ≤ m) :
    2 * (n : Int) < (defaultCheckpoints m + 1) * (defaultCheckpoints m + 2) := by
  have := (default_checkpoints_least m hm).2.1
  omega

end Checkpoint
end Verif
