import Verif.Loop.Common.Lemmas
import Verif.Loop.Checkpoint.Props

/-!
# Properties of `while_loop` (C23, C24), of loop buffers (C25), and of nested loops (C55)
-/

namespace Verif
namespace Common

variable {B : Nat} {σ P V α τ : Type}

/-! ### Buffers -/

/-- **C25.** Writing to a buffer gives the new value where the index points to if the given predicate and all predicates
of the loops around are true, and otherwise the old value; no other position changes. The hypothesis is missing in the
full claim, see `buffer_nested_leak`. -/
theorem buffer_set_partial (b : Buffer P V) (w : P → Option V) (pred : Option (Bool × Bool))
    (h : b.effective = true ∨ b.live = true) (p : P) :
    (b.set w pred).get p = (if (Buffer.predVal pred && b.wraps.all (·.1)) = true then (w p).getD (b.get p) else b.get p) ∧
    (b.set w pred).wraps = b.wraps := by
  rw [Buffer.set_get b w pred h]
  exact ⟨rfl, Buffer.set_wraps b w pred⟩

/-- A single loop (whose buffer was an array): if its predicate is not batched then it is true, unless the loop may make
false steps. -/
theorem buffer_set_single (xs : P → V) (w : P → Option V) (pred : Option (Bool × Bool)) (live batched mfs : Bool)
    (h : batched = false → mfs = false → live = true) (p : P) :
    ((Buffer.wrap (.arr xs) live batched mfs).set w pred).get p =
      if (Buffer.predVal pred && live) = true then (w p).getD (xs p) else xs p := by
  have := (buffer_set_partial (Buffer.wrap (.arr xs) live batched mfs) w pred (by
    simp only [Buffer.effective, Buffer.live, Buffer.wraps, List.any_cons, List.any_nil, List.all_cons, List.all_nil]
    cases batched <;> cases mfs <;> cases live <;> simp_all) p).1
  rw [this]
  simp [Buffer.wraps, Buffer.get]

/-- **C25 (finding).** Without the hypothesis the claim is false: if neither predicate is batched and the outer loop makes no false
steps, a false predicate of the inner loop is ignored. -/
theorem buffer_nested_leak :
    ((Buffer.wrap (.wrap (.arr (fun _ : Unit => 0)) false false true) true false false).set (fun _ => some 1) none).get () = 1 := by
  rfl

/-- **C25 (chains).** Any sequence of reads and writes gives the same values read, and the same contents, as on a plain
array, if the step is live; otherwise the contents do not change. -/
theorem buffer_chain_partial (f : Prog P V α) (b : Buffer P V) (h : b.effective = true ∨ b.live = true) :
    (b.live = true → ((f.run b).1, (f.run b).2.get) = f.plain b.get) ∧
    (b.live = false → (f.run b).2.get = b.get) := by
  refine ⟨Prog.run_live f b, ?_⟩
  intro hl
  exact Prog.run_dead f b hl (by rcases h with h | h; · exact h
                                 · rw [hl] at h; exact absurd h (by simp))

/-- Two nested loops, both live on this lane, and three writes, one of them with a false predicate. -/
example : ((List.range 4).map ((((Buffer.wrap (.wrap (.arr (fun n : Nat => n)) true true false) true true false).set
      (fun p => if p = 1 then some 10 else none) none).set (fun p => if p = 2 then some 20 else none) (some (false, true))).set
      (fun p => if p = 3 then some 30 else none) (some (true, false))).get) = [0, 10, 2, 30] := by
  rfl

/-! ### `lax.while_loop` -/

theorem iter_step (L : Loop B σ P V) (c : Carry B σ P V) (k : Nat) : (iter L.newBody k c).step = c.step + k := by
  induction k with
  | zero => rfl
  | succ k ih =>
    rw [iter_succ']
    show (iter L.newBody k c).step + 1 = _
    omega

section
variable {L : Loop B σ P V} {plain : Fin B → σ × (P → V) → σ × (P → V)} {init : Fin B → Lane σ P V}

theorem lax_inv (hb : Lanewise L.body plain) (hl : ∀ i, (init i).buf.live = true)
    (hu : L.batched = true ∨ Unbatched L plain (fun i => (init i).st)) {n : Nat}
    (hgo : ∀ k, k < n → L.newCond (iter L.newBody k (L.newInit init)) = true) :
    Inv L plain init n (iter L.newBody n (L.newInit init)) := by
  induction n with
  | zero => exact inv_init L plain init
  | succ n ih =>
    rw [iter_succ']
    have := ih (fun k hk => hgo k (by omega))
    exact inv_step hb this (fun i _ hp => own_of_going hl hu this (hgo n (by omega)) i hp)

theorem lax_steps_le {n : Nat} {c : Carry B σ P V} (h : WhileRuns L.newCond L.newBody n (L.newInit init) c) (m : Nat)
    (hm : L.maxSteps = some m) : n ≤ m := by
  obtain ⟨_, _, h3⟩ := whileRuns_iff.1 h
  cases n with
  | zero => omega
  | succ n =>
    have := ((newCond_eq L _).1 (h3 n (by omega))).2 m hm
    rw [iter_step] at this
    simp only [Loop.newInit] at this
    omega

/-- **C24.** If the loop ends after `n` iterations, then on each lane it has the value which the plain loop has on this lane,
which took at most `n` steps. -/
theorem lax_value (hb : Lanewise L.body plain) (hl : ∀ i, (init i).buf.live = true)
    (hu : L.batched = true ∨ Unbatched L plain (fun i => (init i).st)) {n : Nat} {out : Fin B → Lane σ P V}
    (h : LaxRuns L init n out) (i : Fin B) :
    ∃ k, k ≤ n ∧ StopsAfter (L.condAt i) (plain i) L.maxSteps (init i).st k ∧
      (out i).st = iter (plain i) k (init i).st := by
  obtain ⟨c, hr, rfl⟩ := h
  obtain ⟨h1, h2, h3⟩ := whileRuns_iff.1 hr
  have hinv := lax_inv hb hl hu h3
  rw [← h1] at hinv h2
  obtain ⟨hv, _⟩ := hinv.live i (hl i)
  obtain ⟨k, k1, k2, k3, k4⟩ := fstep_returns (L.condAt i) (plain i) (init i).st n
  refine ⟨k, k1, ⟨k2, ?_, ?_⟩, by rw [hv, k4]⟩
  · rcases k3 with k3 | k3
    · exact .inl k3
    · subst k3
      cases hc : L.condAt i (iter (plain i) k (init i).st) with
      | false => exact .inl rfl
      | true =>
        refine .inr ?_
        rw [← k4, ← hv] at hc
        have hnc : ¬ ((∃ i, L.condAt i (c.lane i).st = true) ∧ ∀ m, L.maxSteps = some m → c.step < m) := by
          rw [← newCond_eq, h2]; simp
        cases hm : L.maxSteps with
        | none => exact absurd ⟨⟨i, hc⟩, by simp [hm]⟩ hnc
        | some m =>
          have hle := lax_steps_le hr m hm
          have hstep : c.step = k := by rw [h1, iter_step]; simp [Loop.newInit]
          by_cases hkm : k = m
          · rw [hkm]
          · exact absurd ⟨⟨i, hc⟩, by intro m' hm'; rw [hm] at hm'; cases hm'; omega⟩ hnc
  · intro m hm
    have := lax_steps_le hr m hm
    omega

theorem StopsAfter.unique {cond : τ → Bool} {body : τ → τ} {m s k k'} (h : StopsAfter cond body m s k)
    (h' : StopsAfter cond body m s k') : k = k' := by
  have key : ∀ {a b}, StopsAfter cond body m s a → StopsAfter cond body m s b → ¬ a < b := by
    intro a b ha hb hab
    rcases ha.stop with h | h
    · rw [hb.before a hab] at h; exact absurd h (by simp)
    · have := hb.bound _ h; omega
  have := key h h'
  have := key h' h
  omega

/-- **C24 (termination).** If the plain loop ends on every lane, after `ns i` steps on lane `i`, then the loop ends, after as many
iterations as the slowest lane needs. -/
theorem lax_terminates (hb : Lanewise L.body plain) (hl : ∀ i, (init i).buf.live = true)
    (hu : L.batched = true ∨ Unbatched L plain (fun i => (init i).st)) (ns : Fin B → Nat)
    (h : ∀ i, StopsAfter (L.condAt i) (plain i) L.maxSteps (init i).st (ns i)) :
    ∃ n out, LaxRuns L init n out ∧ (∀ i, ns i ≤ n) ∧ (n = 0 ∨ ∃ i, ns i = n) := by
  have hlt : ∀ {k c}, Inv L plain init k c → c.step = k → L.newCond c = true → ∃ i, k < ns i := by
    intro k c hinv hs hc
    obtain ⟨⟨i, hi⟩, hm⟩ := (newCond_eq L c).1 hc
    refine ⟨i, ?_⟩
    apply Decidable.byContradiction
    intro hge
    have hge : ns i ≤ k := by omega
    have := (h i).fstep hge (fun m hm' => by have := hm m hm'; omega)
    rw [(hinv.live i (hl i)).1, this] at hi
    rcases (h i).stop with h' | h'
    · rw [hi] at h'; exact absurd h' (by simp)
    · have := hm _ h'; omega
  obtain ⟨N, hN⟩ : ∃ N, ∀ i, ns i ≤ N := by
    clear hlt h hl hu hb
    induction B with
    | zero => exact ⟨0, fun i => i.elim0⟩
    | succ B ih =>
      obtain ⟨N, hN⟩ := ih (L := { cond := fun i => L.cond i.succ, body := fun ls => ls, maxSteps := none, batched := false, makesFalseSteps := false })
        (plain := fun i => plain i.succ) (init := fun i => init i.succ) (fun i => ns i.succ)
      refine ⟨max N (ns 0), fun i => ?_⟩
      refine Fin.cases (by omega) (fun j => ?_) i
      have := hN j
      omega
  obtain ⟨n, c, _, hr, _⟩ := whileRuns_of_measure (cond := L.newCond) (body := L.newBody)
    (fun c => ∃ k, Inv L plain init k c ∧ c.step = k) (fun c => N - c.step) (L.newInit init)
    ⟨0, inv_init L plain init, rfl⟩ (by
      rintro c ⟨k, hk, hs⟩ hc
      refine ⟨⟨k + 1, inv_step hb hk (fun i _ hp => own_of_going hl hu hk hc i hp), ?_⟩, ?_⟩
      · show c.step + 1 = _; omega
      · obtain ⟨i, hi⟩ := hlt hk hs hc
        have := hN i
        show N - (c.step + 1) < N - c.step
        omega)
  have hle : ∀ i, ns i ≤ n := by
    intro i
    obtain ⟨k, hk, hst, _⟩ := lax_value hb hl hu ⟨c, hr, rfl⟩ i
    rw [(h i).unique hst]; exact hk
  refine ⟨n, c.lane, ⟨c, hr, rfl⟩, hle, ?_⟩
  cases n with
  | zero => exact .inl rfl
  | succ n =>
    right
    obtain ⟨_, _, h3⟩ := whileRuns_iff.1 hr
    have hinv := lax_inv hb hl hu (n := n) (fun k hk => h3 k (by omega))
    obtain ⟨i, hi⟩ := hlt hinv (by rw [iter_step]; simp [Loop.newInit]) (h3 n (by omega))
    exact ⟨i, by have := hle i; omega⟩

/-- Enclosing loops keep their wrappers. -/
theorem lax_wraps (hb : Lanewise L.body plain) {n : Nat} {out : Fin B → Lane σ P V} (h : LaxRuns L init n out) (i : Fin B) :
    (out i).buf.wraps = (init i).buf.wraps := by
  obtain ⟨c, hr, rfl⟩ := h
  have : ∀ k, ((iter L.newBody k (L.newInit init)).lane i).buf.wraps = (init i).buf.wraps := by
    intro k
    induction k with
    | zero => rfl
    | succ k ih => rw [iter_succ', newBody_wraps hb, ih]
  rw [(whileRuns_iff.1 hr).1, this]

/-- On a lane on which an enclosing loop has ended, a loop does not change the buffers. -/
theorem lax_dead (hb : Lanewise L.body plain) {n : Nat} {out : Fin B → Lane σ P V} (h : LaxRuns L init n out) (i : Fin B)
    (hl : (init i).buf.live = false) (he : (init i).buf.effective = true) : (out i).buf.get = (init i).buf.get := by
  obtain ⟨c, hr, rfl⟩ := h
  have hw : ∀ k, ((iter L.newBody k (L.newInit init)).lane i).buf.wraps = (init i).buf.wraps := by
    intro k
    induction k with
    | zero => rfl
    | succ k ih => rw [iter_succ', newBody_wraps hb, ih]
  have : ∀ k, ((iter L.newBody k (L.newInit init)).lane i).buf.get = (init i).buf.get := by
    intro k
    induction k with
    | zero => rfl
    | succ k ih =>
      rw [iter_succ', newBody_dead hb _ i (by rw [Buffer.live_congr (hw k)]; exact hl)
        (by rw [Buffer.effective_congr (hw k)]; exact he), ih]
  rw [(whileRuns_iff.1 hr).1, this]

end

/-! ### `bounded_while_loop` -/

theorem iter_mul (f : τ → τ) (a b : Nat) (s : τ) : iter (iter f a) b s = iter f (a * b) s := by
  induction b generalizing s with
  | zero => rfl
  | succ b ih => rw [iter, ih, ← iter_add, Nat.mul_succ, Nat.add_comm]

theorem scanN_some {f : τ → Option τ} {g : τ → τ} (h : ∀ v, f v = some (g v)) (n : Nat) (v : τ) :
    scanN f n v = some (iter g n v) := by
  induction n generalizing v with
  | zero => rfl
  | succ n ih => simp only [scanN, h, ih]; rfl

/-- The nested scans are `base ^ k` guarded steps. -/
theorem boundedRec_eq {cond : τ → Bool} {body : τ → τ} {base : Nat} (hb : 2 ≤ base) (k fuel : Nat) (hf : k < fuel) (v : τ)
    (h : 1 ≤ k ∨ cond v = true) : boundedRec cond body base fuel (base ^ k) v = some (iter (fstep cond body) (base ^ k) v) := by
  induction k generalizing fuel v with
  | zero =>
    obtain ⟨fuel, rfl⟩ : ∃ f, fuel = f + 1 := ⟨fuel - 1, by omega⟩
    have hc : cond v = true := by rcases h with h | h; · omega
                                  · exact h
    simp [boundedRec, iter, fstep, hc]
  | succ k ih =>
    obtain ⟨fuel, rfl⟩ : ∃ f, fuel = f + 1 := ⟨fuel - 1, by omega⟩
    have hne : base ^ (k + 1) ≠ 1 := by
      rw [Nat.pow_succ]
      have : 1 ≤ base ^ k := Nat.one_le_pow _ _ (by omega)
      have : 1 * 2 ≤ base ^ k * base := Nat.mul_le_mul this hb
      omega
    have hdiv : base ^ (k + 1) / base = base ^ k := by
      rw [Nat.pow_succ, Nat.mul_div_cancel _ (by omega)]
    rw [boundedRec, if_neg hne, hdiv]
    rw [scanN_some (g := iter (fstep cond body) (base ^ k))]
    · rw [iter_mul, Nat.pow_succ]
    · intro v
      split
      · rename_i hc
        exact ih fuel (by omega) v (.inr hc)
      · rename_i hc
        simp only [Bool.not_eq_true] at hc
        rw [fstep_stop hc]

/-- When a loop's own predicate is heeded: `cond` is batched, or the code looks at the predicates on every lane (for
example because the buffers are not those of an enclosing loop), or `cond` is not batched and more than one step is allowed. -/
def Heeded (L : Loop B σ P V) (plain : Fin B → σ × (P → V) → σ × (P → V)) (init : Fin B → Lane σ P V) (maxSteps : Nat) : Prop :=
  L.batched = true ∨ (∀ i, (init i).buf.effective = true) ∨
  (Unbatched L plain (fun i => (init i).st) ∧ 2 ≤ maxSteps ∧
    ((∀ i, (init i).buf.live = true) ∨ ∀ i, (init i).buf.live = false))

/-- **C23, C24 (bounded).** With `max_steps = m`, `base ≥ 2`, and a logarithm that was not rounded down, the loop returns on each lane
what the plain loop with at most `m` steps returns. On lanes on which an enclosing loop has ended the buffers are
unchanged. -/
theorem bounded_value {L : Loop B σ P V} {plain : Fin B → σ × (P → V) → σ × (P → V)} {init : Fin B → Lane σ P V}
    (hb : Lanewise L.body plain) {m base l : Nat} (hbase : 2 ≤ base) (hlog : m ≤ base ^ l) (hok : Heeded L plain init m) :
    ∃ out, boundedWhile L m base l init = some out ∧ ∀ i,
      (out i).buf.wraps = (init i).buf.wraps ∧
      ((init i).buf.live = true → (out i).st = iter (fstep (L.condAt i) (plain i)) m (init i).st) ∧
      ((init i).buf.live = false → (init i).buf.effective = true → (out i).buf.get = (init i).buf.get) := by
  unfold boundedWhile
  by_cases hm : m = 0
  · subst hm
    exact ⟨init, by simp, fun i => ⟨rfl, fun _ => rfl, fun _ _ => rfl⟩⟩
  rw [if_neg hm]
  let L' : Loop B σ P V := { L with maxSteps := some m, makesFalseSteps := true }
  have hb' : Lanewise L'.body plain := hb
  show ∃ out, (boundedRec L'.newCond L'.newBody base (base ^ l) (base ^ l) (L'.newInit init)).map (·.lane) = some out ∧ _
  have hcond : ∀ i, L'.condAt i = L.condAt i := fun _ => rfl
  by_cases hl0 : l = 0
  · subst hl0
    have hm1 : m = 1 := by simp at hlog; omega
    subst hm1
    refine ⟨(L'.newBody (L'.newInit init)).lane, by simp [boundedRec], ?_⟩
    have hown : ∀ i, Own L' (init i).buf := by
      intro i
      rcases hok with h | h | ⟨_, h, _⟩
      · exact .inl h
      · exact .inr ⟨rfl, h i⟩
      · omega
    have hinv := inv_step hb' (inv_init L' plain init) (fun i _ _ => hown i)
    exact fun i => ⟨hinv.wraps i, fun h => (hinv.live i h).1, hinv.dead i⟩
  · have hlt : l < base ^ l := Nat.lt_pow_self (by omega)
    rw [boundedRec_eq hbase l _ hlt _ (.inl (by omega))]
    refine ⟨_, rfl, ?_⟩
    -- the state after any number of guarded steps
    have key : ∀ n, ∃ k, k ≤ n ∧ k ≤ m ∧ Inv L' plain init k (iter (fstep L'.newCond L'.newBody) n (L'.newInit init)) ∧
        (iter (fstep L'.newCond L'.newBody) n (L'.newInit init)).step = k ∧
        (k = n ∨ L'.newCond (iter (fstep L'.newCond L'.newBody) n (L'.newInit init)) = false) := by
      intro n
      induction n with
      | zero => exact ⟨0, by omega, by omega, inv_init L' plain init, rfl, .inl rfl⟩
      | succ n ih =>
        obtain ⟨k, h1, h2, h3, h4, h5⟩ := ih
        rw [iter_succ']
        generalize hc : iter (fstep L'.newCond L'.newBody) n (L'.newInit init) = c at *
        cases hgo : L'.newCond c with
        | false =>
          refine ⟨k, by omega, h2, ?_, ?_, .inr ?_⟩ <;> simp [fstep, hgo, h3, h4]
        | true =>
          have hk : k = n := by rcases h5 with h | h; · exact h
                                · rw [hgo] at h; exact absurd h (by simp)
          subst hk
          have hstep := ((newCond_eq L' c).1 hgo).2 m rfl
          refine ⟨k + 1, by omega, by omega, ?_, ?_, .inl rfl⟩
          · simp only [fstep, hgo, if_true]
            refine inv_step hb' h3 ?_
            intro i hli hp
            rcases hok with h | h | ⟨hu, _, hall | hall⟩
            · exact .inl h
            · exact .inr ⟨rfl, by rw [Buffer.effective_congr (h3.wraps i)]; exact h i⟩
            · exact own_of_going (L := L') hall (.inr hu) h3 hgo i hp
            · rw [hall i] at hli; exact absurd hli (by simp)
          · simp only [fstep, hgo, if_true]
            show c.step + 1 = _
            omega
    obtain ⟨k, h1, h2, h3, h4, h5⟩ := key (base ^ l)
    intro i
    refine ⟨h3.wraps i, ?_, h3.dead i⟩
    intro hli
    obtain ⟨hv, _⟩ := h3.live i hli
    rw [hv, hcond]
    by_cases hkm : k = m
    · rw [hkm]
    · have hfalse : L'.newCond (iter (fstep L'.newCond L'.newBody) (base ^ l) (L'.newInit init)) = false := by
        rcases h5 with h | h
        · omega
        · exact h
      have hci : L.condAt i (iter (fstep (L.condAt i) (plain i)) k (init i).st) = false := by
        cases hc : L.condAt i (iter (fstep (L.condAt i) (plain i)) k (init i).st) with
        | false => rfl
        | true =>
          have : L'.newCond (iter (fstep L'.newCond L'.newBody) (base ^ l) (L'.newInit init)) = true := by
            rw [newCond_eq]
            refine ⟨⟨i, by rw [hv]; exact hc⟩, ?_⟩
            intro m' hm'
            have : m = m' := by simpa [L'] using hm'
            omega
          rw [hfalse] at this
          exact absurd this (by simp)
      obtain ⟨d, rfl⟩ : ∃ d, m = k + d := ⟨m - k, by omega⟩
      rw [iter_add, fstep_stop hci]

theorem fstep_Returns (cond : τ → Bool) (body : τ → τ) (s : τ) (m : Nat) :
    Returns cond body (some m) s (iter (fstep cond body) m s) := by
  obtain ⟨n, h1, h2, h3, h4⟩ := fstep_returns cond body s m
  refine ⟨n, ⟨h2, ?_, ?_⟩, h4⟩
  · rcases h3 with h | h
    · exact .inl h
    · exact .inr (by rw [h])
  · rintro m' h; cases h; exact h1

/-! ### `while_loop` -/

/-- The arguments of a bounded loop make sense: `base ≥ 2`, and the logarithm was not rounded down. -/
def Kind.Sensible (maxSteps : Option Nat) : Kind → Prop
  | .bounded base l => 2 ≤ base ∧ ∀ m, maxSteps = some m → m ≤ base ^ l
  | _ => True

/-- **C23, C24.** Whatever the kind of the loop: if it returns, then on each lane it returns what applying the body while the condition holds,
but at most `max_steps` times, gives on this lane. -/
theorem while_loop_value {L : Loop B σ P V} {plain : Fin B → σ × (P → V) → σ × (P → V)} {init : Fin B → Lane σ P V}
    (hb : Lanewise L.body plain) (harr : ∀ i, (init i).buf.wraps = [])
    (hu : L.batched = true ∨ Unbatched L plain (fun i => (init i).st)) {kind : Kind} (hk : kind.Sensible L.maxSteps)
    {out : Fin B → Lane σ P V} (h : WhileLoop L init kind (.ok out)) (i : Fin B) :
    Returns (L.condAt i) (plain i) L.maxSteps (init i).st (out i).st := by
  have hl : ∀ i, (init i).buf.live = true := fun i => by simp [Buffer.live, harr i]
  cases h with
  | lax h =>
    obtain ⟨k, _, h1, h2⟩ := lax_value (L := { L with makesFalseSteps := false }) hb hl hu h i
    exact ⟨k, h1, h2⟩
  | checkpointed _ h =>
    obtain ⟨k, _, h1, h2⟩ := lax_value (L := { L with makesFalseSteps := false }) hb hl hu h i
    exact ⟨k, h1, h2⟩
  | @checkpointedInit k h =>
    refine ⟨0, ⟨by simp, ?_, by omega⟩, rfl⟩
    cases hm : L.maxSteps with
    | none =>
      rw [hm] at h
      cases k <;> simp only [Checkpoint.resolve, Checkpoint.plan] at h
      · exact absurd h (by simp)
      · split at h <;> exact absurd h (by simp)
    | some m =>
      cases m with
      | zero => exact .inr rfl
      | succ m =>
        rw [hm] at h
        cases k <;> simp only [Checkpoint.resolve, Checkpoint.plan] at h
        · split at h
          · exact absurd h (by simp)
          · split at h <;> exact absurd h (by simp)
        · split at h <;> exact absurd h (by simp)
  | @bounded base l m _ hm h =>
    obtain ⟨hk1, hk2⟩ := hk
    obtain ⟨out', h1, h2⟩ := bounded_value (L := L) (init := init) hb hk1 (hk2 m hm)
      (.inr (.inl fun i => by simp [Buffer.effective, harr i]))
    rw [h] at h1; cases h1
    rw [hm, ((h2 i).2.1 (hl i))]
    exact fstep_Returns _ _ _ _

/-- The arguments that are errors: an unknown kind, a bounded loop without `max_steps`, or what
`Checkpoint.resolve_spec` lists. -/
def Kind.Rejected (maxSteps : Option Nat) : Kind → Prop
  | .lax => False
  | .checkpointed k => ∃ e, Checkpoint.resolve k maxSteps = .error e
  | .bounded _ _ => maxSteps = none
  | .other => True

/-- **C23, C24 (completeness).** Whatever the kind of the loop: if the plain loop returns on every lane and the arguments are not rejected, then the
loop returns. It never raises then. -/
theorem while_loop_returns {L : Loop B σ P V} {plain : Fin B → σ × (P → V) → σ × (P → V)} {init : Fin B → Lane σ P V}
    (hb : Lanewise L.body plain) (harr : ∀ i, (init i).buf.wraps = [])
    (hu : L.batched = true ∨ Unbatched L plain (fun i => (init i).st)) {kind : Kind} (hk : kind.Sensible L.maxSteps)
    (h : ∀ i, ∃ t, Returns (L.condAt i) (plain i) L.maxSteps (init i).st t) :
    ((∃ out, WhileLoop L init kind (.ok out)) ↔ ¬ kind.Rejected L.maxSteps) ∧
    ((∃ e, WhileLoop L init kind (.error e)) ↔ kind.Rejected L.maxSteps) := by
  have hl : ∀ i, (init i).buf.live = true := fun i => by simp [Buffer.live, harr i]
  have hlax : ∃ n out, LaxRuns { L with makesFalseSteps := false } init n out := by
    obtain ⟨n, out, h1, _⟩ := lax_terminates (L := { L with makesFalseSteps := false }) hb hl hu
      (fun i => ((h i).choose_spec).choose) (fun i => ((h i).choose_spec).choose_spec.1)
    exact ⟨n, out, h1⟩
  obtain ⟨n, out, hlax⟩ := hlax
  cases kind with
  | lax =>
    refine ⟨⟨fun _ h => h, fun _ => ⟨out, .lax hlax⟩⟩, ⟨?_, fun h => h.elim⟩⟩
    rintro ⟨e, he⟩; cases he
  | other =>
    refine ⟨⟨?_, fun h => (h trivial).elim⟩, ⟨fun _ => trivial, fun _ => ⟨_, .other⟩⟩⟩
    rintro ⟨o, ho⟩; cases ho
  | checkpointed k =>
    constructor
    · constructor
      · rintro ⟨o, ho⟩ ⟨e, he⟩
        cases ho with
        | checkpointedInit h => rw [he] at h; cases h
        | checkpointed h _ => rw [he] at h; cases h
      · intro hn
        cases hr : Checkpoint.resolve k L.maxSteps with
        | error e => exact absurd ⟨e, hr⟩ hn
        | ok p =>
          cases p with
          | returnInit => exact ⟨_, .checkpointedInit hr⟩
          | run c => exact ⟨_, .checkpointed hr hlax⟩
    · constructor
      · rintro ⟨e, he⟩
        cases he with
        | checkpointedError h => exact ⟨_, h⟩
      · rintro ⟨e, he⟩
        exact ⟨e, .checkpointedError he⟩
  | bounded base l =>
    constructor
    · constructor
      · rintro ⟨o, ho⟩ hm
        cases ho with
        | bounded h _ => rw [hm] at h; cases h
      · intro hn
        cases hm : L.maxSteps with
        | none => exact absurd hm hn
        | some m =>
          obtain ⟨out', h1, _⟩ := bounded_value (L := L) (init := init) hb hk.1 (hk.2 m hm)
            (.inr (.inl fun i => by simp [Buffer.effective, harr i]))
          exact ⟨_, .bounded hm h1⟩
    · constructor
      · rintro ⟨e, he⟩
        cases he with
        | boundedNone h => exact h
      · intro hm
        exact ⟨_, .boundedNone hm⟩

/-- **C23 (differentiating).** The forward pass of the checkpointed loop, which saves checkpoints, also returns these values. -/
theorem checkpointed_forward_value {L : Loop B σ P V} {plain : Fin B → σ × (P → V) → σ × (P → V)} {init : Fin B → Lane σ P V}
    (hb : Lanewise L.body plain) (hl : ∀ i, (init i).buf.live = true)
    (hu : L.batched = true ∨ Unbatched L plain (fun i => (init i).st))
    (h : ∀ i, ∃ t, Returns (L.condAt i) (plain i) L.maxSteps (init i).st t)
    {W : Type} (strip : Carry B σ P V → W) (M : Int) (c : Nat) (fill : W) :
    ∃ n s, WhileRuns (Checkpoint.fwdCond L.newCond) (Checkpoint.fwdBody L.newBody strip c L.maxSteps) n
        (Checkpoint.fwdInit M c fill (L.newInit init)) s ∧ (∀ m, L.maxSteps = some m → n ≤ m) ∧
      ∀ i, Returns (L.condAt i) (plain i) L.maxSteps (init i).st (s.val.lane i).st := by
  obtain ⟨n, out, ⟨cy, hr, rfl⟩, _⟩ := lax_terminates (L := L) hb hl hu
    (fun i => ((h i).choose_spec).choose) (fun i => ((h i).choose_spec).choose_spec.1)
  obtain ⟨s, hs, hv⟩ := Checkpoint.forward_value L.newCond L.newBody strip M c L.maxSteps fill (L.newInit init) cy n hr
  refine ⟨n, s, hs, lax_steps_le hr, fun i => ?_⟩
  obtain ⟨k, _, h1, h2⟩ := lax_value hb hl hu ⟨cy, hr, rfl⟩ i
  rw [hv]
  exact ⟨k, h1, h2⟩

/-! ### Nested loops -/

/-- **C55.** A bounded loop in the body of another loop does on each lane what it should, if its condition is batched, or if nothing is
batched and more than one step is allowed. -/
theorem nested_bounded {L : Loop B σ P V} {plain : Fin B → σ × (P → V) → σ × (P → V)} (hb : Lanewise L.body plain)
    {m base l : Nat} (hbase : 2 ≤ base) (hlog : m ≤ base ^ l) (hok : L.batched = true ∨ (B = 1 ∧ m ≠ 1)) :
    Lanewise (fun ls i => (boundedWhile L m base l ls).getD ls i)
      (fun i x => iter (fstep (L.condAt i) (plain i)) m x) := by
  have key : ∀ ls : Fin B → Lane σ P V, m = 0 ∨ Heeded L plain ls m := by
    intro ls
    rcases hok with h | ⟨h, h'⟩
    · exact .inr (.inl h)
    · by_cases hm : m = 0
      · exact .inl hm
      subst h
      refine .inr (.inr (.inr ⟨⟨_, id, L.condAt 0, plain 0, ?_, ?_, ?_⟩, by omega, ?_⟩))
      · intro i x; rw [Subsingleton.elim i 0]; rfl
      · intro i x; rw [Subsingleton.elim i 0]; rfl
      · intro i j; rw [Subsingleton.elim i j]
      · cases h0 : (ls 0).buf.live with
        | true => exact .inl (fun i => by rw [Subsingleton.elim i 0]; exact h0)
        | false => exact .inr (fun i => by rw [Subsingleton.elim i 0]; exact h0)
  have hval : ∀ ls : Fin B → Lane σ P V, ∀ i,
      ((boundedWhile L m base l ls).getD ls i).buf.wraps = (ls i).buf.wraps ∧
      ((ls i).buf.live = true → ((boundedWhile L m base l ls).getD ls i).st = iter (fstep (L.condAt i) (plain i)) m (ls i).st) ∧
      ((ls i).buf.live = false → (ls i).buf.effective = true →
        ((boundedWhile L m base l ls).getD ls i).buf.get = (ls i).buf.get) := by
    intro ls i
    rcases key ls with h | h
    · subst h
      simp only [boundedWhile, if_true, Option.getD_some]
      exact ⟨trivial, fun _ => rfl, fun _ _ => trivial⟩
    · obtain ⟨out, h1, h2⟩ := bounded_value hb hbase hlog h
      rw [h1]
      exact h2 i
  exact ⟨fun ls i => (hval ls i).1, fun ls i => (hval ls i).2.1, fun ls i => (hval ls i).2.2⟩

/-! ### Examples -/

/-- Two lanes. The body counts in `σ` and writes the count to the buffer at that index; the condition is that the count is below a limit
given by the lane, or above 7. -/
def exBody (x : Nat) : Prog Nat Nat Nat :=
  .write (fun p => if p = x then some (10 * x) else none) none (.read x fun v => .ret (if v = 10 * x then x + 1 else 100))
def exLoop (maxSteps : Option Nat) : Loop 2 Nat Nat Nat where
  cond := fun i x _ => decide (x < (if i = 0 then 2 else 5)) || decide (7 < x)
  body := progBody (fun _ => exBody)
  maxSteps := maxSteps
  batched := true
  makesFalseSteps := false

def exInit : Fin 2 → Lane Nat Nat Nat := fun _ => { val := 0, buf := .arr (fun _ => 7) }

example : Lanewise (exLoop none).body (fun _ x => (exBody x.1).plain x.2) := lanewise_prog (fun _ => exBody)
/-- The loop ends on both lanes, after 2 and 5 steps. -/
example : StopsAfter ((exLoop none).condAt 0) (fun x => (exBody x.1).plain x.2) none (exInit 0).st 2 :=
  ⟨by decide, by decide, by simp⟩
example : StopsAfter ((exLoop none).condAt 1) (fun x => (exBody x.1).plain x.2) none (exInit 1).st 5 :=
  ⟨by decide, by decide, by simp⟩
/-- The bounded loop stops after 3 steps; the first lane has stopped after 2 and its buffer is as it was then. -/
example : (boundedWhile (exLoop none) 3 2 2 exInit).map
    (fun o => [((o 0).val, (List.range 4).map (o 0).buf.get), ((o 1).val, (List.range 4).map (o 1).buf.get)]) =
    some [(2, [0, 10, 7, 7]), (3, [0, 10, 20, 7])] := by rfl
/-- The hypothesis about the logarithm is needed: had it been rounded down the loop would stop early. -/
example : (boundedWhile (exLoop none) 3 2 1 exInit).map (fun o => ((o 0).val, (o 1).val)) = some (2, 2) := by rfl

/-- An inner bounded loop with `max_steps=1` whose condition is false from the beginning. Its body writes 1 to the buffer. -/
def leakInner : Loop 1 Nat Unit Nat where
  cond := fun _ _ _ => false
  body := progBody (fun _ x => .write (fun _ => some 1) none (.ret x))
  maxSteps := none
  batched := false
  makesFalseSteps := true

/-- An outer loop of one step whose body is that inner loop. -/
def leakOuter : Loop 1 Nat Unit Nat where
  cond := fun _ x _ => decide (x < 1)
  body := fun ls i =>
    let o := (boundedWhile leakInner 1 16 0 ls).getD ls i
    { o with val := o.val + 1 }
  maxSteps := none
  batched := false
  makesFalseSteps := false

/-- **C55 (finding).** A bounded loop with `max_steps=1` inside a loop of kind `lax` (or `checkpointed`) which is not batched: although its condition is
false, and it should do nothing, its body's writes to the buffer happen. -/
theorem nested_bounded_leaks :
    ∃ out, LaxRuns leakOuter (fun _ => { val := 0, buf := .arr (fun _ => 0) }) 1 out ∧ (out 0).buf.get () = 1 := by
  refine ⟨_, ⟨_, .step ?_ (.stop ?_), rfl⟩, ?_⟩ <;> rfl

/-- On its own the same inner loop does nothing. -/
example : (boundedWhile leakInner 1 16 0 (fun _ => { val := 0, buf := .arr (fun _ => 0) })).map (fun o => (o 0).buf.get ()) = some 0 := by
  rfl

end Common
end Verif
