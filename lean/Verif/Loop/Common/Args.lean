import Verif.Loop.Common.Props

/-!
# C117: what `while_loop` does with `max_steps` and `checkpoints`
(`equinox/internal/_loop/loop.py` 97-128, `bounded.py` 48-59, `checkpointed.py` 211-244, `common.py` 437-440)

`Verif/Loop/Common/Model` takes `max_steps` to be a natural number. Here it is `None`, any integer, or a `bool` (which is an
integer for Python). `max_steps` of other types, such as floats, are not modelled. `checkpoints` is `None` or an integer. The square
root and the logarithm are exact, as in `Entry.lean` and `Model.lean`; for rounding see `Rounding.lean` and `Log.lean`.
-/

namespace Verif
namespace Common
namespace Args

variable {B : Nat} {σ P V : Type}

/-! ## Model -/

/-- The argument `max_steps`. -/
inductive Steps where
  | none
  | int (n : Int)
  | bool (b : Bool)
deriving DecidableEq

/-- The integer that it is in comparisons and arithmetic. -/
def Steps.num : Steps → Option Int
  | .none => Option.none
  | .int n => some n
  | .bool b => some (if b then 1 else 0)

/-- `type(max_steps) is not int`, for a `max_steps` which is not `None` (common.py 437-439) -/
def Steps.badType : Steps → Bool
  | .none => false
  | .int _ => false
  | .bool _ => true

/-- `new_cond_fun` (common.py 429-451) with the comparison of line 440 on integers. -/
def newCond (L : Loop B σ P V) (bound : Option Int) (c : Carry B σ P V) : Bool :=
  let out := Loop.unvmapAny (fun i =>
    L.cond i (c.lane i).val ((c.lane i).buf.wrapInner (c.prev i) L.batched L.makesFalseSteps).get)
  match bound with
  | some m => out && decide ((c.step : Int) < m)
  | none => out

/-- `lax.while_loop` on the rewritten loop, which calls `new_cond_fun` at least once (loop.py 99-103, checkpointed.py 264-272). -/
inductive Lax (L : Loop B σ P V) (init : Fin B → Lane σ P V) (s : Steps) : Except Err (Fin B → Lane σ P V) → Prop where
  | badType : s.badType = true → Lax L init s (.error .valueError)
  | runs {n c} : s.badType = false →
      WhileRuns (newCond { L with makesFalseSteps := false } s.num) { L with makesFalseSteps := false }.newBody n
        ({ L with makesFalseSteps := false }.newInit init) c → Lax L init s (.ok c.lane)

/-- `math.floor(-1.5 + math.sqrt(2 * max_steps + 0.25)) + 1`, which raises if the root is of a negative number, and the assertion
behind it (checkpointed.py 229-233). -/
noncomputable def defaultOf (m : Int) : Except Err Int :=
  if m = 1 then .ok 1
  else if 2 * (m : ℝ) + 0.25 < 0 then .error .valueError
  else
    let c := ⌊(-1.5 : ℝ) + √(2 * m + 0.25)⌋ + 1
    if 2 * m < (c + 1) * (c + 2) then .ok c else .error .assertionError

/-- Lines 211-233. -/
noncomputable def checkpointsOf : Option Int → Option Int → Except Err Int
  | some c, _ => .ok c
  | none, none => .error .valueError
  | none, some m => defaultOf m

/-- What `checkpointed_while_loop` does (checkpointed.py 211-272) when it is not differentiated. -/
inductive Checkpointed (L : Loop B σ P V) (init : Fin B → Lane σ P V) (k : Option Int) (s : Steps) :
    Except Err (Fin B → Lane σ P V) → Prop where
  | bad {e} : checkpointsOf k s.num = .error e → Checkpointed L init k s (.error e)
  | few {c} : checkpointsOf k s.num = .ok c → c < 1 → Checkpointed L init k s (.error .valueError)
  | zero {c} : checkpointsOf k s.num = .ok c → 1 ≤ c → s.num = some 0 → Checkpointed L init k s (.ok init)
  | lax {c r} : checkpointsOf k s.num = .ok c → 1 ≤ c → s.num ≠ some 0 → Lax L init s r → Checkpointed L init k s r

/-- `bounded_while_loop` (bounded.py 48-59), with loop.py 117-118. For `max_steps` one `new_cond_fun` is never called; otherwise it
is, and then looks at the type of `max_steps`. -/
inductive Bounded (L : Loop B σ P V) (init : Fin B → Lane σ P V) (base ceilLog : Nat) (s : Steps) :
    Except Err (Fin B → Lane σ P V) → Prop where
  | none : s.num = Option.none → Bounded L init base ceilLog s (.error .valueError)
  | negative {m} : s.num = some m → m < 0 → Bounded L init base ceilLog s (.error .valueError)
  | badType {m} : s.num = some m → 0 < m → base ^ ceilLog ≠ 1 → s.badType = true → Bounded L init base ceilLog s (.error .valueError)
  | runs {m out} : s.num = some m → 0 ≤ m → (m = 0 ∨ base ^ ceilLog = 1 ∨ s.badType = false) →
      boundedWhile L m.toNat base ceilLog init = some out → Bounded L init base ceilLog s (.ok out)

/-- `while_loop` (loop.py 97-128). -/
def WhileLoop (L : Loop B σ P V) (init : Fin B → Lane σ P V) (s : Steps) : Kind → Except Err (Fin B → Lane σ P V) → Prop
  | .lax, r => Lax L init s r
  | .checkpointed k, r => Checkpointed L init k s r
  | .bounded base l, r => Bounded L init base l s r
  | .other, r => r = .error .valueError

/-! ## Lemmas -/

theorem newCond_toNat (L : Loop B σ P V) (n : Int) :
    newCond L (some n) = { L with maxSteps := some n.toNat }.newCond := by
  funext c
  have : decide ((c.step : Int) < n) = decide (c.step < n.toNat) := decide_eq_decide.2 (by omega)
  exact congrArg (Loop.unvmapAny _ && ·) this

theorem newCond_none (L : Loop B σ P V) : newCond L Option.none = { L with maxSteps := Option.none }.newCond := by
  rfl

theorem lax_nat {L : Loop B σ P V} {init : Fin B → Lane σ P V} {s : Steps} (hs : s.badType = false)
    {r : Except Err (Fin B → Lane σ P V)} :
    Lax L init s r ↔ ∃ n out, LaxRuns { L with makesFalseSteps := false, maxSteps := s.num.map Int.toNat } init n out ∧ r = .ok out := by
  have key : newCond { L with makesFalseSteps := false } s.num =
      ({ L with makesFalseSteps := false, maxSteps := s.num.map Int.toNat } : Loop B σ P V).newCond := by
    cases h : s.num with
    | none => exact newCond_none _
    | some n => exact newCond_toNat _ n
  constructor
  · intro h
    cases h with
    | badType h => rw [hs] at h; exact absurd h (by simp)
    | runs _ h =>
      rw [key] at h
      exact ⟨_, _, ⟨_, h, rfl⟩, rfl⟩
  · rintro ⟨n, out, ⟨c, h, rfl⟩, rfl⟩
    refine .runs (n := n) hs ?_
    rw [key]
    exact h

theorem lax_immediate {L : Loop B σ P V} {init : Fin B → Lane σ P V} {s : Steps} (hs : s.badType = false) {n : Int}
    (hn : s.num = some n) (h0 : n ≤ 0) {r : Except Err (Fin B → Lane σ P V)} : Lax L init s r ↔ r = .ok init := by
  rw [lax_nat hs]
  have hz : s.num.map Int.toNat = some 0 := by simp [hn, Int.toNat_of_nonpos h0]
  rw [hz]
  constructor
  · rintro ⟨m, out, h, rfl⟩
    obtain ⟨c, hr, rfl⟩ := h
    have hle := lax_steps_le (L := { L with makesFalseSteps := false, maxSteps := some 0 }) hr 0 rfl
    obtain rfl : m = 0 := by omega
    rw [(whileRuns_iff.1 hr).1]
    rfl
  · rintro rfl
    refine ⟨0, init, ⟨_, whileRuns_iff.2 ⟨rfl, ?_, ?_⟩, rfl⟩, rfl⟩
    · simp [Loop.newCond, Loop.newInit, iter]
    · intro k hk
      omega

/-! ## C117 -/

/-- Without `max_steps`, or with a natural number, `while_loop` is what the other properties of loops (C22-C26) are about. -/
theorem steps_natural (L : Loop B σ P V) (init : Fin B → Lane σ P V) (kind : Kind) (r : Except Err (Fin B → Lane σ P V)) :
    (WhileLoop L init .none kind r ↔ Common.WhileLoop { L with maxSteps := none } init kind r) ∧
    ∀ n : Nat, WhileLoop L init (.int n) kind r ↔ Common.WhileLoop { L with maxSteps := some n } init kind r := by
  have hdef : ∀ n : Nat, defaultOf n =
      (if n ≠ 1 ∧ ¬ 2 * (n : Int) < (Checkpoint.defaultCheckpoints n + 1) * (Checkpoint.defaultCheckpoints n + 2) then .error .assertionError
        else .ok (Checkpoint.defaultCheckpoints n)) := by
    intro n
    unfold defaultOf Checkpoint.defaultCheckpoints
    by_cases h1 : n = 1
    · subst h1; simp
    · have h1' : ¬ ((n : Int) = 1) := by exact_mod_cast h1
      have hnn : ¬ (2 * (((n : Int) : ℝ)) + 0.25 < 0) := by
        have : (0 : ℝ) ≤ ((n : Int) : ℝ) := by positivity
        linarith
      rw [Int.cast_natCast] at hnn
      simp only [h1, h1', if_false, Int.cast_natCast, if_neg hnn, ne_eq, not_false_eq_true, true_and]
      by_cases hlt : 2 * (n : Int) < (⌊(-1.5 : ℝ) + √(2 * (n : ℝ) + 0.25)⌋ + 1 + 1) * (⌊(-1.5 : ℝ) + √(2 * (n : ℝ) + 0.25)⌋ + 1 + 2)
      · simp [hlt]
      · simp [hlt]
  have hlax : ∀ (s : Steps) (m : Option Nat), s.badType = false → s.num.map Int.toNat = m →
      (Lax L init s r ↔ ∃ n out, LaxRuns { L with makesFalseSteps := false, maxSteps := m } init n out ∧ r = .ok out) := by
    intro s m hs hm
    rw [lax_nat hs, hm]
  constructor
  · cases kind with
    | lax =>
      rw [WhileLoop, hlax .none none rfl rfl]
      constructor
      · rintro ⟨n, out, h, rfl⟩; exact .lax h
      · intro h; cases h with | lax h => exact ⟨_, _, h, rfl⟩
    | other =>
      rw [WhileLoop]
      constructor
      · rintro rfl; exact .other
      · intro h; cases h; rfl
    | bounded base l =>
      rw [WhileLoop]
      constructor
      · intro h
        cases h with
        | none => exact .boundedNone rfl
        | negative h => simp [Steps.num] at h
        | badType h => simp [Steps.num] at h
        | runs h => simp [Steps.num] at h
      · intro h
        cases h with
        | boundedNone => exact .none rfl
        | bounded h => simp at h
    | checkpointed k =>
      rw [WhileLoop]
      constructor
      · intro h
        cases h with
        | bad h =>
          apply Common.WhileLoop.checkpointedError
          cases k with
          | none =>
            simp only [checkpointsOf, Steps.num, Except.error.injEq] at h
            subst h
            rfl
          | some c => simp [checkpointsOf] at h
        | few h hc =>
          apply Common.WhileLoop.checkpointedError
          cases k with
          | none => simp [checkpointsOf, Steps.num] at h
          | some c =>
            simp only [checkpointsOf, Except.ok.injEq] at h
            subst h
            simp [Checkpoint.resolve, Checkpoint.plan, hc]
        | zero _ _ h => simp [Steps.num] at h
        | lax h hc _ hl =>
          obtain ⟨n, out, hr, rfl⟩ := (hlax .none none rfl rfl).1 hl
          cases k with
          | none => simp [checkpointsOf, Steps.num] at h
          | some c =>
            simp only [checkpointsOf, Except.ok.injEq] at h
            subst h
            refine .checkpointed (c := c) ?_ hr
            simp [Checkpoint.resolve, Checkpoint.plan, not_lt.2 hc]
      · intro h
        cases k with
        | none =>
          cases h with
          | checkpointedError h =>
            simp only [Checkpoint.resolve, Except.error.injEq] at h
            subst h
            exact .bad rfl
          | checkpointedInit h => simp [Checkpoint.resolve] at h
          | checkpointed h => simp [Checkpoint.resolve] at h
        | some c =>
          by_cases hc : c < 1
          · cases h with
            | checkpointedError h =>
              simp only [Checkpoint.resolve, Checkpoint.plan, if_pos hc, Except.error.injEq] at h
              subst h
              exact .few rfl hc
            | checkpointedInit h => simp [Checkpoint.resolve, Checkpoint.plan, hc] at h
            | checkpointed h => simp [Checkpoint.resolve, Checkpoint.plan, hc] at h
          · cases h with
            | checkpointedError h => simp [Checkpoint.resolve, Checkpoint.plan, hc] at h
            | checkpointedInit h => simp [Checkpoint.resolve, Checkpoint.plan, hc] at h
            | checkpointed h hr => exact .lax rfl (by omega) (by simp [Steps.num]) ((hlax .none none rfl rfl).2 ⟨_, _, hr, rfl⟩)
  · intro n
    cases kind with
    | lax =>
      rw [WhileLoop, hlax (.int n) (some n) rfl (by simp [Steps.num])]
      constructor
      · rintro ⟨n, out, h, rfl⟩; exact .lax h
      · intro h; cases h with | lax h => exact ⟨_, _, h, rfl⟩
    | other =>
      rw [WhileLoop]
      constructor
      · rintro rfl; exact .other
      · intro h; cases h; rfl
    | bounded base l =>
      rw [WhileLoop]
      constructor
      · intro h
        cases h with
        | none h => simp [Steps.num] at h
        | negative h hn => simp only [Steps.num, Option.some.injEq] at h; omega
        | badType _ _ _ h => simp [Steps.badType] at h
        | runs h _ _ hr =>
          simp only [Steps.num, Option.some.injEq] at h
          subst h
          exact .bounded rfl hr
      · intro h
        cases h with
        | boundedNone h => simp at h
        | bounded h hr =>
          simp only [Option.some.injEq] at h
          subst h
          exact .runs rfl (by omega) (.inr (.inr rfl)) hr
    | checkpointed k =>
      rw [WhileLoop]
      have hres : Checkpoint.resolve k (some n) = (checkpointsOf k (some (n : Int))).bind fun c => Checkpoint.plan c (some n) := by
        cases k with
        | some c => rfl
        | none =>
          simp only [Checkpoint.resolve, checkpointsOf, hdef n]
          split <;> rfl
      constructor
      · intro h
        cases h with
        | bad h => exact .checkpointedError (by show Checkpoint.resolve k (some n) = _; rw [hres, show checkpointsOf k (some (n : Int)) = _ from h]; rfl)
        | few h hc =>
          exact .checkpointedError (by
            show Checkpoint.resolve k (some n) = _
            rw [hres, show checkpointsOf k (some (n : Int)) = _ from h]
            simp [Except.bind, Checkpoint.plan, hc])
        | zero h hc h0 =>
          simp only [Steps.num, Option.some.injEq] at h0
          obtain rfl : n = 0 := by omega
          exact .checkpointedInit (by
            show Checkpoint.resolve k (some 0) = _
            rw [hres, show checkpointsOf k (some ((0 : Nat) : Int)) = _ from h]
            simp [Except.bind, Checkpoint.plan, not_lt.2 hc])
        | lax h hc h0 hl =>
          obtain ⟨j, out, hr, rfl⟩ := (hlax (.int n) (some n) rfl (by simp [Steps.num])).1 hl
          rename_i c
          refine .checkpointed (c := min c n) ?_ hr
          show Checkpoint.resolve k (some n) = _
          rw [hres, show checkpointsOf k (some (n : Int)) = _ from h]
          have hn0 : n ≠ 0 := fun e => h0 (by simp [Steps.num, e])
          cases n with
          | zero => exact absurd rfl hn0
          | succ n => simp [Except.bind, Checkpoint.plan, not_lt.2 hc]
      · intro h
        cases hc : checkpointsOf k (some (n : Int)) with
        | error e =>
          have hR : Checkpoint.resolve k (some n) = .error e := by rw [hres, hc]; rfl
          cases h with
          | checkpointedError h => rw [show Checkpoint.resolve k (some n) = _ from h] at hR; cases hR; exact .bad hc
          | checkpointedInit h => rw [show Checkpoint.resolve k (some n) = _ from h] at hR; cases hR
          | checkpointed h => rw [show Checkpoint.resolve k (some n) = _ from h] at hR; cases hR
        | ok c =>
          have hR : Checkpoint.resolve k (some n) = Checkpoint.plan c (some n) := by rw [hres, hc]; rfl
          by_cases h1 : c < 1
          · have hR' : Checkpoint.resolve k (some n) = .error .valueError := by rw [hR]; simp [Checkpoint.plan, h1]
            cases h with
            | checkpointedError h => rw [show Checkpoint.resolve k (some n) = _ from h] at hR'; cases hR'; exact .few hc h1
            | checkpointedInit h => rw [show Checkpoint.resolve k (some n) = _ from h] at hR'; cases hR'
            | checkpointed h => rw [show Checkpoint.resolve k (some n) = _ from h] at hR'; cases hR'
          · cases n with
            | zero =>
              have hR' : Checkpoint.resolve k (some 0) = .ok .returnInit := by rw [hR]; simp [Checkpoint.plan, h1]
              cases h with
              | checkpointedError h => rw [show Checkpoint.resolve k (some 0) = _ from h] at hR'; cases hR'
              | checkpointedInit h => exact .zero hc (by omega) rfl
              | checkpointed h => rw [show Checkpoint.resolve k (some 0) = _ from h] at hR'; cases hR'
            | succ n =>
              have hR' : Checkpoint.resolve k (some (n + 1)) = .ok (.run (min c (n + 1 : Nat))) := by rw [hR]; simp [Checkpoint.plan, h1]
              cases h with
              | checkpointedError h => rw [show Checkpoint.resolve k (some (n + 1)) = _ from h] at hR'; cases hR'
              | checkpointedInit h => rw [show Checkpoint.resolve k (some (n + 1)) = _ from h] at hR'; cases hR'
              | checkpointed h hr =>
                exact .lax hc (by omega) (by simp only [Steps.num, ne_eq, Option.some.injEq]; omega)
                  ((hlax (.int (n + 1 : Nat)) (some (n + 1)) rfl (by simp only [Steps.num, Option.map_some, Int.toNat_natCast])).2 ⟨_, _, hr, rfl⟩)

/-- A negative `max_steps`: `kind="lax"` makes no steps, `kind="bounded"` raises, and `kind="checkpointed"` raises unless it is
given a positive number of checkpoints, when it makes no steps. -/
theorem steps_negative (L : Loop B σ P V) (init : Fin B → Lane σ P V) {n : Int} (hn : n < 0) (r : Except Err (Fin B → Lane σ P V)) :
    (WhileLoop L init (.int n) .lax r ↔ r = .ok init) ∧
    (∀ base l, WhileLoop L init (.int n) (.bounded base l) r ↔ r = .error .valueError) ∧
    (WhileLoop L init (.int n) (.checkpointed none) r ↔ r = .error .valueError) ∧
    (∀ c, WhileLoop L init (.int n) (.checkpointed (some c)) r ↔ r = if c < 1 then .error .valueError else .ok init) := by
  have hdef : defaultOf n = .error .valueError := by
    unfold defaultOf
    rw [if_neg (by omega), if_pos]
    have : (n : ℝ) ≤ -1 := by exact_mod_cast (by omega : n ≤ -1)
    linarith
  have hlax := lax_immediate (L := L) (init := init) (s := .int n) rfl rfl (le_of_lt hn) (r := r)
  refine ⟨hlax, fun base l => ?_, ?_, fun c => ?_⟩
  · constructor
    · intro h
      cases h with
      | none h => rfl
      | negative => rfl
      | badType => rfl
      | runs h h0 => simp only [Steps.num, Option.some.injEq] at h; omega
    · rintro rfl; exact .negative rfl hn
  · constructor
    · intro h
      cases h with
      | bad h => simp only [checkpointsOf, Steps.num, hdef] at h; cases h; rfl
      | few h => simp [checkpointsOf, Steps.num, hdef] at h
      | zero h => simp [checkpointsOf, Steps.num, hdef] at h
      | lax h => simp [checkpointsOf, Steps.num, hdef] at h
    · rintro rfl; exact .bad hdef
  · constructor
    · intro h
      cases h with
      | bad h => simp [checkpointsOf] at h
      | few h hc => simp only [checkpointsOf, Except.ok.injEq] at h; subst h; rw [if_pos hc]
      | zero _ _ h => simp only [Steps.num, Option.some.injEq] at h; omega
      | lax h hc _ hl =>
        simp only [checkpointsOf, Except.ok.injEq] at h
        subst h
        rw [if_neg (by omega), hlax.1 hl]
    · intro h
      by_cases hc : c < 1
      · rw [if_pos hc] at h; subst h; exact .few rfl hc
      · rw [if_neg hc] at h
        exact .lax rfl (by omega) (by simp only [Steps.num, ne_eq, Option.some.injEq]; omega) (hlax.2 h)

/-- `max_steps=0` makes no steps, except that `kind="checkpointed"` raises if it is not given a positive number of checkpoints. -/
theorem steps_zero (L : Loop B σ P V) (init : Fin B → Lane σ P V) (r : Except Err (Fin B → Lane σ P V)) :
    (WhileLoop L init (.int 0) .lax r ↔ r = .ok init) ∧
    (∀ base l, WhileLoop L init (.int 0) (.bounded base l) r ↔ r = .ok init) ∧
    (WhileLoop L init (.int 0) (.checkpointed none) r ↔ r = .error .valueError) ∧
    (∀ c, WhileLoop L init (.int 0) (.checkpointed (some c)) r ↔ r = if c < 1 then .error .valueError else .ok init) := by
  have hdef : defaultOf 0 = .ok 0 := by
    have h := Checkpoint.default_zero
    simp only [Checkpoint.defaultCheckpoints] at h
    unfold defaultOf
    have h' : ⌊(-1.5 : ℝ) + √(2 * ((0 : Int) : ℝ) + 0.25)⌋ + 1 = 0 := by simpa using h
    simp only [h']
    norm_num
  refine ⟨lax_immediate rfl rfl le_rfl, fun base l => ?_, ?_, fun c => ?_⟩
  · constructor
    · intro h
      cases h with
      | none h => simp [Steps.num] at h
      | negative h hn => simp only [Steps.num, Option.some.injEq] at h; omega
      | badType h h0 => simp only [Steps.num, Option.some.injEq] at h; omega
      | runs h _ _ hr =>
        simp only [Steps.num, Option.some.injEq] at h
        subst h
        simp only [boundedWhile, Int.toNat_zero, if_true, Option.some.injEq] at hr
        rw [hr]
    · rintro rfl; exact .runs rfl le_rfl (.inl rfl) (by simp [boundedWhile])
  · constructor
    · intro h
      cases h with
      | bad h => simp [checkpointsOf, Steps.num, hdef] at h
      | few => rfl
      | zero h hc => simp only [checkpointsOf, Steps.num, hdef, Except.ok.injEq] at h; omega
      | lax h hc => simp only [checkpointsOf, Steps.num, hdef, Except.ok.injEq] at h; omega
    · rintro rfl; exact .few hdef (by omega)
  · constructor
    · intro h
      cases h with
      | bad h => simp [checkpointsOf] at h
      | few h hc => simp only [checkpointsOf, Except.ok.injEq] at h; subst h; rw [if_pos hc]
      | zero h hc => simp only [checkpointsOf, Except.ok.injEq] at h; subst h; rw [if_neg (by omega)]
      | lax _ _ h => exact absurd rfl h
    · intro h
      by_cases hc : c < 1
      · rw [if_pos hc] at h; subst h; exact .few rfl hc
      · rw [if_neg hc] at h; subst h; exact .zero rfl (by omega) rfl

/-- `max_steps=True` and `max_steps=False`: `kind="lax"` raises; `kind="bounded"` takes them for one and zero, for every base that is at least
two (`math.log(1, base)` is zero); `kind="checkpointed"` raises, except for `False` with a positive number of checkpoints. -/
theorem steps_bool (L : Loop B σ P V) (init : Fin B → Lane σ P V) (b : Bool) (r : Except Err (Fin B → Lane σ P V)) :
    (WhileLoop L init (.bool b) .lax r ↔ r = .error .valueError) ∧
    (∀ base, WhileLoop L init (.bool b) (.bounded base 0) r ↔ WhileLoop L init (.int (if b then 1 else 0)) (.bounded base 0) r) ∧
    (WhileLoop L init (.bool b) (.checkpointed none) r ↔ r = .error .valueError) ∧
    (∀ c, WhileLoop L init (.bool b) (.checkpointed (some c)) r ↔
      r = if b = true ∨ c < 1 then .error .valueError else .ok init) := by
  have hlax : Lax L init (.bool b) r ↔ r = .error .valueError := by
    constructor
    · intro h
      cases h with
      | badType => rfl
      | runs h => simp [Steps.badType] at h
    · rintro rfl; exact .badType rfl
  have hdef : defaultOf (if b then 1 else 0) = .ok (if b then 1 else 0) := by
    cases b
    · have h := Checkpoint.default_zero
      simp only [Checkpoint.defaultCheckpoints] at h
      unfold defaultOf
      have h' : ⌊(-1.5 : ℝ) + √(2 * ((0 : Int) : ℝ) + 0.25)⌋ + 1 = 0 := by simpa using h
      simp only [Bool.false_eq_true, if_false, h']
      norm_num
    · simp [defaultOf]
  refine ⟨hlax, fun base => ?_, ?_, fun c => ?_⟩
  · constructor
    · intro h
      cases h with
      | none h => simp [Steps.num] at h
      | negative h hn => exact .negative h hn
      | badType _ _ h => simp at h
      | runs h h0 _ hr => exact .runs h h0 (.inr (.inr rfl)) hr
    · intro h
      cases h with
      | none h => simp [Steps.num] at h
      | negative h hn => exact .negative h hn
      | badType _ _ _ h => simp [Steps.badType] at h
      | runs h h0 _ hr => exact .runs h h0 (.inr (.inl (by simp))) hr
  · constructor
    · intro h
      cases h with
      | bad h => rw [show checkpointsOf none (Steps.bool b).num = defaultOf (if b then 1 else 0) from rfl, hdef] at h; simp at h
      | few => rfl
      | zero h hc h0 =>
        rw [show checkpointsOf none (Steps.bool b).num = defaultOf (if b then 1 else 0) from rfl, hdef] at h
        cases b
        · simp only [Bool.false_eq_true, if_false, Except.ok.injEq] at h; omega
        · simp [Steps.num] at h0
      | lax _ _ _ h => exact hlax.1 h
    · rintro rfl
      cases b
      · exact .few (c := 0) hdef (by omega)
      · exact .lax (c := 1) hdef le_rfl (by simp [Steps.num]) (.badType rfl)
  · constructor
    · intro h
      cases h with
      | bad h => simp [checkpointsOf] at h
      | few h hc => simp only [checkpointsOf, Except.ok.injEq] at h; subst h; rw [if_pos (.inr hc)]
      | zero h hc h0 =>
        simp only [checkpointsOf, Except.ok.injEq] at h
        subst h
        cases b
        · rw [if_neg (by simp; omega)]
        · simp [Steps.num] at h0
      | lax h hc h0 hl =>
        cases b
        · simp [Steps.num] at h0
        · rw [if_pos (.inl rfl)]; exact hlax.1 hl
    · intro h
      by_cases hc : c < 1
      · rw [if_pos (.inr hc)] at h; subst h; exact .few rfl hc
      · cases b
        · rw [if_neg (by simp; omega)] at h; subst h; exact .zero rfl (by omega) rfl
        · rw [if_pos (.inl rfl)] at h; subst h; exact .lax rfl (by omega) (by simp [Steps.num]) (.badType rfl)

/-! ## Examples -/

/-- A loop of one lane that always goes on, adding one. -/
def exLoop : Loop 1 Nat Unit Nat :=
  { cond := fun _ _ _ => true
    body := fun ls i => { val := (ls i).val + 1, buf := (ls i).buf }
    maxSteps := none
    batched := false
    makesFalseSteps := false }

def exInit : Fin 1 → Lane Nat Unit Nat := fun _ => ⟨5, .arr fun _ => 0⟩

/-- `max_steps=-1` and `max_steps=0`. -/
example : WhileLoop exLoop exInit (.int (-1)) .lax (.ok exInit) ∧
    WhileLoop exLoop exInit (.int (-1)) (.bounded 16 0) (.error .valueError) ∧
    WhileLoop exLoop exInit (.int 0) (.bounded 16 0) (.ok exInit) :=
  ⟨(steps_negative exLoop exInit (by omega) _).1.2 rfl, ((steps_negative exLoop exInit (by omega) _).2.1 16 0).2 rfl,
    ((steps_zero exLoop exInit _).2.1 16 0).2 rfl⟩

/-- `max_steps=True` makes one step with `kind="bounded"`. -/
example : ∃ out, WhileLoop exLoop exInit (.bool true) (.bounded 16 0) (.ok out) ∧ (out 0).val = 6 :=
  ⟨_, .runs (m := 1) rfl (by omega) (.inr (.inl rfl)) rfl, rfl⟩

end Args
end Common
end Verif
