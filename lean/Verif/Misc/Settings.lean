import Verif.Basic
import Mathlib.Logic.Basic

/-!
# C107: the environment variables

`equinox/_config.py`; `fixed_jit` (`equinox/_errors.py`, 171-191), which replaces `jax.jit` if `EQX_ON_ERROR=breakpoint`; `_JitWrapper.lower`
(`equinox/_jit.py`, 217-218, 243-252) as far as it asks for the attribute `lower` of what `jax.jit` returned (63); `GetKey`
(`equinox/internal/_getkey.py`).

Outside of the repository: `int(str)` is a parameter; `jax.jit` compiles a function if called outside of any other, and inside becomes part of the
program that is being traced; it refuses static arguments that cannot be hashed. The caches of `jax.jit` are left out (they are in `Verif/Jit`).
`jr.PRNGKey`, `jr.fold_in`, `random.randint` are parameters.
-/

namespace Verif.Misc.Settings

/-! ### `_config.py` -/

/-- `Literal["raise", "breakpoint", "nan"]`. -/
inductive Mode where
  | raise
  | breakpoint
  | nan
deriving DecidableEq

/-- What the module defines, and whether it warned. -/
structure Config where
  onError : Mode
  frames : Int
  seed : Option Int
  warned : Bool

/-- The check of `EQX_ON_ERROR` (6-13). -/
def parseMode (s : String) : Except Err Mode :=
  if s = "raise" then .ok .raise
  else if s = "breakpoint" then .ok .breakpoint
  else if s = "nan" then .ok .nan
  else .error .valueError

/-- `int(s)`. -/
def pyInt (parse : String → Option Int) (s : String) : Except Err Int :=
  match parse s with
  | some n => .ok n
  | none => .error .valueError

/-- `EQX_ON_ERROR_BREAKPOINT_FRAMES` (21-25). -/
def parseFrames (parse : String → Option Int) : Option String → Except Err Int
  | none => .ok 1
  | some s => pyInt parse s

/-- `EQX_GETKEY_SEED` (27-30). -/
def parseSeed (parse : String → Option Int) : Option String → Except Err (Option Int)
  | none => .ok none
  | some s => (pyInt parse s).map some

/-- Importing `_config.py`, `env` being `os.environ`. -/
def load (parse : String → Option Int) (env : String → Option String) : Except Err Config := do
  let m ← parseMode ((env "EQX_ON_ERROR").getD "raise")
  let fr ← parseFrames parse (env "EQX_ON_ERROR_BREAKPOINT_FRAMES")
  let s ← parseSeed parse (env "EQX_GETKEY_SEED")
  pure ⟨m, fr, s, decide (m = .breakpoint)⟩

/-! ### `fixed_jit` -/

/-- Programs: computations, one after the other, inside of something that traces without compiling (`lax.scan`, `jax.eval_shape`), and
`jax.jit(p)(...)`, whose static arguments can be hashed or not. -/
inductive Prog (V : Type) where
  | prim (f : V → Except Err V)
  | seq (p q : Prog V)
  | traced (p : Prog V)
  | jit (hashable : Bool) (p : Prog V)

/-- What is seen of an execution besides its result. -/
inductive Event where
  /-- a program was compiled -/
  | compiled
  /-- a jitted function became part of another program -/
  | nested
  /-- "Ignoring intermediate `jax.jit` decorator" -/
  | warned
deriving DecidableEq

/-- First one, then the other. -/
def andThen {V : Type} (r : List Event × Except Err V) (k : V → List Event × Except Err V) : List Event × Except Err V :=
  match r.2 with
  | .error e => (r.1, .error e)
  | .ok v => (r.1 ++ (k v).1, (k v).2)

/-- Calling what `jax.jit` itself returned: `body` is the execution of the function while it is traced. -/
def callJit {V : Type} (jitting hashable : Bool) (body : List Event × Except Err V) : List Event × Except Err V :=
  if hashable then ((if jitting then Event.nested else Event.compiled) :: body.1, body.2) else ([], .error .valueError)

/-- `fixed_jit_impl` (179-187): `currently_jitting()` decides. -/
def callFixed {V : Type} (jitting hashable : Bool) (body : List Event × Except Err V) : List Event × Except Err V :=
  if jitting then (.warned :: body.1, body.2) else callJit jitting hashable body

/-- Running a program. `jitting`: inside of a trace. -/
def run {V : Type} (mode : Mode) (jitting : Bool) : Prog V → V → List Event × Except Err V
  | .prim f, v => ([], f v)
  | .seq p q, v => andThen (run mode jitting p v) (fun w => run mode jitting q w)
  | .traced p, v => run mode true p v
  | .jit h p, v =>
    if mode = .breakpoint then callFixed jitting h (run mode true p v)
    else callJit jitting h (run mode true p v)

/-- Attributes of what `jax.jit(f)` returns: `jax.jit`'s own object has `lower`, the function `fixed_jit_impl` has not. -/
def jitHasLower (mode : Mode) : Bool := decide (mode ≠ .breakpoint)

/-- `jit_wrapper._cached.lower(...)` (`_jit.py`, 248), `lowered` being that of `jax.jit`. -/
def cachedLower {D L : Type} (mode : Mode) (lowered : D → Except Err L) (d : D) : Except Err L :=
  if jitHasLower mode then lowered d else .error .attributeError

/-- `filter_jit(f).lower(...)` (`_jit.py`, 243-252): first `_preprocess`, whose result is `pre`. -/
def lower {D L : Type} (mode : Mode) (pre : Except Err D) (lowered : D → Except Err L) : Except Err L := do
  let d ← pre
  cachedLower mode lowered d

/-! ### `GetKey` -/

/-- A `GetKey`. -/
structure GK (K : Type) where
  seed : Int
  call : Nat
  key : K

/-- Random numbers, and the state of Python's `random`. -/
structure Rng (K R : Type) where
  prngKey : Int → K
  foldIn : K → Nat → K
  /-- `random.randint(0, 2**31 - 1)` -/
  randint : R → Int × R

/-- The argument of `GetKey`: left out, or given (perhaps `None`). -/
inductive SeedArg where
  | default
  | given (s : Option Int)

/-- What happens in a process. -/
inductive Act where
  | make (a : SeedArg)
  | call (i : Nat)

/-- The objects made so far, the state of `random`, and the keys returned, with the objects that returned them. -/
structure Proc (K R : Type) where
  objs : List (GK K)
  rand : R
  out : List (Nat × K)

variable {K R : Type}

/-- `GetKey.__init__` (37-42). -/
def makeKey (g : Rng K R) (a : SeedArg) (env : Option Int) (p : Proc K R) : Proc K R :=
  let seed := match a with
    | .default => env
    | .given s => s
  match seed with
  | some s => { p with objs := p.objs ++ [⟨s, 0, g.prngKey s⟩] }
  | none =>
    let d := g.randint p.rand
    { p with objs := p.objs ++ [⟨d.1, 0, g.prngKey d.1⟩], rand := d.2 }

/-- `GetKey.__call__` (44-46). -/
def callKey (g : Rng K R) (i : Nat) (p : Proc K R) : Proc K R :=
  match p.objs[i]? with
  | none => p
  | some o =>
    let o' := { o with call := o.call + 1 }
    { p with objs := p.objs.set i o', out := p.out ++ [(i, g.foldIn o'.key o'.call)] }

/-- One action; `env` is `EQX_GETKEY_SEED`. -/
def act (g : Rng K R) (env : Option Int) (p : Proc K R) : Act → Proc K R
  | .make a => makeKey g a env p
  | .call i => callKey g i p

/-- A history. -/
def history (g : Rng K R) (env : Option Int) (r : R) (h : List Act) : Proc K R := h.foldl (act g env) ⟨[], r, []⟩

/-! ### Specification -/

/-- Jitted functions called outside of any trace, and inside. -/
def outer {V : Type} : Prog V → Nat
  | .prim _ => 0
  | .seq p q => outer p + outer q
  | .traced _ => 0
  | .jit _ _ => 1
def jits {V : Type} : Prog V → Nat
  | .prim _ => 0
  | .seq p q => jits p + jits q
  | .traced p => jits p
  | .jit _ p => jits p + 1

/-- All static arguments can be hashed. -/
def AllHashable {V : Type} : Prog V → Prop
  | .prim _ => True
  | .seq p q => AllHashable p ∧ AllHashable q
  | .traced p => AllHashable p
  | .jit h p => h = true ∧ AllHashable p

/-- The same program without `jax.jit`. -/
def plain {V : Type} : Prog V → V → Except Err V
  | .prim f, v => f v
  | .seq p q, v => (plain p v).bind (plain q)
  | .traced p, v => plain p v
  | .jit _ p, v => plain p v

/-- The state of `random` after `n` numbers. -/
def after (g : Rng K R) : Nat → R → R
  | 0, r => r
  | n + 1, r => after g n (g.randint r).2

/-- How many `GetKey`s of a history take a random seed. -/
def randomSeeds (env : Option Int) : List Act → Nat
  | [] => 0
  | .call _ :: h => randomSeeds env h
  | .make (.given (some _)) :: h => randomSeeds env h
  | .make (.given none) :: h => randomSeeds env h + 1
  | .make .default :: h => randomSeeds env h + (if env = none then 1 else 0)

/-! ### Theorems -/

/-- **C107**: equinox can be imported exactly if `EQX_ON_ERROR` is unset or one of the three values, and the other two variables are unset or
integers (`ValueError` otherwise); the settings are what the variables say, by default raising, one frame, and no seed; breakpoints are warned
about. -/
theorem load_spec (parse : String → Option Int) (env : String → Option String) :
    ((∃ c, load parse env = .ok c) ↔
      (∀ s, env "EQX_ON_ERROR" = some s → s = "raise" ∨ s = "breakpoint" ∨ s = "nan") ∧
      (∀ s, env "EQX_ON_ERROR_BREAKPOINT_FRAMES" = some s → ∃ n, parse s = some n) ∧
      (∀ s, env "EQX_GETKEY_SEED" = some s → ∃ n, parse s = some n)) ∧
    (∀ e, load parse env = .error e → e = .valueError) ∧
    ∀ c, load parse env = .ok c →
      (c.onError = .breakpoint ↔ env "EQX_ON_ERROR" = some "breakpoint") ∧ (c.onError = .nan ↔ env "EQX_ON_ERROR" = some "nan") ∧
      (c.warned = true ↔ env "EQX_ON_ERROR" = some "breakpoint") ∧
      (∀ s, env "EQX_ON_ERROR_BREAKPOINT_FRAMES" = some s → parse s = some c.frames) ∧
      (env "EQX_ON_ERROR_BREAKPOINT_FRAMES" = none → c.frames = 1) ∧
      (∀ s, env "EQX_GETKEY_SEED" = some s → c.seed = parse s) ∧ (env "EQX_GETKEY_SEED" = none → c.seed = none) := by
  have hm : ∀ o : Option String, (∃ m, parseMode (o.getD "raise") = .ok m ∧
        (∀ s, o = some s → s = "raise" ∨ s = "breakpoint" ∨ s = "nan") ∧ (m = .breakpoint ↔ o = some "breakpoint") ∧ (m = .nan ↔ o = some "nan")) ∨
      (parseMode (o.getD "raise") = .error .valueError ∧ ¬ ∀ s, o = some s → s = "raise" ∨ s = "breakpoint" ∨ s = "nan") := by
    intro o
    cases o with
    | none => left; exact ⟨.raise, rfl, by simp⟩
    | some s =>
      simp only [Option.getD_some, parseMode]
      by_cases h1 : s = "raise"
      · left; subst h1; exact ⟨.raise, by simp, by simp⟩
      · by_cases h2 : s = "breakpoint"
        · left; subst h2; exact ⟨.breakpoint, by simp, by simp⟩
        · by_cases h3 : s = "nan"
          · left; subst h3; exact ⟨.nan, by simp, by simp⟩
          · right; simp [h1, h2, h3]
  have hf : ∀ o : Option String, (∃ n, parseFrames parse o = .ok n ∧ (∀ s, o = some s → parse s = some n) ∧ (o = none → n = 1)) ∨
      (parseFrames parse o = .error .valueError ∧ ¬ ∀ s, o = some s → ∃ n, parse s = some n) := by
    intro o
    cases o with
    | none => left; exact ⟨1, rfl, by simp⟩
    | some s =>
      simp only [parseFrames, pyInt]
      cases h : parse s with
      | none => right; simp [h]
      | some n => left; exact ⟨n, rfl, by simp [h]⟩
  have hs : ∀ o : Option String, (∃ n, parseSeed parse o = .ok n ∧ (∀ s, o = some s → n = parse s ∧ ∃ n, parse s = some n) ∧ (o = none → n = none)) ∨
      (parseSeed parse o = .error .valueError ∧ ¬ ∀ s, o = some s → ∃ n, parse s = some n) := by
    intro o
    cases o with
    | none => left; exact ⟨none, rfl, by simp⟩
    | some s =>
      simp only [parseSeed, pyInt]
      cases h : parse s with
      | none => right; simp [h, Except.map]
      | some n => left; exact ⟨some n, rfl, by simp [h]⟩
  simp only [load, Bind.bind, Except.bind, pure, Except.pure]
  rcases hm (env "EQX_ON_ERROR") with ⟨m, m1, m2, m3, m4⟩ | ⟨m1, m2⟩
  · rw [m1]
    simp only
    rcases hf (env "EQX_ON_ERROR_BREAKPOINT_FRAMES") with ⟨f, f1, f2, f3⟩ | ⟨f1, f2⟩
    · rw [f1]
      simp only
      rcases hs (env "EQX_GETKEY_SEED") with ⟨n, s1, s2, s3⟩ | ⟨s1, s2⟩
      · rw [s1]
        simp only
        refine ⟨⟨fun _ => ⟨m2, fun s h => ⟨f, f2 s h⟩, fun s h => (s2 s h).2⟩, fun _ => ⟨_, rfl⟩⟩, (by intro e h; cases h), ?_⟩
        intro c hc
        cases hc
        exact ⟨m3, m4, by simpa using m3, f2, f3, fun s h => (s2 s h).1, s3⟩
      · rw [s1]
        refine ⟨⟨fun ⟨_, h⟩ => (by cases h), fun ⟨_, _, h⟩ => absurd h s2⟩, (by intro e h; cases h; rfl), (by intro c h; cases h)⟩
    · rw [f1]
      refine ⟨⟨fun ⟨_, h⟩ => (by cases h), fun ⟨_, h, _⟩ => absurd h f2⟩, (by intro e h; cases h; rfl), (by intro c h; cases h)⟩
  · rw [m1]
    refine ⟨⟨fun ⟨_, h⟩ => (by cases h), fun ⟨h, _⟩ => absurd h m2⟩, (by intro e h; cases h; rfl), (by intro c h; cases h)⟩

/-- With breakpoints, executions: what is returned, and how often something is compiled, warned about, nested. -/
theorem run_fixed {V : Type} (p : Prog V) (v w : V) (jitting : Bool) (h : (run .breakpoint jitting p v).2 = .ok w) :
    plain p v = .ok w ∧ Event.nested ∉ (run .breakpoint jitting p v).1 ∧
      (run .breakpoint jitting p v).1.count .compiled = (if jitting then 0 else outer p) ∧
      (run .breakpoint jitting p v).1.count .warned = (if jitting then jits p else jits p - outer p) ∧ outer p ≤ jits p := by
  induction p generalizing v w jitting with
  | prim f => simp [run, plain, outer, jits] at h ⊢; exact h
  | seq p q ihp ihq =>
    simp only [run, andThen] at h ⊢
    cases hp : (run .breakpoint jitting p v).2 with
    | error e => rw [hp] at h; cases h
    | ok u =>
      rw [hp] at h
      simp only at h ⊢
      obtain ⟨a1, a2, a3, a4, a5⟩ := ihp v u jitting hp
      obtain ⟨b1, b2, b3, b4, b5⟩ := ihq u w jitting h
      refine ⟨by simp [plain, a1, Except.bind, b1], ?_, ?_, ?_, ?_⟩
      · simp [a2, b2]
      · rw [List.count_append, a3, b3]; cases jitting <;> simp [outer]
      · rw [List.count_append, a4, b4]
        cases jitting with
        | true => simp [jits]
        | false => simp only [Bool.false_eq_true, if_false, jits, outer]; omega
      · simp only [outer, jits]; omega
  | traced p ih =>
    simp only [run] at h ⊢
    obtain ⟨a1, a2, a3, a4, a5⟩ := ih v w true h
    refine ⟨a1, a2, ?_, ?_, by simp [outer]⟩
    · rw [a3]; cases jitting <;> simp [outer]
    · rw [a4]; cases jitting <;> simp [outer, jits]
  | jit hb p ih =>
    simp only [run, if_true, callFixed, callJit] at h ⊢
    cases jitting with
    | true =>
      simp only [if_true] at h ⊢
      obtain ⟨a1, a2, a3, a4, a5⟩ := ih v w true h
      refine ⟨a1, by simp [a2], ?_, ?_, by simp [outer, jits]⟩
      · simpa using a3
      · simpa [jits] using a4
    | false =>
      simp only [Bool.false_eq_true, if_false] at h ⊢
      cases hb with
      | false => simp at h
      | true =>
        simp only [if_true] at h ⊢
        obtain ⟨a1, a2, a3, a4, a5⟩ := ih v w true h
        refine ⟨a1, by simp [a2], ?_, ?_, by simp [outer, jits]⟩
        · simpa [outer] using a3
        · simpa [outer, jits] using a4

/-- Without breakpoints. -/
theorem run_normal {V : Type} (p : Prog V) (v : V) (mode : Mode) (hm : mode ≠ .breakpoint) (jitting : Bool) :
    Event.warned ∉ (run mode jitting p v).1 ∧ (∀ w, (run mode jitting p v).2 = .ok w → plain p v = .ok w) ∧
      (AllHashable p → (run mode jitting p v).2 = plain p v) := by
  induction p generalizing v jitting with
  | prim f => simp [run, plain]
  | seq p q ihp ihq =>
    obtain ⟨a1, a2, a3⟩ := ihp v jitting
    simp only [run, andThen]
    cases hp : (run mode jitting p v).2 with
    | error e =>
      refine ⟨a1, by simp, fun h => ?_⟩
      simp only [plain, ← a3 h.1, hp, Except.bind]
    | ok u =>
      obtain ⟨b1, b2, b3⟩ := ihq u jitting
      refine ⟨by simp [a1, b1], fun w hw => ?_, fun h => ?_⟩
      · simp only [plain, a2 u hp, Except.bind, b2 w hw]
      · simp only [plain, ← a3 h.1, hp, Except.bind, b3 h.2]
  | traced p ih => exact ih v true
  | jit hb p ih =>
    obtain ⟨a1, a2, a3⟩ := ih v true
    simp only [run, if_neg hm, callJit]
    cases hb with
    | false => simp [AllHashable]
    | true =>
      refine ⟨?_, a2, fun h => a3 h.2⟩
      cases jitting <;> simp [a1]

/-- With breakpoints, errors. -/
theorem run_fixed_hashable {V : Type} (p : Prog V) (v : V) (jitting : Bool) (h : AllHashable p) : (run .breakpoint jitting p v).2 = plain p v := by
  induction p generalizing v jitting with
  | prim f => rfl
  | seq p q ihp ihq =>
    simp only [run, andThen, plain, ← ihp v jitting h.1]
    cases (run .breakpoint jitting p v).2 with
    | error e => rfl
    | ok u => exact ihq u jitting h.2
  | traced p ih => exact ih v true h
  | jit hb p ih =>
    simp only [AllHashable] at h
    simp only [run, if_true, callFixed, callJit, h.1]
    cases jitting <;> exact ih v true h.2

/-- **C107**: `EQX_ON_ERROR=breakpoint` does not change what a program returns: if it returns with one setting, it returns the same with the
other (`run .raise` may be replaced by `run .nan`), and if all static arguments can be hashed, also the same is raised, as if there were no
`jax.jit` at all. -/
theorem breakpoint_same {V : Type} (p : Prog V) (v : V) (mode : Mode) (hm : mode ≠ .breakpoint) (jitting : Bool) :
    (∀ w, (run mode jitting p v).2 = .ok w → (run .breakpoint jitting p v).2 = .ok w) ∧
    (∀ w w', (run mode jitting p v).2 = .ok w → (run .breakpoint jitting p v).2 = .ok w' → w = w') ∧
    (AllHashable p → (run mode jitting p v).2 = (run .breakpoint jitting p v).2 ∧ (run .breakpoint jitting p v).2 = plain p v) := by
  have key : ∀ w, (run mode jitting p v).2 = .ok w → (run .breakpoint jitting p v).2 = .ok w := by
    induction p generalizing v jitting with
    | prim f => intro w h; exact h
    | seq p q ihp ihq =>
      intro w h
      simp only [run, andThen] at h ⊢
      cases hp : (run mode jitting p v).2 with
      | error e => rw [hp] at h; cases h
      | ok u =>
        rw [hp] at h
        rw [ihp v jitting u hp]
        exact ihq u jitting w h
    | traced p ih => intro w h; exact ih v true w h
    | jit hb p ih =>
      intro w h
      simp only [run, if_neg hm, callJit] at h
      cases hb with
      | false => simp at h
      | true =>
        simp only [if_true] at h
        have := ih v true w h
        simp only [run, if_true, callFixed, callJit]
        cases jitting <;> exact this
  refine ⟨key, ?_, ?_⟩
  · intro w w' h h'
    rw [key w h] at h'
    cases h'; rfl
  · intro h
    rw [run_fixed_hashable p v jitting h, (run_normal p v mode hm jitting).2.2 h]
    exact ⟨rfl, rfl⟩

/-- **C107**: what does change, for a program that returns: with breakpoints no jitted function becomes part of another compiled program. Exactly
those called outside of any trace are compiled, and for each other call there is a warning. Otherwise there are no warnings. -/
theorem breakpoint_inlines {V : Type} (p : Prog V) (v w : V) :
    ((run .breakpoint false p v).2 = .ok w →
      Event.nested ∉ (run .breakpoint false p v).1 ∧ (run .breakpoint false p v).1.count .compiled = outer p ∧
      (run .breakpoint false p v).1.count .warned + outer p = jits p) ∧
    (∀ mode, mode ≠ .breakpoint → Event.warned ∉ (run mode false p v).1) := by
  refine ⟨fun h => ?_, fun mode hm => (run_normal p v mode hm false).1⟩
  obtain ⟨_, a2, a3, a4, a5⟩ := run_fixed p v w false h
  refine ⟨a2, by simpa using a3, ?_⟩
  rw [a4]; simp only [Bool.false_eq_true, if_false]; omega

/-- **C107** (partial): `filter_jit(f).lower(...)` lowers what the arguments became, as `jax.jit` does, unless `EQX_ON_ERROR=breakpoint`. -/
theorem lower_partial {D L : Type} (mode : Mode) (lowered : D → Except Err L) (hm : mode ≠ .breakpoint) (d : D) :
    lower mode (.ok d) lowered = lowered d ∧ ∀ e, lower mode (.error e) lowered = .error e := by
  simp [lower, cachedLower, jitHasLower, hm, Bind.bind, Except.bind]

/-- **C107**: with `EQX_ON_ERROR=breakpoint` it never returns: `AttributeError` for all arguments that fit, and the usual errors for the others. -/
theorem lower_breakpoint {D L : Type} (pre : Except Err D) (lowered : D → Except Err L) :
    (∀ l, lower .breakpoint pre lowered ≠ .ok l) ∧ (∀ d, pre = .ok d → lower .breakpoint pre lowered = .error .attributeError) ∧
      ∀ e, pre = .error e → lower .breakpoint pre lowered = .error e := by
  cases pre with
  | error e => simp [lower, Bind.bind, Except.bind]
  | ok d => simp [lower, cachedLower, jitHasLower, Bind.bind, Except.bind]

/-- **C107**: with breakpoints a nested call whose static arguments cannot be hashed returns, although it raises otherwise. -/
theorem unhashable_differs : ∃ (p : Prog Nat) (v : Nat), (run .raise false p v).2 = .error .valueError ∧ (run .breakpoint false p v).2 = .ok 1 :=
  ⟨.jit true (.jit false (.prim fun n => .ok (n + 1))), 0, rfl, rfl⟩

/-- **C107**: outside of traces static arguments that cannot be hashed are refused with every setting. -/
theorem outer_unhashable {V : Type} (p : Prog V) (v : V) (mode : Mode) : run mode false (.jit false p) v = ([], .error .valueError) := by
  cases mode <;> simp [run, callFixed, callJit]

/-! ### `GetKey` -/

/-- The objects and what they returned, as they should be. -/
structure Good (g : Rng K R) (p : Proc K R) : Prop where
  key : ∀ (i : Nat) (o : GK K), p.objs[i]? = some o → o.key = g.prngKey o.seed
  out : ∀ (i : Nat) (o : GK K), p.objs[i]? = some o →
    (p.out.filter fun e => e.1 == i).map (·.2) = (List.range o.call).map fun n => g.foldIn (g.prngKey o.seed) (n + 1)
  known : ∀ e ∈ p.out, e.1 < p.objs.length

theorem good_act (g : Rng K R) (env : Option Int) (p : Proc K R) (a : Act) (h : Good g p) :
    Good g (act g env p a) ∧ p.objs.length ≤ (act g env p a).objs.length ∧
      ∀ (i : Nat) (o : GK K), p.objs[i]? = some o → ∃ o', (act g env p a).objs[i]? = some o' ∧ o'.seed = o.seed := by
  have hmake : ∀ (s : Int) (r : R), Good g { p with objs := p.objs ++ [⟨s, 0, g.prngKey s⟩], rand := r } ∧
      p.objs.length ≤ (p.objs ++ [(⟨s, 0, g.prngKey s⟩ : GK K)]).length ∧
      ∀ (i : Nat) (o : GK K), p.objs[i]? = some o → ∃ o', (p.objs ++ [(⟨s, 0, g.prngKey s⟩ : GK K)])[i]? = some o' ∧ o'.seed = o.seed := by
    intro s r
    have hcases : ∀ (i : Nat) (o : GK K), (p.objs ++ [(⟨s, 0, g.prngKey s⟩ : GK K)])[i]? = some o →
        p.objs[i]? = some o ∨ (i = p.objs.length ∧ o = ⟨s, 0, g.prngKey s⟩) := by
      intro i o ho
      by_cases hi : i < p.objs.length
      · rw [List.getElem?_append_left hi] at ho; exact .inl ho
      · rw [List.getElem?_append_right (by omega)] at ho
        right
        obtain ⟨hlt, he⟩ := List.getElem?_eq_some_iff.1 ho
        simp at hlt
        exact ⟨by omega, by simpa using he.symm⟩
    refine ⟨⟨?_, ?_, ?_⟩, by simp, ?_⟩
    · intro i o ho
      rcases hcases i o ho with ho | ⟨_, rfl⟩
      · exact h.key i o ho
      · rfl
    · intro i o ho
      rcases hcases i o ho with ho | ⟨rfl, rfl⟩
      · exact h.out i o ho
      · have : (p.out.filter fun e => e.1 == p.objs.length) = [] := by
          rw [List.filter_eq_nil_iff]
          intro e he
          have := h.known e he
          simp only [beq_iff_eq]; omega
        simp [this]
    · intro e he
      have := h.known e he
      simp; omega
    · intro i o ho
      have hi := (List.getElem?_eq_some_iff.1 ho).1
      exact ⟨o, by rw [List.getElem?_append_left hi, ho], rfl⟩
  cases a with
  | make a =>
    simp only [act, makeKey]
    cases a with
    | default =>
      cases env with
      | none => exact hmake _ _
      | some s => exact hmake s p.rand
    | given s =>
      cases s with
      | none => exact hmake _ _
      | some s => exact hmake s p.rand
  | call i =>
    simp only [act, callKey]
    cases hi : p.objs[i]? with
    | none => exact ⟨h, Nat.le_refl _, fun i o ho => ⟨o, ho, rfl⟩⟩
    | some o =>
      have hlt := (List.getElem?_eq_some_iff.1 hi).1
      have hget : ∀ j, (p.objs.set i { o with call := o.call + 1 })[j]? =
          if i = j then some { o with call := o.call + 1 } else p.objs[j]? := by
        intro j
        rw [List.getElem?_set]
        by_cases hj : i = j
        · subst hj; simp [hlt]
        · simp [hj]
      refine ⟨⟨?_, ?_, ?_⟩, by simp, ?_⟩
      · intro j o' ho'
        simp only [hget] at ho'
        split at ho'
        · cases ho'; exact h.key i o hi
        · exact h.key j o' ho'
      · intro j o' ho'
        simp only [hget] at ho'
        simp only [List.filter_append, List.map_append]
        split at ho'
        · rename_i hj
          subst hj
          cases ho'
          rw [h.out i o hi]
          simp [List.range_succ, h.key i o hi]
        · rename_i hj
          rw [h.out j o' ho']
          simp [hj]
      · intro e he
        simp only [List.mem_append, List.mem_singleton] at he
        simp only [List.length_set]
        rcases he with he | rfl
        · exact h.known e he
        · exact hlt
      · intro j o' ho'
        simp only [hget]
        by_cases hj : i = j
        · subst hj
          rw [hi] at ho'; cases ho'
          exact ⟨{ o with call := o.call + 1 }, by rw [if_pos rfl], rfl⟩
        · exact ⟨o', by rw [if_neg hj, ho'], rfl⟩

theorem good_history (g : Rng K R) (env : Option Int) (r : R) (h : List Act) : Good g (history g env r h) := by
  have : ∀ (h : List Act) (p : Proc K R), Good g p → Good g (h.foldl (act g env) p) := by
    intro h
    induction h with
    | nil => intro p hp; exact hp
    | cons a h ih => intro p hp; exact ih _ (good_act g env p a hp).1
  exact this h _ ⟨by simp, by simp, by simp⟩

/-- **C107**: whatever else happens, the keys that a `GetKey` has returned are `fold_in(PRNGKey(seed), 1)`, `fold_in(PRNGKey(seed), 2)`, ..., as
many as its `call` says: they are determined by the two numbers that its `repr` shows. -/
theorem getkey_keys (g : Rng K R) (env : Option Int) (r : R) (h : List Act) (i : Nat) (o : GK K) (ho : (history g env r h).objs[i]? = some o) :
    ((history g env r h).out.filter fun e => e.1 == i).map (·.2) =
      (List.range o.call).map fun n => g.foldIn (g.prngKey o.seed) (n + 1) := (good_history g env r h).out i o ho

/-- **C107**: so two `GetKey`s of the same seed, in whatever processes, return the same keys in the same order, one perhaps more than the other;
and if `fold_in` of a key is injective, no `GetKey` returns a key twice. -/
theorem getkey_reproducible (g : Rng K R) (env env' : Option Int) (r r' : R) (h h' : List Act) (i j : Nat) (o o' : GK K)
    (ho : (history g env r h).objs[i]? = some o) (ho' : (history g env' r' h').objs[j]? = some o') (hs : o.seed = o'.seed) :
    (o.call ≤ o'.call → ((history g env r h).out.filter fun e => e.1 == i).map (·.2) <+:
      ((history g env' r' h').out.filter fun e => e.1 == j).map (·.2)) ∧
    ((∀ k m n, g.foldIn k m = g.foldIn k n → m = n) → (((history g env r h).out.filter fun e => e.1 == i).map (·.2)).Nodup) := by
  rw [getkey_keys g env r h i o ho, getkey_keys g env' r' h' j o' ho', ← hs]
  constructor
  · intro hle
    obtain ⟨k, hk⟩ := Nat.le.dest hle
    rw [← hk, List.range_add, List.map_append]
    exact List.prefix_append _ _
  · intro hinj
    rw [List.Nodup, List.pairwise_map]
    refine List.Pairwise.imp ?_ List.nodup_range
    intro m n hne he
    have := hinj _ _ _ he
    omega

/-- **C107**: the seed: that of the argument; without argument `EQX_GETKEY_SEED`; if that is unset, or the argument is `None`, a random one. It
does not change. -/
theorem getkey_seed (g : Rng K R) (env : Option Int) (r : R) (h h' : List Act) (a : SeedArg) :
    ∃ o, (history g env r (h ++ .make a :: h')).objs[(history g env r h).objs.length]? = some o ∧
      (∀ s, a = .given (some s) → o.seed = s) ∧ (∀ s, a = .default → env = some s → o.seed = s) ∧
      (a = .given none ∨ (a = .default ∧ env = none) → o.seed = (g.randint (history g env r h).rand).1) := by
  have hstep : ∀ (h : List Act) (p : Proc K R) (i : Nat) (o : GK K), Good g p → p.objs[i]? = some o →
      ∃ o', (h.foldl (act g env) p).objs[i]? = some o' ∧ o'.seed = o.seed := by
    intro h
    induction h with
    | nil => intro p i o _ ho; exact ⟨o, ho, rfl⟩
    | cons a h ih =>
      intro p i o hp ho
      obtain ⟨h1, _, h3⟩ := good_act g env p a hp
      obtain ⟨o', ho', hs⟩ := h3 i o ho
      obtain ⟨o'', ho'', hs'⟩ := ih _ i o' h1 ho'
      exact ⟨o'', ho'', by rw [hs', hs]⟩
  have hmade : ∃ o, (act g env (history g env r h) (.make a)).objs[(history g env r h).objs.length]? = some o ∧
      (∀ s, a = .given (some s) → o.seed = s) ∧ (∀ s, a = .default → env = some s → o.seed = s) ∧
      (a = .given none ∨ (a = .default ∧ env = none) → o.seed = (g.randint (history g env r h).rand).1) := by
    have hlast : ∀ o : GK K, ((history g env r h).objs ++ [o])[(history g env r h).objs.length]? = some o := by intro o; simp
    simp only [act, makeKey]
    cases a with
    | default =>
      cases env with
      | none => exact ⟨_, hlast _, by simp, by simp, by simp⟩
      | some s => exact ⟨_, hlast _, by simp, by simp, by simp⟩
    | given s =>
      cases s with
      | none => exact ⟨_, hlast _, by simp, by simp, by simp⟩
      | some s => exact ⟨_, hlast _, by simp, by simp, by simp⟩
  obtain ⟨o, ho, h1, h2, h3⟩ := hmade
  obtain ⟨o', ho', hs⟩ := hstep h' _ _ o (good_act g env _ (.make a) (good_history g env r h)).1 ho
  refine ⟨o', ?_, ?_⟩
  · simp only [history, List.foldl_append, List.foldl_cons] at ho' ⊢
    exact ho'
  · rw [hs]; exact ⟨h1, h2, h3⟩

/-- **C107**: each of the random seeds is a new number of `random`, and nothing else takes one. -/
theorem getkey_random (g : Rng K R) (env : Option Int) (r : R) (h : List Act) : (history g env r h).rand = after g (randomSeeds env h) r := by
  have : ∀ (h : List Act) (p : Proc K R), (h.foldl (act g env) p).rand = after g (randomSeeds env h) p.rand := by
    intro h
    induction h with
    | nil => intro p; rfl
    | cons a h ih =>
      intro p
      rw [List.foldl_cons, ih]
      cases a with
      | call i =>
        simp only [act, callKey, randomSeeds]
        split <;> rfl
      | make a =>
        cases a with
        | default => cases env <;> simp [act, makeKey, randomSeeds, after]
        | given s => cases s <;> simp [act, makeKey, randomSeeds, after]
  exact this h _

/-! ### Concrete cases -/

/-- Two nested functions and a scan: one program is compiled, three calls are warned about. -/
example : run .breakpoint false (.seq (.jit true (.seq (.jit true (.prim fun n => .ok (n + 1))) (.jit false (.prim fun n => .ok (2 * n)))))
    (.traced (.jit true (.prim fun n => .ok (n + 5))))) 3 = ([.compiled, .warned, .warned, .warned], .ok 13) := rfl

def exRng : Rng (Int × Nat) Nat := ⟨fun s => (s, 0), fun k n => (k.1, n), fun r => (r, r + 1)⟩

/-- Three objects, used in turn. -/
example : (history exRng (some 7) 40 [.make .default, .make (.given none), .call 0, .call 1, .call 0, .make (.given (some 7)), .call 2]).out =
    [(0, (7, 1)), (1, (40, 1)), (0, (7, 2)), (2, (7, 1))] := rfl

example : (load (fun s => if s = "3" then some 3 else none)
    (fun n => if n = "EQX_ON_ERROR" then some "nan" else if n = "EQX_GETKEY_SEED" then some "3" else none)).toOption.map
      (fun c => (c.onError, c.frames, c.seed)) = some (.nan, 1, some 3) := rfl

end Verif.Misc.Settings
