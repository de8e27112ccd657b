import Verif.Basic
import Verif.Dict

/-!
# `assert_max_traces` (`equinox/debug/_max_traces.py`)

A history is a list of events. A call is split into what happens before `self.fn` is called, which is modelled, and the call
of `self.fn` itself, which may do anything, in particular call other (or the same) wrappers: these are later events of the
history. A copy of a wrapper made by flattening and unflattening holds the same `tag`, since the field is static. Copies by
`copy.deepcopy` or `pickle` are outside of the model. The weak dictionaries keep their entries as long as a wrapper is alive.
`S` are the structs made by `filter_eval_shape(lambda: value)`, compared by `tree_equal(...) is True`, here `eqS`.
-/

namespace Verif.MaxTraces

variable {S : Type}

/-- The fields of `_AssertMaxTraces` (34-36). `self.fn` is not needed. -/
structure Wrapper where
  max : Option Nat
  tag : Nat
deriving DecidableEq, Repr

/-- The state of the process: the wrappers, and the values of `_traces` and `_seen_args` (25-26) by tag. -/
structure World (S : Type) where
  wrappers : List Wrapper
  traces : Dict Nat Nat
  seen : Dict Nat (Dict String (List S))

/-- `inspect.signature(self.fn).bind(*args, **kwargs).arguments` (52) with the struct of each argument, or the exception. -/
abbrev Bound (S : Type) := Except Err (List (String × S))

/-- What can happen. Wrappers are numbered in the order of their creation. -/
inductive Event (S : Type) where
  /-- `assert_max_traces(fn, max_traces=max)` -/
  | wrap (max : Option Nat)
  /-- flatten and unflatten wrapper `i` -/
  | clone (i : Nat)
  /-- call wrapper `i` -/
  | call (i : Nat) (args : Bound S)

/-- What came of an event. -/
inductive Outcome where
  | made (i : Nat)
  /-- `self.fn(*args, **kwargs)` is called -/
  | ran
  /-- `RuntimeError`, blaming an argument (66-72) or none (73-77) -/
  | tooMany (blame : Option String)
  | raised (e : Err)
deriving DecidableEq, Repr

/-- The loop over the arguments (54-72): the first one unlike all previous values. -/
def blame (eqS : S → S → Bool) (seen : Dict String (List S)) : List (String × S) → Option String
  | [] => none
  | (n, s) :: rest => if ((seen.get? n).getD []).any (fun s' => eqS s s') then blame eqS seen rest else some n

/-- The loop which records the arguments (78-82). -/
def record (seen : Dict String (List S)) : List (String × S) → Dict String (List S)
  | [] => seen
  | (n, s) :: rest => record (seen.insert n ((seen.get? n).getD [] ++ [s])) rest

/-- `self.max_traces is not None and num_traces > self.max_traces` (53). -/
def exceeded : Option Nat → Nat → Bool
  | some m, n => n > m
  | none, _ => false

/-- `__call__` (49-83) up to the call of `self.fn`. -/
def enter (eqS : S → S → Bool) (w : World S) (wr : Wrapper) (args : Bound S) : World S × Outcome :=
  match w.traces.get? wr.tag, w.seen.get? wr.tag with
  | some n, some seen =>
    let w' := { w with traces := w.traces.insert wr.tag (n + 1) }
    match args with
    | .error e => (w', .raised e)
    | .ok as =>
      if exceeded wr.max (n + 1) then (w', .tooMany (blame eqS seen as))
      else ({ w' with seen := w.seen.insert wr.tag (record seen as) }, .ran)
  | _, _ => (w, .raised .keyError)

/-- One event. Numbers of wrappers that do not exist are a `NameError`. -/
def step (eqS : S → S → Bool) (w : World S) : Event S → World S × Outcome
  | .wrap m =>
    let t := w.traces.length
    (⟨w.wrappers ++ [⟨m, t⟩], w.traces.insert t 0, w.seen.insert t []⟩, .made w.wrappers.length)
  | .clone i => match w.wrappers[i]? with
    | some wr => ({ w with wrappers := w.wrappers ++ [wr] }, .made w.wrappers.length)
    | none => (w, .raised .nameError)
  | .call i args => match w.wrappers[i]? with
    | some wr => enter eqS w wr args
    | none => (w, .raised .nameError)

/-- The state after a history. -/
def run (eqS : S → S → Bool) (es : List (Event S)) : World S := es.foldl (fun w e => (step eqS w e).1) ⟨[], [], []⟩

/-- A callable as seen by `_get_num_traces`: one of the wrappers, an object with `__wrapped__`, or anything else. -/
inductive Callable where
  | wrapper (i : Nat)
  | wraps (f : Callable)
  | plain

/-- `_get_num_traces` (170-176). -/
def getNumTraces? (w : World S) : Callable → Option Nat
  | .wrapper i => (w.wrappers[i]?).bind (fun wr => w.traces.get? wr.tag)
  | .wraps f => getNumTraces? w f
  | .plain => none

/-- `get_num_traces` (158-167). -/
def getNumTraces (w : World S) (f : Callable) : Except Err Nat :=
  match getNumTraces? w f with
  | some n => .ok n
  | none => .error .valueError

end Verif.MaxTraces
