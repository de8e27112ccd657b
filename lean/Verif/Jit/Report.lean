/-! # C95: how `filter_jit` reports the errors of `error_if`

`equinox/_errors.py:_error` (84-99) and `equinox/_jit.py:_call` (230-293), `_FilterCallback` (185-190).

When the predicate of an `error_if` is true as the compiled program runs, its callback stores the message and the stack in
the globals `last_msg` and `last_stack` of `_jit.py` and raises. JAX turns that into a `JaxRuntimeError` whose text contains
that of the exception. `_call` recognises the text and raises an `EquinoxRuntimeError` made of the two globals instead.

What JAX does is a parameter: a run of a compiled program is a sequence of callbacks and then a result. A callback may also
call other functions wrapped in `filter_jit`, to any depth. `marker.block_until_ready()` means that the run is over when
`_call` goes on. -/

namespace Verif.Jit.Report

/-- Exceptions. -/
inductive Exc (M S E : Type) where
  /-- A `JaxRuntimeError`. `cause` is the message and stack of the `_EquinoxRuntimeError` whose text it contains, if it does
  contain `"_EquinoxRuntimeError: "`. -/
  | jax (cause : Option (M × S)) (text : E)
  /-- `EquinoxRuntimeError(_on_error_msg.format(msg=..., stack=...))` -/
  | equinox (msg : M) (stack : S)
  /-- Any other exception. -/
  | other (e : E)

variable {M S E V : Type}

/-- The run of a compiled program. -/
inductive Prog (M S E V : Type) where
  | done (out : Except (Exc M S E) V)
  /-- the callback `raises` of an `error_if` runs -/
  | fire (msg : M) (stack : S) (k : Prog M S E V)
  /-- a callback of the user calls a function wrapped in `filter_jit`, and handles its exceptions -/
  | host (inner k : Prog M S E V)

/-- `last_msg`, `last_stack` (`_jit.py`, 161-162), the filters of the logger `jax._src.callback`, and a counter for the
identity of new filters. -/
structure World (M S : Type) where
  msg : Option M
  stack : Option S
  filters : List Nat
  next : Nat

/-- `addFilter`, unless it is there already. -/
def addFilter (w : World M S) (f : Nat) : World M S :=
  { w with filters := if f ∈ w.filters then w.filters else w.filters ++ [f] }

/-- `removeFilter`, if it is there. -/
def removeFilter (w : World M S) (f : Nat) : World M S := { w with filters := w.filters.erase f }

/-- `_FilterCallback()` -/
def newFilter (w : World M S) : Nat × World M S := (w.next, { w with next := w.next + 1 })

/-- `except JaxRuntimeError as e` (272-290). -/
def translate (w : World M S) : Except (Exc M S E) V → Except (Exc M S E) V
  | .error (.jax cause text) =>
    match w.msg, w.stack with
    | some m, some s => if cause.isSome then .error (.equinox m s) else .error (.jax cause text)
    | _, _ => .error (.jax cause text)
  | r => r

/-- The run of a compiled program, where `host` goes through `_call`. -/
def exec (w : World M S) : Prog M S E V → World M S × Except (Exc M S E) V
  | .done out => (w, out)
  | .fire m s k => exec { w with msg := some m, stack := some s } k
  | .host inner k =>
    let f := newFilter w
    let r := exec (addFilter f.2 f.1) inner
    exec (removeFilter r.1 f.1) k

/-- `_call` for a call that runs `p` (253-293). -/
def call (w : World M S) (p : Prog M S E V) : World M S × Except (Exc M S E) V :=
  let f := newFilter w
  let r := exec (addFilter f.2 f.1) p
  (removeFilter r.1 f.1, translate r.1 r.2)

/-- Several calls one after another, with their results. -/
def calls (w : World M S) : List (Prog M S E V) → World M S × List (Except (Exc M S E) V)
  | [] => (w, [])
  | p :: ps =>
    let r := call w p
    let rs := calls r.1 ps
    (rs.1, r.2 :: rs.2)

/-- A fresh process. -/
def start : World M S := ⟨none, none, [], 0⟩

/-! ### Specification -/

/-- The errors of a run, in order. -/
def fired : Prog M S E V → List (M × S)
  | .done _ => []
  | .fire m s k => (m, s) :: fired k
  | .host inner k => fired inner ++ fired k

/-- What JAX returns or raises in the end. -/
def result : Prog M S E V → Except (Exc M S E) V
  | .done out => out
  | .fire _ _ k => result k
  | .host _ k => result k

/-- A `JaxRuntimeError` that comes from an `error_if`. -/
def FromErrorIf (r : Except (Exc M S E) V) : Prop := ∃ c t, r = .error (.jax (some c) t)

/-! ### Proofs -/

/-- The two globals are set together, and filters are those of earlier objects. -/
def Ok (w : World M S) (last : Option (M × S)) : Prop :=
  w.msg = last.map (·.1) ∧ w.stack = last.map (·.2) ∧ ∀ f ∈ w.filters, f < w.next

/-- The last of some errors, those before included. -/
def lastOf (last : Option (M × S)) (l : List (M × S)) : Option (M × S) := l.getLast?.or last

theorem lastOf_append (last : Option (M × S)) (l l' : List (M × S)) : lastOf last (l ++ l') = lastOf (lastOf last l) l' := by
  unfold lastOf
  rw [List.getLast?_append]
  cases l'.getLast? <;> simp

theorem lastOf_cons (last : Option (M × S)) (x : M × S) (l : List (M × S)) : lastOf last (x :: l) = lastOf (some x) l := by
  have := lastOf_append last [x] l
  simpa [lastOf] using this

theorem erase_added {l : List Nat} {n : Nat} (h : ∀ f ∈ l, f < n) : (if n ∈ l then l else l ++ [n]).erase n = l := by
  have hn : n ∉ l := fun hm => Nat.lt_irrefl _ (h n hm)
  rw [if_neg hn, List.erase_append_right _ hn]
  simp

theorem mem_added {l : List Nat} {n f : Nat} (h : f ∈ if n ∈ l then l else l ++ [n]) : f ∈ l ∨ f = n := by
  by_cases hn : n ∈ l
  · rw [if_pos hn] at h; exact .inl h
  · rw [if_neg hn] at h; simpa using h

theorem exec_ok (p : Prog M S E V) (w : World M S) (last : Option (M × S)) (h : Ok w last) :
    Ok (exec w p).1 (lastOf last (fired p)) ∧ (exec w p).1.filters = w.filters ∧ w.next ≤ (exec w p).1.next ∧
      (exec w p).2 = result p := by
  induction p generalizing w last with
  | done out => exact ⟨by simpa [exec, fired, lastOf] using h, rfl, Nat.le_refl _, rfl⟩
  | fire m s k ih =>
    have := ih { w with msg := some m, stack := some s } (some (m, s)) ⟨rfl, rfl, h.2.2⟩
    rw [exec, fired, result, lastOf_cons]
    exact this
  | host inner k ihi ihk =>
    rw [exec, fired, result, lastOf_append]
    have h1 : Ok (addFilter (newFilter w).2 (newFilter w).1) last := by
      refine ⟨h.1, h.2.1, ?_⟩
      intro f hf
      simp only [addFilter, newFilter] at hf ⊢
      rcases mem_added hf with hf | hf
      · exact Nat.lt_succ_of_lt (h.2.2 f hf)
      · omega
    obtain ⟨a1, a2, a3, -⟩ := ihi _ last h1
    have hfil : (removeFilter (exec (addFilter (newFilter w).2 (newFilter w).1) inner).1 (newFilter w).1).filters = w.filters := by
      rw [removeFilter, a2]
      exact erase_added h.2.2
    have hnext : w.next ≤ (exec (addFilter (newFilter w).2 (newFilter w).1) inner).1.next := by
      refine Nat.le_trans ?_ a3
      exact Nat.le_succ _
    obtain ⟨b1, b2, b3, b4⟩ := ihk (removeFilter (exec (addFilter (newFilter w).2 (newFilter w).1) inner).1 (newFilter w).1)
      (lastOf last (fired inner)) ⟨a1.1, a1.2.1, by
        intro f hf
        rw [hfil] at hf
        exact Nat.lt_of_lt_of_le (h.2.2 f hf) hnext⟩
    exact ⟨b1, b2.trans hfil, Nat.le_trans hnext b3, b4⟩

theorem call_ok (p : Prog M S E V) (w : World M S) (last : Option (M × S)) (h : Ok w last) :
    Ok (call w p).1 (lastOf last (fired p)) ∧ (call w p).1.filters = w.filters ∧
      ∃ w' : World M S, Ok w' (lastOf last (fired p)) ∧ (call w p).2 = translate w' (result p) := by
  have h1 : Ok (addFilter (newFilter w).2 (newFilter w).1) last := by
    refine ⟨h.1, h.2.1, ?_⟩
    intro f hf
    simp only [addFilter, newFilter] at hf ⊢
    rcases mem_added hf with hf | hf
    · exact Nat.lt_succ_of_lt (h.2.2 f hf)
    · omega
  obtain ⟨a1, a2, a3, a4⟩ := exec_ok p _ last h1
  have hfil : (call w p).1.filters = w.filters := by
    simp only [call, removeFilter, a2]
    exact erase_added h.2.2
  refine ⟨⟨a1.1, a1.2.1, ?_⟩, hfil, _, a1, ?_⟩
  · intro f hf
    rw [hfil] at hf
    have h2 : w.next ≤ (call w p).1.next := Nat.le_trans (Nat.le_succ _) a3
    exact Nat.lt_of_lt_of_le (h.2.2 f hf) h2
  · simp only [call, a4]

theorem calls_ok (ps : List (Prog M S E V)) (w : World M S) (last : Option (M × S)) (h : Ok w last) :
    Ok (calls w ps).1 (lastOf last (ps.flatMap fired)) ∧ (calls w ps).1.filters = w.filters := by
  induction ps generalizing w last with
  | nil => exact ⟨by simpa [calls, lastOf] using h, rfl⟩
  | cons p ps ih =>
    obtain ⟨a1, a2, -⟩ := call_ok p w last h
    obtain ⟨b1, b2⟩ := ih _ _ a1
    rw [calls, List.flatMap_cons, lastOf_append]
    exact ⟨b1, b2.trans a2⟩

/-! ### Theorems

`w` is any state that can be reached: that after any sequence of calls `ps`. -/

/-- **C95** (logging): whatever happens in a call, the filters of the logger are afterwards as they were before, those of
the user included. -/
theorem filters_restored (user : List Nat) (n : Nat) (hn : ∀ f ∈ user, f < n) (ps : List (Prog M S E V)) :
    (calls (⟨none, none, user, n⟩ : World M S) ps).1.filters = user :=
  (calls_ok ps ⟨none, none, user, n⟩ none ⟨rfl, rfl, hn⟩).2

/-- **C95** (logging): and while the program runs, also after calls nested in it, the filter of the call is in place. -/
theorem filter_in_place (w : World M S) (hw : ∀ f ∈ w.filters, f < w.next) (hg : w.msg.isSome = w.stack.isSome)
    (p : Prog M S E V) :
    (exec (addFilter (newFilter w).2 (newFilter w).1) p).1.filters = w.filters ++ [w.next] := by
  have hlast : ∃ last, Ok w last := by
    cases hm : w.msg with
    | none =>
      cases hs : w.stack with
      | none => exact ⟨none, hm, hs, hw⟩
      | some s => rw [hm, hs] at hg; simp at hg
    | some m =>
      cases hs : w.stack with
      | none => rw [hm, hs] at hg; simp at hg
      | some s => exact ⟨some (m, s), hm, hs, hw⟩
  obtain ⟨last, h⟩ := hlast
  have hnot : w.next ∉ w.filters := fun hm => Nat.lt_irrefl _ (hw _ hm)
  have h1 : Ok (addFilter (newFilter w).2 (newFilter w).1) last := by
    refine ⟨h.1, h.2.1, ?_⟩
    intro f hf
    simp only [addFilter, newFilter] at hf ⊢
    rcases mem_added hf with hf | hf
    · exact Nat.lt_succ_of_lt (hw f hf)
    · omega
  rw [(exec_ok p _ last h1).2.1]
  exact if_neg hnot

/-- **C95** (nothing else is touched): what is not a `JaxRuntimeError` from an `error_if` is returned or raised as it is. -/
theorem others_pass (w : World M S) (p : Prog M S E V) (h : ¬ FromErrorIf (result p)) : (call w p).2 = result p := by
  have hexec : ∀ (p : Prog M S E V) (w : World M S), (exec w p).2 = result p := by
    intro p
    induction p with
    | done out => intro w; rfl
    | fire m s k ih => intro w; exact ih _
    | host inner k _ ih => intro w; exact ih _
  simp only [call, hexec]
  cases hr : result p with
  | ok v => rfl
  | error e =>
    cases e with
    | jax cause text =>
      cases cause with
      | none =>
        simp only [translate]
        split <;> simp
      | some c => exact absurd ⟨c, text, hr⟩ h
    | equinox m s => rfl
    | other e => rfl

/-- **C95** (what is raised): for an error from an `error_if`, the message and stack of the last error so far, that of this
call if there is one. -/
theorem reports_last (ps : List (Prog M S E V)) (p : Prog M S E V) (h : FromErrorIf (result p)) :
    (∀ c, (fired p).getLast? = some c →
      (call (calls (start : World M S) ps).1 p).2 = .error (.equinox c.1 c.2)) ∧
    (∀ c, fired p = [] → (ps.flatMap fired).getLast? = some c →
      (call (calls (start : World M S) ps).1 p).2 = .error (.equinox c.1 c.2)) ∧
    (fired p = [] → ps.flatMap fired = [] → (call (calls (start : World M S) ps).1 p).2 = result p) := by
  obtain ⟨h1, -⟩ := calls_ok ps (start : World M S) none ⟨rfl, rfl, by simp [start]⟩
  obtain ⟨-, -, w', hw, hc⟩ := call_ok p _ _ h1
  obtain ⟨c₀, t, hr⟩ := h
  rw [hc, hr]
  obtain ⟨w1, w2, -⟩ := hw
  refine ⟨?_, ?_, ?_⟩
  · intro c hl
    simp only [lastOf, hl, Option.some_or, Option.map_some] at w1 w2
    simp [translate, w1, w2]
  · intro c hp hl
    simp only [lastOf, hl, hp, List.getLast?_nil, Option.none_or, Option.some_or, Option.map_some] at w1 w2
    simp [translate, w1, w2]
  · intro hp hl
    simp only [lastOf, hl, hp, List.getLast?_nil, Option.none_or, Option.map_none] at w1 w2
    simp [translate, w1, w2]

/-- **C95**, the claim itself, with the hypothesis it needs: a call stopped by an `error_if` raises an `EquinoxRuntimeError`
with the message and stack of just that `error_if`, whatever was called before, if no other `error_if` was violated later
than that one. In full the hypothesis should be absent; `stale_message` shows that it cannot be. -/
theorem reports_cause_partial (ps : List (Prog M S E V)) (p : Prog M S E V) (m : M) (s : S) (t : E)
    (h : result p = .error (.jax (some (m, s)) t)) (hl : (fired p).getLast? = some (m, s)) :
    (call (calls (start : World M S) ps).1 p).2 = .error (.equinox m s) :=
  (reports_last ps p ⟨_, _, h⟩).1 _ hl

/-- Two violated `error_if`s in one run (no order is imposed on them) or an array computed earlier, without `filter_jit` and
asynchronously, whose computation failed: the message raised is another one than that of the error which stopped the call. -/
theorem stale_message :
    (∃ p : Prog Nat Nat Unit Unit, result p = .error (.jax (some (1, 10)) ()) ∧ (1, 10) ∈ fired p ∧
      (call start p).2 = .error (.equinox 2 20)) ∧
    ∃ (ps : List (Prog Nat Nat Unit Unit)) (p : Prog Nat Nat Unit Unit), result p = .error (.jax (some (1, 10)) ()) ∧
      (1, 10) ∈ ps.flatMap fired ∧ (call (calls start ps).1 p).2 = .error (.equinox 2 20) := by
  refine ⟨⟨.fire 1 10 (.fire 2 20 (.done (.error (.jax (some (1, 10)) ())))), rfl, by simp [fired], rfl⟩,
    [.fire 1 10 (.done (.ok ())), .fire 2 20 (.done (.ok ()))], .done (.error (.jax (some (1, 10)) ())), rfl,
    by simp [fired], rfl⟩

/-- The hypotheses are met: after a call that failed otherwise, and with a nested call that fails in between. -/
example : ∃ (ps : List (Prog Nat Nat Unit Unit)) (p : Prog Nat Nat Unit Unit),
    result p = .error (.jax (some (1, 10)) ()) ∧ (fired p).getLast? = some (1, 10) ∧ (ps.flatMap fired).length = 1 ∧
      (fired p).length = 2 ∧ (calls start (ps ++ [p])).2 = [.error (.equinox 7 70), .error (.equinox 1 10)] :=
  ⟨[.fire 7 70 (.done (.error (.jax (some (7, 70)) ())))],
    .host (.fire 3 30 (.done (.error (.jax (some (3, 30)) ())))) (.fire 1 10 (.done (.error (.jax (some (1, 10)) ())))),
    rfl, rfl, rfl, rfl, rfl⟩

end Verif.Jit.Report
