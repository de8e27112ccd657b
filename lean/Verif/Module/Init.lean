import Verif.Basic
import Verif.Dict

/-!
# Construction of modules (`equinox/_module.py`)

`_ActualModuleMeta.__call__` (501-567) after the check for abstract classes (see `Module/Class.lean`), the `__setattr__` of
`_make_initable` (760-831), and the `__setattr__`/`__delattr__` that `dataclasses.dataclass(frozen=True)` (292) generates.

`__init__`, `__post_init__` and `__check_init__` are programs that read, assign and delete attributes of `self` and may
catch what that raises. Going around `__setattr__` (`object.__setattr__`, `self.__dict__`) is outside of the model, and so
are values that are changed in place. Warnings are left out.
-/

namespace Verif.Module.Init

/-- What a name is bound to on the class. -/
inductive ClassAttr (N V : Type) where
  /-- an object without `__set__` -/
  | plain (v : V)
  /-- a property without setter; it computes its value from the instance -/
  | property (get : Dict N V → Except Err V)

/-- A field: its name and `metadata["converter"]`. -/
structure Field (N V : Type) where
  name : N
  converter : Option (V → Except Err V)

/-- What a method does with `self`. Continuations receive what the operation returned or raised. -/
inductive Prog (N V : Type) where
  | done
  | raise (e : Err)
  | get (n : N) (k : Except Err V → Prog N V)
  | set (n : N) (v : V) (k : Except Err Unit → Prog N V)
  | del (n : N) (k : Except Err Unit → Prog N V)

/-- `__init__`: written by the user, or generated by `dataclass`, which assigns the arguments with `object.__setattr__` and
then calls `__post_init__`. -/
inductive InitFn (N V : Type) where
  | custom (p : Prog N V)
  | generated (args : N → Option V) (post : Prog N V)

/-- A class. `boundToSelf v` says that `v` is a `BoundMethod` whose `__self__` is the instance being built. `checks` are
the `__check_init__` methods along the method resolution order. -/
structure Cls (N V : Type) where
  fields : List (Field N V)
  attrs : N → Option (ClassAttr N V)
  boundToSelf : V → Bool
  checks : List (Prog N V)

/-- An instance: whether its class is still `_InitableModule`, and its `__dict__`. -/
structure Inst (N V : Type) where
  initable : Bool
  dict : Dict N V

variable {N V : Type} [DecidableEq N]

/-- `object.__getattribute__`. -/
def getattr (c : Cls N V) (s : Inst N V) (n : N) : Except Err V :=
  match c.attrs n with
  | some (.property g) => g s.dict
  | some (.plain v) => match s.dict.get? n with
    | some u => .ok u
    | none => .ok v
  | none => match s.dict.get? n with
    | some u => .ok u
    | none => .error .attributeError

/-- `object.__setattr__`. -/
def objSetattr (c : Cls N V) (s : Inst N V) (n : N) (v : V) : Except Err (Inst N V) :=
  match c.attrs n with
  | some (.property _) => .error .attributeError
  | _ => .ok { s with dict := s.dict.insert n v }

/-- `setattr(self, n, v)`: the `__setattr__` of `_InitableModule` (778-818) during construction, afterwards that of a frozen
dataclass, which raises because `type(self) is cls`. -/
def setattr (c : Cls N V) (s : Inst N V) (n : N) (v : V) : Except Err (Inst N V) :=
  if s.initable then
    if n ∈ c.fields.map (·.name) then
      if c.boundToSelf v then .error .valueError
      else objSetattr c s n v
    else .error .attributeError
  else .error .frozenInstance

/-- `delattr(self, n)`: `_InitableModule` is a frozen dataclass as well, and does not replace `__delattr__`. -/
def delattr (_c : Cls N V) (_s : Inst N V) (_n : N) : Except Err (Inst N V) := .error .frozenInstance

/-- Run a method on an instance. -/
def run (c : Cls N V) : Prog N V → Inst N V → Except Err (Inst N V)
  | .done, s => .ok s
  | .raise e, _ => .error e
  | .get n k, s => run c (k (getattr c s n)) s
  | .set n v k, s =>
    match setattr c s n v with
    | .ok s' => run c (k (.ok ())) s'
    | .error e => run c (k (.error e)) s
  | .del n k, s =>
    match delattr c s n with
    | .ok s' => run c (k (.ok ())) s'
    | .error e => run c (k (.error e)) s

/-- The assignments of a generated `__init__`. -/
def assignArgs (c : Cls N V) (args : N → Option V) : List (Field N V) → Inst N V → Except Err (Inst N V)
  | [], s => .ok s
  | f :: fs, s =>
    match args f.name with
    | none => assignArgs c args fs s
    | some v => do
      let s' ← objSetattr c s f.name v
      assignArgs c args fs s'

/-- `super().__call__(*args, **kwargs)` (514): a new instance, initialised. -/
def runInit (c : Cls N V) : InitFn N V → Except Err (Inst N V)
  | .custom p => run c p ⟨true, []⟩
  | .generated args post => do
    let s ← assignArgs c args c.fields ⟨true, []⟩
    run c post s

/-- The loop over the converters (517-529). -/
def runConverters (c : Cls N V) : List (Field N V) → Inst N V → Except Err (Inst N V)
  | [], s => .ok s
  | f :: fs, s =>
    match f.converter with
    | none => runConverters c fs s
    | some g =>
      match getattr c s f.name with
      | .error .attributeError => runConverters c fs s
      | .error e => .error e
      | .ok v => do
        let v' ← g v
        let s' ← setattr c s f.name v'
        runConverters c fs s'

/-- `name in dir(self)`. -/
def inDir (c : Cls N V) (s : Inst N V) (n : N) : Bool := (s.dict.get? n).isSome || (c.attrs n).isSome

/-- The loop over `__check_init__` (560-566). -/
def runChecks (c : Cls N V) : List (Prog N V) → Inst N V → Except Err (Inst N V)
  | [], s => .ok s
  | p :: ps, s => do
    let s' ← run c p s
    runChecks c ps s'

/-- `_ActualModuleMeta.__call__` (501-567). -/
def construct (c : Cls N V) (init : InitFn N V) : Except Err (Inst N V) := do
  let s ← runInit c init
  let s ← runConverters c c.fields s
  if c.fields.all (fun f => inDir c s f.name) then
    runChecks c c.checks { s with initable := false }
  else .error .valueError

/-! ### Properties -/

/-- **C36**, frozen: on a finished instance assignment and deletion raise `FrozenInstanceError`, whatever the name. -/
theorem frozen_raises {c : Cls N V} {s : Inst N V} (h : s.initable = false) (n : N) (v : V) :
    setattr c s n v = .error .frozenInstance ∧ delattr c s n = .error .frozenInstance := by
  simp [setattr, delattr, h]

/-- **C36**, frozen: no method changes a finished instance. -/
theorem frozen_unchanged {c : Cls N V} {p : Prog N V} {s s' : Inst N V} (h : s.initable = false)
    (hr : run c p s = .ok s') : s' = s := by
  induction p generalizing s' with
  | done => simp only [run, Except.ok.injEq] at hr; exact hr.symm
  | raise e => simp [run] at hr
  | get n k ih => rw [run] at hr; exact ih _ hr
  | set n v k ih => rw [run, (frozen_raises h n v).1] at hr; exact ih _ hr
  | del n k ih => rw [run, delattr] at hr; exact ih _ hr

/-- **C36**: during `__init__` only declared fields can be assigned. -/
theorem undeclared_raises {c : Cls N V} {s : Inst N V} (h : s.initable = true) {n : N} (hn : ∀ f ∈ c.fields, f.name ≠ n)
    (v : V) : setattr c s n v = .error .attributeError := by
  have : n ∉ c.fields.map (·.name) := by
    intro hm
    obtain ⟨f, hf, he⟩ := List.mem_map.1 hm
    exact hn f hf he
  rw [setattr, if_pos h, if_neg this]

/-- Methods of the instance cannot be assigned to its own fields, which would make a cycle. -/
theorem bound_method_raises {c : Cls N V} {s : Inst N V} (h : s.initable = true) {f : Field N V} (hf : f ∈ c.fields) {v : V}
    (hv : c.boundToSelf v = true) : setattr c s f.name v = .error .valueError := by
  rw [setattr, if_pos h, if_pos (List.mem_map.2 ⟨f, hf, rfl⟩), if_pos hv]

/-- Fields can be assigned during `__init__`, any number of times. -/
theorem declared_assigns {c : Cls N V} {s : Inst N V} (h : s.initable = true) {f : Field N V} (hf : f ∈ c.fields) {v : V}
    (hv : c.boundToSelf v = false) (hp : ∀ g, c.attrs f.name ≠ some (.property g)) :
    ∃ s', setattr c s f.name v = .ok s' ∧ s'.initable = true ∧
      ∀ n, s'.dict.get? n = if f.name = n then some v else s.dict.get? n := by
  have hobj : objSetattr c s f.name v = .ok { s with dict := s.dict.insert f.name v } := by
    unfold objSetattr
    split
    · rename_i g hg; exact absurd hg (hp g)
    · rfl
  rw [setattr, if_pos h, if_pos (List.mem_map.2 ⟨f, hf, rfl⟩), if_neg (by simp [hv])]
  exact ⟨_, hobj, h, fun n => Dict.get?_insert _ _ _ _⟩

/-- Assigned names are declared fields. -/
def OnlyFields (c : Cls N V) (s : Inst N V) : Prop := ∀ n v, s.dict.get? n = some v → ∃ f ∈ c.fields, f.name = n

theorem objSetattr_only {c : Cls N V} {s s' : Inst N V} {f : Field N V} (hf : f ∈ c.fields) {v : V} (hs : OnlyFields c s)
    (h : objSetattr c s f.name v = .ok s') : OnlyFields c s' ∧ s'.initable = s.initable := by
  unfold objSetattr at h
  split at h
  · cases h
  · cases h
    refine ⟨fun n u hn => ?_, rfl⟩
    simp only [Dict.get?_insert] at hn
    split at hn
    · rename_i he; exact ⟨f, hf, he⟩
    · exact hs n u hn

theorem setattr_only {c : Cls N V} {s s' : Inst N V} {n : N} {v : V} (hs : OnlyFields c s)
    (h : setattr c s n v = .ok s') : OnlyFields c s' ∧ s'.initable = s.initable := by
  unfold setattr at h
  split at h
  · split at h
    · rename_i hn
      obtain ⟨f, hf, rfl⟩ := List.mem_map.1 hn
      split at h
      · cases h
      · exact objSetattr_only hf hs h
    · cases h
  · cases h

theorem run_only {c : Cls N V} {p : Prog N V} {s s' : Inst N V} (hs : OnlyFields c s) (h : run c p s = .ok s') :
    OnlyFields c s' ∧ s'.initable = s.initable := by
  induction p generalizing s with
  | done => simp only [run, Except.ok.injEq] at h; subst h; exact ⟨hs, rfl⟩
  | raise e => simp [run] at h
  | get n k ih => rw [run] at h; exact ih _ hs h
  | set n v k ih =>
    rw [run] at h
    split at h
    · rename_i s₁ h₁
      obtain ⟨a, b⟩ := setattr_only hs h₁
      obtain ⟨a', b'⟩ := ih _ a h
      exact ⟨a', b'.trans b⟩
    · exact ih _ hs h
  | del n k ih => rw [run, delattr] at h; exact ih _ hs h

theorem assignArgs_only {c : Cls N V} {args : N → Option V} {fs : List (Field N V)} (hfs : ∀ f ∈ fs, f ∈ c.fields)
    {s s' : Inst N V} (hs : OnlyFields c s) (h : assignArgs c args fs s = .ok s') :
    OnlyFields c s' ∧ s'.initable = s.initable := by
  induction fs generalizing s with
  | nil => simp only [assignArgs, Except.ok.injEq] at h; subst h; exact ⟨hs, rfl⟩
  | cons f fs ih =>
    have hfs' : ∀ f ∈ fs, f ∈ c.fields := fun f hf => hfs f (List.mem_cons_of_mem _ hf)
    simp only [assignArgs] at h
    split at h
    · exact ih hfs' hs h
    · simp only [bind, Except.bind] at h
      split at h
      · cases h
      · rename_i s₁ h₁
        obtain ⟨a, b⟩ := objSetattr_only (hfs f (by simp)) hs h₁
        obtain ⟨a', b'⟩ := ih hfs' a h
        exact ⟨a', b'.trans b⟩

theorem runInit_only {c : Cls N V} {init : InitFn N V} {s : Inst N V} (h : runInit c init = .ok s) :
    OnlyFields c s ∧ s.initable = true := by
  have h0 : OnlyFields c ⟨true, []⟩ := by intro n v hn; simp [Dict.get?] at hn
  cases init with
  | custom p => exact run_only h0 h
  | generated args post =>
    simp only [runInit, bind, Except.bind] at h
    split at h
    · cases h
    · rename_i s₁ h₁
      obtain ⟨a, b⟩ := assignArgs_only (fun _ h => h) h0 h₁
      obtain ⟨a', b'⟩ := run_only a h
      exact ⟨a', b'.trans b⟩

/-- A generated `__init__` assigns its arguments, and then runs `__post_init__`. -/
theorem generated_assigns {c : Cls N V} {args : N → Option V} (hn : (c.fields.map (·.name)).Nodup)
    (hp : ∀ f ∈ c.fields, ∀ g, c.attrs f.name ≠ some (.property g)) :
    ∃ s, (∀ f ∈ c.fields, s.dict.get? f.name = args f.name) ∧ s.initable = true ∧
      ∀ post, runInit c (.generated args post) = run c post s := by
  suffices ∀ (fs : List (Field N V)) (s : Inst N V), (fs.map (·.name)).Nodup →
      (∀ f ∈ fs, ∀ g, c.attrs f.name ≠ some (.property g)) → (∀ f ∈ fs, s.dict.get? f.name = none) →
      ∃ s', assignArgs c args fs s = .ok s' ∧ (∀ f ∈ fs, s'.dict.get? f.name = args f.name) ∧
        ∀ n, (∀ f ∈ fs, f.name ≠ n) → s'.dict.get? n = s.dict.get? n by
    obtain ⟨s, h1, h2, -⟩ := this c.fields ⟨true, []⟩ hn hp (by intro f _; simp [Dict.get?])
    have h0 : OnlyFields c ⟨true, []⟩ := by intro n v hn; simp [Dict.get?] at hn
    exact ⟨s, h2, (assignArgs_only (fun _ h => h) h0 h1).2, fun post => by simp [runInit, h1, bind, Except.bind]⟩
  intro fs
  induction fs with
  | nil => intro s _ _ _; exact ⟨s, rfl, by simp, fun n _ => rfl⟩
  | cons f fs ih =>
    intro s hn hp h0
    simp only [List.map_cons, List.nodup_cons] at hn
    have hne : ∀ g ∈ fs, f.name ≠ g.name := fun g hg he => hn.1 (by rw [he]; exact List.mem_map.2 ⟨g, hg, rfl⟩)
    simp only [assignArgs]
    cases ha : args f.name with
    | none =>
      obtain ⟨s', h1, h2, h3⟩ := ih s hn.2 (fun g hg => hp g (List.mem_cons_of_mem _ hg))
        (fun g hg => h0 g (List.mem_cons_of_mem _ hg))
      refine ⟨s', h1, ?_, fun n hn => h3 n (fun g hg => hn g (List.mem_cons_of_mem _ hg))⟩
      intro g hg
      rcases List.mem_cons.1 hg with rfl | hg
      · rw [h3 _ (fun g' hg' he => hne g' hg' he.symm), h0 g (by simp), ha]
      · exact h2 g hg
    | some v =>
      have hobj : objSetattr c s f.name v = .ok { s with dict := s.dict.insert f.name v } := by
        unfold objSetattr
        split
        · rename_i g hg; exact absurd hg (hp f (by simp) g)
        · rfl
      obtain ⟨s', h1, h2, h3⟩ := ih { s with dict := s.dict.insert f.name v } hn.2
        (fun g hg => hp g (List.mem_cons_of_mem _ hg))
        (fun g hg => by
          simp only [Dict.get?_insert]
          rw [if_neg (hne g hg)]
          exact h0 g (List.mem_cons_of_mem _ hg))
      refine ⟨s', by simp only [hobj, bind, Except.bind]; exact h1, ?_, ?_⟩
      · intro g hg
        rcases List.mem_cons.1 hg with rfl | hg
        · rw [h3 _ (fun g' hg' he => hne g' hg' he.symm), ha]
          simp [Dict.get?_insert]
        · exact h2 g hg
      · intro n hn'
        rw [h3 n (fun g hg => hn' g (List.mem_cons_of_mem _ hg))]
        simp only [Dict.get?_insert]
        rw [if_neg (hn' f (by simp))]

/-- What a field holds before converters run: the instance's value or a default kept on the class. -/
def held (c : Cls N V) (s : Inst N V) (n : N) : Option V :=
  match s.dict.get? n with
  | some v => some v
  | none => match c.attrs n with
    | some (.plain v) => some v
    | _ => none

theorem getattr_held {c : Cls N V} {s : Inst N V} {n : N} (hp : ∀ g, c.attrs n ≠ some (.property g)) :
    getattr c s n = match held c s n with | some v => .ok v | none => .error .attributeError := by
  unfold getattr held
  cases ha : c.attrs n with
  | none => cases s.dict.get? n <;> rfl
  | some a =>
    cases a with
    | plain v => cases s.dict.get? n <;> rfl
    | property g => exact absurd ha (hp g)

/-- Converters: each is applied once, to what the field holds, and nothing else changes. -/
theorem runConverters_spec {c : Cls N V} {fs : List (Field N V)} (hfs : ∀ f ∈ fs, f ∈ c.fields)
    (hn : (fs.map (·.name)).Nodup) (hp : ∀ f ∈ fs, ∀ g, c.attrs f.name ≠ some (.property g)) {s s' : Inst N V}
    (hi : s.initable = true) (hs : OnlyFields c s) (h : runConverters c fs s = .ok s') :
    s'.initable = true ∧ OnlyFields c s' ∧
    (∀ n, (∀ f ∈ fs, f.name = n → f.converter = none) → s'.dict.get? n = s.dict.get? n) ∧
    (∀ f ∈ fs, ∀ g, f.converter = some g →
      match held c s f.name with
      | some v => ∃ v', g v = .ok v' ∧ s'.dict.get? f.name = some v'
      | none => s'.dict.get? f.name = none) := by
  induction fs generalizing s with
  | nil =>
    simp only [runConverters, Except.ok.injEq] at h
    subst h
    exact ⟨hi, hs, fun n _ => rfl, by simp⟩
  | cons f fs ih =>
    have hfs' : ∀ f ∈ fs, f ∈ c.fields := fun f hf => hfs f (List.mem_cons_of_mem _ hf)
    have hp' : ∀ f ∈ fs, ∀ g, c.attrs f.name ≠ some (.property g) := fun f hf => hp f (List.mem_cons_of_mem _ hf)
    simp only [List.map_cons, List.nodup_cons] at hn
    have hne : ∀ g ∈ fs, f.name ≠ g.name := fun g hg he => hn.1 (by rw [he]; exact List.mem_map.2 ⟨g, hg, rfl⟩)
    simp only [runConverters] at h
    cases hc : f.converter with
    | none =>
      rw [hc] at h
      obtain ⟨a1, a2, a3, a4⟩ := ih hfs' hn.2 hp' hi hs h
      refine ⟨a1, a2, fun n hn' => a3 n (fun g hg => hn' g (List.mem_cons_of_mem _ hg)), ?_⟩
      intro g hg conv hconv
      rcases List.mem_cons.1 hg with rfl | hg
      · rw [hc] at hconv; cases hconv
      · exact a4 g hg conv hconv
    | some conv =>
      rw [hc] at h
      simp only [getattr_held (hp f (by simp))] at h
      cases hh : held c s f.name with
      | none =>
        simp only [hh] at h
        obtain ⟨a1, a2, a3, a4⟩ := ih hfs' hn.2 hp' hi hs h
        refine ⟨a1, a2, fun n hn' => a3 n (fun g hg => hn' g (List.mem_cons_of_mem _ hg)), ?_⟩
        intro g hg conv' hconv
        rcases List.mem_cons.1 hg with rfl | hg
        · rw [hh]
          rw [a3 g.name (fun g' hg' he => absurd he.symm (hne g' hg'))]
          cases hd : s.dict.get? g.name with
          | none => rfl
          | some v => rw [held, hd] at hh; cases hh
        · exact a4 g hg conv' hconv
      | some v =>
        simp only [hh, bind, Except.bind] at h
        split at h
        · cases h
        · rename_i v' hv'
          split at h
          · cases h
          · rename_i s₁ hs₁
            obtain ⟨b1, b2⟩ := setattr_only hs hs₁
            have hget : ∀ n, s₁.dict.get? n = if f.name = n then some v' else s.dict.get? n := by
              intro n
              unfold setattr at hs₁
              rw [if_pos hi] at hs₁
              split at hs₁
              · split at hs₁
                · cases hs₁
                · unfold objSetattr at hs₁
                  split at hs₁
                  · cases hs₁
                  · cases hs₁
                    exact Dict.get?_insert _ _ _ _
              · cases hs₁
            obtain ⟨a1, a2, a3, a4⟩ := ih hfs' hn.2 hp' (b2.trans hi) b1 h
            refine ⟨a1, a2, ?_, ?_⟩
            · intro n hn'
              have hfn : f.name ≠ n := by
                intro he
                have := hn' f (by simp) he
                rw [hc] at this; cases this
              rw [a3 n (fun g hg => hn' g (List.mem_cons_of_mem _ hg)), hget n, if_neg hfn]
            · intro g hg conv' hconv
              rcases List.mem_cons.1 hg with rfl | hg
              · rw [hc] at hconv; cases hconv
                rw [hh]
                refine ⟨v', hv', ?_⟩
                rw [a3 g.name (fun g' hg' he => absurd he.symm (hne g' hg')), hget, if_pos rfl]
              · have := a4 g hg conv' hconv
                have hheld : held c s₁ g.name = held c s g.name := by
                  unfold held
                  rw [hget, if_neg (hne g hg)]
                rw [hheld] at this
                exact this

theorem runChecks_frozen {c : Cls N V} {ps : List (Prog N V)} {s s' : Inst N V} (hs : s.initable = false)
    (h : runChecks c ps s = .ok s') : s' = s ∧ ∀ p ∈ ps, run c p s = .ok s := by
  induction ps with
  | nil => simp only [runChecks, Except.ok.injEq] at h; exact ⟨h.symm, by simp⟩
  | cons p ps ih =>
    simp only [runChecks, bind, Except.bind] at h
    split at h
    · cases h
    · rename_i s₁ h₁
      have := frozen_unchanged hs h₁
      subst this
      obtain ⟨a, b⟩ := ih h
      refine ⟨a, ?_⟩
      intro q hq
      rcases List.mem_cons.1 hq with rfl | hq
      · exact h₁
      · exact b q hq

/-- **C36**: what holds of an instance that construction returns. It is frozen; only declared fields are assigned; all
fields have a value, on the instance or on the class; fields without converter hold what `__init__` assigned; for those
with converter, it was applied once to what `__init__` left there (or to the default on the class); and every
`__check_init__` ran on the finished instance without raising. -/
theorem construct_spec {c : Cls N V} {init : InitFn N V} {s : Inst N V} (hn : (c.fields.map (·.name)).Nodup)
    (hp : ∀ f ∈ c.fields, ∀ g, c.attrs f.name ≠ some (.property g)) (h : construct c init = .ok s) :
    s.initable = false ∧ OnlyFields c s ∧ (∀ f ∈ c.fields, ∃ v, held c s f.name = some v) ∧
    (∀ p ∈ c.checks, run c p s = .ok s) ∧
    ∃ s₀, runInit c init = .ok s₀ ∧ ∀ f ∈ c.fields,
      match f.converter with
      | none => s.dict.get? f.name = s₀.dict.get? f.name
      | some g => ∃ v v', held c s₀ f.name = some v ∧ g v = .ok v' ∧ s.dict.get? f.name = some v' := by
  simp only [construct, bind, Except.bind] at h
  split at h
  · cases h
  · rename_i s₀ h₀
    split at h
    · cases h
    · rename_i s₁ h₁
      split at h
      · rename_i hall
        obtain ⟨a1, a2⟩ := runInit_only h₀
        obtain ⟨b1, b2, b3, b4⟩ := runConverters_spec (fun _ h => h) hn hp a2 a1 h₁
        obtain ⟨rfl, hch⟩ := runChecks_frozen rfl h
        have hheld : ∀ f ∈ c.fields, ∃ v, held c s₁ f.name = some v := by
          intro f hf
          have := List.all_eq_true.1 hall f hf
          simp only [inDir, Bool.or_eq_true] at this
          unfold held
          cases hd : s₁.dict.get? f.name with
          | some v => exact ⟨v, rfl⟩
          | none =>
            rw [hd] at this
            cases ha : c.attrs f.name with
            | none => rw [ha] at this; simp at this
            | some a =>
              cases a with
              | plain v => exact ⟨v, rfl⟩
              | property g => exact absurd ha (hp f hf g)
        refine ⟨rfl, b2, hheld, hch, s₀, h₀, ?_⟩
        intro f hf
        cases hc : f.converter with
        | none =>
          refine b3 f.name ?_
          intro g hg he
          have : g = f := by
            have hinj : ∀ l : List (Field N V), (l.map (·.name)).Nodup → f ∈ l → g ∈ l → g = f := by
              intro l
              induction l with
              | nil => intro _ h; simp at h
              | cons x l ih =>
                intro hnd hf hg
                simp only [List.map_cons, List.nodup_cons] at hnd
                rcases List.mem_cons.1 hf with rfl | hf'
                · rcases List.mem_cons.1 hg with rfl | hg'
                  · rfl
                  · exact absurd (List.mem_map.2 ⟨g, hg', he⟩) hnd.1
                · rcases List.mem_cons.1 hg with rfl | hg'
                  · exact absurd (List.mem_map.2 ⟨f, hf', he.symm⟩) hnd.1
                  · exact ih hnd.2 hf' hg'
            exact hinj _ hn hf hg
          rw [this]; exact hc
        | some g =>
          have := b4 f hf g hc
          cases hh : held c s₀ f.name with
          | some v =>
            rw [hh] at this
            obtain ⟨v', k1, k2⟩ := this
            exact ⟨v, v', rfl, k1, k2⟩
          | none =>
            rw [hh] at this
            -- then the field has no value at the end either
            exfalso
            obtain ⟨v, hv⟩ := hheld f hf
            unfold held at hv hh
            simp only at this
            rw [this] at hv
            cases hd : s₀.dict.get? f.name with
            | some u => rw [hd] at hh; cases hh
            | none =>
              rw [hd] at hh
              simp only at hh hv
              rw [hh] at hv
              cases hv
      · cases h

/-- **C36**: a field that is set neither by `__init__` nor on the class makes construction raise `ValueError`, if
`__init__` and the converters return. -/
theorem missing_raises {c : Cls N V} {init : InitFn N V} {s₀ s₁ : Inst N V} (hn : (c.fields.map (·.name)).Nodup)
    (hp : ∀ f ∈ c.fields, ∀ g, c.attrs f.name ≠ some (.property g)) (h₀ : runInit c init = .ok s₀)
    (h₁ : runConverters c c.fields s₀ = .ok s₁) {f : Field N V} (hf : f ∈ c.fields) (hm : held c s₀ f.name = none) :
    construct c init = .error .valueError := by
  obtain ⟨a1, a2⟩ := runInit_only h₀
  obtain ⟨b1, b2, b3, b4⟩ := runConverters_spec (fun _ h => h) hn hp a2 a1 h₁
  simp only [construct, bind, Except.bind, h₀, h₁]
  rw [if_neg]
  intro hall
  have := List.all_eq_true.1 hall f hf
  simp only [inDir, Bool.or_eq_true] at this
  have hd0 : s₀.dict.get? f.name = none := by
    cases hd : s₀.dict.get? f.name with
    | none => rfl
    | some v => rw [held, hd] at hm; cases hm
  have ha : c.attrs f.name = none := by
    cases ha : c.attrs f.name with
    | none => rfl
    | some a =>
      cases a with
      | plain v => rw [held, hd0, ha] at hm; cases hm
      | property g => exact absurd ha (hp f hf g)
  have hd1 : s₁.dict.get? f.name = none := by
    cases hd : s₁.dict.get? f.name with
    | none => rfl
    | some v =>
      exfalso
      by_cases hconv : ∃ f' ∈ c.fields, f'.name = f.name ∧ ∃ g, f'.converter = some g
      · obtain ⟨f', hf', he, g, hg⟩ := hconv
        have := b4 f' hf' g hg
        rw [he, hm, hd] at this
        cases this
      · have := b3 f.name (fun f' hf' he => by
          cases hc : f'.converter with
          | none => rfl
          | some g => exact absurd ⟨f', hf', he, g, hc⟩ hconv)
        rw [hd, hd0] at this
        cases this
  rw [ha, hd1] at this
  simp at this

/-- **C36**: construction returns what `__init__`, converters and checks leave, whenever none of them raises and all fields
are set; and the first check that raises makes construction raise the same. -/
theorem construct_checks {c : Cls N V} {init : InitFn N V} {s₀ s₁ : Inst N V} (h₀ : runInit c init = .ok s₀)
    (h₁ : runConverters c c.fields s₀ = .ok s₁) (hall : ∀ f ∈ c.fields, inDir c s₁ f.name = true) :
    ((∀ p ∈ c.checks, ∃ s, run c p ⟨false, s₁.dict⟩ = .ok s) → construct c init = .ok ⟨false, s₁.dict⟩) ∧
    ∀ ps p qs e, c.checks = ps ++ p :: qs → (∀ q ∈ ps, ∃ s, run c q ⟨false, s₁.dict⟩ = .ok s) →
      run c p ⟨false, s₁.dict⟩ = .error e → construct c init = .error e := by
  have hc : construct c init = runChecks c c.checks ⟨false, s₁.dict⟩ := by
    simp only [construct, bind, Except.bind, h₀, h₁]
    rw [if_pos (List.all_eq_true.2 hall)]
  have hpre : ∀ (ps : List (Prog N V)), (∀ q ∈ ps, ∃ s, run c q ⟨false, s₁.dict⟩ = .ok s) → ∀ qs,
      runChecks c (ps ++ qs) ⟨false, s₁.dict⟩ = runChecks c qs ⟨false, s₁.dict⟩ := by
    intro ps
    induction ps with
    | nil => intro _ qs; rfl
    | cons p ps ih =>
      intro h qs
      obtain ⟨s, hs⟩ := h p (by simp)
      have := frozen_unchanged rfl hs
      subst this
      simp only [List.cons_append, runChecks, bind, Except.bind, hs]
      exact ih (fun q hq => h q (List.mem_cons_of_mem _ hq)) qs
  constructor
  · intro h
    have := hpre c.checks h []
    rw [List.append_nil] at this
    rw [hc, this]
    rfl
  · intro ps p qs e he h hp
    rw [hc, he, hpre ps h]
    simp [runChecks, bind, Except.bind, hp]

/-- The hypotheses can be met: two fields, the second with a converter and a default on the class, and a check that fails to
assign and goes on. -/
example :
    let c : Cls Nat Nat := ⟨[⟨1, none⟩, ⟨2, some fun v => .ok (v + 1)⟩], fun n => if n = 2 then some (.plain 10) else none,
      fun _ => false, [.set 1 0 fun _ => .done]⟩
    (c.fields.map (·.name)).Nodup ∧ (∀ f ∈ c.fields, ∀ g, c.attrs f.name ≠ some (.property g)) ∧
    construct c (.custom (.set 1 5 fun _ => .set 3 0 fun _ => .done)) = .ok ⟨false, [(1, 5), (2, 11)]⟩ ∧
    construct c (.custom .done) = .error .valueError := by
  refine ⟨by simp, ?_, rfl, rfl⟩
  intro f hf g
  simp only [List.mem_cons, List.not_mem_nil, or_false] at hf
  rcases hf with rfl | rfl <;> simp

end Verif.Module.Init
