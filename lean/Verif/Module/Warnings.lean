import Verif.Basic
import Verif.Dict

/-! # C97: warnings when a module is made

`_ActualModuleMeta.__call__` (`_module.py`, 501-567) as far as it warns, `__setattr__` of the class used during `__init__`
(778-818), and `_warn_jax_transformed_function` (689-752).

Simplified: class attributes other than defaults, properties, assignments that raise, and `__check_init__` (see
`Verif/Module/Init` for these) are left out, so that every assignment is to a declared field. The arguments of the generated
`__init__` are given by field name. -/

namespace Verif.Module.Warnings

/-! ### Model -/

/-- Values, as pytrees. -/
inductive Val where
  /-- a JAX array -/
  | array
  /-- a NumPy array or a number: `is_array_like` but not `is_array` -/
  | number
  | other
  /-- a callable that is a leaf: whether its type is in `_transform_types` (671-686; this includes the type of plain
  functions, which is what `jax.vmap` and `jax.grad` return), and the values of `x.__wrapped__`,
  `x.__wrapped__.__wrapped__`, and so on -/
  | fn (transform : Bool) (wrapped : List Val)
  /-- a container, a module, or `None` -/
  | node (children : List Val)

mutual
/-- `jtu.tree_leaves` -/
def leaves : Val → List Val
  | .array => [.array]
  | .number => [.number]
  | .other => [.other]
  | .fn t ws => [.fn t ws]
  | .node cs => leavesAll cs
def leavesAll : List Val → List Val
  | [] => []
  | c :: cs => leaves c ++ leavesAll cs
end

/-- `is_array` -/
def isArray : Val → Bool
  | .array => true
  | _ => false

/-- `is_array_like` -/
def isArrayLike : Val → Bool
  | .array => true
  | .number => true
  | _ => false

/-- The `while True` (700-752): follow `__wrapped__` until something contains an array. -/
def follow : List Val → Bool
  | [] => false
  | w :: ws => if (leaves w).any isArrayLike then true else follow ws

/-- `_warn_jax_transformed_function`: whether it warns. -/
def warnsFor : Val → Bool
  | .fn true ws => follow ws
  | _ => false

/-- Warnings. -/
inductive Warning where
  | transformed
  | static
deriving DecidableEq

/-- The warnings for one value. -/
def warnFn (v : Val) : List Warning := if warnsFor v then [.transformed] else []

variable {N : Type} [DecidableEq N]

/-- A field. -/
structure Field (N : Type) where
  name : N
  isStatic : Bool
  converter : Option (Val → Val)
  default : Option Val

/-- How instances are initialised. -/
inductive Init (N : Type) where
  /-- by the generated `__init__`, followed by the assignments of `__post_init__` -/
  | generated (args : List (N × Val)) (post : List (N × Val))
  /-- by an `__init__` of the user, that makes these assignments -/
  | custom (assigns : List (N × Val))

/-- Instance dictionary, and the warnings given so far. -/
structure St (N : Type) where
  dict : Dict N Val
  warned : List Warning

/-- `__setattr__` during `__init__` (778-818) -/
def setattr (s : St N) (n : N) (v : Val) : St N := ⟨s.dict.insert n v, s.warned ++ warnFn v⟩

/-- Assignments, one after the other. -/
def assignAll (s : St N) (l : List (N × Val)) : St N := l.foldl (fun s p => setattr s p.1 p.2) s

/-- The generated `__init__` sets every field, with `object.__setattr__` as the class is frozen; a missing argument without
default is a TypeError. -/
def generatedInit (args : List (N × Val)) : List (Field N) → St N → Except Err (St N)
  | [], s => .ok s
  | f :: fs, s =>
    match args.lookup f.name with
    | some v => generatedInit args fs ⟨s.dict.insert f.name v, s.warned⟩
    | none =>
      match f.default with
      | some v => generatedInit args fs ⟨s.dict.insert f.name v, s.warned⟩
      | none => .error .typeError

/-- Steps 0 to 2 (506-515) -/
def runInit (fs : List (Field N)) : Init N → Except Err (St N)
  | .generated args post =>
    match generatedInit args fs ⟨[], (leavesAll (args.map (·.2))).flatMap warnFn⟩ with
    | .ok s => .ok (assignAll s post)
    | .error e => .error e
  | .custom assigns => .ok (assignAll ⟨[], []⟩ assigns)

/-- Reading a field: the instance, then the class, which has the default. -/
def getattr (s : St N) (f : Field N) : Option Val := (s.dict.get? f.name).or f.default

/-- Step 3 (517-529): converters -/
def runConverters : List (Field N) → St N → St N
  | [], s => s
  | f :: fs, s =>
    match f.converter, getattr s f with
    | some c, some v => runConverters fs (setattr s f.name (c v))
    | _, _ => runConverters fs s

/-- Step 5 (543-555): a warning for each static field with an array inside. -/
def warnStatic (s : St N) (f : Field N) : List Warning :=
  if f.isStatic then
    match getattr s f with
    | some v => if (leaves v).any isArray then [.static] else []
    | none => []
  else []

/-- `__call__`: the instance with the warnings given. -/
def construct (fs : List (Field N)) (i : Init N) : Except Err (St N) :=
  match runInit fs i with
  | .error e => .error e
  | .ok s =>
    let s := runConverters fs s
    if fs.all fun f => (getattr s f).isSome then .ok ⟨s.dict, s.warned ++ fs.flatMap (warnStatic s)⟩
    else .error .valueError

/-! ### Specification -/

/-- `x` is a leaf of `v`. -/
inductive Leaf (x : Val) : Val → Prop where
  | self : (∀ cs, x ≠ .node cs) → Leaf x x
  | child {c : Val} {cs : List Val} : c ∈ cs → Leaf x c → Leaf x (.node cs)

/-- A JAX-transformed callable around something with arrays or numbers. -/
def Hides (v : Val) : Prop := ∃ ws, v = .fn true ws ∧ ∃ w ∈ ws, ∃ x, Leaf x w ∧ (x = .array ∨ x = .number)

/-- What was passed to `__init__` or assigned in it. -/
def given : Init N → List (N × Val)
  | .generated args post => args ++ post
  | .custom assigns => assigns

/-! ### Proofs -/

mutual
theorem leaf_of_mem {x : Val} : (v : Val) → x ∈ leaves v → Leaf x v
  | .array => by intro h; simp only [leaves, List.mem_singleton] at h; subst h; exact .self (by simp)
  | .number => by intro h; simp only [leaves, List.mem_singleton] at h; subst h; exact .self (by simp)
  | .other => by intro h; simp only [leaves, List.mem_singleton] at h; subst h; exact .self (by simp)
  | .fn t ws => by intro h; simp only [leaves, List.mem_singleton] at h; subst h; exact .self (by simp)
  | .node cs => by
    intro h
    rw [leaves] at h
    obtain ⟨c, hc, hl⟩ := leafAll_of_mem cs h
    exact .child hc hl
theorem leafAll_of_mem {x : Val} : (cs : List Val) → x ∈ leavesAll cs → ∃ c ∈ cs, Leaf x c
  | [] => by intro h; simp [leavesAll] at h
  | c :: cs => by
    intro h
    rw [leavesAll, List.mem_append] at h
    rcases h with h | h
    · exact ⟨c, by simp, leaf_of_mem c h⟩
    · obtain ⟨d, hd, hl⟩ := leafAll_of_mem cs h
      exact ⟨d, by simp [hd], hl⟩
end

theorem mem_leavesAll {x : Val} {cs : List Val} {c : Val} (hc : c ∈ cs) (h : x ∈ leaves c) : x ∈ leavesAll cs := by
  induction cs with
  | nil => cases hc
  | cons d ds ih =>
    rw [leavesAll, List.mem_append]
    rcases List.mem_cons.1 hc with rfl | hc
    · exact .inl h
    · exact .inr (ih hc)

theorem mem_of_leaf {x v : Val} (h : Leaf x v) : x ∈ leaves v := by
  induction h with
  | self h =>
    cases x with
    | node cs => exact absurd rfl (h cs)
    | _ => simp [leaves]
  | child hc _ ih =>
    rw [leaves]
    exact mem_leavesAll hc ih

theorem mem_leaves {x v : Val} : x ∈ leaves v ↔ Leaf x v := ⟨leaf_of_mem v, mem_of_leaf⟩

theorem isArrayLike_iff (x : Val) : isArrayLike x = true ↔ x = .array ∨ x = .number := by cases x <;> simp [isArrayLike]

theorem isArray_iff (x : Val) : isArray x = true ↔ x = .array := by cases x <;> simp [isArray]

theorem follow_iff (ws : List Val) : follow ws = true ↔ ∃ w ∈ ws, ∃ x, Leaf x w ∧ (x = .array ∨ x = .number) := by
  induction ws with
  | nil => simp [follow]
  | cons w ws ih =>
    rw [follow]
    by_cases h : (leaves w).any isArrayLike
    · rw [if_pos h]
      obtain ⟨x, hx, ha⟩ := List.any_eq_true.1 h
      simp only [true_iff]
      exact ⟨w, by simp, x, mem_leaves.1 hx, (isArrayLike_iff x).1 ha⟩
    · rw [if_neg h, ih]
      constructor
      · rintro ⟨w', hw, hx⟩
        exact ⟨w', by simp [hw], hx⟩
      · rintro ⟨w', hw, x, hx, ha⟩
        rcases List.mem_cons.1 hw with rfl | hw
        · exact absurd (List.any_eq_true.2 ⟨x, mem_leaves.2 hx, (isArrayLike_iff x).2 ha⟩) h
        · exact ⟨w', hw, x, hx, ha⟩

theorem assignAll_cons (s : St N) (p : N × Val) (l : List (N × Val)) : assignAll s (p :: l) = assignAll (setattr s p.1 p.2) l := rfl

theorem assignAll_warned (s : St N) (l : List (N × Val)) :
    (assignAll s l).warned = s.warned ++ (l.map (·.2)).flatMap warnFn := by
  induction l generalizing s with
  | nil => simp [assignAll]
  | cons p l ih => rw [assignAll_cons, ih]; simp [setattr]

theorem assignAll_get (s : St N) (l : List (N × Val)) {n : N} {v : Val} (h : (assignAll s l).dict.get? n = some v) :
    s.dict.get? n = some v ∨ (n, v) ∈ l := by
  induction l generalizing s with
  | nil => exact .inl h
  | cons p l ih =>
    rw [assignAll_cons] at h
    rcases ih _ h with h | h
    · simp only [setattr, Dict.get?_insert] at h
      by_cases hp : p.1 = n
      · rw [if_pos hp] at h
        cases h
        exact .inr (by rw [← hp]; simp)
      · rw [if_neg hp] at h
        exact .inl h
    · exact .inr (by simp [h])

theorem lookup_mem {args : List (N × Val)} {n : N} {v : Val} (h : args.lookup n = some v) : (n, v) ∈ args := by
  induction args with
  | nil => cases h
  | cons p args ih =>
    obtain ⟨m, w⟩ := p
    rw [List.lookup_cons] at h
    by_cases hn : n == m
    · rw [hn] at h
      cases h
      rw [beq_iff_eq] at hn
      simp [hn]
    · simp only [Bool.not_eq_true] at hn
      rw [hn] at h
      simp [ih h]

theorem generatedInit_spec {args : List (N × Val)} {fs : List (Field N)} {s s' : St N}
    (h : generatedInit args fs s = .ok s') :
    s'.warned = s.warned ∧ ∀ n v, s'.dict.get? n = some v →
      s.dict.get? n = some v ∨ (n, v) ∈ args ∨ ∃ f ∈ fs, f.name = n ∧ f.default = some v := by
  induction fs generalizing s with
  | nil => cases h; exact ⟨rfl, fun n v hv => .inl hv⟩
  | cons f fs ih =>
    rw [generatedInit] at h
    have step : ∀ (w : Val), generatedInit args fs ⟨s.dict.insert f.name w, s.warned⟩ = .ok s' →
        ((f.name, w) ∈ args ∨ f.default = some w) → s'.warned = s.warned ∧ ∀ n v, s'.dict.get? n = some v →
          s.dict.get? n = some v ∨ (n, v) ∈ args ∨ ∃ f' ∈ f :: fs, f'.name = n ∧ f'.default = some v := by
      intro w hw hsrc
      obtain ⟨h1, h2⟩ := ih hw
      refine ⟨h1, fun n v hv => ?_⟩
      rcases h2 n v hv with hv | hv | ⟨f', hf', hn, hd⟩
      · simp only [Dict.get?_insert] at hv
        by_cases hp : f.name = n
        · rw [if_pos hp] at hv
          cases hv
          rcases hsrc with hs | hs
          · exact .inr (.inl (hp ▸ hs))
          · exact .inr (.inr ⟨f, by simp, hp, hs⟩)
        · rw [if_neg hp] at hv
          exact .inl hv
      · exact .inr (.inl hv)
      · exact .inr (.inr ⟨f', by simp [hf'], hn, hd⟩)
    cases ha : args.lookup f.name with
    | some w =>
      rw [ha] at h
      exact step w h (.inl (lookup_mem ha))
    | none =>
      rw [ha] at h
      cases hd : f.default with
      | some w =>
        rw [hd] at h
        exact step w h (.inr hd)
      | none => rw [hd] at h; cases h

/-- The values that converters returned. -/
def converted : List (Field N) → St N → List Val
  | [], _ => []
  | f :: fs, s =>
    match f.converter, getattr s f with
    | some c, some v => c v :: converted fs (setattr s f.name (c v))
    | _, _ => converted fs s

theorem runConverters_spec (fs : List (Field N)) (s : St N) :
    (runConverters fs s).warned = s.warned ++ (converted fs s).flatMap warnFn ∧
    ∀ n v, (runConverters fs s).dict.get? n = some v → s.dict.get? n = some v ∨ v ∈ converted fs s := by
  induction fs generalizing s with
  | nil => exact ⟨by simp [runConverters, converted], fun n v h => .inl h⟩
  | cons f fs ih =>
    cases hc : f.converter with
    | none =>
      have h1 : runConverters (f :: fs) s = runConverters fs s := by simp [runConverters, hc]
      have h2 : converted (f :: fs) s = converted fs s := by simp [converted, hc]
      rw [h1, h2]
      exact ih s
    | some c =>
      cases hv : getattr s f with
      | none =>
        have h1 : runConverters (f :: fs) s = runConverters fs s := by simp [runConverters, hc, hv]
        have h2 : converted (f :: fs) s = converted fs s := by simp [converted, hc, hv]
        rw [h1, h2]
        exact ih s
      | some w =>
        have h1 : runConverters (f :: fs) s = runConverters fs (setattr s f.name (c w)) := by simp [runConverters, hc, hv]
        have h2 : converted (f :: fs) s = c w :: converted fs (setattr s f.name (c w)) := by simp [converted, hc, hv]
        rw [h1, h2]
        obtain ⟨i1, i2⟩ := ih (setattr s f.name (c w))
        refine ⟨by rw [i1]; simp [setattr], fun n v h => ?_⟩
        rcases i2 n v h with h | h
        · simp only [setattr, Dict.get?_insert] at h
          by_cases hp : f.name = n
          · rw [if_pos hp] at h
            cases h
            exact .inr (by simp)
          · rw [if_neg hp] at h
            exact .inl h
        · exact .inr (by simp [h])

theorem static_not_transformed (s : St N) (fs : List (Field N)) : Warning.transformed ∉ fs.flatMap (warnStatic s) := by
  intro h
  obtain ⟨f, -, hf⟩ := List.mem_flatMap.1 h
  unfold warnStatic at hf
  split at hf
  · split at hf
    · split at hf
      · simp at hf
      · cases hf
    · cases hf
  · cases hf

theorem warnFn_mem {v : Val} {w : Warning} : w ∈ warnFn v ↔ w = .transformed ∧ warnsFor v = true := by
  unfold warnFn
  split
  · rename_i h; simp [h]
  · rename_i h; simp [h]

theorem warnFn_static (vs : List Val) : Warning.static ∉ vs.flatMap warnFn := by
  intro h
  obtain ⟨v, -, hv⟩ := List.mem_flatMap.1 h
  have := (warnFn_mem.1 hv).1
  cases this

theorem flatMap_mem {vs : List Val} : Warning.transformed ∈ vs.flatMap warnFn ↔ ∃ v ∈ vs, warnsFor v = true := by
  rw [List.mem_flatMap]
  constructor
  · rintro ⟨v, hv, hw⟩; exact ⟨v, hv, (warnFn_mem.1 hw).2⟩
  · rintro ⟨v, hv, hw⟩; exact ⟨v, hv, warnFn_mem.2 ⟨rfl, hw⟩⟩

theorem construct_ok {fs : List (Field N)} {i : Init N} {s : St N} (h : construct fs i = .ok s) :
    ∃ s0, runInit fs i = .ok s0 ∧ s.dict = (runConverters fs s0).dict ∧
      s.warned = (runConverters fs s0).warned ++ fs.flatMap (warnStatic (runConverters fs s0)) := by
  unfold construct at h
  cases hr : runInit fs i with
  | error e => rw [hr] at h; cases h
  | ok s0 =>
    rw [hr] at h
    simp only at h
    split at h
    · cases h
      exact ⟨s0, rfl, rfl, rfl⟩
    · cases h

/-! ### Theorems -/

/-- **C97** (when it warns): the type is that of a JAX transformation, and somewhere along `__wrapped__` there are arrays or
numbers. -/
theorem warns_iff (v : Val) : warnsFor v = true ↔ Hides v := by
  cases v with
  | fn t ws =>
    cases t with
    | true =>
      rw [warnsFor, follow_iff]
      constructor
      · intro h; exact ⟨ws, rfl, h⟩
      · rintro ⟨ws', he, h⟩; cases he; exact h
    | false =>
      simp only [warnsFor, Bool.false_eq_true, false_iff]
      rintro ⟨ws', he, -⟩
      cases he
  | _ =>
    simp only [warnsFor, Bool.false_eq_true, false_iff]
    rintro ⟨ws', he, -⟩
    cases he

/-- **C97** (nothing is missed, as far as that is true): if a field of the new module holds a transformed callable that hides
arrays, then there was a warning, unless it is the default of a field. -/
theorem hidden_warned_partial {fs : List (Field N)} {i : Init N} {s : St N} (h : construct fs i = .ok s) {n : N} {v : Val}
    (hv : s.dict.get? n = some v) (hh : Hides v) (hd : ∀ f ∈ fs, f.default ≠ some v) : Warning.transformed ∈ s.warned := by
  obtain ⟨s0, h0, hdict, hw⟩ := construct_ok h
  obtain ⟨c1, c2⟩ := runConverters_spec fs s0
  rw [hw, List.mem_append, c1, List.mem_append]
  refine .inl ?_
  have hwv := (warns_iff v).2 hh
  rw [hdict] at hv
  rcases c2 n v hv with hv | hv
  · refine .inl ?_
    cases i with
    | custom assigns =>
      cases h0
      rcases assignAll_get _ _ hv with hv | hv
      · cases hv
      · rw [assignAll_warned, List.mem_append]
        exact .inr (flatMap_mem.2 ⟨v, List.mem_map.2 ⟨_, hv, rfl⟩, hwv⟩)
    | generated args post =>
      rw [runInit] at h0
      cases hg : generatedInit args fs ⟨[], (leavesAll (args.map (·.2))).flatMap warnFn⟩ with
      | error e => rw [hg] at h0; cases h0
      | ok s1 =>
        rw [hg] at h0
        cases h0
        obtain ⟨g1, g2⟩ := generatedInit_spec hg
        rw [assignAll_warned, g1, List.mem_append]
        rcases assignAll_get _ _ hv with hv | hv
        · rcases g2 n v hv with hv | hv | ⟨f, hf, -, hdf⟩
          · cases hv
          · refine .inl (flatMap_mem.2 ⟨v, mem_leavesAll (List.mem_map.2 ⟨_, hv, rfl⟩) ?_, hwv⟩)
            obtain ⟨ws, rfl, -⟩ := hh
            simp [leaves]
          · exact absurd hdf (hd f hf)
        · exact .inr (flatMap_mem.2 ⟨v, List.mem_map.2 ⟨_, hv, rfl⟩, hwv⟩)
  · exact .inr (flatMap_mem.2 ⟨v, hv, hwv⟩)

/-- **C97**: the arguments of the generated `__init__` are searched for such callables, also inside containers and modules. -/
theorem arguments_searched {fs : List (Field N)} {args post : List (N × Val)} {s : St N}
    (h : construct fs (.generated args post) = .ok s) {n : N} {v x : Val} (hv : (n, v) ∈ args) (hx : Leaf x v)
    (hh : Hides x) : Warning.transformed ∈ s.warned := by
  obtain ⟨s0, h0, -, hw⟩ := construct_ok h
  obtain ⟨c1, -⟩ := runConverters_spec fs s0
  rw [hw, List.mem_append, c1, List.mem_append]
  refine .inl (.inl ?_)
  rw [runInit] at h0
  cases hg : generatedInit args fs ⟨[], (leavesAll (args.map (·.2))).flatMap warnFn⟩ with
  | error e => rw [hg] at h0; cases h0
  | ok s1 =>
    rw [hg] at h0
    cases h0
    rw [assignAll_warned, (generatedInit_spec hg).1, List.mem_append]
    exact .inl (flatMap_mem.2 ⟨x, mem_leavesAll (List.mem_map.2 ⟨_, hv, rfl⟩) (mem_leaves.2 hx), (warns_iff x).2 hh⟩)

/-- **C97** (no false alarm): if no leaf of what was passed or assigned is such a callable, and converters return none, then
there is no such warning. -/
theorem no_false_alarm {fs : List (Field N)} {i : Init N} {s : St N} (h : construct fs i = .ok s)
    (hg : ∀ p ∈ given i, ∀ x, Leaf x p.2 → ¬ Hides x) (hc : ∀ f ∈ fs, ∀ c, f.converter = some c → ∀ v, ¬ Hides (c v)) :
    Warning.transformed ∉ s.warned := by
  obtain ⟨s0, h0, -, hw⟩ := construct_ok h
  obtain ⟨c1, -⟩ := runConverters_spec fs s0
  have hself : ∀ v, Hides v → Leaf v v := by
    rintro v ⟨ws, rfl, -⟩
    exact .self (by simp)
  have hconv : ∀ (fs' : List (Field N)) (s : St N), fs' ⊆ fs → ∀ v ∈ converted fs' s, ¬ Hides v := by
    intro fs'
    induction fs' with
    | nil => intro s _ v hv; cases hv
    | cons f fs' ih =>
      intro s hs v hv
      have hs' : fs' ⊆ fs := fun x hx => hs (by simp [hx])
      cases hcf : f.converter with
      | none => simp only [converted, hcf] at hv; exact ih _ hs' v hv
      | some c =>
        cases hvf : getattr s f with
        | none => simp only [converted, hcf, hvf] at hv; exact ih _ hs' v hv
        | some w =>
          simp only [converted, hcf, hvf, List.mem_cons] at hv
          rcases hv with rfl | hv
          · exact hc f (hs (by simp)) c hcf w
          · exact ih _ hs' v hv
  rw [hw, List.mem_append, c1, List.mem_append]
  rintro ((hm | hm) | hm)
  · cases i with
    | custom assigns =>
      cases h0
      rw [assignAll_warned, List.mem_append] at hm
      rcases hm with hm | hm
      · cases hm
      · obtain ⟨v, hv, hwv⟩ := flatMap_mem.1 hm
        obtain ⟨p, hp, rfl⟩ := List.mem_map.1 hv
        have hh := (warns_iff _).1 hwv
        exact hg p hp _ (hself _ hh) hh
    | generated args post =>
      rw [runInit] at h0
      cases hgi : generatedInit args fs ⟨[], (leavesAll (args.map (·.2))).flatMap warnFn⟩ with
      | error e => rw [hgi] at h0; cases h0
      | ok s1 =>
        rw [hgi] at h0
        cases h0
        rw [assignAll_warned, (generatedInit_spec hgi).1, List.mem_append] at hm
        rcases hm with hm | hm
        · obtain ⟨v, hv, hwv⟩ := flatMap_mem.1 hm
          obtain ⟨c, hc', hl⟩ := leafAll_of_mem _ hv
          obtain ⟨p, hp, rfl⟩ := List.mem_map.1 hc'
          exact hg p (List.mem_append.2 (.inl hp)) v hl ((warns_iff v).1 hwv)
        · obtain ⟨v, hv, hwv⟩ := flatMap_mem.1 hm
          obtain ⟨p, hp, rfl⟩ := List.mem_map.1 hv
          have hh := (warns_iff _).1 hwv
          exact hg p (List.mem_append.2 (.inr hp)) _ (hself _ hh) hh
  · obtain ⟨v, hv, hwv⟩ := flatMap_mem.1 hm
    exact hconv fs s0 (fun _ h => h) v hv ((warns_iff v).1 hwv)
  · exact static_not_transformed _ _ hm

/-- **C97** (static fields): as many warnings as there are static fields with a JAX array inside. -/
theorem static_warned {fs : List (Field N)} {i : Init N} {s : St N} (h : construct fs i = .ok s)
    (hold : Field N → Prop) [DecidablePred hold]
    (hhold : ∀ f, hold f ↔ f.isStatic = true ∧ ∃ v, ((s.dict.get? f.name) = some v ∨
      (s.dict.get? f.name = none ∧ f.default = some v)) ∧ Leaf .array v) :
    s.warned.count .static = (fs.filter fun f => decide (hold f)).length := by
  obtain ⟨s0, h0, hdict, hw⟩ := construct_ok h
  obtain ⟨c1, -⟩ := runConverters_spec fs s0
  have hs0 : Warning.static ∉ s0.warned := by
    cases i with
    | custom assigns =>
      cases h0
      rw [assignAll_warned]
      simpa using warnFn_static (assigns.map (·.2))
    | generated args post =>
      rw [runInit] at h0
      cases hgi : generatedInit args fs ⟨[], (leavesAll (args.map (·.2))).flatMap warnFn⟩ with
      | error e => rw [hgi] at h0; cases h0
      | ok s1 =>
        rw [hgi] at h0
        cases h0
        rw [assignAll_warned, (generatedInit_spec hgi).1, List.mem_append, not_or]
        exact ⟨warnFn_static _, warnFn_static _⟩
  rw [hw, c1, List.count_append, List.count_append, List.count_eq_zero_of_not_mem hs0,
    List.count_eq_zero_of_not_mem (warnFn_static _), Nat.zero_add]
  have key : ∀ f, warnStatic (runConverters fs s0) f = if hold f then [.static] else [] := by
    intro f
    have hiff := hhold f
    rw [hdict] at hiff
    have hget : ∀ v, getattr (runConverters fs s0) f = some v ↔
        ((runConverters fs s0).dict.get? f.name = some v ∨
          ((runConverters fs s0).dict.get? f.name = none ∧ f.default = some v)) := by
      intro v
      unfold getattr
      cases (runConverters fs s0).dict.get? f.name <;> simp
    unfold warnStatic
    by_cases hst : f.isStatic
    · rw [if_pos hst]
      cases hv : getattr (runConverters fs s0) f with
      | none =>
        rw [if_neg]
        intro hf
        obtain ⟨-, v, hv', -⟩ := hiff.1 hf
        rw [(hget v).2 hv'] at hv
        cases hv
      | some v =>
        simp only
        by_cases ha : (leaves v).any isArray
        · rw [if_pos ha, if_pos]
          obtain ⟨x, hx, hax⟩ := List.any_eq_true.1 ha
          rw [isArray_iff] at hax
          subst hax
          exact hiff.2 ⟨hst, v, (hget v).1 hv, mem_leaves.1 hx⟩
        · rw [if_neg ha, if_neg]
          intro hf
          obtain ⟨-, v', hv', hl⟩ := hiff.1 hf
          rw [(hget v').2 hv'] at hv
          cases hv
          exact ha (List.any_eq_true.2 ⟨_, mem_leaves.2 hl, rfl⟩)
    · rw [if_neg hst, if_neg]
      intro hf
      exact hst (hiff.1 hf).1
  have count : ∀ (g : Field N → List Warning) (fs' : List (Field N)), (∀ f, g f = if hold f then [.static] else []) →
      (fs'.flatMap g).count .static = (fs'.filter fun f => decide (hold f)).length := by
    intro g fs' hg
    induction fs' with
    | nil => rfl
    | cons f fs' ih =>
      rw [List.flatMap_cons, List.count_append, List.filter_cons, ih, hg]
      by_cases hf : hold f
      · simp [hf, Nat.add_comm]
      · simp [hf]
  exact count _ fs key

omit [DecidableEq N] in
theorem lookup_some_iff [DecidableEq N] {args : List (N × Val)} {n : N} : (∃ v, args.lookup n = some v) ↔ ∃ v, (n, v) ∈ args := by
  constructor
  · rintro ⟨v, h⟩; exact ⟨v, lookup_mem h⟩
  · rintro ⟨v, h⟩
    cases hl : args.lookup n with
    | some w => exact ⟨w, rfl⟩
    | none =>
      rw [List.lookup_eq_none_iff] at hl
      have := hl (n, v) h
      simp at this

/-- The generated `__init__` raises a TypeError or sets every field and keeps what was set. -/
theorem generatedInit_sets (args : List (N × Val)) (fs : List (Field N)) (s : St N) :
    ((∀ f ∈ fs, (∃ v, (f.name, v) ∈ args) ∨ ∃ v, f.default = some v) →
      ∃ s', generatedInit args fs s = .ok s' ∧ (∀ f ∈ fs, (s'.dict.get? f.name).isSome) ∧
        ∀ n, (s.dict.get? n).isSome → (s'.dict.get? n).isSome) ∧
    ((∃ f ∈ fs, (∀ v, (f.name, v) ∉ args) ∧ f.default = none) → generatedInit args fs s = .error .typeError) := by
  induction fs generalizing s with
  | nil => exact ⟨fun _ => ⟨s, rfl, by simp, fun _ h => h⟩, by simp⟩
  | cons f fs ih =>
    have go : ∀ w : Val, ((∀ f ∈ fs, (∃ v, (f.name, v) ∈ args) ∨ ∃ v, f.default = some v) →
        ∃ s', generatedInit args fs ⟨s.dict.insert f.name w, s.warned⟩ = .ok s' ∧ (∀ g ∈ f :: fs, (s'.dict.get? g.name).isSome) ∧
          ∀ n, (s.dict.get? n).isSome → (s'.dict.get? n).isSome) := by
      intro w hall
      obtain ⟨s', h1, h2, h3⟩ := (ih ⟨s.dict.insert f.name w, s.warned⟩).1 hall
      refine ⟨s', h1, ?_, ?_⟩
      · intro g hg
        rcases List.mem_cons.1 hg with rfl | hg
        · exact h3 _ (by simp [Dict.get?_insert])
        · exact h2 g hg
      · intro n hn
        refine h3 n ?_
        simp only [Dict.get?_insert]
        split
        · rfl
        · exact hn
    rw [generatedInit]
    cases ha : args.lookup f.name with
    | some w =>
      refine ⟨fun h => go w fun g hg => h g (by simp [hg]), ?_⟩
      rintro ⟨g, hg, hn, hd⟩
      rcases List.mem_cons.1 hg with rfl | hg
      · exact absurd (lookup_mem ha) (hn w)
      · exact (ih _).2 ⟨g, hg, hn, hd⟩
    | none =>
      have hno : ∀ v, (f.name, v) ∉ args := by
        intro v hv
        obtain ⟨w, hw⟩ := lookup_some_iff.2 ⟨v, hv⟩
        rw [ha] at hw; cases hw
      cases hd : f.default with
      | some w =>
        refine ⟨fun h => go w fun g hg => h g (by simp [hg]), ?_⟩
        rintro ⟨g, hg, hn, hd'⟩
        rcases List.mem_cons.1 hg with rfl | hg
        · rw [hd] at hd'; cases hd'
        · exact (ih _).2 ⟨g, hg, hn, hd'⟩
      | none =>
        refine ⟨fun h => ?_, fun _ => rfl⟩
        rcases h f (by simp) with ⟨v, hv⟩ | ⟨v, hv⟩
        · exact absurd hv (hno v)
        · rw [hd] at hv; cases hv

theorem assignAll_isSome (l : List (N × Val)) (s : St N) (n : N) :
    ((assignAll s l).dict.get? n).isSome ↔ (s.dict.get? n).isSome ∨ ∃ v, (n, v) ∈ l := by
  induction l generalizing s with
  | nil => simp [assignAll]
  | cons p l ih =>
    have : assignAll s (p :: l) = assignAll (setattr s p.1 p.2) l := rfl
    rw [this, ih]
    simp only [setattr, Dict.get?_insert, List.mem_cons]
    by_cases hp : p.1 = n
    · subst hp
      simp only [if_true, Option.isSome_some, true_or, true_iff]
      exact .inr ⟨p.2, .inl rfl⟩
    · simp only [if_neg hp]
      constructor
      · rintro (h | ⟨v, hv⟩)
        · exact .inl h
        · exact .inr ⟨v, .inr hv⟩
      · rintro (h | ⟨v, hv | hv⟩)
        · exact .inl h
        · rw [← hv] at hp; exact absurd rfl hp
        · exact .inr ⟨v, hv⟩

/-- Converters do not change which fields have a value. -/
theorem runConverters_isSome (fs : List (Field N)) (s : St N) (g : Field N) :
    (∀ f ∈ fs, f.name = g.name → f.default = g.default) →
    ((getattr (runConverters fs s) g).isSome ↔ (getattr s g).isSome) := by
  induction fs generalizing s with
  | nil => intro _; rfl
  | cons f fs ih =>
    intro hsame
    have hs' := fun f hf => hsame f (List.mem_cons_of_mem _ hf)
    cases hc : f.converter with
    | none =>
      have h1 : runConverters (f :: fs) s = runConverters fs s := by simp [runConverters, hc]
      rw [h1]; exact ih s hs'
    | some c =>
      cases hv : getattr s f with
      | none =>
        have h1 : runConverters (f :: fs) s = runConverters fs s := by simp [runConverters, hc, hv]
        rw [h1]; exact ih s hs'
      | some w =>
        have h1 : runConverters (f :: fs) s = runConverters fs (setattr s f.name (c w)) := by simp [runConverters, hc, hv]
        rw [h1, ih _ hs']
        simp only [getattr, setattr, Dict.get?_insert]
        by_cases hp : f.name = g.name
        · have hd := hsame f (by simp) hp
          simp only [getattr, hp, hd] at hv
          simp [hp, hv]
        · simp [hp]

/-- **C97** (errors): with a generated `__init__` a field without argument and default is a TypeError; with an `__init__` of the user,
a field that is not assigned and has no default is a ValueError; otherwise the module is made. -/
theorem construct_errors (fs : List (Field N)) (hn : ∀ f ∈ fs, ∀ g ∈ fs, f.name = g.name → f.default = g.default) :
    (∀ args post, (∃ s, construct fs (.generated args post) = .ok s) ∨ construct fs (.generated args post) = .error .typeError) ∧
    (∀ args post, (∃ s, construct fs (.generated args post) = .ok s) ↔
      ∀ f ∈ fs, (∃ v, (f.name, v) ∈ args) ∨ ∃ v, f.default = some v) ∧
    (∀ assigns, (∃ s, construct fs (.custom assigns) = .ok s) ∨ construct fs (.custom assigns) = .error .valueError) ∧
    (∀ assigns, (∃ s, construct fs (.custom assigns) = .ok s) ↔
      ∀ f ∈ fs, (∃ v, (f.name, v) ∈ assigns) ∨ ∃ v, f.default = some v) := by
  have gen : ∀ args post,
      ((∀ f ∈ fs, (∃ v, (f.name, v) ∈ args) ∨ ∃ v, f.default = some v) → ∃ s, construct fs (.generated args post) = .ok s) ∧
      ((∃ f ∈ fs, (∀ v, (f.name, v) ∉ args) ∧ f.default = none) → construct fs (.generated args post) = .error .typeError) := by
    intro args post
    obtain ⟨h1, h2⟩ := generatedInit_sets args fs ⟨[], (leavesAll (args.map (·.2))).flatMap warnFn⟩
    constructor
    · intro hall
      obtain ⟨s', hs, hset, -⟩ := h1 hall
      have hr : runInit fs (.generated args post) = .ok (assignAll s' post) := by simp [runInit, hs]
      unfold construct
      rw [hr]
      simp only
      rw [if_pos]
      · exact ⟨_, rfl⟩
      · rw [List.all_eq_true]
        intro f hf
        rw [runConverters_isSome fs _ f fun g hg hng => hn g hg f hf hng]
        have := (assignAll_isSome post s' f.name).2 (.inl (hset f hf))
        simp only [getattr]
        obtain ⟨v, hv⟩ := Option.isSome_iff_exists.1 this
        simp [hv]
    · intro hex
      unfold construct
      simp [runInit, h2 hex]
  have cust : ∀ assigns,
      ((∀ f ∈ fs, (∃ v, (f.name, v) ∈ assigns) ∨ ∃ v, f.default = some v) → ∃ s, construct fs (.custom assigns) = .ok s) ∧
      ((∃ f ∈ fs, (∀ v, (f.name, v) ∉ assigns) ∧ f.default = none) → construct fs (.custom assigns) = .error .valueError) := by
    intro assigns
    have key : ∀ f ∈ fs, (getattr (runConverters fs (assignAll ⟨[], []⟩ assigns)) f).isSome ↔
        (∃ v, (f.name, v) ∈ assigns) ∨ ∃ v, f.default = some v := by
      intro f hf
      rw [runConverters_isSome fs _ f fun g hg hng => hn g hg f hf hng]
      simp only [getattr, Option.isSome_or, Bool.or_eq_true, assignAll_isSome]
      have : (Dict.get? (K := N) (V := Val) [] f.name).isSome = false := by simp [Dict.get?]
      simp only [this, Bool.false_eq_true, false_or, Option.isSome_iff_exists]
    have hr : runInit fs (.custom assigns) = .ok (assignAll ⟨[], []⟩ assigns) := rfl
    constructor
    · intro hall
      unfold construct
      rw [hr]
      simp only
      rw [if_pos]
      · exact ⟨_, rfl⟩
      · rw [List.all_eq_true]
        intro f hf
        exact (key f hf).2 (hall f hf)
    · rintro ⟨f, hf, hno, hd⟩
      unfold construct
      rw [hr]
      simp only
      rw [if_neg]
      intro hall
      rw [List.all_eq_true] at hall
      rcases (key f hf).1 (hall f hf) with ⟨v, hv⟩ | ⟨v, hv⟩
      · exact hno v hv
      · rw [hd] at hv; cases hv
  have neg : ∀ l : List (N × Val), ¬ (∀ f ∈ fs, (∃ v, (f.name, v) ∈ l) ∨ ∃ v, f.default = some v) →
      ∃ f ∈ fs, (∀ v, (f.name, v) ∉ l) ∧ f.default = none := by
    intro l h
    apply Classical.byContradiction
    intro hc
    apply h
    intro f hf
    cases hd : f.default with
    | some v => exact .inr ⟨v, rfl⟩
    | none =>
      left
      apply Classical.byContradiction
      intro hv
      exact hc ⟨f, hf, fun v h => hv ⟨v, h⟩, hd⟩
  refine ⟨?_, ?_, ?_, ?_⟩
  · intro args post
    by_cases h : ∀ f ∈ fs, (∃ v, (f.name, v) ∈ args) ∨ ∃ v, f.default = some v
    · exact .inl ((gen args post).1 h)
    · exact .inr ((gen args post).2 (neg args h))
  · intro args post
    refine ⟨fun ⟨s, hs⟩ => ?_, (gen args post).1⟩
    apply Classical.byContradiction
    intro h
    rw [(gen args post).2 (neg args h)] at hs; cases hs
  · intro assigns
    by_cases h : ∀ f ∈ fs, (∃ v, (f.name, v) ∈ assigns) ∨ ∃ v, f.default = some v
    · exact .inl ((cust assigns).1 h)
    · exact .inr ((cust assigns).2 (neg assigns h))
  · intro assigns
    refine ⟨fun ⟨s, hs⟩ => ?_, (cust assigns).1⟩
    apply Classical.byContradiction
    intro h
    rw [(cust assigns).2 (neg assigns h)] at hs; cases hs

example : construct [⟨0, false, none, none⟩, ⟨1, false, none, some .number⟩] (.custom [(1, .array)]) = .error .valueError := rfl
example : construct [⟨0, false, none, none⟩, ⟨1, false, none, some .number⟩] (.generated [(1, .array)] [(0, .array)]) = .error .typeError := rfl

/-- **C97**, where it is false. `jax.vmap(linear)` as the default of a field; in a list that is assigned in `__init__`; and
an array in a static field that is hidden in such a callable: no warnings. -/
theorem missed :
    (∃ s : St Nat, construct [⟨0, false, none, some (.fn true [.node [.array]])⟩] (.generated [] []) = .ok s ∧
      s.warned = [] ∧ s.dict.get? 0 = some (.fn true [.node [.array]]) ∧ Hides (.fn true [.node [.array]])) ∧
    (∃ s : St Nat, construct [⟨0, false, none, none⟩] (.custom [(0, .node [.fn true [.node [.array]]])]) = .ok s ∧
      s.warned = []) ∧
    (∃ s : St Nat, construct [⟨0, true, none, none⟩] (.custom [(0, .node [.fn true [.node [.array]]])]) = .ok s ∧
      s.warned = []) :=
  ⟨⟨_, rfl, rfl, rfl, _, rfl, .node [.array], by simp, .array, .child (by simp) (.self (by simp)), .inl rfl⟩,
    ⟨_, rfl, rfl⟩, ⟨_, rfl, rfl⟩⟩

/-- A layer in `jax.jit(jax.vmap(layer))`, and an array in a static field: both warnings. -/
example : ∃ s : St Nat, construct [⟨0, false, none, none⟩, ⟨1, true, none, none⟩]
    (.custom [(0, .fn true [.fn true [.node [.array]], .node [.array]]), (1, .node [.other, .array])]) = .ok s ∧
      s.warned = [.transformed, .static] := ⟨_, rfl, rfl⟩

end Verif.Module.Warnings
