import Verif.Vmap.PmapCacheProps
/-!
# C123: `filter_pmap(...).lower(...).compile()`

`equinox/_vmap_pmap.py`: `_preprocess` (434-439), `_PmapWrapper._call` with `is_lower=True` (484-490), `lower` (505-506);
`equinox/_compile_utils.py`: `Lowered` (98-113), `Compiled` (116-125).

On top of the model of the cache (`PmapCache.lean`), with its simplifications. `lower` traces the function, so that it raises what a call raises. A
compiled program of JAX asks for arguments of the structure, with arrays of the shapes and dtypes, that it was lowered for.
-/

namespace Verif.Vmap.PmapAot

open PT Filters

variable {K V A O S Q F N J : Type}

/-- `Compiled`: the program, `info`, and what JAX checks of its arguments. -/
structure Compiled (K V O S : Type) where
  program : Entry K V O
  fn : Val K V O
  tup : K
  structFn : PT K (Option S)
  structArgs : PT K (Option S)

section
variable [DecidableEq K] [DecidableEq S] [DecidableEq Q] [DecidableEq F] [DecidableEq N] [DecidableEq J]

/-- `Lowered(cached.lower(dynamic), info, ...).compile()`; tracing raises what running raises. -/
def lowered (w : CacheWorld K V A O S Q F N) (tup : K) (e : Entry K V O) (c : PCall K V O J) (p : Prep K V O) : Except Err (Compiled K V O S) := do
  let _ ← runEntry w e p.fn.1 p.args.1
  pure ⟨e, c.fn, tup, p.fn.1.map w.structKey, p.args.1.map w.structKey⟩

/-- `lower(*args, **kwargs).compile()`: `_call` (461-490), with the cache (`_compile_utils.py:63-79`) -/
def lower (w : CacheWorld K V A O S Q F N) (tup : K) (s : PSt K V O S Q F N J) (c : PCall K V O J) :
    Except Err (Compiled K V O S) × PSt K V O S Q F N J :=
  match prepare tup c with
  | .error e => (.error e, s)
  | .ok p =>
    if keyHash w c p then
      match findEntry (w.function c.fn, pmapKey w c p) s.entries with
      | some e => (lowered w tup e c p, s)
      | Option.none =>
        match makeEntry w c p with
        | .error e => (.error e, { s with traces := s.traces + 1 })
        | .ok e => (lowered w tup e c p, ⟨((w.function c.fn, pmapKey w c p), e) :: s.entries, s.traces + 1⟩)
    else (.error .typeError, s)

/-- `_preprocess` (434-439) -/
def preprocess (c : Compiled K V O S) (args : List (Val K V O)) (kwargs : List String) : Except Err (Val K V O × Val K V O) :=
  if kwargs.length ≠ 0 then .error .runtimeError
  else do
    let fn ← splitArrays c.fn
    let args ← splitArrays (.node c.tup args)
    pure (fn.1, args.1)

/-- `self.compiled(*dynamic)` and `_postprocess` -/
def execute (w : CacheWorld K V A O S Q F N) (c : Compiled K V O S) (dyn : Val K V O × Val K V O) : Except Err (Val K V O) :=
  if dyn.1.map w.structKey = c.structFn ∧ dyn.2.map w.structKey = c.structArgs then runEntry w c.program dyn.1 dyn.2
  else .error .typeError

/-- `Compiled.__call__` (122-125) -/
def Compiled.call (w : CacheWorld K V A O S Q F N) (c : Compiled K V O S) (args : List (Val K V O)) (kwargs : List String) :
    Except Err (Val K V O) := do
  let dyn ← preprocess c args kwargs
  execute w c dyn

/-! ### Specification -/

/-- Arrays of the same shapes and dtypes in the same places, whatever the rest. -/
def SameArrays (w : CacheWorld K V A O S Q F N) (x y : Val K V O) : Prop :=
  ∀ π s, (∃ v, x.leafAt? π = some (.arr v) ∧ w.struct v = s) ↔ ∃ v, y.leafAt? π = some (.arr v) ∧ w.struct v = s

/-! ### Proofs -/

omit [DecidableEq S] [DecidableEq Q] [DecidableEq F] [DecidableEq N] [DecidableEq J] in
private theorem lowered_ok {w : CacheWorld K V A O S Q F N} {tup : K} {e : Entry K V O} {c : PCall K V O J} {p : Prep K V O} {a : Compiled K V O S}
    (h : lowered w tup e c p = .ok a) : a = ⟨e, c.fn, tup, p.fn.1.map w.structKey, p.args.1.map w.structKey⟩ := by
  simp only [lowered, bind, Except.bind, pure, Except.pure] at h
  split at h
  · contradiction
  · exact (Except.ok.inj h).symm

/-- What is known after lowering. -/
private theorem lower_ok {w : CacheWorld K V A O S Q F N} {tup : K} {s s' : PSt K V O S Q F N J} {c : PCall K V O J} {a : Compiled K V O S}
    (h : lower w tup s c = (.ok a, s')) :
    ∃ p e, prepare tup c = .ok p ∧ findEntry (w.function c.fn, pmapKey w c p) s'.entries = some e ∧
      a = ⟨e, c.fn, tup, p.fn.1.map w.structKey, p.args.1.map w.structKey⟩ ∧ s' = (callPmap w tup s c).2 := by
  unfold lower at h
  unfold callPmap
  cases hp : prepare tup c with
  | error x => simp [hp] at h
  | ok p =>
    simp only [hp] at h ⊢
    by_cases hk : keyHash w c p = true
    · simp only [hk, if_true] at h ⊢
      cases hf : findEntry (w.function c.fn, pmapKey w c p) s.entries with
      | some e =>
        simp only [hf, Prod.mk.injEq] at h ⊢
        obtain ⟨h1, rfl⟩ := h
        exact ⟨p, e, rfl, hf, lowered_ok h1, rfl⟩
      | none =>
        simp only [hf] at h ⊢
        cases hm : makeEntry w c p with
        | error x => simp [hm] at h
        | ok e =>
          simp only [hm, Prod.mk.injEq] at h ⊢
          obtain ⟨h1, rfl⟩ := h
          exact ⟨p, e, rfl, by simp [findEntry], lowered_ok h1, rfl⟩
    · simp [hk] at h

/-- **C123**, a compiled function is the function: on arguments which equal the ones it was lowered for but for the values of arrays, it does what a call of
the function decorated with `filter_pmap` does there; and for the cache, lowering is a call. -/
theorem compiled_is_call (w : CacheWorld K V A O S Q F N) (tup : K) (h : List (PEvent K V O F J)) {c d : PCall K V O J} {a : Compiled K V O S}
    {s : PSt K V O S Q F N J} (hl : lower w tup (runPmap w tup h) c = (.ok a, s)) (hs : SameCall w tup d c) (hf : d.fn = c.fn)
    (hk : d.kwargs = []) (hh : CallHash w tup d) :
    s = runPmap w tup (h ++ [.call c]) ∧ a.call w d.args d.kwargs = (callPmap w tup s d).1 := by
  obtain ⟨p, e, hp, he, rfl, hst⟩ := lower_ok hl
  refine ⟨by simp [runPmap, List.foldl_append, stepPmap, hst], ?_⟩
  obtain ⟨_, h2, h3, h4⟩ := prepare_ok hp
  obtain ⟨p', hp'⟩ := prepare_isOk hk (hs.axes.trans h2)
  obtain ⟨_, g2, g3, g4⟩ := prepare_ok hp'
  have hkey := (key_iff w hp' hp).2 hs
  have e1 := ((split_iff w _ _).2 hs.fn).2
  have e2 := ((split_iff w _ _).2 hs.args).2
  rw [← hkey] at he
  have hr : (callPmap w tup s d).1 = runEntry w e p'.fn.1 p'.args.1 := by
    rcases callPmap_cases w tup s d hp' with ⟨hn, _⟩ | ⟨_, e', he', hx⟩ | ⟨_, hn, _⟩ | ⟨_, hn, _⟩
    · exact absurd hh hn
    · rw [he] at he'
      rw [hx, Option.some.inj he']
    · rw [he] at hn; contradiction
    · rw [he] at hn; contradiction
  rw [hr]
  simp only [Compiled.call, preprocess, hk, List.length_nil, ne_eq, not_true_eq_false, if_false, splitArrays_eq, bind, Except.bind, pure, Except.pure,
    execute]
  rw [← hf, g3, g4, h3, h4]
  rw [if_pos ⟨e1, e2⟩]

/-- **C123**, if `==` tells all objects apart: a compiled function does what `filter_pmap` does without cache and compilation.

Missing: this for objects which are equal but different, as in C89 (`pmap_equal_static`), and for other static arguments than the ones it was
compiled for, which it does not look at (`compiled_ignores_static`). -/
theorem compiled_exact_partial (w : CacheWorld K V A O S Q F N) (hw : Shapely w) (hW : ∀ a b, w.cls a = w.cls b → a = b) (tup : K)
    (h : List (PEvent K V O F J)) {c d : PCall K V O J} {a : Compiled K V O S} {s : PSt K V O S Q F N J}
    (hl : lower w tup (runPmap w tup h) c = (.ok a, s)) (hs : SameCall w tup d c) (hf : d.fn = c.fn) (hk : d.kwargs = [])
    (hh : CallHash w tup d) :
    a.call w d.args d.kwargs =
      filterPmap w.toWorld w.ndim tup (w.call d.fn) d.params d.inAxes (d.outAxes.map w.axis) d.axisSize d.args d.kwargs := by
  obtain ⟨hst, hc⟩ := compiled_is_call w tup h hl hs hf hk hh
  rw [hc, hst]
  exact pmap_cached_exact_partial w hw hW tup (h ++ [PEvent.call c]) d hh

omit [DecidableEq Q] [DecidableEq F] [DecidableEq N] in
/-- **C123**, keyword arguments are refused, as in a call. -/
theorem compiled_kwargs (w : CacheWorld K V A O S Q F N) (a : Compiled K V O S) (args : List (Val K V O)) {kwargs : List String} (hk : kwargs ≠ []) :
    a.call w args kwargs = .error .runtimeError := by
  simp [Compiled.call, preprocess, hk, bind, Except.bind]

omit [DecidableEq K] [DecidableEq S] [DecidableEq Q] [DecidableEq F] [DecidableEq N] in
private theorem structs_at (w : CacheWorld K V A O S Q F N) (x : Val K V O) (π : List Nat) (s : S) :
    ((withNones (x.map dynL)).map w.structKey).leafAt? π = some (some s) ↔ ∃ v, x.leafAt? π = some (.arr v) ∧ w.struct v = s := by
  rw [leafAt?_map, leafAt?_withNones]
  cases hx : x.leafAt? π with
  | none => simp
  | some l => cases l <;> simp [dynL, CacheWorld.structKey, isArray]

/-- **C123**, arrays of other shapes or dtypes, or at other places, are refused with a TypeError instead of being computed with. -/
theorem compiled_refuses (w : CacheWorld K V A O S Q F N) (tup : K) (st : PSt K V O S Q F N J) {c : PCall K V O J} {a : Compiled K V O S}
    {s : PSt K V O S Q F N J} (hl : lower w tup st c = (.ok a, s)) (args : List (Val K V O))
    (hs : ¬ SameArrays w (.node tup args) (.node tup c.args)) : a.call w args [] = .error .typeError := by
  obtain ⟨p, e, hp, he, rfl, hst⟩ := lower_ok hl
  obtain ⟨_, h2, h3, h4⟩ := prepare_ok hp
  simp only [Compiled.call, preprocess, List.length_nil, ne_eq, not_true_eq_false, if_false, splitArrays_eq, bind, Except.bind, pure, Except.pure,
    execute]
  refine if_neg fun hc => hs fun π s => ?_
  rw [← structs_at, ← structs_at, hc.2, h4]

end

/-! ### Examples -/

open PmapToy

/-- Compiled for `[5, 6]` and `1`, called with `[3, 4]` and `1`. -/
example : ((lower (world id) () (runPmap (world id) () [.call (theCall [7, 8] 1)]) (theCall [5, 6] 1)).1.bind fun a =>
    a.call (world id) (theCall [3, 4] 1).args []) = .ok (.node () [.leaf (.arr (.inr [3, 4])), .leaf (.obj 1)]) := rfl

/-- Called with three numbers. -/
example : ((lower (world id) () (runPmap (world id) () []) (theCall [5, 6] 1)).1.bind fun a =>
    a.call (world id) (theCall [3, 4, 5] 1).args []) = .error .typeError := rfl

/-- A compiled function does not look at static arguments: compiled for `1` and called with `2`, it returns `1`, also where `==` tells all objects
apart. -/
theorem compiled_ignores_static : (∀ a b, (world id).cls a = (world id).cls b → a = b) ∧ CallHash (world id) () (theCall [3, 4] 2) ∧
    ∃ a s, lower (world id) () (runPmap (world id) () []) (theCall [5, 6] 1) = (.ok a, s) ∧
      a.call (world id) (theCall [3, 4] 2).args [] = .ok (.node () [.leaf (.arr (.inr [3, 4])), .leaf (.obj 1)]) ∧
      filterPmap (world id).toWorld (world id).ndim () ((world id).call (theCall [3, 4] 2).fn) (theCall [3, 4] 2).params
        (theCall [3, 4] 2).inAxes ((theCall [3, 4] 2).outAxes.map (world id).axis) (theCall [3, 4] 2).axisSize (theCall [3, 4] 2).args [] =
          .ok (.node () [.leaf (.arr (.inr [3, 4])), .leaf (.obj 2)]) :=
  ⟨fun _ _ h => h, ⟨fun _ _ => rfl, fun _ _ => rfl, fun _ _ => rfl⟩, _, _, rfl, rfl, rfl⟩

end Verif.Vmap.PmapAot
