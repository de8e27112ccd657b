import Verif.Module.SignatureProps

/-!
# C130: what is different while documentation is generated

`doc_repr`, `WithRepr` and `doc_remove_args` (`equinox/_doc_utils.py`, 8-52). `getattr(typing, "GENERATING_DOCUMENTATION", False)` is the
argument `generating`. Parameters, calls of functions and `inspect.Signature` are those of C106 (`Verif/Module/Signature`). Attributes of
functions other than `__signature__` are not modelled, nor are `__module__` of a `WithRepr` (12) and names of types that Python rejects
(null characters).
-/

namespace Verif.Docs

open Verif.Module Verif.Module.Signature

variable {N V : Type} [DecidableEq N]

/-- A function: its parameters, and its attribute `__signature__` if there is one. -/
structure Fn (N V : Type) where
  params : List (Param N V)
  sig : Option (List (Param N V))

/-- `inspect.signature(fn)`: `__signature__` goes first. -/
def Fn.inspect (f : Fn N V) : List (Param N V) := f.sig.getD f.params

/-- The loop over the parameters (43-46). -/
def newParams (args : List N) : List (Param N V) → List (Param N V)
  | [] => []
  | p :: ps => if args.contains p.name then newParams args ps else p :: newParams args ps

/-- `doc_remove_args(*args)(fn)` (39-52). `object.__setattr__` (49) changes the function, which is then returned. -/
def docRemoveArgs (generating : Bool) (args : List N) (f : Fn N V) : Except Err (Fn N V) :=
  if generating then do
    let s ← mkSignature (newParams args f.inspect)
    .ok { f with sig := some s }
  else .ok f

/-- A call of a function: `__signature__` does not matter. -/
def Fn.bind (f : Fn N V) (args : List V) (kwargs : Dict N V) : Except Err (List (N × Held N V)) := Signature.bind f.params args kwargs

/-- Objects: those of Python, and instances of `WithRepr` (8-23) with the `obj` and `string` they were made from. -/
inductive Obj (O : Type) where
  | plain (o : O)
  | shown (obj : Obj O) (string : String)

/-- `doc_repr(obj, string)` (29-36) -/
def docRepr {O : Type} (generating : Bool) (obj : Obj O) (string : String) : Obj O :=
  if generating then .shown obj string else obj

/-- `repr(obj)` (19-20), that of other objects being given. -/
def Obj.repr {O : Type} (reprOf : O → String) : Obj O → String
  | .plain o => reprOf o
  | .shown _ s => s

/-- `obj(*args, **kwargs)`, that of other objects being given. `WithRepr.__call__(cls, *args, **kwargs)` (22-23) has a parameter `cls`, which
the object itself is passed to. -/
def Obj.call {O R : Type} (cls : N) (callOf : O → List V → Dict N V → Except Err R) : Obj O → List V → Dict N V → Except Err R
  | .plain o, args, kwargs => callOf o args kwargs
  | .shown obj _, args, kwargs => if kwargs.keys.contains cls then .error .typeError else obj.call cls callOf args kwargs

/-! ### Specification -/

/-- The parameters called `args` can be left out, and are never passed by position: keyword-only ones with defaults, and `**kwargs`. -/
def CanGo (args : List N) (ps : List (Param N V)) : Prop :=
  ∀ p ∈ ps, p.name ∈ args → (p.kind = .kwOnly ∧ p.default.isSome = true) ∨ p.kind = .varKw

/-- What a parameter that nothing is passed to is bound to. -/
def unpassed (p : Param N V) : Option (Held N V) :=
  match p.kind, p.default with
  | .varKw, _ => some (.dict [])
  | _, some v => some (.one v)
  | _, none => none

/-! ### Signatures -/

theorem newParams_eq (args : List N) (ps : List (Param N V)) : newParams args ps = ps.filter fun p => decide (p.name ∉ args) := by
  induction ps with
  | nil => rfl
  | cons p ps ih =>
    by_cases h : p.name ∈ args <;> simp [newParams, h, ih]

omit [DecidableEq N] in
theorem valid_filter {ps : List (Param N V)} (hv : Valid ps) (f : Param N V → Bool) : Valid (ps.filter f) :=
  ⟨hv.places.filter _, hv.names.sublist (List.filter_sublist.map _), hv.defaults.filter _⟩

/-- **C130**, signatures. Otherwise than for documentation the function is left as it is. For documentation no error is raised, whatever is
removed from whatever parameters Python allows; `inspect.signature` gives those parameters whose names are not to be removed, in order and
unchanged; and what the function can be called with is the same. -/
theorem remove_args (args : List N) (f : Fn N V) :
    docRemoveArgs false args f = .ok f ∧
    (Valid f.inspect → ∃ g, docRemoveArgs true args f = .ok g ∧ g.inspect.Sublist f.inspect ∧
      (∀ p, p ∈ g.inspect ↔ p ∈ f.inspect ∧ p.name ∉ args) ∧ Valid g.inspect ∧ ∀ as kw, g.bind as kw = f.bind as kw) := by
  refine ⟨rfl, fun hv => ?_⟩
  have h : mkSignature (newParams args f.inspect) = .ok (newParams args f.inspect) := by
    unfold mkSignature
    rw [if_pos]
    rw [newParams_eq]
    exact checkParams_ok (valid_filter hv _) 0 false [] (by simp) (by simp) (by simp)
  refine ⟨{ f with sig := some (newParams args f.inspect) }, ?_, ?_, ?_, ?_, fun _ _ => rfl⟩
  · simp only [docRemoveArgs, if_true, h, Bind.bind, Except.bind]
  · show (newParams args f.inspect).Sublist _
    rw [newParams_eq]; exact List.filter_sublist
  · intro p
    show p ∈ newParams args f.inspect ↔ _
    rw [newParams_eq]; simp
  · show Valid (newParams args f.inspect)
    rw [newParams_eq]; exact valid_filter hv _

/-- **C130**, removing more: what is removed first and what is removed then are both gone, and the order does not matter. -/
theorem remove_args_twice (as bs : List N) (f : Fn N V) (hv : Valid f.inspect) :
    ∃ g, (docRemoveArgs true as f >>= docRemoveArgs true bs) = .ok g ∧ docRemoveArgs true (as ++ bs) f = .ok g ∧
      docRemoveArgs true (bs ++ as) f = .ok g := by
  have key : ∀ (l : List N) (q : Fn N V), Valid q.inspect →
      docRemoveArgs true l q = .ok { q with sig := some (q.inspect.filter fun p => decide (p.name ∉ l)) } := by
    intro l q hq
    simp only [docRemoveArgs, if_true, newParams_eq, mkSignature]
    rw [if_pos (checkParams_ok (valid_filter hq _) 0 false [] (by simp) (by simp) (by simp))]
    rfl
  rw [key as f hv, key (as ++ bs) f hv, key (bs ++ as) f hv]
  simp only [Bind.bind, Except.bind]
  rw [key bs { f with sig := some (f.inspect.filter fun p => decide (p.name ∉ as)) } (valid_filter hv _)]
  refine ⟨_, rfl, ?_, ?_⟩
  · simp only [Fn.inspect, Option.getD_some, List.filter_filter]
    congr 3; apply List.filter_congr; intro p _; simp [Bool.and_comm]
  · simp only [Fn.inspect, Option.getD_some, List.filter_filter]
    congr 3; apply List.filter_congr; intro p _; simp

/-! ### Calls -/

theorem passKw_known (names : List N) (star : Bool) (loc extra kw : Dict N V) (r : Dict N V × Dict N V)
    (h : passKw names star loc extra kw = .ok r) : ∀ e ∈ kw, e.1 ∈ names ∨ star = true := by
  induction kw generalizing loc extra with
  | nil => simp
  | cons e kw ih =>
    obtain ⟨n, v⟩ := e
    simp only [passKw] at h
    intro e he
    by_cases hn : names.contains n = true
    · rw [if_pos hn] at h
      split at h
      · cases h
      · rcases List.mem_cons.1 he with rfl | he
        · left; simpa using hn
        · exact ih _ _ h e he
    · rw [if_neg hn] at h
      by_cases hs : star = true
      · exact Or.inr hs
      · rw [if_neg hs] at h; cases h

theorem passKw_congr (names names' : List N) (star star' : Bool) (loc extra kw : Dict N V)
    (h : ∀ e ∈ kw, (e.1 ∈ names ↔ e.1 ∈ names') ∧ (e.1 ∉ names → star = star')) :
    passKw names star loc extra kw = passKw names' star' loc extra kw := by
  induction kw generalizing loc extra with
  | nil => rfl
  | cons e kw ih =>
    obtain ⟨n, v⟩ := e
    have h0 := h (n, v) (by simp)
    have ht : ∀ e ∈ kw, (e.1 ∈ names ↔ e.1 ∈ names') ∧ (e.1 ∉ names → star = star') := fun e he => h e (by simp [he])
    simp only [passKw]
    by_cases hn : n ∈ names
    · have hn' := h0.1.1 hn
      simp only [List.contains_iff_mem.2 hn, List.contains_iff_mem.2 hn', if_true]
      split
      · rfl
      · exact ih _ _ ht
    · have hn' : n ∉ names' := fun hh => hn (h0.1.2 hh)
      have hs := h0.2 hn
      subst hs
      have e1 : names.contains n = false := by simpa using hn
      have e2 : names'.contains n = false := by simpa using hn'
      simp only [e1, e2]
      split
      · exact absurd (by assumption) (by simp)
      · split
        · exact ih _ _ ht
        · rfl

theorem passKw_extra (names : List N) (loc extra kw : Dict N V) (r : Dict N V × Dict N V)
    (h : passKw names false loc extra kw = .ok r) : r.2 = extra := by
  induction kw generalizing loc with
  | nil => simp [passKw] at h; rw [← h]
  | cons e kw ih =>
    obtain ⟨n, v⟩ := e
    simp only [passKw] at h
    split at h
    · split at h
      · cases h
      · exact ih _ h
    · simp at h

theorem passKw_known_extra (names : List N) (star : Bool) (loc extra kw : Dict N V) (r : Dict N V × Dict N V)
    (hk : ∀ e ∈ kw, e.1 ∈ names) (h : passKw names star loc extra kw = .ok r) : r.2 = extra := by
  rw [passKw_congr names names star false loc extra kw fun e he => ⟨Iff.rfl, fun hn => absurd (hk e he) hn⟩] at h
  exact passKw_extra _ _ _ _ _ h

theorem passKw_get (names : List N) (star : Bool) (loc extra kw : Dict N V) (r : Dict N V × Dict N V) (n : N)
    (hn : n ∉ kw.keys) (h : passKw names star loc extra kw = .ok r) : r.1.get? n = loc.get? n := by
  induction kw generalizing loc extra with
  | nil => simp [passKw] at h; rw [← h]
  | cons e kw ih =>
    obtain ⟨m, v⟩ := e
    have hm : n ≠ m ∧ n ∉ Dict.keys kw := by simpa [Dict.keys] using hn
    simp only [passKw] at h
    split at h
    · split at h
      · cases h
      · rw [ih _ _ hm.2 h, get?_append]
        have : Dict.get? [(m, v)] n = none := by
          rw [get?_none_iff]; intro u hu
          simp at hu; exact hm.1 hu.1
        rw [this]; simp
    · split at h
      · exact ih _ _ hm.2 h
      · cases h

theorem fill_filter (loc extra : Dict N V) (rest : List V) (args : List N) (ps : List (Param N V))
    (hr : ∀ p ∈ ps, p.name ∈ args → ∃ h, heldBy loc rest extra p = .ok h) (b : List (N × Held N V)) :
    fill loc rest extra (ps.filter fun p => decide (p.name ∉ args)) = .ok b ↔
      ∃ c, fill loc rest extra ps = .ok c ∧ c.filter (fun e => decide (e.1 ∉ args)) = b := by
  induction ps generalizing b with
  | nil => simp [fill, eq_comm]
  | cons p ps ih =>
    have ih := ih fun q hq => hr q (by simp [hq])
    by_cases hp : p.name ∈ args
    · obtain ⟨h, hh⟩ := hr p (by simp) hp
      rw [List.filter_cons_of_neg (by simpa using hp), ih b]
      simp only [fill, hh, Bind.bind, Except.bind]
      constructor
      · rintro ⟨c, hc, e⟩
        refine ⟨(p.name, h) :: c, by rw [hc], ?_⟩
        rw [List.filter_cons_of_neg (by simpa using hp), e]
      · rintro ⟨c, hc, e⟩
        cases hf : fill loc rest extra ps with
        | error x => rw [hf] at hc; cases hc
        | ok c' =>
          rw [hf] at hc
          simp only [Except.ok.injEq] at hc
          subst hc
          rw [List.filter_cons_of_neg (by simpa using hp)] at e
          exact ⟨c', rfl, e⟩
    · rw [List.filter_cons_of_pos (by simpa using hp)]
      simp only [fill, Bind.bind, Except.bind]
      cases hh : heldBy loc rest extra p with
      | error x => simp
      | ok h =>
        simp only
        constructor
        · intro hb
          cases hf : fill loc rest extra (ps.filter fun p => decide (p.name ∉ args)) with
          | error x => rw [hf] at hb; cases hb
          | ok b' =>
            rw [hf] at hb
            obtain ⟨c, hc, e⟩ := (ih b').1 hf
            simp only [Except.ok.injEq] at hb
            refine ⟨(p.name, h) :: c, by rw [hc], ?_⟩
            rw [List.filter_cons_of_pos (by simpa using hp), e, hb]
        · rintro ⟨c, hc, e⟩
          cases hf : fill loc rest extra ps with
          | error x => rw [hf] at hc; cases hc
          | ok c' =>
            rw [hf] at hc
            simp only [Except.ok.injEq] at hc
            subst hc
            rw [List.filter_cons_of_pos (by simpa using hp)] at e
            rw [(ih _).2 ⟨c', hf, rfl⟩]
            simp only [e]

theorem fill_mem (loc extra : Dict N V) (rest : List V) (ps : List (Param N V)) (b : List (N × Held N V)) (hb : fill loc rest extra ps = .ok b)
    (p : Param N V) (hp : p ∈ ps) (h : Held N V) (hh : heldBy loc rest extra p = .ok h) : (p.name, h) ∈ b := by
  obtain ⟨_, hg⟩ := (fill_iff loc rest extra ps b).1 hb
  obtain ⟨i, hi⟩ := List.getElem?_of_mem hp
  obtain ⟨h', e, e'⟩ := hg i p hi
  rw [hh] at e'
  cases e'
  exact List.mem_of_getElem? e

theorem bind_newParams (names : List N) (ps : List (Param N V)) (hv : Valid ps) (hr : CanGo names ps) (args : List V)
    (kwargs : Dict N V) (hk : ∀ e ∈ kwargs, e.1 ∉ names) (b : List (N × Held N V)) :
    Signature.bind (newParams names ps) args kwargs = .ok b ↔
      ∃ c, Signature.bind ps args kwargs = .ok c ∧ c.filter (fun e => decide (e.1 ∉ names)) = b ∧
        (∀ p ∈ ps, p.name ∈ names → ∃ h, unpassed p = some h ∧ (p.name, h) ∈ c) ∧
        ∀ e ∈ kwargs, (∃ p ∈ ps, p.name = e.1 ∧ (p.kind = .posOrKw ∨ p.kind = .kwOnly)) ∨ ∃ p ∈ ps, p.kind = .varKw ∧ p.name ∉ names := by
  rw [newParams_eq]
  set ps' := ps.filter fun p => decide (p.name ∉ names) with hps'
  have mem' : ∀ p, p ∈ ps' ↔ p ∈ ps ∧ p.name ∉ names := fun p => by simp [hps']
  have hfront : ps'.filter Param.pos = ps.filter Param.pos := by
    rw [hps', List.filter_filter]
    apply List.filter_congr
    intro p hp
    cases hpos : p.pos with
    | false => simp
    | true =>
      have := (pos_iff p).1 hpos
      have : p.name ∉ names := by
        intro hn
        rcases hr p hp hn with ⟨h, _⟩ | h <;> rw [h] at this <;> simp at this
      simp [this]
  have hvp : hasVarPos ps' = hasVarPos ps := by
    rw [Bool.eq_iff_iff, hasVarPos_iff, hasVarPos_iff]
    constructor
    · rintro ⟨p, hp, h⟩; exact ⟨p, ((mem' p).1 hp).1, h⟩
    · rintro ⟨p, hp, h⟩
      refine ⟨p, (mem' p).2 ⟨hp, fun hn => ?_⟩, h⟩
      rcases hr p hp hn with ⟨h', _⟩ | h' <;> rw [h] at h' <;> cases h'
  have hkw : ∀ e ∈ kwargs, (e.1 ∈ keywords ps' ↔ e.1 ∈ keywords ps) := by
    intro e he
    rw [mem_keywords, mem_keywords]
    constructor
    · rintro ⟨p, hp, h⟩; exact ⟨p, ((mem' p).1 hp).1, h⟩
    · rintro ⟨p, hp, hn, h⟩; exact ⟨p, (mem' p).2 ⟨hp, by rw [hn]; exact hk e he⟩, hn, h⟩
  have hstar : hasVarKw ps' = true ↔ ∃ p ∈ ps, p.kind = .varKw ∧ p.name ∉ names := by
    rw [hasVarKw_iff]
    constructor
    · rintro ⟨p, hp, h⟩; exact ⟨p, ((mem' p).1 hp).1, h, ((mem' p).1 hp).2⟩
    · rintro ⟨p, hp, h, hn⟩; exact ⟨p, (mem' p).2 ⟨hp, hn⟩, h⟩
  have hstar' : hasVarKw ps' = true → hasVarKw ps = true := by
    rw [hstar, hasVarKw_iff]; rintro ⟨p, hp, h, _⟩; exact ⟨p, hp, h⟩
  set loc : Dict N V := ((ps.filter Param.pos).map (·.name)).zip args with hloc
  set rest := args.drop (ps.filter Param.pos).length with hrest
  have eq1 : Signature.bind ps' args kwargs = match passKw (keywords ps') (hasVarKw ps') loc [] kwargs with
      | .error e => .error e
      | .ok (loc, extra) => if rest.isEmpty || hasVarPos ps then fill loc rest extra ps' else .error .typeError := by
    simp only [Signature.bind, hfront, hvp]
    rfl
  have eq2 : Signature.bind ps args kwargs = match passKw (keywords ps) (hasVarKw ps) loc [] kwargs with
      | .error e => .error e
      | .ok (loc, extra) => if rest.isEmpty || hasVarPos ps then fill loc rest extra ps else .error .typeError := rfl
  have known : (∀ e ∈ kwargs, e.1 ∈ keywords ps' ∨ hasVarKw ps' = true) ↔
      ∀ e ∈ kwargs, (∃ p ∈ ps, p.name = e.1 ∧ (p.kind = .posOrKw ∨ p.kind = .kwOnly)) ∨ ∃ p ∈ ps, p.kind = .varKw ∧ p.name ∉ names := by
    refine forall₂_congr fun e he => ?_
    rw [hkw e he, mem_keywords, hstar]
  -- the same happens with the keywords
  have hpass : (∀ e ∈ kwargs, e.1 ∈ keywords ps' ∨ hasVarKw ps' = true) →
      passKw (keywords ps') (hasVarKw ps') loc [] kwargs = passKw (keywords ps) (hasVarKw ps) loc [] kwargs := by
    intro hh
    refine passKw_congr _ _ _ _ _ _ _ fun e he => ⟨hkw e he, fun hn => ?_⟩
    have := (hh e he).resolve_left hn
    rw [this, hstar' this]
  -- what the removed parameters are bound to
  have hheld : (∀ e ∈ kwargs, e.1 ∈ keywords ps' ∨ hasVarKw ps' = true) → ∀ r,
      passKw (keywords ps) (hasVarKw ps) loc [] kwargs = .ok r →
      ∀ p ∈ ps, p.name ∈ names → ∃ h, unpassed p = some h ∧ heldBy r.1 rest r.2 p = .ok h := by
    intro hh r hp p hps hn
    have hkeys : p.name ∉ kwargs.keys := by
      intro hc
      obtain ⟨e, he, hen⟩ := List.mem_map.1 hc
      exact hk e he (by rw [hen]; exact hn)
    rcases hr p hps hn with ⟨h1, h2⟩ | h1
    · obtain ⟨v, hd⟩ := Option.isSome_iff_exists.1 h2
      refine ⟨.one v, by simp [unpassed, h1, hd], ?_⟩
      have hg : r.1.get? p.name = none := by
        rw [passKw_get _ _ _ _ _ _ _ hkeys hp, get?_none_iff]
        intro u hu
        have hm := (List.of_mem_zip hu).1
        obtain ⟨q, hq, hqn⟩ := List.mem_map.1 hm
        obtain ⟨hq1, hq2⟩ := List.mem_filter.1 hq
        have := same_param hv.names hq1 hps hqn
        subst this
        rcases (pos_iff q).1 hq2 with h | h <;> rw [h1] at h <;> cases h
      simp only [heldBy, h1, hg, hd]
    · have hx : r.2 = [] := by
        refine passKw_known_extra _ _ _ _ _ _ (fun e he => ?_) hp
        rcases hh e he with h | h
        · exact (hkw e he).1 h
        · exfalso
          obtain ⟨q, hq, hqk, hqn⟩ := hstar.1 h
          by_cases hpq : p = q
          · subst hpq; exact hqn hn
          · have hpw := hv.places
            have : ∀ a ∈ ps, ∀ c ∈ ps, a ≠ c → a.kind = .varKw → c.kind ≠ .varKw := by
              intro a ha c hc hac h3 h4
              have := hpw.imp (S := fun x y => ¬ (x.kind = .varKw ∧ y.kind = .varKw)) (by
                intro x y hxy hc
                exact (hxy.2 (hc.1.trans hc.2.symm)).2 hc.1)
              obtain ⟨i, hi, rfl⟩ := List.getElem_of_mem ha
              obtain ⟨j, hj, rfl⟩ := List.getElem_of_mem hc
              rw [List.pairwise_iff_getElem] at this
              rcases Nat.lt_trichotomy i j with h | h | h
              · exact this i j hi hj h ⟨h3, h4⟩
              · subst h; exact hac rfl
              · exact this j i hj hi h ⟨h4, h3⟩
            exact this p hps q hq hpq h1 hqk
      exact ⟨.dict [], by simp [unpassed, h1], by simp only [heldBy, h1, hx]⟩
  constructor
  · intro hb
    have hh : ∀ e ∈ kwargs, e.1 ∈ keywords ps' ∨ hasVarKw ps' = true := by
      rw [eq1] at hb
      cases hp : passKw (keywords ps') (hasVarKw ps') loc [] kwargs with
      | error e => rw [hp] at hb; cases hb
      | ok r => exact passKw_known _ _ _ _ _ _ hp
    rw [eq1, hpass hh] at hb
    rw [eq2]
    cases hp : passKw (keywords ps) (hasVarKw ps) loc [] kwargs with
    | error e => rw [hp] at hb; cases hb
    | ok r =>
      have hd := hheld hh r hp
      rw [hp] at hb
      obtain ⟨l, x⟩ := r
      simp only at hb hd ⊢
      by_cases hc : (rest.isEmpty || hasVarPos ps) = true
      · rw [if_pos hc] at hb ⊢
        obtain ⟨c, hc1, hc2⟩ := (fill_filter l x rest names ps (fun p hp hn => by
          obtain ⟨h, _, h'⟩ := hd p hp hn; exact ⟨h, h'⟩) b).1 hb
        refine ⟨c, hc1, hc2, fun p hp hn => ?_, known.1 hh⟩
        obtain ⟨h, e, h'⟩ := hd p hp hn
        exact ⟨h, e, fill_mem _ _ _ _ _ hc1 p hp h h'⟩
      · rw [if_neg hc] at hb; cases hb
  · rintro ⟨c, hc, e, _, hh⟩
    have hh := known.2 hh
    rw [eq1, hpass hh]
    rw [eq2] at hc
    cases hp : passKw (keywords ps) (hasVarKw ps) loc [] kwargs with
    | error e => rw [hp] at hc; cases hc
    | ok r =>
      have hd := hheld hh r hp
      rw [hp] at hc
      obtain ⟨l, x⟩ := r
      simp only at hc hd ⊢
      by_cases hc' : (rest.isEmpty || hasVarPos ps) = true
      · rw [if_pos hc'] at hc ⊢
        exact (fill_filter l x rest names ps (fun p hp hn => by
          obtain ⟨h, _, h'⟩ := hd p hp hn; exact ⟨h, h'⟩) b).2 ⟨c, hc, e⟩
      · rw [if_neg hc'] at hc; cases hc

/-- **C130**, calls. Let the parameters to be removed be ones that can be left out, and consider a call with none of them as keyword. The
documented signature allows the call, binding its parameters as in `b`, exactly if the function does, binding these parameters in the same
way, and every keyword is one that the documentation knows. Those removed have their defaults then, and a `**kwargs` among them is empty. -/
theorem documented_calls (names : List N) (f g : Fn N V) (hf : f.sig = none) (hv : Valid f.params) (hr : CanGo names f.params)
    (hg : docRemoveArgs true names f = .ok g) (args : List V) (kwargs : Dict N V) (hk : ∀ e ∈ kwargs, e.1 ∉ names)
    (b : List (N × Held N V)) :
    Signature.bind g.inspect args kwargs = .ok b ↔
      ∃ c, g.bind args kwargs = .ok c ∧ c.filter (fun e => decide (e.1 ∉ names)) = b ∧
        (∀ p ∈ f.params, p.name ∈ names → ∃ h, unpassed p = some h ∧ (p.name, h) ∈ c) ∧
        ∀ e ∈ kwargs, (∃ p ∈ f.params, p.name = e.1 ∧ (p.kind = .posOrKw ∨ p.kind = .kwOnly)) ∨
          ∃ p ∈ f.params, p.kind = .varKw ∧ p.name ∉ names := by
  have hi : f.inspect = f.params := by simp [Fn.inspect, hf]
  simp only [docRemoveArgs, if_true, hi, mkSignature, newParams_eq] at hg
  rw [if_pos (checkParams_ok (valid_filter hv _) 0 false [] (by simp) (by simp) (by simp))] at hg
  simp only [Bind.bind, Except.bind, Except.ok.injEq] at hg
  subst hg
  have := bind_newParams names f.params hv hr args kwargs hk b
  rw [newParams_eq] at this
  exact this

/-- **C130**, representations. Otherwise than for documentation `doc_repr` gives the object itself. For documentation it gives one with the
representation asked for, which can be called like the object, with the same result or error; only a keyword argument `cls` is a
`TypeError`. -/
theorem doc_repr_calls {O R : Type} (cls : N) (reprOf : O → String) (callOf : O → List V → Dict N V → Except Err R) (obj : Obj O) (s : String) :
    docRepr false obj s = obj ∧ (docRepr true obj s).repr reprOf = s ∧
      ∀ args kwargs,
        ((∀ e ∈ kwargs, e.1 ≠ cls) → (docRepr true obj s).call cls callOf args kwargs = obj.call cls callOf args kwargs) ∧
        ((∃ e ∈ kwargs, e.1 = cls) → (docRepr true obj s).call cls callOf args kwargs = .error .typeError) := by
  refine ⟨rfl, rfl, fun args kwargs => ⟨fun h => ?_, fun ⟨e, he, hc⟩ => ?_⟩⟩
  · have : kwargs.keys.contains cls = false := by
      rw [Bool.eq_false_iff]
      intro hc
      obtain ⟨e, he, hen⟩ := List.mem_map.1 (List.contains_iff_mem.1 hc)
      exact h e he hen
    simp only [docRepr, if_true, Obj.call, this]
    rfl
  · have : kwargs.keys.contains cls = true := List.contains_iff_mem.2 (List.mem_map.2 ⟨e, he, hc⟩)
    simp only [docRepr, if_true, Obj.call, this]

/-! ### A concrete case -/

/-- The parameters of `filter_value_and_grad` (`equinox/_ad.py`, 151-153). -/
def gradParams : List (Param String Nat) :=
  [⟨"fun", .posOrKw, some 0⟩, ⟨"has_aux", .kwOnly, some 1⟩, ⟨"gradkwargs", .varKw, none⟩]

example : Valid gradParams ∧ CanGo ["gradkwargs"] gradParams := by
  constructor
  · constructor
    · simp [gradParams, place]
    · simp [gradParams]
    · simp [gradParams]
  · simp [gradParams, CanGo]

example : docRemoveArgs true ["gradkwargs"] ⟨gradParams, none⟩ = .ok ⟨gradParams, some (gradParams.take 2)⟩ := rfl

example : Signature.bind (gradParams.take 2) [7] [("has_aux", 2)] = .ok [("fun", .one 7), ("has_aux", .one 2)] := rfl

example : Signature.bind gradParams [7] [("has_aux", 2)] = .ok [("fun", .one 7), ("has_aux", .one 2), ("gradkwargs", .dict [])] := rfl

example : Signature.bind (gradParams.take 2) [7] [("argnums", 2)] = .error .typeError := rfl

end Verif.Docs
