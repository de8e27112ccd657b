import Verif.Basic

/-!
# `Sequential` (`equinox/nn/_sequential.py`)

Layers are functions that may raise. `state=sentinel` (no state passed) is `none`, `key=None` is `none`. A call that returns
the pair `(x, state)` is `(x, some state)` here, one that returns `x` alone is `(x, none)`. `named_scope` is left out.
-/

namespace Verif.Sequential

variable {X S Key : Type}

/-- A layer that is not a `Sequential`. -/
inductive LeafLayer (X S Key : Type) where
  /-- called as `layer(x, key=key)`: not a `StatefulLayer`, or one whose `is_stateful()` is false -/
  | stateless (f : X → Option Key → Except Err X)
  /-- a `StatefulLayer` whose `is_stateful()` is true, called as `layer(x, state=state, key=key)` -/
  | stateful (f : X → Option S → Option Key → Except Err (X × S))

/-- A layer. -/
inductive Layer (X S Key : Type) where
  | leaf (l : LeafLayer X S Key)
  | seq (ls : List (Layer X S Key))

mutual
/-- `isinstance(x, StatefulLayer) and x.is_stateful()`, with `Sequential.is_stateful` (61-64). -/
def isStateful : Layer X S Key → Bool
  | .leaf (.stateless _) => false
  | .leaf (.stateful _) => true
  | .seq ls => anyStateful ls
/-- `any(...)`. -/
def anyStateful : List (Layer X S Key) → Bool
  | [] => false
  | l :: ls => isStateful l || anyStateful ls
end

/-- The keys of the layers (97-100). -/
def keysFor (split : Key → Nat → List Key) (key : Option Key) (n : Nat) : List (Option Key) :=
  match key with
  | none => List.replicate n none
  | some k => (split k n).map some

mutual
/-- Call a layer with a state or with the sentinel. -/
def callLayer (split : Key → Nat → List Key) : Layer X S Key → X → Option S → Option Key → Except Err (X × Option S)
  | .leaf (.stateless f), x, _, k => do
    let x' ← f x k
    pure (x', none)
  | .leaf (.stateful f), x, s, k => do
    let r ← f x s k
    pure (r.1, some r.2)
  | .seq ls, x, s, k => runLayers split ls (keysFor split k ls.length) x s
/-- The loop (101-105). A layer called statefully must return a pair, and one called statelessly must not (`typeError` in
both cases; it cannot happen, see `seq_flat`). -/
def runLayers (split : Key → Nat → List Key) :
    List (Layer X S Key) → List (Option Key) → X → Option S → Except Err (X × Option S)
  | [], _, x, s => .ok (x, s)
  | _ :: _, [], x, s => .ok (x, s)
  | l :: ls, k :: ks, x, s =>
    if isStateful l then
      match callLayer split l x s k with
      | .ok (x', some s') => runLayers split ls ks x' (some s')
      | .ok (_, none) => .error .typeError
      | .error e => .error e
    else
      match callLayer split l x none k with
      | .ok (x', none) => runLayers split ls ks x' s
      | .ok (_, some _) => .error .typeError
      | .error e => .error e
end

/-- `Sequential(layers)(x, state, key=key)` (74-109). -/
def call (split : Key → Nat → List Key) (ls : List (Layer X S Key)) (x : X) (s : Option S) (key : Option Key) :
    Except Err (X × Option S) := callLayer split (.seq ls) x s key

/-- Python's normalisation of a bound of a slice. -/
def clampIdx (n : Nat) (i : Int) : Nat := if i < 0 then (i + n).toNat else min i.toNat n

/-- Python's normalisation of a bound of a slice with a step (`PySlice_AdjustIndices`): bounds out of range are moved to the
last position on that side, which for a negative step is `-1` or `n - 1`. -/
def adjust (n : Nat) (negative : Bool) (i : Int) : Int :=
  if i < 0 then
    let j := i + n
    if j < 0 then (if negative then -1 else 0) else j
  else if i ≥ n then (if negative then n - 1 else n) else i

/-- `range(start, stop, step)` for a step that is not 0, as far as it has non-negative elements. The first argument bounds the
number of elements. -/
def rangeList : Nat → Int → Int → Int → List Nat
  | 0, _, _, _ => []
  | fuel + 1, i, stop, step =>
    if (0 < step ∧ i < stop) ∨ (step < 0 ∧ stop < i) then i.toNat :: rangeList fuel (i + step) stop step else []

/-- `range(*slice(start, stop, step).indices(n))` -/
def stepIndices (n : Nat) (start stop : Option Int) (step : Int) : List Nat :=
  let negative := decide (step < 0)
  let lo := match start with | none => (if negative then (n : Int) - 1 else 0) | some i => adjust n negative i
  let hi := match stop with | none => (if negative then -1 else (n : Int)) | some i => adjust n negative i
  rangeList n lo hi step

/-- The index of `__getitem__` (111-117). -/
inductive Index where
  | int (i : Int)
  /-- `start:stop` -/
  | slice (start stop : Option Int)
  /-- `start:stop:step` -/
  | stepped (start stop : Option Int) (step : Int)
  | other

/-- `Sequential.__getitem__` (111-117). -/
def getItem (ls : List (Layer X S Key)) : Index → Except Err (Layer X S Key)
  | .int i =>
    let j := if i < 0 then i + ls.length else i
    if j < 0 then .error .indexError
    else match ls[j.toNat]? with
      | some l => .ok l
      | none => .error .indexError
  | .slice a b =>
    let lo := match a with | none => 0 | some i => clampIdx ls.length i
    let hi := match b with | none => ls.length | some i => clampIdx ls.length i
    .ok (.seq ((ls.take hi).drop lo))
  | .stepped a b c => if c = 0 then .error .valueError else .ok (.seq ((stepIndices ls.length a b c).filterMap (ls[·]?)))
  | .other => .error .typeError

/-! ### Specification -/

mutual
/-- All layers inside, from left to right, each with the key it receives: nested ones split the key they are given. -/
def flat (split : Key → Nat → List Key) : Layer X S Key → Option Key → List (LeafLayer X S Key × Option Key)
  | .leaf l, k => [(l, k)]
  | .seq ls, k => flatL split ls (keysFor split k ls.length)
/-- `flat` on a list of layers with their keys. -/
def flatL (split : Key → Nat → List Key) :
    List (Layer X S Key) → List (Option Key) → List (LeafLayer X S Key × Option Key)
  | [], _ => []
  | _ :: _, [] => []
  | l :: ls, k :: ks => flat split l k ++ flatL split ls ks
end

/-- One layer: stateless ones leave the state alone. -/
def step (p : LeafLayer X S Key × Option Key) (c : X × Option S) : Except Err (X × Option S) :=
  match p.1 with
  | .stateless f => match f c.1 p.2 with
    | .ok x => .ok (x, c.2)
    | .error e => .error e
  | .stateful f => match f c.1 c.2 p.2 with
    | .ok r => .ok (r.1, some r.2)
    | .error e => .error e

/-- Compose layers from left to right. -/
def compose : List (LeafLayer X S Key × Option Key) → X × Option S → Except Err (X × Option S)
  | [], c => .ok c
  | p :: ps, c => match step p c with
    | .ok c' => compose ps c'
    | .error e => .error e

mutual
/-- The layers inside. -/
def leafLayers : Layer X S Key → List (LeafLayer X S Key)
  | .leaf l => [l]
  | .seq ls => leafLayersL ls
/-- `leafLayers` on a list. -/
def leafLayersL : List (Layer X S Key) → List (LeafLayer X S Key)
  | [] => []
  | l :: ls => leafLayers l ++ leafLayersL ls
end

/-- A layer that keeps state. -/
def LeafLayer.isStateful : LeafLayer X S Key → Bool
  | .stateless _ => false
  | .stateful _ => true

/-- The layer does not depend on its key. -/
def LeafLayer.Keyless : LeafLayer X S Key → Prop
  | .stateless f => ∀ x k k', f x k = f x k'
  | .stateful f => ∀ x s k k', f x s k = f x s k'

/-! ### Proofs -/

theorem Layer.ind {P : Layer X S Key → Prop} (leaf : ∀ l, P (.leaf l)) (seq : ∀ ls, (∀ l ∈ ls, P l) → P (.seq ls)) :
    ∀ l, P l
  | .leaf l => leaf l
  | .seq ls => seq ls (go ls)
where
  go : ∀ ls : List (Layer X S Key), ∀ l ∈ ls, P l
  | [], _, h => nomatch h
  | l :: ls, m, h => by
    rcases List.mem_cons.1 h with h | h
    · exact h ▸ Layer.ind leaf seq l
    · exact go ls m h

theorem compose_append (ps qs : List (LeafLayer X S Key × Option Key)) (c : X × Option S) :
    compose (ps ++ qs) c = match compose ps c with | .ok c' => compose qs c' | .error e => .error e := by
  induction ps generalizing c with
  | nil => rfl
  | cons p ps ih =>
    simp only [List.cons_append, compose]
    cases step p c with
    | error e => rfl
    | ok c' => exact ih c'

/-- What the loop over layers relies on. -/
def Good (split : Key → Nat → List Key) (l : Layer X S Key) : Prop :=
  (isStateful l = true → (∀ x s k, callLayer split l x s k = compose (flat split l k) (x, s)) ∧
    ∀ c k c', compose (flat split l k) c = .ok c' → ∃ s', c'.2 = some s') ∧
  (isStateful l = false → (∀ x k, callLayer split l x none k = compose (flat split l k) (x, none)) ∧
    ∀ x s k, compose (flat split l k) (x, s) =
      match compose (flat split l k) (x, (none : Option S)) with
      | .ok c' => .ok (c'.1, s)
      | .error e => .error e)

theorem flatL_stateless {split : Key → Nat → List Key} (ls : List (Layer X S Key)) (h : ∀ l ∈ ls, Good split l)
    (hs : anyStateful ls = false) (ks : List (Option Key)) (x : X) (s : Option S) :
    compose (flatL split ls ks) (x, s) =
      match compose (flatL split ls ks) (x, (none : Option S)) with
      | .ok c' => .ok (c'.1, s)
      | .error e => .error e := by
  induction ls generalizing ks x with
  | nil => simp [flatL, compose]
  | cons l ls ih =>
    cases ks with
    | nil => simp [flatL, compose]
    | cons k ks =>
      simp only [anyStateful, Bool.or_eq_false_iff] at hs
      have h1 := ((h l (by simp)).2 hs.1).2
      have h2 := ih (fun m hm => h m (List.mem_cons_of_mem _ hm)) hs.2 ks
      simp only [flatL, compose_append]
      have e1 := h1 x s k
      have e2 := h1 x none k
      cases hc : compose (flat split l k) (x, (none : Option S)) with
      | error e => rw [hc] at e1; simp only at e1; rw [e1]
      | ok c' =>
        rw [hc] at e1 e2
        simp only [Except.ok.injEq] at e1 e2
        rw [e1]
        obtain ⟨x', s'⟩ := c'
        simp only [Prod.mk.injEq, true_and] at e2
        subst e2
        exact h2 x'

theorem flatL_some {split : Key → Nat → List Key} (ls : List (Layer X S Key)) (h : ∀ l ∈ ls, Good split l)
    (ks : List (Option Key)) (x : X) (s : S) (c' : X × Option S) (hc : compose (flatL split ls ks) (x, some s) = .ok c') :
    ∃ s', c'.2 = some s' := by
  induction ls generalizing ks x s with
  | nil => simp only [flatL, compose, Except.ok.injEq] at hc; subst hc; exact ⟨s, rfl⟩
  | cons l ls ih =>
    cases ks with
    | nil => simp only [flatL, compose, Except.ok.injEq] at hc; subst hc; exact ⟨s, rfl⟩
    | cons k ks =>
      simp only [flatL, compose_append] at hc
      cases h1 : compose (flat split l k) (x, some s) with
      | error e => rw [h1] at hc; cases hc
      | ok d =>
        rw [h1] at hc
        obtain ⟨x', t⟩ := d
        have : ∃ s', t = some s' := by
          cases hl : isStateful l with
          | true => exact ((h l (by simp)).1 hl).2 _ _ _ h1
          | false =>
            have e := ((h l (by simp)).2 hl).2 x (some s) k
            rw [h1] at e
            cases hn : compose (flat split l k) (x, (none : Option S)) with
            | error e' => rw [hn] at e; cases e
            | ok d' => rw [hn] at e; simp only [Except.ok.injEq, Prod.mk.injEq] at e; exact ⟨s, e.2⟩
        obtain ⟨s', rfl⟩ := this
        exact ih (fun m hm => h m (List.mem_cons_of_mem _ hm)) ks x' s' hc

theorem flatL_stateful {split : Key → Nat → List Key} (ls : List (Layer X S Key)) (h : ∀ l ∈ ls, Good split l)
    (hs : anyStateful ls = true) (ks : List (Option Key)) (hl : ks.length = ls.length) (c c' : X × Option S)
    (hc : compose (flatL split ls ks) c = .ok c') : ∃ s', c'.2 = some s' := by
  induction ls generalizing ks c with
  | nil => simp [anyStateful] at hs
  | cons l ls ih =>
    cases ks with
    | nil => simp at hl
    | cons k ks =>
      have hm : ∀ m ∈ ls, Good split m := fun m hm => h m (List.mem_cons_of_mem _ hm)
      simp only [flatL, compose_append] at hc
      cases h1 : compose (flat split l k) c with
      | error e => rw [h1] at hc; cases hc
      | ok d =>
        rw [h1] at hc
        cases hst : isStateful l with
        | true =>
          obtain ⟨s', hs'⟩ := ((h l (by simp)).1 hst).2 _ _ _ h1
          obtain ⟨x', t⟩ := d
          simp only at hs'; subst hs'
          exact flatL_some ls hm ks x' s' c' hc
        | false =>
          simp only [anyStateful, hst, Bool.false_or] at hs
          exact ih hm hs ks (by simpa using hl) d hc

theorem runLayers_eq {split : Key → Nat → List Key} (ls : List (Layer X S Key)) (h : ∀ l ∈ ls, Good split l)
    (ks : List (Option Key)) (x : X) (s : Option S) :
    runLayers split ls ks x s = compose (flatL split ls ks) (x, s) := by
  induction ls generalizing ks x s with
  | nil => simp [runLayers, flatL, compose]
  | cons l ls ih =>
    cases ks with
    | nil => simp [runLayers, flatL, compose]
    | cons k ks =>
      have hm : ∀ m ∈ ls, Good split m := fun m hm => h m (List.mem_cons_of_mem _ hm)
      simp only [runLayers, flatL, compose_append]
      cases hst : isStateful l with
      | true =>
        simp only [if_true]
        obtain ⟨h1, h2⟩ := (h l (by simp)).1 hst
        rw [h1]
        cases hc : compose (flat split l k) (x, s) with
        | error e => rfl
        | ok d =>
          obtain ⟨s', hs'⟩ := h2 _ _ _ hc
          obtain ⟨x', t⟩ := d
          simp only at hs'; subst hs'
          exact ih hm ks x' (some s')
      | false =>
        simp only [Bool.false_eq_true, if_false]
        obtain ⟨h1, h2⟩ := (h l (by simp)).2 hst
        rw [h1]
        have e1 := h2 x s k
        have e2 := h2 x none k
        cases hc : compose (flat split l k) (x, (none : Option S)) with
        | error e => rw [hc] at e1; simp only at e1; rw [e1]
        | ok d =>
          rw [hc] at e1 e2
          simp only [Except.ok.injEq] at e1 e2
          rw [e1]
          obtain ⟨x', t⟩ := d
          simp only [Prod.mk.injEq, true_and] at e2
          subst e2
          exact ih hm ks x' s

theorem keysFor_length {split : Key → Nat → List Key} (hsp : ∀ k n, (split k n).length = n) (k : Option Key) (n : Nat) :
    (keysFor split k n).length = n := by
  cases k <;> simp [keysFor, hsp]

theorem good {split : Key → Nat → List Key} (hsp : ∀ k n, (split k n).length = n) (l : Layer X S Key) : Good split l := by
  induction l using Layer.ind with
  | leaf l =>
    cases l with
    | stateless f =>
      refine ⟨by simp [isStateful], fun _ => ⟨?_, ?_⟩⟩
      · intro x k
        simp only [callLayer, flat, compose, step, bind, Except.bind, pure, Except.pure]
        cases f x k <;> rfl
      · intro x s k
        simp only [flat, compose, step]
        cases f x k <;> rfl
    | stateful f =>
      refine ⟨fun _ => ⟨?_, ?_⟩, by simp [isStateful]⟩
      · intro x s k
        simp only [callLayer, flat, compose, step, bind, Except.bind, pure, Except.pure]
        cases f x s k <;> rfl
      · intro c k c' h
        simp only [flat, compose, step] at h
        cases hf : f c.1 c.2 k with
        | error e => rw [hf] at h; cases h
        | ok r => rw [hf] at h; cases h; exact ⟨_, rfl⟩
  | seq ls ih =>
    refine ⟨fun hs => ⟨?_, ?_⟩, fun hs => ⟨?_, ?_⟩⟩
    · intro x s k; rw [callLayer, flat, runLayers_eq ls ih]
    · intro c k c' h
      rw [flat] at h
      exact flatL_stateful ls ih hs _ (keysFor_length hsp k _) c c' h
    · intro x k; rw [callLayer, flat, runLayers_eq ls ih]
    · intro x s k
      rw [flat]
      exact flatL_stateless ls ih hs _ x s

/-! ### Properties -/

/-- **C38**: a `Sequential` is the left-to-right composition of all layers inside it, also of those in nested
`Sequential`s. Stateful layers receive the state that the stateful layer before returned, and each layer receives its own
key: the `i`-th of the keys into which the enclosing `Sequential` splits its key. -/
theorem seq_flat {split : Key → Nat → List Key} (hsp : ∀ k n, (split k n).length = n) (ls : List (Layer X S Key)) (x : X)
    (s : Option S) (key : Option Key) :
    call split ls x s key = compose (flatL split ls (keysFor split key ls.length)) (x, s) := by
  rw [call, callLayer, runLayers_eq ls (fun l _ => good hsp l)]

/-- **C38**, one level: a successful call runs through intermediate values and states; the `i`-th layer is called on the
`i`-th value with the `i`-th key. -/
theorem seq_trace {split : Key → Nat → List Key} (hsp : ∀ k n, (split k n).length = n) {ls : List (Layer X S Key)} {x y : X}
    {s t : Option S} {key : Option Key} (h : call split ls x s key = .ok (y, t)) :
    ∃ (xs : Nat → X) (ss : Nat → Option S), xs 0 = x ∧ ss 0 = s ∧ xs ls.length = y ∧ ss ls.length = t ∧
      ∀ (i : Nat) l, ls[i]? = some l → ∃ k, (keysFor split key ls.length)[i]? = some k ∧
        (isStateful l = true → callLayer split l (xs i) (ss i) k = .ok (xs (i + 1), ss (i + 1))) ∧
        (isStateful l = false → callLayer split l (xs i) none k = .ok (xs (i + 1), none) ∧ ss (i + 1) = ss i) := by
  rw [call, callLayer] at h
  have hl := keysFor_length hsp key ls.length
  revert hl h
  generalize keysFor split key ls.length = ks
  intro h hl
  induction ls generalizing ks x s with
  | nil =>
    simp only [runLayers, Except.ok.injEq, Prod.mk.injEq] at h
    exact ⟨fun _ => x, fun _ => s, rfl, rfl, h.1, h.2, by simp⟩
  | cons l ls ih =>
    cases ks with
    | nil => simp at hl
    | cons k ks =>
      have fin : ∀ x' s', runLayers split ls ks x' s' = .ok (y, t) →
          ((isStateful l = true → callLayer split l x s k = .ok (x', s')) ∧
            (isStateful l = false → callLayer split l x none k = .ok (x', none) ∧ s' = s)) →
          ∃ (xs : Nat → X) (ss : Nat → Option S), xs 0 = x ∧ ss 0 = s ∧ xs (l :: ls).length = y ∧ ss (l :: ls).length = t ∧
            ∀ (i : Nat) m, (l :: ls)[i]? = some m → ∃ k', (k :: ks)[i]? = some k' ∧
              (isStateful m = true → callLayer split m (xs i) (ss i) k' = .ok (xs (i + 1), ss (i + 1))) ∧
              (isStateful m = false → callLayer split m (xs i) none k' = .ok (xs (i + 1), none) ∧ ss (i + 1) = ss i) := by
        intro x' s' hr hst
        obtain ⟨xs, ss, a1, a2, a3, a4, a5⟩ := ih ks hr (by simpa using hl)
        refine ⟨fun n => if n = 0 then x else xs (n - 1), fun n => if n = 0 then s else ss (n - 1), rfl, rfl, ?_, ?_, ?_⟩
        · simpa using a3
        · simpa using a4
        · intro i m hm
          cases i with
          | zero =>
            simp only [List.getElem?_cons_zero, Option.some.injEq] at hm
            subst hm
            refine ⟨k, rfl, ?_⟩
            simp only [if_true, Nat.zero_add, Nat.one_ne_zero, if_false, Nat.sub_self, a1, a2]
            exact hst
          | succ i =>
            simp only [List.getElem?_cons_succ] at hm
            obtain ⟨k', b1, b2⟩ := a5 i m hm
            refine ⟨k', by simpa using b1, ?_⟩
            simpa using b2
      simp only [runLayers] at h
      cases hst : isStateful l with
      | true =>
        simp only [hst, if_true] at h
        cases hc : callLayer split l x s k with
        | error e => rw [hc] at h; cases h
        | ok d =>
          obtain ⟨x', t'⟩ := d
          rw [hc] at h
          cases t' with
          | none => cases h
          | some s' => exact fin x' (some s') h ⟨fun _ => hc, fun hf => by rw [hst] at hf; cases hf⟩
      | false =>
        simp only [hst, Bool.false_eq_true, if_false] at h
        cases hc : callLayer split l x none k with
        | error e => rw [hc] at h; cases h
        | ok d =>
          obtain ⟨x', t'⟩ := d
          rw [hc] at h
          cases t' with
          | none => exact fin x' s h ⟨fun hf => (by rw [hst] at hf; cases hf), fun _ => ⟨hc, rfl⟩⟩
          | some s' => cases h

/-- **C38**: a layer is stateful exactly if some layer inside it is, at any depth. -/
theorem stateful_iff (l : Layer X S Key) : isStateful l = true ↔ ∃ m ∈ leafLayers l, m.isStateful = true := by
  induction l using Layer.ind with
  | leaf l => cases l <;> simp [isStateful, leafLayers, LeafLayer.isStateful]
  | seq ls ih =>
    rw [isStateful, leafLayers]
    induction ls with
    | nil => simp [anyStateful, leafLayersL]
    | cons l ls ih' =>
      rw [anyStateful, leafLayersL, Bool.or_eq_true, ih l (by simp), ih' (fun m hm => ih m (List.mem_cons_of_mem _ hm))]
      simp only [List.mem_append]
      constructor
      · rintro (⟨m, h1, h2⟩ | ⟨m, h1, h2⟩)
        · exact ⟨m, .inl h1, h2⟩
        · exact ⟨m, .inr h1, h2⟩
      · rintro ⟨m, h1 | h1, h2⟩
        · exact .inl ⟨m, h1, h2⟩
        · exact .inr ⟨m, h1, h2⟩

/-- **C38**: a call returns a state exactly if it was given one or some layer is stateful. -/
theorem returns_state_iff {split : Key → Nat → List Key} (hsp : ∀ k n, (split k n).length = n) {ls : List (Layer X S Key)}
    {x y : X} {s t : Option S} {key : Option Key} (h : call split ls x s key = .ok (y, t)) :
    t.isSome = (s.isSome || isStateful (.seq ls)) := by
  rw [seq_flat hsp] at h
  cases hs : isStateful (.seq ls) with
  | true =>
    obtain ⟨s', hs'⟩ := flatL_stateful ls (fun l _ => good hsp l) hs _ (keysFor_length hsp key _) _ _ h
    simp only at hs'
    simp [hs']
  | false =>
    rw [flatL_stateless ls (fun l _ => good hsp l) hs] at h
    split at h
    · cases h; simp
    · cases h

/-- Without stateful layers the state is returned as it was passed. -/
theorem stateless_keeps_state {split : Key → Nat → List Key} (hsp : ∀ k n, (split k n).length = n)
    {ls : List (Layer X S Key)} (hs : isStateful (.seq ls) = false) {x y : X} {s t : Option S} {key : Option Key}
    (h : call split ls x s key = .ok (y, t)) : t = s := by
  rw [seq_flat hsp, flatL_stateless ls (fun l _ => good hsp l) hs] at h
  split at h
  · cases h; rfl
  · cases h

theorem flatL_append (split : Key → Nat → List Key) (as bs : List (Layer X S Key)) (ks ls : List (Option Key))
    (h : ks.length = as.length) : flatL split (as ++ bs) (ks ++ ls) = flatL split as ks ++ flatL split bs ls := by
  induction as generalizing ks with
  | nil => simp at h; subst h; simp [flatL]
  | cons a as ih =>
    cases ks with
    | nil => simp at h
    | cons k ks => simp only [List.cons_append, flatL, ih ks (by simpa using h), List.append_assoc]

/-- **C38**, slices: calling `seq[:n]` and then `seq[n:]` without keys is calling `seq`, for every integer `n`. -/
theorem seq_slices {split : Key → Nat → List Key} (hsp : ∀ k n, (split k n).length = n) (ls : List (Layer X S Key))
    (n : Int) (x : X) (s : Option S) :
    ∃ as bs, getItem ls (.slice none (some n)) = .ok (.seq as) ∧ getItem ls (.slice (some n) none) = .ok (.seq bs) ∧
      call split ls x s none =
        match call split as x s none with
        | .ok (x', s') => call split bs x' s' none
        | .error e => .error e := by
  refine ⟨_, _, rfl, rfl, ?_⟩
  simp only [List.drop_zero, List.take_length]
  generalize clampIdx ls.length n = m
  simp only [seq_flat hsp]
  have happ : ls = ls.take m ++ ls.drop m := (List.take_append_drop m ls).symm
  have hk : keysFor split (none : Option Key) ls.length =
      keysFor split none (ls.take m).length ++ keysFor split none (ls.drop m).length := by
    simp only [keysFor]
    rw [List.replicate_append_replicate]
    congr 1
    rw [← List.length_append, ← happ]
  rw [hk]
  have hf : flatL split ls (keysFor split none (ls.take m).length ++ keysFor split none (ls.drop m).length) =
      flatL split (ls.take m) (keysFor split none (ls.take m).length) ++
        flatL split (ls.drop m) (keysFor split none (ls.drop m).length) := by
    refine Eq.trans ?_ (flatL_append split _ _ _ _ (keysFor_length hsp none _))
    rw [← happ]
  rw [hf, compose_append]
  cases compose (flatL split (ls.take m) (keysFor split none (ls.take m).length)) (x, s) with
  | ok c => rfl
  | error e => rfl

theorem flat_keyless {split : Key → Nat → List Key} (hsp : ∀ k n, (split k n).length = n) (l : Layer X S Key)
    (h : ∀ m ∈ leafLayers l, m.Keyless) (k k' : Option Key) (c : X × Option S) :
    compose (flat split l k) c = compose (flat split l k') c := by
  induction l using Layer.ind generalizing k k' c with
  | leaf l =>
    have h1 := h l (by simp [leafLayers])
    cases l with
    | stateless f => simp only [flat, compose, step, h1 c.1 k k']
    | stateful f => simp only [flat, compose, step, h1 c.1 c.2 k k']
  | seq ls ih =>
    rw [flat, flat]
    rw [leafLayers] at h
    have hl := keysFor_length hsp k ls.length
    have hl' := keysFor_length hsp k' ls.length
    revert hl hl'
    generalize keysFor split k ls.length = ks
    generalize keysFor split k' ls.length = ks'
    intro hl hl'
    induction ls generalizing ks ks' c with
    | nil => simp [flatL]
    | cons l ls ih' =>
      cases ks with
      | nil => simp at hl
      | cons k1 ks =>
        cases ks' with
        | nil => simp at hl'
        | cons k2 ks' =>
          rw [leafLayersL] at h
          simp only [flatL, compose_append]
          rw [ih l (by simp) (fun m hm => h m (List.mem_append_left _ hm)) k1 k2]
          cases compose (flat split l k2) c with
          | error e => rfl
          | ok c' =>
            exact ih' (fun m hm => ih m (List.mem_cons_of_mem _ hm)) (fun m hm => h m (List.mem_append_right _ hm)) c' ks ks'
              (by simpa using hl) (by simpa using hl')

/-- **C38**: if no layer inside uses its key, then keys do not matter (so `seq_slices` holds with any keys). -/
theorem seq_keyless {split : Key → Nat → List Key} (hsp : ∀ k n, (split k n).length = n) (ls : List (Layer X S Key))
    (h : ∀ m ∈ leafLayers (.seq ls), m.Keyless) (x : X) (s : Option S) (k k' : Option Key) :
    call split ls x s k = call split ls x s k' := by
  rw [seq_flat hsp, seq_flat hsp]
  exact flat_keyless hsp (.seq ls) h k k' (x, s)

/-- **C38**, slices: `seq[a:b]` holds, in order, the layers whose index is at least `a` and less than `b`, where negative
bounds count from the end. -/
theorem seq_slice_bounds (ls : List (Layer X S Key)) (a b : Int) :
    ∃ out, getItem ls (.slice (some a) (some b)) = .ok (.seq out) ∧
      ∃ m : Nat, (∀ i : Nat, out[i]? = if i < out.length then ls[m + i]? else none) ∧
        ∀ i : Nat, i < ls.length → ((m ≤ i ∧ i < m + out.length) ↔
          (if a < 0 then a + ls.length else a) ≤ i ∧ (i : Int) < (if b < 0 then b + ls.length else b)) := by
  refine ⟨_, rfl, clampIdx ls.length a, ?_, ?_⟩
  · intro i
    simp only [List.length_drop, List.length_take, List.getElem?_drop, List.getElem?_take]
    by_cases h : clampIdx ls.length a + i < clampIdx ls.length b
    · rw [if_pos h]
      by_cases h2 : clampIdx ls.length a + i < ls.length
      · rw [if_pos (by omega)]
      · rw [if_neg (by omega), List.getElem?_eq_none (by omega)]
    · rw [if_neg h, if_neg (by omega)]
  · intro i hi
    simp only [List.length_drop, List.length_take]
    unfold clampIdx
    split <;> split <;> omega

/-- **C38**, indexing: non-negative and negative indices, as for tuples; anything which is neither an integer nor a slice is a
TypeError. -/
theorem seq_index (ls : List (Layer X S Key)) (i : Nat) :
    (∀ l, ls[i]? = some l → getItem ls (.int i) = .ok l ∧ getItem ls (.int ((i : Int) - ls.length)) = .ok l) ∧
    (ls.length ≤ i → getItem ls (.int i) = .error .indexError) ∧
    getItem ls (.int (-(i : Int) - 1 - ls.length)) = .error .indexError ∧
    getItem ls .other = .error .typeError := by
  refine ⟨?_, ?_, ?_, rfl⟩
  · intro l hl
    have hlt : i < ls.length := by
      rcases Nat.lt_or_ge i ls.length with h | h
      · exact h
      · rw [List.getElem?_eq_none h] at hl; cases hl
    constructor
    · simp only [getItem]
      rw [if_neg (by omega : ¬ ((i : Int) < 0)), if_neg (by omega), Int.toNat_natCast, hl]
    · simp only [getItem]
      rw [if_pos (by omega : (i : Int) - ls.length < 0), if_neg (by omega)]
      have : ((i : Int) - ls.length + ls.length).toNat = i := by omega
      rw [this, hl]
  · intro h
    simp only [getItem]
    rw [if_neg (by omega : ¬ ((i : Int) < 0)), if_neg (by omega), Int.toNat_natCast, List.getElem?_eq_none h]
  · simp only [getItem]
    rw [if_pos (by omega : -(i : Int) - 1 - ls.length < 0), if_pos (by omega : -(i : Int) - 1 - ls.length + ls.length < 0)]

/-- Layers, nested and of both sorts: the third adds its key, the counter adds the state and increases it. -/
def exLayers : List (Layer Nat Nat Nat) :=
  [.leaf (.stateless fun x _ => .ok (2 * x)),
   .seq [.leaf (.stateful fun x s _ => match s with | some n => .ok (x + n, n + 1) | none => .error .attributeError),
         .leaf (.stateless fun x k => match k with | some k => .ok (x + k) | none => .ok x)],
   .leaf (.stateful fun x s _ => match s with | some n => .ok (x * n, n + 1) | none => .error .attributeError)]

def exSplit (k n : Nat) : List Nat := (List.range n).map (fun i => 10 * k + i)

/-- The hypothesis on `split` can be met, and what a call gives. -/
example : (∀ k n, (exSplit k n).length = n) ∧ call exSplit exLayers 3 (some 5) (some 1) = .ok (732, some 7) ∧
    call exSplit exLayers 3 none none = .error .attributeError ∧ isStateful (.seq exLayers) = true := by
  refine ⟨by simp [exSplit], rfl, rfl, rfl⟩

end Verif.Sequential
