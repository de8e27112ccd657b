import Verif.Basic
import Verif.Dict
import Mathlib.Tactic.Set

/-!
# C131: the entries of `compile_cache`

`_strip_wrapped_partial`, `get_fn_names` and `compile_cache` (`equinox/_compile_utils.py`, 34-95). C27 and C89 are about what is called in the
end being right; this is about which entry is used, for how long it is kept, and what `delete` does.

Python objects are seen as `get_fn_names` sees them. The object that the decorated function returns is represented by the number of the run
that made it, with what it was made from. Names and arguments, the key of the `lru_cache`, are compared by `==` (of `A`), and can be hashed.
-/

namespace Verif.CompileCache

variable {A : Type} [DecidableEq A]

/-- `__name__` and `__qualname__` -/
abbrev Names := String × String

/-- A Python object. -/
inductive Py where
  /-- a function (`types.FunctionType`) without `__wrapped__` -/
  | function (id : Nat) (names : Names)
  /-- another object without `__wrapped__`: its `__name__` and `__qualname__` if it has both, and those of its type -/
  | other (names : Option Names) (typeNames : Names)
  /-- `functools.partial(func, ...)` without `__wrapped__` -/
  | partialOf (func : Py)
  /-- an object with the attribute `__wrapped__`: a function, as `functools.wraps` makes it (`some id`), or something else -/
  | wraps (id : Option Nat) (wrapped : Py)

/-- `_strip_wrapped_partial` (34-39) -/
def strip : Py → Py
  | .wraps _ f => strip f
  | .partialOf f => strip f
  | f => f

/-- `get_fn_names` (47-52). What is stripped has no `__wrapped__` and is no `partial`. -/
def getFnNames (f : Py) : Names :=
  match strip f with
  | .function _ n => n
  | .other (some n) _ => n
  | .other none t => t
  | _ => ("", "")

/-- `user_fn` if `type(user_fn) is types.FunctionType`, else `_default_cache_key` (70-73). -/
def cacheKey : Py → Option Nat
  | .function i _ => some i
  | .wraps i _ => i
  | _ => none

/-- What `cacheable_fn` returned: the number of the run, and what it was called with. -/
structure Made (A : Type) where
  run : Nat
  names : Names
  args : A
deriving DecidableEq

/-- `cache` (56), a dictionary of `lru_cache`s; the number of runs of `cacheable_fn`. -/
structure Store (A : Type) where
  dict : Dict (Option Nat) (Dict (Names × A) (Made A))
  runs : Nat

/-- `cached_fn(leaves, treedef)` (79): an `lru_cache` without bound, around a function that may raise. -/
def lruCall (raises : Names → A → Option Err) (key : Option Nat) (lru : Dict (Names × A) (Made A)) (n : Names) (a : A) (s : Store A) :
    Except Err (Made A) × Store A :=
  match lru.get? (n, a) with
  | some m => (.ok m, s)
  | none =>
    match raises n a with
    | some e => (.error e, { s with runs := s.runs + 1 })
    | none => (.ok ⟨s.runs, n, a⟩, ⟨s.dict.insert key (lru.insert (n, a) ⟨s.runs, n, a⟩), s.runs + 1⟩)

/-- `wrapped_cacheable_fn` (64-79) -/
def call (raises : Names → A → Option Err) (s : Store A) (f : Py) (a : A) : Except Err (Made A) × Store A :=
  match s.dict.get? (cacheKey f) with
  | some lru => lruCall raises (cacheKey f) lru (getFnNames f) a s
  | none => lruCall raises (cacheKey f) [] (getFnNames f) a { s with dict := s.dict.insert (cacheKey f) [] }

/-- A function is gone: from a `WeakKeyDictionary` its entry goes as well. Also `del cache[user_fn]` (85). -/
def drop (s : Store A) (i : Nat) : Store A := { s with dict := s.dict.filter fun e => decide (e.1 ≠ some i) }

/-- `delete(user_fn)` (81-92), and whether it warns. -/
def delete (s : Store A) (f : Py) : Bool × Store A :=
  match strip f with
  | .function i _ =>
    match s.dict.get? (some i) with
    | some _ => (false, drop s i)
    | none => (true, s)
  | _ => (true, s)

/-- What can happen. -/
inductive Event (A : Type) where
  | call (f : Py) (a : A)
  | delete (f : Py)
  /-- `clear_caches` (57) -/
  | clear
  /-- a function is garbage collected -/
  | collect (i : Nat)

def step (raises : Names → A → Option Err) (s : Store A) : Event A → Store A
  | .call f a => (call raises s f a).2
  | .delete f => (delete s f).2
  | .clear => { s with dict := [] }
  | .collect i => drop s i

/-- The state after a history. -/
def run (raises : Names → A → Option Err) (s : Store A) (h : List (Event A)) : Store A := h.foldl (step raises) s

/-- Before anything has happened. -/
def start : Store A := ⟨[], 0⟩

/-! ### Specification -/

/-- `g` is what is left of `f` when all wrappers and partial applications are taken off. -/
inductive Innermost : Py → Py → Prop
  | function (i : Nat) (n : Names) : Innermost (.function i n) (.function i n)
  | other (n : Option Names) (t : Names) : Innermost (.other n t) (.other n t)
  | partialOf {f g : Py} : Innermost f g → Innermost (.partialOf f) g
  | wraps (i : Option Nat) {f g : Py} : Innermost f g → Innermost (.wraps i f) g

/-- The object is the function with this identity. -/
def IsFunction (f : Py) (i : Nat) : Prop := (∃ n, f = .function i n) ∨ ∃ g, f = .wraps (some i) g

/-- Nothing that can take away an entry for the function `i` (or, `none`, for objects which are not functions). -/
def Keeps (k : Option Nat) : Event A → Prop
  | .call _ _ => True
  | .clear => False
  | .collect i => k ≠ some i
  | .delete f => ∀ i n, Innermost f (.function i n) → k ≠ some i

/-! ### Names -/

theorem innermost_strip (f : Py) : Innermost f (strip f) := by
  induction f with
  | function i n => exact .function i n
  | other n t => exact .other n t
  | partialOf f ih => exact .partialOf ih
  | wraps i f ih => exact .wraps i ih

theorem innermost_unique {f g : Py} (h : Innermost f g) : g = strip f := by
  induction h with
  | function => rfl
  | other => rfl
  | partialOf _ ih => simpa [strip] using ih
  | wraps _ _ ih => simpa [strip] using ih

/-- **C131**, names. Whatever wrappers and partial applications there are around it, the names are those of the one object inside; those of its
type if it has none. Only a function itself, wrapped or not, has its own entries: a partial application of it has not. -/
theorem fn_names (f : Py) : (∃ g, Innermost f g ∧ ∀ g', Innermost f g' → g' = g) ∧
    (∀ i n, Innermost f (.function i n) → getFnNames f = n) ∧
    (∀ n t, Innermost f (.other (some n) t) → getFnNames f = n) ∧
    (∀ t, Innermost f (.other none t) → getFnNames f = t) ∧
    (∀ i, cacheKey f = some i ↔ IsFunction f i) := by
  refine ⟨⟨strip f, innermost_strip f, fun g' h => innermost_unique h⟩, fun i n h => ?_, fun n t h => ?_, fun t h => ?_, fun i => ?_⟩
  · simp [getFnNames, ← innermost_unique h]
  · simp [getFnNames, ← innermost_unique h]
  · simp [getFnNames, ← innermost_unique h]
  · cases f <;> simp [cacheKey, IsFunction]

/-! ### Entries -/

/-- The entry for a call. -/
def found (s : Store A) (k : Option Nat) (n : Names) (a : A) : Option (Made A) := (s.dict.get? k).bind fun l => l.get? (n, a)

omit [DecidableEq A] in
theorem get?_drop (s : Store A) (i : Nat) (k : Option Nat) : (drop s i).dict.get? k = if k = some i then none else s.dict.get? k := by
  unfold drop
  generalize s.dict = d
  induction d with
  | nil => simp [Dict.get?]
  | cons e d ih =>
    obtain ⟨j, v⟩ := e
    simp only at ih ⊢
    by_cases hj : j = some i
    · rw [List.filter_cons_of_neg (by simpa using hj), ih]
      subst hj
      by_cases hk : k = some i
      · simp [hk]
      · simp [hk, Dict.get?, Ne.symm hk]
    · rw [List.filter_cons_of_pos (by simpa using hj)]
      simp only [Dict.get?, ih]
      by_cases hk : k = some i
      · subst hk; simp [hj]
      · simp [hk]

theorem found_drop (s : Store A) (i : Nat) (k : Option Nat) (n : Names) (a : A) :
    found (drop s i) k n a = if k = some i then none else found s k n a := by
  unfold found
  rw [get?_drop]
  split <;> simp

/-- What a call does, by the entry for it. -/
theorem call_found (raises : Names → A → Option Err) (s : Store A) (f : Py) (a : A) :
    (∀ m, found s (cacheKey f) (getFnNames f) a = some m → call raises s f a = (.ok m, s)) ∧
    (found s (cacheKey f) (getFnNames f) a = none →
      (call raises s f a).2.runs = s.runs + 1 ∧
      (∀ e, raises (getFnNames f) a = some e → (call raises s f a).1 = .error e ∧ ∀ k n b, found (call raises s f a).2 k n b = found s k n b) ∧
      (raises (getFnNames f) a = none → (call raises s f a).1 = .ok ⟨s.runs, getFnNames f, a⟩ ∧
        ∀ k n b, found (call raises s f a).2 k n b =
          if k = cacheKey f ∧ n = getFnNames f ∧ b = a then some ⟨s.runs, getFnNames f, a⟩ else found s k n b)) := by
  cases hd : s.dict.get? (cacheKey f) with
  | none =>
    refine ⟨fun m h => by simp [found, hd] at h, fun _ => ?_⟩
    simp only [call, hd, lruCall, Dict.get?]
    cases hr : raises (getFnNames f) a with
    | some e =>
      refine ⟨rfl, fun e' he => ⟨by simpa using he, fun k n b => ?_⟩, fun h => by simp at h⟩
      simp only [found, Dict.get?_insert]
      split
      · rename_i h; subst h; simp [hd, Dict.get?]
      · rfl
    | none =>
      refine ⟨rfl, fun e' he => by simp at he, fun _ => ⟨rfl, fun k n b => ?_⟩⟩
      simp only [found, Dict.get?_insert]
      by_cases hk : cacheKey f = k
      · subst hk
        simp only [if_true, Option.bind_some, Dict.get?_insert, hd, Option.bind_none, Dict.get?, true_and, Prod.mk.injEq]
        by_cases hn : getFnNames f = n ∧ a = b
        · rw [if_pos hn, if_pos ⟨hn.1.symm, hn.2.symm⟩]
        · rw [if_neg hn, if_neg fun h => hn ⟨h.1.symm, h.2.symm⟩]
      · simp [hk, Ne.symm hk]
  | some lru =>
    constructor
    · intro m h
      have h : lru.get? (getFnNames f, a) = some m := by simpa [found, hd] using h
      simp only [call, hd, lruCall, h]
    · intro h
      have h : lru.get? (getFnNames f, a) = none := by simpa [found, hd] using h
      simp only [call, hd, lruCall, h]
      cases hr : raises (getFnNames f) a with
      | some e => exact ⟨rfl, fun e' he => ⟨by simpa using he, fun k n b => rfl⟩, fun h => by simp at h⟩
      | none =>
        refine ⟨rfl, fun e' he => by simp at he, fun _ => ⟨rfl, fun k n b => ?_⟩⟩
        simp only [found, Dict.get?_insert]
        by_cases hk : cacheKey f = k
        · subst hk
          simp only [if_true, Option.bind_some, Dict.get?_insert, hd, true_and, Prod.mk.injEq]
          by_cases hn : getFnNames f = n ∧ a = b
          · rw [if_pos hn, if_pos ⟨hn.1.symm, hn.2.symm⟩]
          · rw [if_neg hn, if_neg fun h => hn ⟨h.1.symm, h.2.symm⟩]
        · simp [hk, Ne.symm hk]

/-- What holds at all times. -/
structure Inv (raises : Names → A → Option Err) (s : Store A) : Prop where
  made : ∀ k n a m, found s k n a = some m → m.names = n ∧ m.args = a ∧ m.run < s.runs ∧ raises n a = none
  unique : ∀ k n a m k' n' a' m', found s k n a = some m → found s k' n' a' = some m' → m.run = m'.run → k = k' ∧ n = n' ∧ a = a'

theorem inv_shrink {raises : Names → A → Option Err} {s t : Store A} (hs : Inv raises s) (hr : s.runs ≤ t.runs)
    (h : ∀ k n a m, found t k n a = some m → found s k n a = some m) : Inv raises t :=
  ⟨fun k n a m hm => by
    obtain ⟨h1, h2, h3, h4⟩ := hs.made k n a m (h k n a m hm)
    exact ⟨h1, h2, by omega, h4⟩,
   fun k n a m k' n' a' m' hm hm' => hs.unique k n a m k' n' a' m' (h _ _ _ _ hm) (h _ _ _ _ hm')⟩

theorem inv_drop {raises : Names → A → Option Err} {s : Store A} (hs : Inv raises s) (i : Nat) : Inv raises (drop s i) :=
  inv_shrink hs (Nat.le_refl _) fun k n a m hm => by
    rw [found_drop] at hm
    split at hm
    · cases hm
    · exact hm

theorem inv_step (raises : Names → A → Option Err) (s : Store A) (hs : Inv raises s) (e : Event A) : Inv raises (step raises s e) := by
  cases e with
  | clear => exact inv_shrink hs (Nat.le_refl _) fun k n a m hm => by simp [found, step, Dict.get?] at hm
  | collect i => exact inv_drop hs i
  | delete f =>
    simp only [step, delete]
    split
    · split
      · exact inv_drop hs _
      · exact hs
    · exact hs
  | call f a =>
    show Inv raises (call raises s f a).2
    obtain ⟨h1, h2⟩ := call_found raises s f a
    cases hf : found s (cacheKey f) (getFnNames f) a with
    | some m => rw [h1 m hf]; exact hs
    | none =>
      obtain ⟨hr, he, ho⟩ := h2 hf
      cases hq : raises (getFnNames f) a with
      | some e => exact inv_shrink hs (by omega) fun k n b m hm => by rw [(he e hq).2] at hm; exact hm
      | none =>
        have hfo := (ho hq).2
        have hlt : ∀ k n b m, found (call raises s f a).2 k n b = some m →
            (k = cacheKey f ∧ n = getFnNames f ∧ b = a ∧ m = ⟨s.runs, getFnNames f, a⟩) ∨ (found s k n b = some m ∧ m.run < s.runs) := by
          intro k n b m hm
          rw [hfo] at hm
          split at hm
          · rename_i hc; left; exact ⟨hc.1, hc.2.1, hc.2.2, by simpa using hm.symm⟩
          · right; exact ⟨hm, (hs.made _ _ _ _ hm).2.2.1⟩
        refine ⟨fun k n b m hm => ?_, fun k n b m k' n' b' m' hm hm' hrun => ?_⟩
        · rcases hlt k n b m hm with ⟨_, rfl, rfl, rfl⟩ | ⟨h, _⟩
          · exact ⟨rfl, rfl, by simp [hr], hq⟩
          · obtain ⟨h1, h2, h3, h4⟩ := hs.made _ _ _ _ h
            exact ⟨h1, h2, by omega, h4⟩
        · rcases hlt k n b m hm with ⟨rfl, rfl, rfl, rfl⟩ | ⟨h, hl⟩ <;> rcases hlt k' n' b' m' hm' with ⟨rfl, rfl, rfl, rfl⟩ | ⟨h', hl'⟩
          · exact ⟨rfl, rfl, rfl⟩
          · simp only at hrun; omega
          · simp only at hrun; omega
          · exact hs.unique _ _ _ _ _ _ _ _ h h' hrun

theorem inv_run (raises : Names → A → Option Err) (s : Store A) (hs : Inv raises s) (h : List (Event A)) : Inv raises (run raises s h) := by
  induction h generalizing s with
  | nil => exact hs
  | cons e h ih => exact ih _ (inv_step raises s hs e)

theorem inv_start (raises : Names → A → Option Err) : Inv raises (start : Store A) :=
  ⟨fun _ _ _ _ h => by simp [found, start, Dict.get?] at h, fun _ _ _ _ _ _ _ _ h => by simp [found, start, Dict.get?] at h⟩

/-- **C131**, right entries. After any history a call returns an object that was made for the names and the arguments of this very call,
in this run or an earlier one, and raises exactly if the function that makes it would. -/
theorem cached_right (raises : Names → A → Option Err) (h : List (Event A)) (f : Py) (a : A) :
    (∀ e, raises (getFnNames f) a = some e → (call raises (run raises start h) f a).1 = .error e) ∧
    (raises (getFnNames f) a = none → ∃ m, (call raises (run raises start h) f a).1 = .ok m ∧ m.names = getFnNames f ∧ m.args = a ∧
      m.run ≤ (run raises start h).runs) := by
  have hi := inv_run raises _ (inv_start raises) h
  obtain ⟨h1, h2⟩ := call_found raises (run raises start h) f a
  cases hf : found (run raises start h) (cacheKey f) (getFnNames f) a with
  | some m =>
    obtain ⟨i1, i2, i3, i4⟩ := hi.made _ _ _ _ hf
    refine ⟨fun e he => by rw [i4] at he; simp at he, fun _ => ⟨m, by rw [h1 m hf], i1, i2, by omega⟩⟩
  | none =>
    obtain ⟨_, he, ho⟩ := h2 hf
    exact ⟨fun e h => (he e h).1, fun h => ⟨_, (ho h).1, rfl, rfl, Nat.le_refl _⟩⟩

theorem found_step (raises : Names → A → Option Err) (s : Store A) (e : Event A) (k : Option Nat) (hk : Keeps k e) (n : Names) (a : A)
    (m : Made A) (hm : found s k n a = some m) : found (step raises s e) k n a = some m := by
  cases e with
  | clear => exact hk.elim
  | collect i => simp only [step, found_drop]; rw [if_neg hk]; exact hm
  | delete f =>
    simp only [step, delete]
    have hst := innermost_strip f
    split
    · rename_i i n' hs
      rw [hs] at hst
      split
      · simp only [found_drop]; rw [if_neg (hk i n' hst)]; exact hm
      · exact hm
    · exact hm
  | call f b =>
    show found (call raises s f b).2 k n a = some m
    obtain ⟨h1, h2⟩ := call_found raises s f b
    cases hf : found s (cacheKey f) (getFnNames f) b with
    | some m' => rw [h1 m' hf]; exact hm
    | none =>
      obtain ⟨_, he, ho⟩ := h2 hf
      cases hq : raises (getFnNames f) b with
      | some e => rw [(he e hq).2]; exact hm
      | none =>
        rw [(ho hq).2, if_neg]
        · exact hm
        · rintro ⟨rfl, rfl, rfl⟩
          rw [hf] at hm; cases hm

theorem found_run (raises : Names → A → Option Err) (s : Store A) (h : List (Event A)) (k : Option Nat) (hk : ∀ e ∈ h, Keeps k e) (n : Names)
    (a : A) (m : Made A) (hm : found s k n a = some m) : found (run raises s h) k n a = some m := by
  induction h generalizing s with
  | nil => exact hm
  | cons e h ih =>
    exact ih _ (fun e' he => hk e' (List.mem_cons_of_mem _ he)) (found_step raises s e k (hk e (by simp)) n a m hm)

theorem found_call (raises : Names → A → Option Err) (s : Store A) (f : Py) (a : A) (m : Made A) (hm : (call raises s f a).1 = .ok m) :
    found (call raises s f a).2 (cacheKey f) (getFnNames f) a = some m := by
  obtain ⟨h1, h2⟩ := call_found raises s f a
  cases hf : found s (cacheKey f) (getFnNames f) a with
  | some m' =>
    rw [h1 m' hf] at hm ⊢
    cases hm
    exact hf
  | none =>
    obtain ⟨_, he, ho⟩ := h2 hf
    cases hq : raises (getFnNames f) a with
    | some e => rw [(he e hq).1] at hm; cases hm
    | none =>
      rw [(ho hq).1] at hm
      cases hm
      rw [(ho hq).2, if_pos ⟨rfl, rfl, rfl⟩]

/-- **C131**, an entry is made once. A call with the same key, names and arguments as an earlier one returns the same object, without
another run, if in between nothing happened that takes away entries for that key. -/
theorem cached_once (raises : Names → A → Option Err) (s : Store A) (f g : Py) (a : A) (m : Made A) (hm : (call raises s f a).1 = .ok m)
    (hk : cacheKey g = cacheKey f) (hn : getFnNames g = getFnNames f) (h : List (Event A)) (hh : ∀ e ∈ h, Keeps (cacheKey f) e) :
    call raises (run raises (call raises s f a).2 h) g a = (.ok m, run raises (call raises s f a).2 h) := by
  apply (call_found raises _ g a).1
  rw [hk, hn]
  exact found_run raises _ h _ hh _ _ _ (found_call raises s f a m hm)

/-- The run `r` has been, and what it made can only be the entry for this. -/
def Claimed (s : Store A) (r : Nat) (k : Option Nat) (n : Names) (a : A) : Prop :=
  r < s.runs ∧ ∀ k' n' a' m, found s k' n' a' = some m → m.run = r → k' = k ∧ n' = n ∧ a' = a

theorem claimed_shrink {s t : Store A} {r : Nat} {k : Option Nat} {n : Names} {a : A} (hs : Claimed s r k n a) (hr : s.runs ≤ t.runs)
    (h : ∀ k n a m, found t k n a = some m → found s k n a = some m) : Claimed t r k n a :=
  ⟨Nat.lt_of_lt_of_le hs.1 hr, fun k' n' a' m hm => hs.2 k' n' a' m (h _ _ _ _ hm)⟩

theorem claimed_drop {s : Store A} {r : Nat} {k : Option Nat} {n : Names} {a : A} (hs : Claimed s r k n a) (i : Nat) : Claimed (drop s i) r k n a :=
  claimed_shrink hs (Nat.le_refl _) fun k n a m hm => by
    rw [found_drop] at hm
    split at hm
    · cases hm
    · exact hm

theorem claimed_step (raises : Names → A → Option Err) (s : Store A) (e : Event A) {r : Nat} {k : Option Nat} {n : Names} {a : A}
    (hs : Claimed s r k n a) : Claimed (step raises s e) r k n a := by
  cases e with
  | clear => exact claimed_shrink hs (Nat.le_refl _) fun k n a m hm => by simp [found, step, Dict.get?] at hm
  | collect i => exact claimed_drop hs i
  | delete f =>
    simp only [step, delete]
    split
    · split
      · exact claimed_drop hs _
      · exact hs
    · exact hs
  | call f b =>
    show Claimed (call raises s f b).2 r k n a
    obtain ⟨h1, h2⟩ := call_found raises s f b
    cases hf : found s (cacheKey f) (getFnNames f) b with
    | some m => rw [h1 m hf]; exact hs
    | none =>
      obtain ⟨hr, he, ho⟩ := h2 hf
      have := hs.1
      cases hq : raises (getFnNames f) b with
      | some e => exact claimed_shrink hs (by omega) fun k n b m hm => by rw [(he e hq).2] at hm; exact hm
      | none =>
        refine ⟨by omega, fun k' n' a' m hm hrun => ?_⟩
        rw [(ho hq).2] at hm
        split at hm
        · simp only [Option.some.injEq] at hm
          subst hm
          simp only at hrun
          omega
        · exact hs.2 _ _ _ _ hm hrun

theorem claimed_run (raises : Names → A → Option Err) (s : Store A) (h : List (Event A)) {r : Nat} {k : Option Nat} {n : Names} {a : A}
    (hs : Claimed s r k n a) : Claimed (run raises s h) r k n a := by
  induction h generalizing s with
  | nil => exact hs
  | cons e h ih => exact ih _ (claimed_step raises s e hs)

/-- **C131**, different calls have different objects: what two calls return, whatever happened before and in between, is the same object
only if they have the same names and arguments and are for the same function (or for no function). -/
theorem cached_apart (raises : Names → A → Option Err) (h h' : List (Event A)) (f g : Py) (a b : A) (m m' : Made A)
    (hf : (call raises (run raises start h) f a).1 = .ok m)
    (hg : (call raises (run raises (call raises (run raises start h) f a).2 h') g b).1 = .ok m') (he : m.run = m'.run) :
    cacheKey f = cacheKey g ∧ getFnNames f = getFnNames g ∧ a = b := by
  have hi := inv_step raises _ (inv_run raises _ (inv_start raises) h) (.call f a)
  have h1 := found_call raises _ f a m hf
  have hc : Claimed (call raises (run raises start h) f a).2 m.run (cacheKey f) (getFnNames f) a :=
    ⟨(hi.made _ _ _ _ h1).2.2.1, fun k' n' a' m'' hm hr => hi.unique _ _ _ _ _ _ _ _ hm h1 hr⟩
  obtain ⟨e1, e2, e3⟩ := (claimed_step raises _ (.call g b) (claimed_run raises _ h' hc)).2 _ _ _ _ (found_call raises _ g b m' hg) he.symm
  exact ⟨e1.symm, e2.symm, e3.symm⟩

/-- **C131**, `delete`. (Missing: that the entries of the function given are gone if that is itself a wrapper, which is false, see `delete_wrapped`.)
It warns, and changes nothing, if there is no function inside, or no entry for this function. Otherwise the entries
of the function inside are gone, so that the next call for it makes a new object, and those of everything else are kept. -/
theorem delete_entries_partial (raises : Names → A → Option Err) (s : Store A) (f : Py) :
    (∀ n t, Innermost f (.other n t) → delete s f = (true, s)) ∧
    (∀ i n, Innermost f (.function i n) →
      ((delete s f).1 = true ↔ s.dict.get? (some i) = none) ∧
      (∀ k, k ≠ some i → ∀ n a, found (delete s f).2 k n a = found s k n a) ∧
      ∀ g a, IsFunction g i → raises (getFnNames g) a = none →
        (call raises (delete s f).2 g a).1 = .ok ⟨s.runs, getFnNames g, a⟩) := by
  constructor
  · intro n t h
    simp only [delete, ← innermost_unique h]
  · intro i n h
    have hd : delete s f = match s.dict.get? (some i) with
        | some _ => (false, drop s i)
        | none => (true, s) := by simp only [delete, ← innermost_unique h]
    have hnone : ∀ n a, found (delete s f).2 (some i) n a = none := by
      intro n a
      rw [hd]
      cases hg : s.dict.get? (some i) with
      | some l => simp only [found_drop, if_true]
      | none => simp [found, hg]
    have hruns : (delete s f).2.runs = s.runs := by
      rw [hd]; cases s.dict.get? (some i) <;> rfl
    refine ⟨?_, fun k hk n a => ?_, fun g a hg hr => ?_⟩
    · rw [hd]; cases s.dict.get? (some i) <;> simp
    · rw [hd]
      cases s.dict.get? (some i) with
      | some l => simp only [found_drop]; rw [if_neg hk]
      | none => rfl
    · have hk : cacheKey g = some i := ((fn_names g).2.2.2.2 i).2 hg
      have := ((call_found raises (delete s f).2 g a).2 (by rw [hk]; exact hnone _ _)).2.2 hr
      rw [this.1, hruns]

/-- **C131**, finding: `delete` takes wrappers off and the cache does not. Deleting a function made with `functools.wraps` keeps its entries: a
call after it returns the same object as before. It is the wrapped function whose entries are gone. -/
theorem delete_wrapped (raises : Names → A → Option Err) (s : Store A) (i j : Nat) (n : Names) (f : Py) (hf : Innermost f (.function j n))
    (hij : i ≠ j) (a : A) (m : Made A) (hm : (call raises s (.wraps (some i) f) a).1 = .ok m) :
    (call raises (delete (call raises s (.wraps (some i) f) a).2 (.wraps (some i) f)).2 (.wraps (some i) f) a).1 = .ok m ∧
    ∀ n b, found (delete (call raises s (.wraps (some i) f) a).2 (.wraps (some i) f)).2 (some j) n b = none := by
  set w : Py := .wraps (some i) f with hw
  set t := (call raises s w a).2 with ht
  have hin : Innermost w (.function j n) := .wraps _ hf
  constructor
  · have := cached_once raises s w w a m hm rfl rfl [.delete w] (by
      intro e he
      simp only [List.mem_singleton] at he
      subst he
      intro i' n' h
      have := (innermost_unique h).trans (innermost_unique hin).symm
      simp only [Py.function.injEq] at this
      rw [this.1]
      simpa [hw, cacheKey] using hij)
    simp only [run, List.foldl_cons, List.foldl_nil, step] at this
    rw [this]
  · intro n' b
    have hd : delete t w = match t.dict.get? (some j) with
        | some _ => (false, drop t j)
        | none => (true, t) := by simp only [delete, ← innermost_unique hin]
    rw [hd]
    cases hg : t.dict.get? (some j) with
    | some l => simp only [found_drop, if_true]
    | none => simp [found, hg]

/-! ### Concrete cases -/

/-- A function, one made from it with `functools.wraps`, and a partial application of that. -/
def plain : Py := .function 1 ("f", "M.f")
def wrapper : Py := .wraps (some 2) plain
def applied : Py := .partialOf wrapper

example : getFnNames applied = ("f", "M.f") ∧ cacheKey wrapper = some 2 ∧ cacheKey applied = none := ⟨rfl, rfl, rfl⟩

/-- The second call finds the entry, also after `delete`; of the wrapped function the entry is gone. -/
example : let s := run (fun _ _ => none) (start : Store Nat) [.call plain 7, .call wrapper 7, .call applied 7, .delete wrapper]
    ((call (fun _ _ => none) s wrapper 7).1 = .ok ⟨1, ("f", "M.f"), 7⟩) ∧ ((call (fun _ _ => none) s plain 7).1 = .ok ⟨3, ("f", "M.f"), 7⟩) :=
  ⟨rfl, rfl⟩

end Verif.CompileCache
