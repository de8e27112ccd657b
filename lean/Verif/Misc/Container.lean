import Verif.Basic
import Verif.Dict

/-! # C98: `ContainerMeta` (`equinox/internal/_misc.py`, 15-43), the predecessor of `Enumeration`

A class is the list of the dictionaries in its method resolution order, its own first. Names of the form `__x__` are told apart by a
parameter. Left out: attributes of the metaclass (all of the form `__x__`, or methods, which an attribute of the class shadows). -/

namespace Verif.Misc.Container

variable {N V : Type} [DecidableEq N]

/-! ### Model -/

/-- Attributes of a class. -/
inductive Attr (V : Type) where
  /-- an `int` -/
  | index (i : Nat)
  /-- anything kept as it was -/
  | kept (v : V)
  /-- the list `reverse_lookup` -/
  | table (l : List V)
deriving DecidableEq

/-- The loop of `__new__` (18-29) -/
def loop (dunder : N → Bool) : List (N × V) → Dict N (Attr V) → List V → Nat → Dict N (Attr V) × List V
  | [], d, r, _ => (d, r)
  | (key, value) :: rest, d, r, i =>
    if dunder key then loop dunder rest (d.insert key (.kept value)) r i
    else loop dunder rest (d.insert key (.index i)) (r ++ [value]) (i + 1)

/-- `__new__` (18-31): the dictionary of the class. `rl` is the name `reverse_lookup`. -/
def new (dunder : N → Bool) (rl : N) (body : Dict N V) : Except Err (Dict N (Attr V)) :=
  if rl ∈ body.keys then .error .assertionError
  else
    let (d, r) := loop dunder body [] [] 0
    .ok (d.insert rl (.table r))

/-- `cls.name` -/
def getattr : List (Dict N (Attr V)) → N → Except Err (Attr V)
  | [], _ => .error .attributeError
  | d :: ds, n =>
    match d.get? n with
    | some a => .ok a
    | none => getattr ds n

/-- `l[i]` -/
def pyIndex (l : List V) (i : Int) : Except Err V :=
  let j := if i < 0 then i + l.length else i
  if j < 0 then .error .indexError
  else match l[j.toNat]? with
    | some v => .ok v
    | none => .error .indexError

/-- `cls[i]` (39-40) -/
def getItem (rl : N) (cls : List (Dict N (Attr V))) (i : Int) : Except Err V :=
  match getattr cls rl with
  | .ok (.table l) => pyIndex l i
  | .ok _ => .error .typeError
  | .error e => .error e

/-- `len(cls)` (42-43) -/
def len (rl : N) (cls : List (Dict N (Attr V))) : Except Err Nat :=
  match getattr cls rl with
  | .ok (.table l) => .ok l.length
  | .ok _ => .error .typeError
  | .error e => .error e

/-- What `isinstance` is asked about. -/
inductive Obj where
  | array (shape : List Nat) (integer : Bool)
  | int
  | other (isInstance : Bool)

/-- `isinstance(x, cls)` (33-37) -/
def instanceCheck : Obj → Bool
  | .array shape integer => shape == [] && integer
  | .int => true
  | .other b => b

/-! ### Specification -/

/-- The members that the body of a class declares, in order. -/
def members (dunder : N → Bool) (body : Dict N V) : List (N × V) := body.filter fun p => !dunder p.1

/-! ### Proofs -/

theorem loop_spec (dunder : N → Bool) (body : List (N × V)) (d : Dict N (Attr V)) (r : List V) (i : Nat)
    (hb : (Dict.keys body).Nodup) :
    (loop dunder body d r i).2 = r ++ (members dunder body).map (·.2) ∧
    (∀ n v, (n, v) ∈ body → dunder n = true → (loop dunder body d r i).1.get? n = some (.kept v)) ∧
    (∀ j n v, (members dunder body)[j]? = some (n, v) → (loop dunder body d r i).1.get? n = some (.index (i + j))) ∧
    (∀ n, n ∉ Dict.keys body → (loop dunder body d r i).1.get? n = d.get? n) := by
  induction body generalizing d r i with
  | nil => simp [loop, members]
  | cons p rest ih =>
    obtain ⟨k, w⟩ := p
    have hk : k ∉ Dict.keys rest := (List.nodup_cons.1 hb).1
    have hr : (Dict.keys rest).Nodup := (List.nodup_cons.1 hb).2
    by_cases hd : dunder k = true
    · have hm : members dunder ((k, w) :: rest) = members dunder rest := by simp [members, hd]
      simp only [loop, hd, if_true]
      rw [hm]
      obtain ⟨h1, h2, h3, h4⟩ := ih (d.insert k (.kept w)) r i hr
      refine ⟨h1, ?_, h3, ?_⟩
      · intro n v hmem hn
        rcases List.mem_cons.1 hmem with he | hmem
        · cases he
          rw [h4 _ hk, Dict.get?_insert, if_pos rfl]
        · exact h2 n v hmem hn
      · intro n hn
        simp only [Dict.keys, List.map_cons, List.mem_cons, not_or] at hn
        rw [h4 n hn.2, Dict.get?_insert, if_neg (Ne.symm hn.1)]
    · have hm : members dunder ((k, w) :: rest) = (k, w) :: members dunder rest := by simp [members, hd]
      have hl : loop dunder ((k, w) :: rest) d r i = loop dunder rest (d.insert k (.index i)) (r ++ [w]) (i + 1) := by
        simp [loop, hd]
      rw [hm, hl]
      obtain ⟨h1, h2, h3, h4⟩ := ih (d.insert k (.index i)) (r ++ [w]) (i + 1) hr
      refine ⟨by rw [h1]; simp, ?_, ?_, ?_⟩
      · intro n v hmem hn
        rcases List.mem_cons.1 hmem with he | hmem
        · cases he
          exact absurd hn hd
        · exact h2 n v hmem hn
      · intro j n v hj
        cases j with
        | zero =>
          simp only [List.getElem?_cons_zero, Option.some.injEq, Prod.mk.injEq] at hj
          obtain ⟨rfl, rfl⟩ := hj
          rw [h4 _ hk, Dict.get?_insert, if_pos rfl, Nat.add_zero]
        | succ j =>
          rw [List.getElem?_cons_succ] at hj
          rw [h3 j n v hj]
          congr 2
          omega
      · intro n hn
        simp only [Dict.keys, List.map_cons, List.mem_cons, not_or] at hn
        rw [h4 n hn.2, Dict.get?_insert, if_neg (Ne.symm hn.1)]

theorem new_ok {dunder : N → Bool} {rl : N} {body : Dict N V} (hr : rl ∉ body.keys) :
    new dunder rl body = .ok ((loop dunder body [] [] 0).1.insert rl (.table (loop dunder body [] [] 0).2)) := by
  simp [new, hr]

/-! ### Theorems -/

/-- **C98**: the members that the body declares are numbered in order from 0, and indexing the class with the number of one gives
back its value; negative numbers count from the end, and there are no others. Attributes `__x__` are left alone. The name `reverse_lookup` is refused. `bases` are any
further classes. -/
theorem declared_partial {dunder : N → Bool} {rl : N} {body : Dict N V} (hb : body.keys.Nodup) (bases : List (Dict N (Attr V))) :
    (rl ∈ body.keys → new dunder rl body = .error .assertionError) ∧
    (rl ∉ body.keys → ∃ d, new dunder rl body = .ok d ∧
      (∀ j n v, (members dunder body)[j]? = some (n, v) →
        getattr (d :: bases) n = .ok (.index j) ∧ getItem rl (d :: bases) j = .ok v) ∧
      len rl (d :: bases) = .ok (members dunder body).length ∧
      (∀ i : Nat, (members dunder body).length ≤ i → getItem rl (d :: bases) i = .error .indexError) ∧
      (∀ (i j : Nat) n v, i + j = (members dunder body).length → 0 < i → (members dunder body)[j]? = some (n, v) →
        getItem rl (d :: bases) (-i) = .ok v) ∧
      (∀ i : Nat, (members dunder body).length < i → getItem rl (d :: bases) (-i) = .error .indexError) ∧
      (∀ n v, (n, v) ∈ body → dunder n = true → getattr (d :: bases) n = .ok (.kept v)) ∧
      (∀ n, n ∉ body.keys → n ≠ rl → getattr (d :: bases) n = getattr bases n)) := by
  refine ⟨fun h => by simp [new, h], fun h => ⟨_, new_ok h, ?_⟩⟩
  obtain ⟨h1, h2, h3, h4⟩ := loop_spec dunder body [] [] 0 hb
  have hrl : ∀ n ∈ body.keys, rl ≠ n := by
    rintro n hn rfl
    exact h hn
  have htab : getattr ((loop dunder body [] [] 0).1.insert rl (.table (loop dunder body [] [] 0).2) :: bases) rl =
      .ok (.table ((members dunder body).map (·.2))) := by
    simp only [getattr, Dict.get?_insert, if_true, h1, List.nil_append]
  refine ⟨?_, ?_, ?_, ?_, ?_, ?_, ?_⟩
  · intro j n v hj
    have hmem : (n, v) ∈ body := by
      have := List.mem_of_getElem? hj
      exact (List.mem_filter.1 this).1
    have hn : n ∈ body.keys := List.mem_map.2 ⟨_, hmem, rfl⟩
    refine ⟨?_, ?_⟩
    · simp only [getattr, Dict.get?_insert, if_neg (hrl n hn), h3 j n v hj, Nat.zero_add]
    · simp only [getItem, htab, pyIndex]
      have h0 : ¬ ((j : Int) < 0) := by omega
      simp [h0, hj]
  · simp [len, htab]
  · intro i hi
    simp only [getItem, htab, pyIndex]
    have h0 : ¬ ((i : Int) < 0) := by omega
    simp [h0, hi]
  · intro i j n v hij hi hj
    have hlen : (List.map (·.2) (members dunder body)).length = (members dunder body).length := by simp
    simp only [getItem, htab, pyIndex, hlen]
    have h0 : (-(i : Int)) < 0 := by omega
    have e : (-(i : Int)) + ((members dunder body).length : Nat) = j := by omega
    have h1 : ¬ ((j : Int) < 0) := by omega
    rw [if_pos h0, e, if_neg h1]
    simp [hj]
  · intro i hi
    have hlen : (List.map (·.2) (members dunder body)).length = (members dunder body).length := by simp
    simp only [getItem, htab, pyIndex, hlen]
    have h0 : (-(i : Int)) < 0 := by omega
    have h1 : (-(i : Int)) + ((members dunder body).length : Nat) < 0 := by omega
    rw [if_pos h0, if_pos h1]
  · intro n v hmem hn
    have hk : n ∈ body.keys := List.mem_map.2 ⟨_, hmem, rfl⟩
    simp only [getattr, Dict.get?_insert, if_neg (hrl n hk), h2 n v hmem hn]
  · intro n hn hne
    simp only [getattr, Dict.get?_insert, if_neg (Ne.symm hne), h4 n hn]
    rfl

/-- **C98**: `isinstance` accepts integers, integer arrays without dimensions, and instances. -/
theorem instance_iff (x : Obj) : instanceCheck x = true ↔ x = .int ∨ x = .array [] true ∨ x = .other true := by
  cases x with
  | array s b => cases b <;> simp [instanceCheck]
  | int => simp [instanceCheck]
  | other b => simp [instanceCheck]

/-- **C98**, where it is false: inherited members keep the number they had in the base class, which here means another member.
`class A: x = "first"` and `class B(A): y = "second"`: `B[B.x]` is `"second"`, and `B.x == B.y`. -/
theorem inherited_wrong : ∃ a b : Dict String (Attr String),
    new (· == "__module__") "reverse_lookup" [("__module__", "m"), ("x", "first")] = .ok a ∧
    new (· == "__module__") "reverse_lookup" [("__module__", "m"), ("y", "second")] = .ok b ∧
    getItem "reverse_lookup" [a] 0 = .ok "first" ∧
    getattr [b, a] "x" = .ok (.index 0) ∧ getItem "reverse_lookup" [b, a] 0 = .ok "second" ∧
    getattr [b, a] "y" = .ok (.index 0) := ⟨_, _, rfl, rfl, rfl, rfl, rfl, rfl⟩

/-- A class with two members and `__module__`. -/
example : ∃ d : Dict String (Attr String),
    new (· == "__module__") "reverse_lookup" [("__module__", "m"), ("x", "a"), ("y", "b")] = .ok d ∧
    getattr [d] "y" = .ok (.index 1) ∧ getItem "reverse_lookup" [d] 1 = .ok "b" ∧
    getItem "reverse_lookup" [d] (-2) = .ok "a" ∧ len "reverse_lookup" [d] = .ok 2 :=
  ⟨_, rfl, rfl, rfl, rfl, rfl⟩

end Verif.Misc.Container
