import Verif.State.Props
import Verif.TreeEqual.Props

/-!
# Models that are made twice

`make(args)` called twice with the same arguments: which models are equal for `tree_equal`, which have the same structure (so
that `tree_map` over both of them works, and `filter_jit` does not see another static part), and what `make_with_state` does
about it. What matters is which objects `__init__` creates that are compared by identity, and where it puts them:

* `StateIndex` holds `object()` in a static field (`equinox/nn/_stateful.py` lines 60 and 77),
* `WeightNorm` holds a `functools.partial` in a field that is not static (`equinox/nn/_weight_norm.py` lines 70, 91-95),
* `Shared` puts objects `SharedNode()` in the places it removes (`equinox/nn/_shared.py` lines 10-14 and 144).

Arrays are those that the arguments and the key give, the same in both calls.
-/

namespace Verif
namespace NN.Remade

open PT State TreeEqual

variable {C ν β : Type}

/-- An object that is not an array: one that is compared by its value (or is the same object in both calls, as an activation
function passed as an argument), or one that `__init__` has created and that is compared by identity. -/
inductive Obj (β : Type) where
  | py (v : β)
  | fresh (n : Nat)
deriving DecidableEq

/-- A node: an instance of a module (its class and its static fields), a `StateIndex` with its marker, or the sentinel in
place of an initial value. -/
inductive Kind (C : Type) where
  | module (c : C)
  | index (m : Marker)
  | tuple
  | sentinel
deriving DecidableEq

/-- What `__init__` does, field by field (in the order of the fields that are not static). -/
inductive Desc (C ν β : Type) where
  /-- an array, computed from the arguments and the key -/
  | array (a : Arr ν)
  /-- a Python object that comes with the arguments, and its type -/
  | value (ty : Nat) (v : β)
  /-- `None` -/
  | none
  /-- an instance of a module -/
  | module (c : C) (fields : List (Desc C ν β))
  /-- `StateIndex(init)` -/
  | index (init : List (Arr ν))
  /-- a new object that is compared by identity -/
  | fresh (ty : Nat)

/-- A model, flattened with `is_leaf=_is_index`. -/
abbrev Model (C ν β : Type) := PT (Kind C) (MLeaf (Leaf ν (Obj β)) (List (Arr ν)))

mutual
/-- Makes the model; `n` is the number of objects created so far, which serves as the identity of the next one. -/
def make (n : Nat) : Desc C ν β → Model C ν β × Nat
  | .array a => (.leaf (.val (.arr a)), n)
  | .value ty v => (.leaf (.val (.other ty (.py v))), n)
  | .none => (.none, n)
  | .module c fs => (.node (.module c) (makeL n fs).1, (makeL n fs).2)
  | .index init => (.leaf (.idx (.obj n) (some init)), n + 1)
  | .fresh ty => (.leaf (.val (.other ty (.fresh n))), n + 1)
/-- `make` on the fields. -/
def makeL (n : Nat) : List (Desc C ν β) → List (Model C ν β) × Nat
  | [] => ([], n)
  | f :: fs => ((make n f).1 :: (makeL (make n f).2 fs).1, (makeL (make n f).2 fs).2)
end

/-- A `StateIndex` is a module: its marker is static, its initial value (the sentinel if deleted) is not
(`equinox/nn/_stateful.py` lines 60-61). -/
def open1 : MLeaf (Leaf ν (Obj β)) (List (Arr ν)) → PT (Kind C) (Leaf ν (Obj β))
  | .val x => .leaf x
  | .idx m (some init) => .node (.index m) [.node .tuple (init.map fun a => .leaf (.arr a))]
  | .idx m Option.none => .node (.index m) [.node .sentinel []]

/-- The model as a pytree. -/
def tree (t : Model C ν β) : PT (Kind C) (Leaf ν (Obj β)) := (t.map open1).join

/-! ### The layers -/

/-- `Linear` (`equinox/nn/_linear.py` lines 16-20, 43-65). -/
def linear (c : C) (weight : Arr ν) (bias : Option (Arr ν)) : Desc C ν β :=
  .module c [.array weight, (bias.map .array).getD .none]

/-- `WeightNorm.__init__` (`equinox/nn/_weight_norm.py` lines 66-96): the fields are `layer`, `g` and `_norm`. -/
def weightNorm (c : C) (partialTy : Nat) (layer : Desc C ν β) (g : Arr ν) : Desc C ν β :=
  .module c [layer, .array g, .fresh partialTy]

/-- `BatchNorm.__init__` (`equinox/nn/_batch_norm.py` lines 46-57, 90-109): the fields are `weight`, `bias`,
`first_time_index`, `state_index`, `axis_name` and `inference`. A single array as an initial value is a tuple of one here. -/
def batchNorm (c : C) (strTy boolTy : Nat) (weight bias : Option (Arr ν)) (first mean var : Arr ν) (axisName inference : β) :
    Desc C ν β :=
  .module c [(weight.map .array).getD .none, (bias.map .array).getD .none, .index [first], .index [mean, var],
    .value strTy axisName, .value boolTy inference]

/-- `SpectralNorm.__init__` (`equinox/nn/_spectral_norm.py` lines 55-60, 94-111): the fields are `layer`, `uv_index` and
`inference`. -/
def spectralNorm (c : C) (boolTy : Nat) (layer : Desc C ν β) (u v : Arr ν) (inference : β) : Desc C ν β :=
  .module c [layer, .index [u, v], .value boolTy inference]

/-- `tree_at(where, pytree, replace_fn=lambda _: SharedNode())` for one place, given by the numbers of the fields. -/
def remove (nodeTy : Nat) : List Nat → Desc C ν β → Desc C ν β
  | [], _ => .fresh nodeTy
  | i :: π, .module c fs => .module c (fs.modify i (remove nodeTy π))
  | _ :: _, d => d

/-- `Shared.__init__` (`equinox/nn/_shared.py` lines 83-85, 134-146), with functions `where` and `get` given by the caller. -/
def shared (c : C) (nodeTy fnTy : Nat) (d : Desc C ν β) (places : List (List Nat)) (where_ get : β) : Desc C ν β :=
  .module c [places.foldl (fun d π => remove nodeTy π d) d, .value fnTy where_, .value fnTy get]

/-! ### Specification -/

/-- `x` is made in the course of making `d`. -/
inductive Makes : Desc C ν β → Desc C ν β → Prop
  | here {d} : Makes d d
  | field {c fs f x} : f ∈ fs → Makes f x → Makes (.module c fs) x

/-- A `StateIndex` is made. -/
def Indexed (d : Desc C ν β) : Prop := ∃ init, Makes d (.index init)

/-- An object is made that is compared by identity and is not static. -/
def Private (d : Desc C ν β) : Prop := ∃ ty, Makes d (.fresh ty)

/-- Python's part: objects that are compared by identity are unequal unless they are the same. -/
structure Identity (env : Env ν (Obj β)) : Prop where
  lawful : Lawful env
  exact : env.exact = true
  fresh : ∀ i j, env.ne (.fresh i) (.fresh j) = false ↔ i = j

/-! ### Lemmas -/

/-- Another execution: the objects are `n` others. -/
def shift (n : Nat) : MLeaf (Leaf ν (Obj β)) (List (Arr ν)) → MLeaf (Leaf ν (Obj β)) (List (Arr ν))
  | .idx (.obj k) v => .idx (.obj (n + k)) v
  | .val (.other ty (.fresh k)) => .val (.other ty (.fresh (n + k)))
  | l => l

mutual
theorem make_shift (n k : Nat) : ∀ d : Desc C ν β,
    (make (n + k) d).1 = (make k d).1.map (shift n) ∧ (make (n + k) d).2 = n + (make k d).2
  | .array a => by simp [make, PT.map, shift]
  | .value ty v => by simp [make, PT.map, shift]
  | .none => by simp [make, PT.map]
  | .module c fs => by
    have h := makeL_shift n k fs
    simp [make, PT.map, h.1, h.2, mapL_eq]
  | .index init => by simp [make, PT.map, shift]; omega
  | .fresh ty => by simp [make, PT.map, shift]; omega
theorem makeL_shift (n k : Nat) : ∀ fs : List (Desc C ν β),
    (makeL (n + k) fs).1 = (makeL k fs).1.map (PT.map (shift n)) ∧ (makeL (n + k) fs).2 = n + (makeL k fs).2
  | [] => by simp [makeL]
  | f :: fs => by
    have h := make_shift n k f
    have h' := makeL_shift n (make k f).2 fs
    simp [makeL, h.1, h.2, h'.1, h'.2]
end

mutual
theorem mem_make (k : Nat) (l : MLeaf (Leaf ν (Obj β)) (List (Arr ν))) : ∀ d : Desc C ν β, l ∈ (make k d).1.leaves →
    (∃ a, l = .val (.arr a)) ∨ (∃ ty v, l = .val (.other ty (.py v))) ∨
    (∃ j init, l = .idx (.obj j) (some init) ∧ Makes d (.index init)) ∨
    (∃ j ty, l = .val (.other ty (.fresh j)) ∧ Makes d (.fresh ty))
  | .array a, h => by simp [make, PT.leaves] at h; exact .inl ⟨a, h⟩
  | .value ty v, h => by simp [make, PT.leaves] at h; exact .inr (.inl ⟨ty, v, h⟩)
  | .none, h => by simp [make, PT.leaves] at h
  | .module c fs, h => by
    simp only [make, PT.leaves] at h
    rcases mem_makeL k l fs h with h | h | ⟨j, init, h, f, hf, hm⟩ | ⟨j, ty, h, f, hf, hm⟩
    · exact .inl h
    · exact .inr (.inl h)
    · exact .inr (.inr (.inl ⟨j, init, h, .field hf hm⟩))
    · exact .inr (.inr (.inr ⟨j, ty, h, .field hf hm⟩))
  | .index init, h => by simp [make, PT.leaves] at h; exact .inr (.inr (.inl ⟨k, init, h, .here⟩))
  | .fresh ty, h => by simp [make, PT.leaves] at h; exact .inr (.inr (.inr ⟨k, ty, h, .here⟩))
theorem mem_makeL (k : Nat) (l : MLeaf (Leaf ν (Obj β)) (List (Arr ν))) : ∀ fs : List (Desc C ν β),
    l ∈ PT.leavesL (makeL k fs).1 →
    (∃ a, l = .val (.arr a)) ∨ (∃ ty v, l = .val (.other ty (.py v))) ∨
    (∃ j init, l = .idx (.obj j) (some init) ∧ ∃ f ∈ fs, Makes f (.index init)) ∨
    (∃ j ty, l = .val (.other ty (.fresh j)) ∧ ∃ f ∈ fs, Makes f (.fresh ty))
  | [], h => by simp [makeL, PT.leavesL] at h
  | f :: fs, h => by
    simp only [makeL, PT.leavesL, List.mem_append] at h
    rcases h with h | h
    · rcases mem_make k l f h with h | h | ⟨j, init, h, hm⟩ | ⟨j, ty, h, hm⟩
      · exact .inl h
      · exact .inr (.inl h)
      · exact .inr (.inr (.inl ⟨j, init, h, f, by simp, hm⟩))
      · exact .inr (.inr (.inr ⟨j, ty, h, f, by simp, hm⟩))
    · rcases mem_makeL _ l fs h with h | h | ⟨j, init, h, g, hg, hm⟩ | ⟨j, ty, h, g, hg, hm⟩
      · exact .inl h
      · exact .inr (.inl h)
      · exact .inr (.inr (.inl ⟨j, init, h, g, by simp [hg], hm⟩))
      · exact .inr (.inr (.inr ⟨j, ty, h, g, by simp [hg], hm⟩))
end

theorem makeL_mem {fs : List (Desc C ν β)} {f : Desc C ν β} (hf : f ∈ fs) (k : Nat) :
    ∃ k', (make k' f).1 ∈ (makeL k fs).1 := by
  induction fs generalizing k with
  | nil => simp at hf
  | cons g gs ih =>
    simp only [List.mem_cons] at hf
    rcases hf with rfl | hf
    · exact ⟨k, by simp [makeL]⟩
    · obtain ⟨k', h⟩ := ih hf (make k g).2
      exact ⟨k', by simp [makeL, h]⟩

theorem makes_mem {d x : Desc C ν β} (h : Makes d x) (k : Nat) :
    ∃ k', ∀ l ∈ (make k' x).1.leaves, l ∈ (make k d).1.leaves := by
  induction h generalizing k with
  | here => exact ⟨k, fun _ h => h⟩
  | @field c fs f x hf _ ih =>
    obtain ⟨k', h⟩ := makeL_mem hf k
    obtain ⟨k'', h'⟩ := ih k'
    refine ⟨k'', fun l hl => ?_⟩
    simp only [make, PT.leaves, leavesL_eq, List.mem_flatMap]
    exact ⟨_, h, h' l hl⟩

theorem indexed_iff (k : Nat) (d : Desc C ν β) :
    Indexed d ↔ ∃ j init, MLeaf.idx (.obj j) (some init) ∈ (make k d).1.leaves := by
  constructor
  · rintro ⟨init, h⟩
    obtain ⟨k', h'⟩ := makes_mem h k
    exact ⟨k', init, h' _ (by simp [make, PT.leaves])⟩
  · rintro ⟨j, init, h⟩
    rcases mem_make k _ d h with ⟨_, h⟩ | ⟨_, _, h⟩ | ⟨_, _, _, h⟩ | ⟨_, _, h, _⟩
    · cases h
    · cases h
    · exact ⟨_, h⟩
    · cases h

theorem private_iff (k : Nat) (d : Desc C ν β) :
    Private d ↔ ∃ j ty, MLeaf.val (.other ty (.fresh j)) ∈ (make k d).1.leaves := by
  constructor
  · rintro ⟨ty, h⟩
    obtain ⟨k', h'⟩ := makes_mem h k
    exact ⟨k', ty, h' _ (by simp [make, PT.leaves])⟩
  · rintro ⟨j, ty, h⟩
    rcases mem_make k _ d h with ⟨_, h⟩ | ⟨_, _, h⟩ | ⟨_, _, h, _⟩ | ⟨_, _, _, h⟩
    · cases h
    · cases h
    · cases h
    · exact ⟨_, h⟩

theorem forall₂_map {α γ δ : Type} {R : γ → δ → Prop} {f : α → γ} {g : α → δ} {l : List α} :
    (∀ (i : Nat) x y, (l.map f)[i]? = some x → (l.map g)[i]? = some y → R x y) ↔ ∀ a ∈ l, R (f a) (g a) := by
  constructor
  · intro h a ha
    obtain ⟨i, hi, rfl⟩ := List.getElem_of_mem ha
    exact h i _ _ (by simp [hi]) (by simp [hi])
  · intro h i x y hx hy
    simp only [List.getElem?_map, Option.map_eq_some_iff] at hx hy
    obtain ⟨a, ha, rfl⟩ := hx
    obtain ⟨b, hb, rfl⟩ := hy
    rw [ha] at hb; cases hb
    exact h a (List.mem_of_getElem? ha)

theorem shape_join {α K : Type} {g h : α → PT K (Leaf ν (Obj β))} (t : PT K α) :
    (t.map g).join.shape = (t.map h).join.shape ↔ ∀ x ∈ t.leaves, (g x).shape = (h x).shape := by
  induction t using PT.ind with
  | leaf a => simp [PT.map, PT.join, PT.leaves]
  | none => simp [PT.map, PT.join, PT.leaves]
  | node k cs ih =>
    simp only [PT.map, PT.join, PT.leaves, joinL_eq, mapL_eq, leavesL_eq, shape_node, List.map_map, PT.node.injEq,
      true_and, List.mem_flatMap]
    rw [List.map_inj_left]
    constructor
    · rintro hc x ⟨c, hm, hx⟩
      exact (ih c hm).1 (hc c hm) x hx
    · intro hc c hm
      exact (ih c hm).2 fun x hx => hc x ⟨c, hm, hx⟩

theorem treeEq_node {K : Type} {env : Env ν (Obj β)} {tm : Bool} {k : K} {cs ds : List (PT K (Leaf ν (Obj β)))} :
    TreeEq env tm (.node k cs) (.node k ds) ↔ cs.length = ds.length ∧
      ∀ (i : Nat) c d, cs[i]? = some c → ds[i]? = some d → TreeEq env tm c d := by
  constructor
  · rintro ⟨hs, hl⟩
    simp only [shape_node, PT.node.injEq, true_and] at hs
    have hlen : cs.length = ds.length := by simpa using congrArg List.length hs
    refine ⟨hlen, fun i c d hc hd => ⟨?_, fun π x y hx hy => ?_⟩⟩
    · have := congrArg (·[i]?) hs
      simpa [hc, hd] using this
    · exact hl (i :: π) x y (by simp [leafAt?_node, hc, hx]) (by simp [leafAt?_node, hd, hy])
  · rintro ⟨hlen, h⟩
    refine ⟨?_, fun π x y hx hy => ?_⟩
    · simp only [shape_node, PT.node.injEq, true_and]
      apply List.ext_getElem?
      intro i
      simp only [List.getElem?_map]
      cases hc : cs[i]? with
      | none =>
        have : ds[i]? = Option.none := by rw [List.getElem?_eq_none_iff] at hc ⊢; omega
        simp [this]
      | some c =>
        cases hd : ds[i]? with
        | none => rw [List.getElem?_eq_none_iff] at hd; obtain ⟨hi, _⟩ := List.getElem?_eq_some_iff.1 hc; omega
        | some d => simp [(h i c d hc hd).1]
    · cases π with
      | nil => simp at hx
      | cons i π =>
        simp only [leafAt?_node, Option.bind_eq_some_iff] at hx hy
        obtain ⟨c, hc, hx⟩ := hx
        obtain ⟨d, hd, hy⟩ := hy
        exact (h i c d hc hd).2 π x y hx hy

theorem treeEq_join {α K : Type} {env : Env ν (Obj β)} {tm : Bool} {g h : α → PT K (Leaf ν (Obj β))} (t : PT K α) :
    TreeEq env tm (t.map g).join (t.map h).join ↔ ∀ x ∈ t.leaves, TreeEq env tm (g x) (h x) := by
  induction t using PT.ind with
  | leaf a => simp [PT.map, PT.join, PT.leaves]
  | none => simp [PT.map, PT.join, PT.leaves, TreeEq]
  | node k cs ih =>
    simp only [PT.map, PT.join, PT.leaves, joinL_eq, mapL_eq, leavesL_eq, List.map_map, List.mem_flatMap]
    rw [treeEq_node, forall₂_map]
    simp only [List.length_map, true_and, Function.comp]
    constructor
    · rintro hc x ⟨c, hm, hx⟩
      exact (ih c hm).1 (hc c hm) x hx
    · intro hc c hm
      exact (ih c hm).2 fun x hx => hc x ⟨c, hm, hx⟩

theorem treeEq_refl {K : Type} {env : Env ν (Obj β)} (hi : Identity env) {tm : Bool} (t : PT K (Leaf ν (Obj β))) :
    TreeEq env tm t t := by
  refine ⟨rfl, fun π x y hx hy => ?_⟩
  rw [hx] at hy; cases hy
  refine ⟨?_, fun _ => rfl⟩
  rw [leafEq_exact hi.exact]
  cases x with
  | arr a =>
    refine .inl ⟨a, a, rfl, rfl, rfl, rfl, rfl, fun i p q hp hq => ?_⟩
    rw [hp] at hq; cases hq
    exact hi.lawful.refl _
  | other s v => exact .inr ⟨s, s, v, v, rfl, rfl, hi.lawful.ne_refl v⟩

theorem treeEq_fresh {K : Type} {env : Env ν (Obj β)} (hi : Identity env) {tm : Bool} {ty i j : Nat} :
    TreeEq env tm (.leaf (.other ty (.fresh i)) : PT K _) (.leaf (.other ty (.fresh j))) ↔ i = j := by
  constructor
  · rintro ⟨-, h⟩
    have := (h [] _ _ rfl rfl).1
    rw [leafEq_exact hi.exact] at this
    rcases this with ⟨_, _, h, _⟩ | ⟨_, _, _, _, h1, h2, h3⟩
    · cases h
    · cases h1; cases h2
      exact (hi.fresh i j).1 h3
  · rintro rfl
    exact treeEq_refl hi _

/-- Leaves of two executions. -/
theorem treeEq_shift {env : Env ν (Obj β)} (hi : Identity env) {tm : Bool} {n m : Nat} (hnm : n ≠ m)
    (l : MLeaf (Leaf ν (Obj β)) (List (Arr ν))) :
    TreeEq env tm (open1 (C := C) (shift n l)) (open1 (shift m l)) ↔
      (∀ k v, l ≠ .idx (.obj k) v) ∧ ∀ ty k, l ≠ .val (.other ty (.fresh k)) := by
  match l with
  | .val (.arr a) => simp [shift, treeEq_refl hi]
  | .val (.other ty (.py v)) => simp [shift, treeEq_refl hi]
  | .val (.other ty (.fresh k)) =>
    simp only [shift, open1, treeEq_fresh hi]
    constructor
    · intro h; omega
    · rintro ⟨-, h⟩; exact absurd rfl (h ty k)
  | .idx (.int k) v => simp [shift, treeEq_refl hi]
  | .idx (.obj k) v =>
    constructor
    · rintro ⟨h, -⟩
      exfalso
      cases v <;> simp [shift, open1] at h <;> omega
    · rintro ⟨h, -⟩; exact absurd rfl (h k v)

theorem shape_shift {n m : Nat} (hnm : n ≠ m) (l : MLeaf (Leaf ν (Obj β)) (List (Arr ν))) :
    (open1 (C := C) (shift n l)).shape = (open1 (shift m l)).shape ↔ ∀ k v, l ≠ .idx (.obj k) v := by
  match l with
  | .val (.arr a) => simp [shift]
  | .val (.other ty (.py v)) => simp [shift]
  | .val (.other ty (.fresh k)) => simp [shift, open1]
  | .idx (.int k) v => simp [shift]
  | .idx (.obj k) v =>
    constructor
    · intro h
      exfalso
      cases v <;> simp [shift, open1] at h <;> omega
    · intro h; exact absurd rfl (h k v)

theorem tree_map_shift (n : Nat) (t : Model C ν β) : tree (t.map (shift n)) = (t.map fun l => open1 (shift n l)).join := by
  simp only [tree, PT.map_map]

theorem make_eq (n : Nat) (d : Desc C ν β) : (make n d).1 = (make 0 d).1.map (shift n) := by
  have := (make_shift n 0 d).1
  simpa using this

theorem relabel_shift (n k : Nat) (ls : List (MLeaf (Leaf ν (Obj β)) (List (Arr ν)))) :
    relabel k (ls.map (shift n)) = (relabel k ls).map (shift n) := by
  induction ls generalizing k with
  | nil => rfl
  | cons l ls ih =>
    match l with
    | .val (.arr a) => simp [relabel, shift, ih]
    | .val (.other ty (.py v)) => simp [relabel, shift, ih]
    | .val (.other ty (.fresh j)) => simp [relabel, shift, ih]
    | .idx (.int j) v => simp [relabel, shift, ih]
    | .idx (.obj j) v => simp [relabel, shift, ih]

theorem initLoop_shift (conv : List (Arr ν) → List (Arr ν)) (n k : Nat) (d : Dict Marker (List (Arr ν)))
    (ls : List (MLeaf (Leaf ν (Obj β)) (List (Arr ν)))) :
    initLoop conv d ((relabel k ls).map (shift n)) = initLoop conv d (relabel k ls) := by
  induction ls generalizing k d with
  | nil => rfl
  | cons l ls ih =>
    match l with
    | .val (.arr a) => simp [relabel, shift, initLoop, ih]
    | .val (.other ty (.py v)) => simp [relabel, shift, initLoop, ih]
    | .val (.other ty (.fresh j)) => simp [relabel, shift, initLoop, ih]
    | .idx j (some v) => simp [relabel, shift, initLoop, ih]
    | .idx j Option.none => simp [relabel, shift, initLoop]

theorem makeWithState_shift (conv : List (Arr ν) → List (Arr ν)) (n : Nat) (d : Desc C ν β) :
    ∃ t s, makeWithState conv (make n d).1 = .ok (t.map (shift n), s) ∧ makeWithState conv (make 0 d).1 = .ok (t, s) ∧
      (∀ k v, .idx (.obj k) v ∉ t.leaves) ∧ ∀ x, .val x ∈ t.leaves ↔ .val x ∈ (make 0 d).1.leaves := by
  obtain ⟨c, h1, h2, h3⟩ := unflatten_relabel (make 0 d).1
  obtain ⟨c', h1', h2', h3'⟩ := unflatten_relabel (make n d).1
  have hinit : ∀ m, MLeaf.idx m Option.none ∉ (make 0 d).1.leaves := by
    intro m hm
    rcases mem_make 0 _ d hm with ⟨_, h⟩ | ⟨_, _, h⟩ | ⟨_, _, h, _⟩ | ⟨_, _, h, _⟩ <;> cases h
  obtain ⟨e, h4, -, -⟩ := initLoop_relabel conv 0 (make 0 d).1.leaves [] (by simp [Dict.keys]) hinit
  have hc : c' = c.map (shift n) := by
    refine eq_of_shape_leaves ?_ ?_
    · rw [h2', shape_map, h2, make_eq n, shape_map]
    · rw [h3', leaves_map, h3, make_eq n, leaves_map, relabel_shift]
  have hdel : deleteInit (c.map (shift n)) = (deleteInit c).map (shift n) := by
    simp only [deleteInit, PT.map_map]
    congr 1
    funext l
    match l with
    | .val (.arr a) => rfl
    | .val (.other ty (.py v)) => rfl
    | .val (.other ty (.fresh k)) => rfl
    | .idx (.int k) v => rfl
    | .idx (.obj k) v => rfl
  refine ⟨deleteInit c, e, ?_, ?_, ?_, ?_⟩
  · have : initLoop conv [] c'.leaves = .ok e := by
      rw [hc, leaves_map, h3, initLoop_shift, h4]; rfl
    simp only [makeWithState, h1', stateOf, this, bind, Except.bind, pure, Except.pure]
    rw [hc, hdel]
  · have : initLoop conv [] c.leaves = .ok e := by rw [h3, h4]; rfl
    simp only [makeWithState, h1, stateOf, this, bind, Except.bind, pure, Except.pure]
  · intro k v hm
    rw [deleteInit, leaves_map, h3] at hm
    simp only [List.mem_map] at hm
    obtain ⟨l, hl, he⟩ := hm
    obtain ⟨i, hi⟩ := List.mem_iff_getElem?.1 hl
    rw [relabel_getElem] at hi
    cases hx : (make 0 d).1.leaves[i]? with
    | none => simp [hx] at hi
    | some x =>
      cases x <;> simp [hx] at hi <;> subst hi <;> simp at he
  · intro x
    rw [deleteInit, leaves_map, h3]
    have key : ∀ (ls : List (MLeaf (Leaf ν (Obj β)) (List (Arr ν)))) (k : Nat), MLeaf.val x ∈ relabel k ls ↔ MLeaf.val x ∈ ls := by
      intro ls
      induction ls with
      | nil => simp [relabel]
      | cons l ls ih => intro k; cases l <;> simp [relabel, ih]
    rw [← key (make 0 d).1.leaves 0]
    constructor
    · intro hm
      obtain ⟨l, hl, he⟩ := List.mem_map.1 hm
      cases l with
      | val y => simp at he; subst he; exact hl
      | idx m v => simp at he
    · intro h
      exact List.mem_map.2 ⟨_, h, rfl⟩

/-! ### The properties -/

/-- Two models made with the same arguments have the same structure exactly if no `StateIndex` is among what is made. -/
theorem same_structure (d : Desc C ν β) {n m : Nat} (hnm : n ≠ m) :
    (tree (make n d).1).shape = (tree (make m d).1).shape ↔ ¬ Indexed d := by
  rw [make_eq n, make_eq m, tree_map_shift, tree_map_shift, shape_join]
  simp only [shape_shift hnm]
  rw [indexed_iff 0]
  constructor
  · rintro h ⟨j, init, hm⟩
    exact h _ hm j _ rfl
  · rintro h l hl k v rfl
    rcases mem_make 0 _ d hl with ⟨_, e⟩ | ⟨_, _, e⟩ | ⟨_, _, e, _⟩ | ⟨_, _, e, _⟩ <;> cases e
    exact h ⟨_, _, hl⟩

section
variable [DecidableEq C]

/-- `tree_equal` of two models made with the same arguments is true exactly if moreover no object that is compared by identity
is among what is made. -/
theorem equal_iff {env : Env ν (Obj β)} (hi : Identity env) (d : Desc C ν β) {n m : Nat} (hnm : n ≠ m) (tm : Bool) {r : Res}
    (h : treeEqual env tm [tree (make n d).1, tree (make m d).1] = .ok r) :
    r.val = true ↔ ¬ Indexed d ∧ ¬ Private d := by
  rw [tree_equal_iff h]
  simp only [List.mem_singleton, forall_eq]
  rw [make_eq n, make_eq m, tree_map_shift, tree_map_shift, treeEq_join]
  simp only [treeEq_shift hi hnm]
  rw [indexed_iff 0, private_iff 0]
  constructor
  · intro h
    refine ⟨?_, ?_⟩
    · rintro ⟨j, init, hm⟩
      exact (h _ hm).1 j _ rfl
    · rintro ⟨j, ty, hm⟩
      exact (h _ hm).2 ty j rfl
  · rintro ⟨h1, h2⟩ l hl
    refine ⟨?_, ?_⟩
    · rintro k v rfl
      rcases mem_make 0 _ d hl with ⟨_, e⟩ | ⟨_, _, e⟩ | ⟨_, _, e, _⟩ | ⟨_, _, e, _⟩ <;> cases e
      exact h1 ⟨_, _, hl⟩
    · rintro ty k rfl
      exact h2 ⟨_, _, hl⟩

/-- With `make_with_state` the states are equal and the models have the same structure, whatever is made; `tree_equal` of the
models is true exactly if no object that is compared by identity is among what is made. -/
theorem with_state (conv : List (Arr ν) → List (Arr ν)) {env : Env ν (Obj β)} (hi : Identity env) (d : Desc C ν β) {n m : Nat}
    (hnm : n ≠ m) (tm : Bool) :
    ∃ t u s, makeWithState conv (make n d).1 = .ok (t, s) ∧ makeWithState conv (make m d).1 = .ok (u, s) ∧
      (tree t).shape = (tree u).shape ∧
      ∀ r, treeEqual env tm [tree t, tree u] = .ok r → (r.val = true ↔ ¬ Private d) := by
  obtain ⟨t, s, h1, h2, h3, h4⟩ := makeWithState_shift conv n d
  obtain ⟨t', s', h1', h2', -, -⟩ := makeWithState_shift conv m d
  rw [h2] at h2'
  cases h2'
  refine ⟨_, _, s, h1, h1', ?_, ?_⟩
  · rw [tree_map_shift, tree_map_shift, shape_join]
    intro l hl
    rw [shape_shift hnm]
    rintro k v rfl
    exact h3 k v hl
  · intro r hr
    rw [tree_equal_iff hr]
    simp only [List.mem_singleton, forall_eq]
    rw [tree_map_shift, tree_map_shift, treeEq_join]
    simp only [treeEq_shift hi hnm]
    rw [private_iff 0]
    constructor
    · rintro h ⟨j, ty, hm⟩
      exact (h _ ((h4 _).2 hm)).2 ty j rfl
    · rintro h l hl
      refine ⟨?_, ?_⟩
      · rintro k v rfl
        exact h3 k v hl
      · rintro ty k rfl
        exact h ⟨k, ty, (h4 _).1 hl⟩

end

/-! ### The layers -/

theorem indexed_module {c : C} {fs : List (Desc C ν β)} : Indexed (.module c fs) ↔ ∃ f ∈ fs, Indexed f := by
  constructor
  · rintro ⟨init, h⟩
    cases h with
    | field hf h => exact ⟨_, hf, init, h⟩
  · rintro ⟨f, hf, init, h⟩
    exact ⟨init, .field hf h⟩

theorem private_module {c : C} {fs : List (Desc C ν β)} : Private (.module c fs) ↔ ∃ f ∈ fs, Private f := by
  constructor
  · rintro ⟨ty, h⟩
    cases h with
    | field hf h => exact ⟨_, hf, ty, h⟩
  · rintro ⟨f, hf, ty, h⟩
    exact ⟨ty, .field hf h⟩

@[simp] theorem indexed_array {a : Arr ν} : ¬ Indexed (.array a : Desc C ν β) := by rintro ⟨_, h⟩; cases h
@[simp] theorem indexed_value {ty : Nat} {v : β} : ¬ Indexed (.value ty v : Desc C ν β) := by rintro ⟨_, h⟩; cases h
@[simp] theorem indexed_none : ¬ Indexed (.none : Desc C ν β) := by rintro ⟨_, h⟩; cases h
@[simp] theorem indexed_index {i : List (Arr ν)} : Indexed (.index i : Desc C ν β) := ⟨i, .here⟩
@[simp] theorem indexed_fresh {ty : Nat} : ¬ Indexed (.fresh ty : Desc C ν β) := by rintro ⟨_, h⟩; cases h
@[simp] theorem private_array {a : Arr ν} : ¬ Private (.array a : Desc C ν β) := by rintro ⟨_, h⟩; cases h
@[simp] theorem private_value {ty : Nat} {v : β} : ¬ Private (.value ty v : Desc C ν β) := by rintro ⟨_, h⟩; cases h
@[simp] theorem private_none : ¬ Private (.none : Desc C ν β) := by rintro ⟨_, h⟩; cases h
@[simp] theorem private_index {i : List (Arr ν)} : ¬ Private (.index i : Desc C ν β) := by rintro ⟨_, h⟩; cases h
@[simp] theorem private_fresh {ty : Nat} : Private (.fresh ty : Desc C ν β) := ⟨ty, .here⟩

/-- The place exists. -/
def Place : List Nat → Desc C ν β → Prop
  | [], _ => True
  | i :: π, .module _ fs => ∃ f, fs[i]? = some f ∧ Place π f
  | _ :: _, _ => False

theorem private_remove {ty : Nat} {π : List Nat} {d : Desc C ν β} (h : Place π d) : Private (remove ty π d) := by
  induction π generalizing d with
  | nil => simp [remove]
  | cons i π ih =>
    cases d with
    | module c fs =>
      obtain ⟨f, hf, hp⟩ := h
      rw [remove, private_module]
      exact ⟨_, List.mem_of_getElem? (i := i) (by rw [List.getElem?_modify, hf]; simp), ih hp⟩
    | _ => exact absurd h id

theorem private_remove_of {ty : Nat} {π : List Nat} {d : Desc C ν β} (h : Private d) : Private (remove ty π d) := by
  induction π generalizing d with
  | nil => simp [remove]
  | cons i π ih =>
    cases d with
    | module c fs =>
      rw [private_module] at h
      rw [remove, private_module]
      obtain ⟨f, hf, hp⟩ := h
      obtain ⟨j, hj⟩ := List.mem_iff_getElem?.1 hf
      by_cases hij : i = j
      · subst hij
        exact ⟨_, List.mem_of_getElem? (i := i) (by rw [List.getElem?_modify, hj]; simp), ih hp⟩
      · exact ⟨f, List.mem_of_getElem? (i := j) (by rw [List.getElem?_modify, hj]; simp [hij]), hp⟩
    | _ => exact h

/-- The layers: `Linear` is neither; `WeightNorm` always has an object of its own, and is otherwise as the layer it wraps;
`BatchNorm` and `SpectralNorm` have a `StateIndex`; `Shared` has an object of its own as soon as one place is removed. -/
theorem layers (c : C) (ty ty' : Nat) (d : Desc C ν β) (w : Arr ν) (b b' : Option (Arr ν)) (u v : Arr ν) (x y : β) :
    (¬ Indexed (linear c w b : Desc C ν β) ∧ ¬ Private (linear c w b : Desc C ν β)) ∧
    ((Indexed (weightNorm c ty d w) ↔ Indexed d) ∧ Private (weightNorm c ty d w)) ∧
    (Indexed (batchNorm c ty ty' b b' w u v x y) ∧ ¬ Private (batchNorm c ty ty' b b' w u v x y)) ∧
    (Indexed (spectralNorm c ty d u v x) ∧ (Private (spectralNorm c ty d u v x) ↔ Private d)) ∧
    (∀ π places, Place π d → Private (shared c ty ty' d (π :: places) x y)) := by
  have ho : ∀ b : Option (Arr ν), ¬ Indexed ((b.map .array).getD .none : Desc C ν β) ∧
      ¬ Private ((b.map .array).getD .none : Desc C ν β) := by
    intro b; cases b <;> simp
  refine ⟨⟨?_, ?_⟩, ⟨?_, ?_⟩, ⟨?_, ?_⟩, ⟨?_, ?_⟩, ?_⟩
  · simp [linear, indexed_module, ho]
  · simp [linear, private_module, ho]
  · simp [weightNorm, indexed_module]
  · simp [weightNorm, private_module]
  · simp [batchNorm, indexed_module]
  · simp [batchNorm, private_module, ho]
  · simp [spectralNorm, indexed_module]
  · simp [spectralNorm, private_module]
  · intro π places hp
    have key : ∀ (ps : List (List Nat)) (e : Desc C ν β), Private e →
        Private (ps.foldl (fun d π => remove ty π d) e) := by
      intro ps
      induction ps with
      | nil => intro e h; exact h
      | cons p ps ih => intro e h; exact ih _ (private_remove_of h)
    rw [shared, private_module]
    exact ⟨_, List.mem_cons_self, key places _ (private_remove (ty := ty) hp)⟩

/-! ### Cases -/

def exArr' : Arr Nat := ⟨0, .jax, [1], 0, [5]⟩
def exIdEnv : Env Nat (Obj Bool) where
  exact := true
  close := fun _ _ => true
  eq := fun x y => x == y
  ne := fun u v => u != v
  inexactNp := fun _ => true
  inexactJnp := fun _ => true

/-- Python's part as assumed. -/
example : Identity exIdEnv where
  lawful := {
    refl := by simp [exIdEnv]
    symm := by intro x y h; simp [exIdEnv] at h ⊢; exact h.symm
    trans := by intro x y z h h'; simp [exIdEnv] at h h' ⊢; rw [h, h']
    ne_refl := by simp [exIdEnv]
    ne_symm := by intro u v h; simp [exIdEnv] at h ⊢; exact h.symm
    ne_trans := by intro u v w h h'; simp [exIdEnv] at h h' ⊢; rw [h, h'] }
  exact := rfl
  fresh := by simp [exIdEnv]

/-- A `Sequential` of a `Linear` and a `BatchNorm`; with `make_with_state` its two copies are equal. -/
def exStateful : Desc String Nat Bool :=
  .module "Sequential" [linear "Linear" exArr' none, batchNorm "BatchNorm" 1 2 none none exArr' exArr' exArr' true false]
example : treeEqual exIdEnv false [tree (make 0 exStateful).1, tree (make 2 exStateful).1] = .ok (.py false) := by rfl
example : (do
    let a ← makeWithState id (make 0 exStateful).1
    let b ← makeWithState id (make 2 exStateful).1
    treeEqual exIdEnv false [tree a.1, tree b.1]) = .ok (.jax true) := by rfl
/-- `WeightNorm(Linear)` twice: not equal although nothing differs. -/
example : treeEqual exIdEnv false [tree (make 0 (weightNorm "WeightNorm" 3 (linear "Linear" exArr' none) exArr')).1,
    tree (make 1 (weightNorm "WeightNorm" 3 (linear "Linear" exArr' none) exArr')).1] = .ok (.py false) := by rfl
example : Place [0, 0] (Desc.module "Pair" [linear "Linear" exArr' none] : Desc String Nat Bool) :=
  ⟨_, rfl, _, rfl, trivial⟩

end NN.Remade
end Verif
