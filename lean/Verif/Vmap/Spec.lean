import Verif.Vmap.Model
import Verif.PyTree.Spec
/-! # What `filter_vmap` is meant to do -/

namespace Verif.Vmap

open PT

variable {K V A O : Type}

/-- An entry of `in_axes` or `out_axes` gives the axis `a` to the leaf `l`. -/
def EntryAxis (s : PT K (AxSpec V O)) (l : Leaf V O) (a : Option Int) : Prop :=
  (s = .none ∧ a = Option.none) ∨ (∃ n, s = .leaf (.int n) ∧ a = some n) ∨
    ∃ f, s = .leaf (.callable f) ∧ f l = .ok a

/-- The leaf at position `π` of `t` gets the axis `a`: the entry found at a prefix of `π` says so. -/
def AxisAt (axes : PT K (AxSpec V O)) (t : Val K V O) (π : List Nat) (a : Option Int) : Prop :=
  ∃ σ ρ s l, π = σ ++ ρ ∧ t.leafAt? π = some l ∧ axes.get? σ = some s ∧ EntryAxis s l a

/-- `axes` fits `t`: it is a prefix of it, `None` counting as a leaf, has no forbidden entries, and its callables
return for all leaves. -/
def Resolvable (axes : PT K (AxSpec V O)) (t : Val K V O) : Prop :=
  IsPrefix (axes.cut isNone) t ∧ (∀ σ, axes.leafAt? σ ≠ some .other) ∧
    ∀ π l, t.leafAt? π = some l → ∃ a, AxisAt axes t π a

/-- The leaf `l` with axis `a` in lane `i`. -/
def inLane (w : World K V A O) (i : Nat) (l : Leaf V O) : Option Int → Leaf V O
  | Option.none => l
  | some ax => match l with
    | .arr v => .arr (w.slice v ax i)
    | .obj o => .obj o

/-- JAX takes the leaf `l` for the array `u`. -/
def IsArr (w : World K V A O) (l : Leaf V O) (u : V) : Prop := l = .arr u ∨ ∃ o, l = .obj o ∧ w.asArray o = some u

/-- `t'` is `t` with every mapped leaf sliced at `i` along its axis and every other leaf whole. -/
def IsLane (w : World K V A O) (axes : PT K (AxSpec V O)) (t : Val K V O) (i : Nat) (t' : Val K V O) : Prop :=
  SameStructure t t' ∧
    ∀ π l, t.leafAt? π = some l → ∃ a, AxisAt axes t π a ∧ t'.leafAt? π = some (inLane w i l a)

/-- Every mapped leaf is an array of size `n` along its axis, and so says `axis_size` if given. -/
def IsBatch (w : World K V A O) (axes : PT K (AxSpec V O)) (axisSize : Option Nat) (t : Val K V O) (n : Nat) : Prop :=
  (∀ m, axisSize = some m → m = n) ∧
    ∀ π ax, AxisAt axes t π (some ax) → ∃ v, t.leafAt? π = some (.arr v) ∧ w.size v ax = some n

/-- No leaf is mapped. -/
def NoMapped (axes : PT K (AxSpec V O)) (t : Val K V O) : Prop := ∀ π a, AxisAt axes t π a → a = Option.none

/-- `out` has the lane `o` at index `i` out of `n`: a leaf with axis `None` is the leaf of the lane; any other
leaf is an array of size `n` along the requested axis, of which the lane is the slice at `i`. -/
def HasLane (w : World K V A O) (axes : PT K (AxSpec V O)) (n i : Nat) (o out : Val K V O) : Prop :=
  SameStructure o out ∧ ∀ π l, o.leafAt? π = some l →
    (AxisAt axes o π Option.none ∧ out.leafAt? π = some l) ∨
    ∃ ax v u, AxisAt axes o π (some ax) ∧ out.leafAt? π = some (.arr v) ∧ IsArr w l u ∧
      w.size v ax = some n ∧ w.slice v ax i = u

/-- What JAX knows of a leaf while tracing. -/
def abstract (w : World K V A O) : Leaf V O → A ⊕ O
  | .arr v => .inl (w.aval v)
  | .obj o => .inr o

/-- The same to JAX while tracing. -/
def Alike (w : World K V A O) (t t' : Val K V O) : Prop := t.map (abstract w) = t'.map (abstract w)

/-- The function can be traced: what it does depends on the values of arrays only through values of arrays. -/
def Traceable (w : World K V A O) (f : Fn K V O) : Prop :=
  ∀ args args' o o', args.map (PT.map (abstract w)) = args'.map (PT.map (abstract w)) →
    f args = .ok o → f args' = .ok o' → Alike w o o'

/-- So can the callables in `out_axes`. -/
def TraceableAxes (w : World K V A O) (axes : PT K (AxSpec V O)) : Prop :=
  ∀ σ f, axes.leafAt? σ = some (.callable f) → ∀ l l', abstract w l = abstract w l' → f l = f l'

/-- The facts used about arrays, and that JAX knows which outputs do not depend on the lane. -/
structure Lawful (w : World K V A O) : Prop where
  slice_aval : ∀ v ax n i j, w.size v ax = some n → i < n → j < n → w.aval (w.slice v ax i) = w.aval (w.slice v ax j)
  stack_size : ∀ xs, xs ≠ [] → (∀ x ∈ xs, ∀ y ∈ xs, w.aval x = w.aval y) → w.size (w.stack xs) 0 = some xs.length
  slice_stack : ∀ xs (i : Nat) x, (∀ x ∈ xs, ∀ y ∈ xs, w.aval x = w.aval y) → xs[i]? = some x →
    w.slice (w.stack xs) 0 i = x
  move_size : ∀ v ax u, w.moveaxis v ax = .ok u → w.size u ax = w.size v 0
  slice_move : ∀ v ax u i n, w.moveaxis v ax = .ok u → w.size v 0 = some n → i < n →
    w.slice u ax i = w.slice v 0 i
  batched_sound : ∀ f lanes outs π, mapE f lanes = .ok outs → w.batched f lanes π = false →
    ∀ o ∈ outs, ∀ o' ∈ outs, o.leafAt? π = o'.leafAt? π

end Verif.Vmap
