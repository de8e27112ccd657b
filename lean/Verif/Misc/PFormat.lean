import Verif.Basic

/-!
# C103: `tree_pformat` (`equinox/_pretty_print.py`, 26-65)

Objects are arrays, `ShapeDtypeStruct`s, functions decorated with `jax.custom_jvp` or `jax.custom_vjp`, `jtu.Partial`s, and all others: a label
with the objects inside. What is made of an object is a document, here a tree of texts; laying it out within `width` is not modelled.

`wadler_lindig.pdoc` (not in /repo) is modelled after its documentation: at every node `custom` is asked first; if it returns nothing, the
object is shown with its own label and the documents of what it contains. `W` says what it shows for arrays and structs by itself, depending on
`short_arrays`, and which value `short_arrays` has if it is not passed.
-/

namespace Verif.PFormat

/-- Objects; `name` is the name of the type. -/
inductive Obj where
  | arr (name dtype : String) (weak : Bool) (shape : List Nat)
  | struct (name dtype : String) (weak : Bool) (shape : List Nat)
  | customD (name : String) (wrapped : Obj)
  | part (name : String) (items : List Obj)
  | node (name label : String) (items : List Obj)

/-- Documents. -/
inductive Doc where
  /-- `wl.TextDoc(f"{name}(...)")` -/
  | truncated (name : String)
  /-- `wl.array_summary(shape, dtype, kind=None)` -/
  | summary (dtype : String) (shape : List Nat)
  /-- a label around documents -/
  | group (label : String) (items : List Doc)

/-- What `wadler_lindig` shows by itself. -/
structure WL where
  array : Bool → String → Bool → List Nat → Doc
  struct : Bool → String → Bool → List Nat → Doc
  /-- a function with attribute `__wrapped__` that is not unwrapped -/
  function : String → Doc
  defaultShort : Bool

/-- `type(obj).__name__`. -/
def Obj.typeName : Obj → String
  | .arr n _ _ _ => n
  | .struct n _ _ _ => n
  | .customD n _ => n
  | .part n _ => n
  | .node n _ _ => n

/-- Options of `tree_pformat`. -/
structure Opts where
  short : Bool
  structAsArray : Bool
  truncate : Obj → Bool

mutual
/-- `wl.pdoc(obj)` without `custom` (57, 61). -/
def pdoc (W : WL) : Obj → Doc
  | .arr _ dt w sh => W.array W.defaultShort dt w sh
  | .struct _ dt w sh => W.struct W.defaultShort dt w sh
  | .customD n _ => W.function n
  | .part _ os => .group "Partial" (pdocs W os)
  | .node _ l os => .group l (pdocs W os)

/-- One after the other. -/
def pdocs (W : WL) : List Obj → List Doc
  | [] => []
  | o :: os => pdoc W o :: pdocs W os
end

/-- `weak_` in front of the dtype of weakly typed arrays (48-51). -/
def dtypeName (dt : String) (weak : Bool) : String := if weak then "weak_" ++ dt else dt

/-- The inner function `custom` (42-61). `_Partial` is a dataclass with the name of `jtu.Partial`. -/
def custom (W : WL) (p : Opts) (o : Obj) : Option Doc :=
  if p.truncate o then some (.truncated o.typeName)
  else match o with
    | .arr _ dt w sh => if p.short then some (.summary (dtypeName dt w) sh) else none
    | .struct _ dt w sh => if p.short && p.structAsArray then some (.summary (dtypeName dt w) sh) else none
    | .customD _ o => some (pdoc W o)
    | .part _ os => some (.group "Partial" (pdocs W os))
    | .node _ _ _ => none

mutual
/-- `wl.pformat(pytree, short_arrays=short_arrays, custom=custom)` (63-65), the document. -/
def format (W : WL) (p : Opts) : Obj → Doc
  | .arr n dt w sh => (custom W p (.arr n dt w sh)).getD (W.array p.short dt w sh)
  | .struct n dt w sh => (custom W p (.struct n dt w sh)).getD (W.struct p.short dt w sh)
  | .customD n o => (custom W p (.customD n o)).getD (W.function n)
  | .part n os => (custom W p (.part n os)).getD (.group "Partial" (formats W p os))
  | .node n l os => (custom W p (.node n l os)).getD (.group l (formats W p os))

/-- One after the other. -/
def formats (W : WL) (p : Opts) : List Obj → List Doc
  | [] => []
  | o :: os => format W p o :: formats W p os
end

/-! ### Specification -/

/-- The name of the type of an object. -/
inductive Named : Obj → String → Prop where
  | arr {n dt : String} {w : Bool} {sh : List Nat} : Named (.arr n dt w sh) n
  | struct {n dt : String} {w : Bool} {sh : List Nat} : Named (.struct n dt w sh) n
  | customD {n : String} {o : Obj} : Named (.customD n o) n
  | part {n : String} {os : List Obj} : Named (.part n os) n
  | node {n l : String} {os : List Obj} : Named (.node n l os) n

mutual
/-- What the documentation of `tree_pprint` promises, at every node: truncated nodes are shown as `name(...)`; otherwise JAX arrays are condensed
to dtype and shape if `short_arrays`, structs as well if `struct_as_array`; decorated functions are shown as the function; everything else with
what it contains. -/
inductive Shows (W : WL) (p : Opts) : Obj → Doc → Prop where
  | truncated {o : Obj} {n : String} : p.truncate o = true → Named o n → Shows W p o (.truncated n)
  | array {n dt : String} {w : Bool} {sh : List Nat} : p.truncate (.arr n dt w sh) = false → p.short = true →
      Shows W p (.arr n dt w sh) (.summary (if w then "weak_" ++ dt else dt) sh)
  | arrayLong {n dt : String} {w : Bool} {sh : List Nat} : p.truncate (.arr n dt w sh) = false → p.short = false →
      Shows W p (.arr n dt w sh) (W.array false dt w sh)
  | struct {n dt : String} {w : Bool} {sh : List Nat} : p.truncate (.struct n dt w sh) = false → p.short = true →
      p.structAsArray = true → Shows W p (.struct n dt w sh) (.summary (if w then "weak_" ++ dt else dt) sh)
  | structLong {n dt : String} {w : Bool} {sh : List Nat} : p.truncate (.struct n dt w sh) = false →
      (p.short = false ∨ p.structAsArray = false) → Shows W p (.struct n dt w sh) (W.struct p.short dt w sh)
  | customD {n : String} {o : Obj} {d : Doc} : p.truncate (.customD n o) = false → Shows W p o d → Shows W p (.customD n o) d
  | part {n : String} {os : List Obj} {ds : List Doc} : p.truncate (.part n os) = false → ShowsAll W p os ds →
      Shows W p (.part n os) (.group "Partial" ds)
  | node {n l : String} {os : List Obj} {ds : List Doc} : p.truncate (.node n l os) = false → ShowsAll W p os ds →
      Shows W p (.node n l os) (.group l ds)

/-- The same for several objects. -/
inductive ShowsAll (W : WL) (p : Opts) : List Obj → List Doc → Prop where
  | nil : ShowsAll W p [] []
  | cons {o : Obj} {os : List Obj} {d : Doc} {ds : List Doc} : Shows W p o d → ShowsAll W p os ds → ShowsAll W p (o :: os) (d :: ds)
end

mutual
/-- There is no `Partial` and no decorated function, unless it is truncated or inside of something truncated. -/
inductive Plain (p : Opts) : Obj → Prop where
  | truncated {o : Obj} : p.truncate o = true → Plain p o
  | arr {n dt : String} {w : Bool} {sh : List Nat} : Plain p (.arr n dt w sh)
  | struct {n dt : String} {w : Bool} {sh : List Nat} : Plain p (.struct n dt w sh)
  | node {n l : String} {os : List Obj} : PlainAll p os → Plain p (.node n l os)

/-- The same for several objects. -/
inductive PlainAll (p : Opts) : List Obj → Prop where
  | nil : PlainAll p []
  | cons {o : Obj} {os : List Obj} : Plain p o → PlainAll p os → PlainAll p (o :: os)
end

/-! ### Properties -/

theorem named_unique {o : Obj} {n m : String} (h : Named o n) (h' : Named o m) : n = m := by
  cases h <;> cases h' <;> rfl

mutual
/-- The documentation determines what is shown. -/
theorem shows_unique {W : WL} {p : Opts} : ∀ {o : Obj} {d d' : Doc}, Shows W p o d → Shows W p o d' → d = d'
  | .arr n dt w sh, d, d', h, h' => by
    cases h with
    | truncated a e =>
      cases h' with
      | truncated b e' => rw [named_unique e e']
      | array b _ => rw [a] at b; cases b
      | arrayLong b _ => rw [a] at b; cases b
    | array a e => cases h' <;> simp_all
    | arrayLong a e => cases h' <;> simp_all
  | .struct n dt w sh, d, d', h, h' => by
    cases h with
    | truncated a e =>
      cases h' with
      | truncated b e' => rw [named_unique e e']
      | struct b _ _ => rw [a] at b; cases b
      | structLong b _ => rw [a] at b; cases b
    | struct a e => cases h' <;> simp_all
    | structLong a e => cases h' <;> simp_all
  | .customD n o, d, d', h, h' => by
    cases h with
    | truncated a e =>
      cases h' with
      | truncated b e' => rw [named_unique e e']
      | customD b _ => rw [a] at b; cases b
    | customD a c =>
      cases h' with
      | truncated b _ => rw [a] at b; cases b
      | customD _ c' => exact shows_unique c c'
  | .part n os, d, d', h, h' => by
    cases h with
    | truncated a e =>
      cases h' with
      | truncated b e' => rw [named_unique e e']
      | part b _ => rw [a] at b; cases b
    | part a c =>
      cases h' with
      | truncated b _ => rw [a] at b; cases b
      | part _ c' => rw [showsAll_unique c c']
  | .node n l os, d, d', h, h' => by
    cases h with
    | truncated a e =>
      cases h' with
      | truncated b e' => rw [named_unique e e']
      | node b _ => rw [a] at b; cases b
    | node a c =>
      cases h' with
      | truncated b _ => rw [a] at b; cases b
      | node _ c' => rw [showsAll_unique c c']

theorem showsAll_unique {W : WL} {p : Opts} : ∀ {os : List Obj} {ds ds' : List Doc}, ShowsAll W p os ds → ShowsAll W p os ds' → ds = ds'
  | [], ds, ds', h, h' => by cases h; cases h'; rfl
  | o :: os, ds, ds', h, h' => by
    cases h with
    | cons a b =>
      cases h' with
      | cons a' b' => rw [shows_unique a a', showsAll_unique b b']
end

mutual
/-- **C103**: objects are shown as documented. Wanted for all; proved for those without `jtu.Partial` and functions decorated with
`custom_jvp` or `custom_vjp` (other than truncated). -/
theorem format_partial {W : WL} {p : Opts} : ∀ {o : Obj}, Plain p o → Shows W p o (format W p o)
  | .arr n dt w sh, _ => by
    simp only [format, custom]
    cases ht : p.truncate (.arr n dt w sh) with
    | true => exact .truncated ht .arr
    | false =>
      cases hs : p.short with
      | true => exact .array ht hs
      | false => exact .arrayLong ht hs
  | .struct n dt w sh, _ => by
    simp only [format, custom]
    cases ht : p.truncate (.struct n dt w sh) with
    | true => exact .truncated ht .struct
    | false =>
      cases hs : p.short with
      | true =>
        cases ha : p.structAsArray with
        | true => exact .struct ht hs ha
        | false => have := Shows.structLong (W := W) ht (.inr ha); rw [hs] at this; exact this
      | false => have := Shows.structLong (W := W) ht (.inl hs); rw [hs] at this; exact this
  | .customD n o, h => by
    cases h with
    | truncated ht => simp only [format, custom, ht, if_true, Option.getD_some]; exact .truncated ht .customD
  | .part n os, h => by
    cases h with
    | truncated ht => simp only [format, custom, ht, if_true, Option.getD_some]; exact .truncated ht .part
  | .node n l os, h => by
    cases ht : p.truncate (.node n l os) with
    | true => simp only [format, custom, ht, if_true, Option.getD_some]; exact .truncated ht .node
    | false =>
      cases h with
      | truncated h => rw [h] at ht; cases ht
      | node h =>
        have := formats_partial (W := W) h
        simp only [format, custom, ht, Bool.false_eq_true, if_false, Option.getD_none]
        exact .node ht this

theorem formats_partial {W : WL} {p : Opts} : ∀ {os : List Obj}, PlainAll p os → ShowsAll W p os (formats W p os)
  | [], _ => by simp only [formats]; exact .nil
  | o :: os, h => by
    cases h with
    | cons a b => simp only [formats]; exact .cons (format_partial a) (formats_partial b)
end

/-- **C103**, the finding: what is inside of a `jtu.Partial` or a decorated function is shown as without any options. -/
theorem options_lost (W : WL) (p q : Opts) {o : Obj} (ho : (∃ n os, o = .part n os) ∨ ∃ n o', o = .customD n o')
    (hp : p.truncate o = false) (hq : q.truncate o = false) : format W p o = format W q o := by
  rcases ho with ⟨n, os, rfl⟩ | ⟨n, o', rfl⟩ <;> simp [format, custom, hp, hq]

/-- **C103** is false of `Partial`s: the array in it is to be truncated, and is not. -/
theorem partial_not_as_documented :
    let p : Opts := ⟨true, false, fun o => o.typeName == "Array"⟩
    let o : Obj := .part "Partial" [.arr "Array" "f32" false [3]]
    ∀ W : WL, W.array W.defaultShort "f32" false [3] ≠ .truncated "Array" → ¬ Shows W p o (format W p o) := by
  intro p o W hne h
  have hd : Shows W p o (.group "Partial" [.truncated "Array"]) :=
    .part rfl (.cons (.truncated (o := .arr "Array" "f32" false [3]) rfl .arr) .nil)
  have := shows_unique h hd
  simp only [format, custom, o, p, Obj.typeName, pdocs, pdoc] at this
  simp only [show ("Partial" == "Array") = false from rfl, Bool.false_eq_true, if_false, Option.getD_some, Doc.group.injEq, true_and,
    List.cons.injEq, and_true] at this
  exact hne this

/-- The hypotheses can be met: a list with an array, a struct and a truncated `Partial`. -/
example (W : WL) :
    let p : Opts := ⟨true, false, fun o => o.typeName == "Partial"⟩
    let o : Obj := .node "list" "[]" [.arr "Array" "i32" true [], .struct "ShapeDtypeStruct" "f32" false [2], .part "Partial" []]
    Plain p o ∧
    format W p o = .group "[]" [.summary "weak_i32" [], W.struct true "f32" false [2], .truncated "Partial"] :=
  ⟨.node (.cons .arr (.cons .struct (.cons (.truncated rfl) .nil))), rfl⟩

end Verif.PFormat
