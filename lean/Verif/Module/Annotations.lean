import Verif.Dict
import Verif.Basic
import Mathlib.Logic.Basic

/-!
# C102: converters and the annotations of `__init__`

`_ActualModuleMeta.__new__` (`equinox/_module.py`, 295-324): once the class is a dataclass, the annotations of `cls.__init__` for fields with a
converter are replaced by what the converter takes. Functions are objects that classes share; the world has the `__annotations__` of all the
`__init__`s there are.

Simplified: `cls.__init__` is a Python function (built-in ones have no `__annotations__`: `AttributeError`). Which one it is, is decided by
`Verif/Module/WhichInit`; here it is part of the class statement. The annotation of what `__init__` returns is left out. The classes that
`_make_initable` makes for each class repeat the replacement with the same fields and the same `__init__` (`annotate_idem`). A class statement
that raises leaves nothing behind here; in fact the replacements before the error stay, in an `__init__` that is inherited.
-/

namespace Verif.Module.Annotations

/-- What `inspect.signature(converter)` gives: `ValueError` (as for some built-in functions), `TypeError` (not callable), or the parameters with
their annotations, if any. -/
inductive Sig (A : Type) where
  | unknown
  | notCallable
  | params (ps : List (Option A))

/-- A field: its name, type, whether it is a parameter, and the signature of its converter if it has one. -/
structure Field (N A : Type) where
  name : N
  type : A
  init : Bool
  converter : Option (Sig A)

variable {N A : Type} [DecidableEq N]

/-- The annotation for what the converter takes (310-323); `any` is `typing.Any`. -/
def converterAnnotation (any : A) : Sig A → Except Err A
  | .unknown => .ok any
  | .notCallable => .error .typeError
  | .params [] => .ok any
  | .params (some a :: _) => .ok a
  | .params (none :: _) => .ok any

/-- The loop over the fields (302-324). -/
def annotate (any : A) : List (Field N A) → Dict N A → Except Err (Dict N A)
  | [], ann => .ok ann
  | f :: fs, ann =>
    if f.name ∈ ann.keys then
      match f.converter with
      | none => annotate any fs ann
      | some c => do
        let a ← converterAnnotation any c
        annotate any fs (ann.insert f.name a)
    else annotate any fs ann

/-- Where `cls.__init__` comes from: generated for this class, written in its body with these annotations, or found in an ancestor: an earlier
function. -/
inductive InitOf (N A : Type) where
  | generated
  | written (ann : Dict N A)
  | inherited (f : Nat)

/-- A class statement: all fields, inherited ones included, and the `__init__`. -/
structure Stmt (N A : Type) where
  fields : List (Field N A)
  init : InitOf N A

/-- The `__annotations__` of all `__init__`s. -/
abbrev World (N A : Type) := List (Dict N A)

/-- The annotations that `dataclass` gives to the `__init__` it generates. -/
def generatedAnn (fs : List (Field N A)) : Dict N A := (fs.filter (·.init)).map fun f => (f.name, f.type)

/-- Before the loop: a new function for a generated or written `__init__`. -/
def allocate (w : World N A) (s : Stmt N A) : World N A × Nat :=
  match s.init with
  | .generated => (w ++ [generatedAnn s.fields], w.length)
  | .written ann => (w ++ [ann], w.length)
  | .inherited f => (w, f)

/-- A class statement: the new world, and `cls.__init__`. -/
def classStmt (any : A) (w : World N A) (s : Stmt N A) : Except Err (World N A × Nat) := do
  let r := allocate w s
  let ann ← annotate any s.fields (r.1.getD r.2 [])
  pure (r.1.set r.2 ann, r.2)

/-- Class statements one after the other; those that raise define no class. -/
def run (any : A) : World N A → List (Stmt N A) → World N A
  | w, [] => w
  | w, s :: ss => match classStmt any w s with
    | .ok r => run any r.1 ss
    | .error _ => run any w ss

/-! ### Specification -/

/-- What a runtime type checker should be told of a parameter: what the converter takes, or the type of the field. -/
inductive Takes (any : A) (f : Field N A) : A → Prop where
  | plain : f.converter = none → Takes any f f.type
  | typed {a : A} {ps : List (Option A)} : f.converter = some (.params (some a :: ps)) → Takes any f a
  | untyped {ps : List (Option A)} : f.converter = some (.params (none :: ps)) → Takes any f any
  | noParams : f.converter = some (.params []) → Takes any f any
  | unknown : f.converter = some .unknown → Takes any f any

/-! ### Proofs -/

theorem annotate_get {any : A} {fs : List (Field N A)} (hn : (fs.map (·.name)).Nodup) {ann ann' : Dict N A}
    (h : annotate any fs ann = .ok ann') :
    ann'.keys = ann.keys ∧
    (∀ n, (∀ f ∈ fs, f.name = n → f.converter = none) → ann'.get? n = ann.get? n) ∧
    (∀ f ∈ fs, f.name ∈ ann.keys → ∀ c, f.converter = some c → ∃ a, converterAnnotation any c = .ok a ∧ ann'.get? f.name = some a) := by
  induction fs generalizing ann with
  | nil =>
    simp only [annotate, Except.ok.injEq] at h
    subst h
    exact ⟨rfl, fun _ _ => rfl, by simp⟩
  | cons f fs ih =>
    simp only [List.map_cons, List.nodup_cons] at hn
    have hne : ∀ g ∈ fs, g.name ≠ f.name := fun g hg he => hn.1 (List.mem_map.2 ⟨g, hg, he⟩)
    simp only [annotate] at h
    split at h
    · rename_i hm
      split at h
      · rename_i hc
        obtain ⟨a, b, c⟩ := ih hn.2 h
        refine ⟨a, fun n hx => b n (fun g hg => hx g (List.mem_cons_of_mem _ hg)), ?_⟩
        intro g hg hgm k hk
        rcases List.mem_cons.1 hg with rfl | hg
        · rw [hc] at hk; cases hk
        · exact c g hg hgm k hk
      · rename_i c hc
        simp only [bind, Except.bind] at h
        split at h
        · cases h
        · rename_i a ha
          obtain ⟨i1, i2, i3⟩ := ih hn.2 h
          have hkeys : (ann.insert f.name a).keys = ann.keys := Dict.keys_insert_of_mem _ _ _ hm
          refine ⟨i1.trans hkeys, ?_, ?_⟩
          · intro n hx
            have hfn : f.name ≠ n := by
              intro he
              rw [hx f (by simp) he] at hc; cases hc
            rw [i2 n (fun g hg => hx g (List.mem_cons_of_mem _ hg)), Dict.get?_insert, if_neg hfn]
          · intro g hg hgm k hk
            rcases List.mem_cons.1 hg with rfl | hg
            · rw [hc] at hk; cases hk
              refine ⟨a, ha, ?_⟩
              rw [i2 g.name (fun g' hg' he => absurd he (hne g' hg')), Dict.get?_insert, if_pos rfl]
            · exact i3 g hg (by rw [hkeys]; exact hgm) k hk
    · rename_i hm
      obtain ⟨a, b, c⟩ := ih hn.2 h
      refine ⟨a, fun n hx => b n (fun g hg => hx g (List.mem_cons_of_mem _ hg)), ?_⟩
      intro g hg hgm k hk
      rcases List.mem_cons.1 hg with rfl | hg
      · exact absurd hgm hm
      · exact c g hg hgm k hk

theorem annotate_ok {any : A} {fs : List (Field N A)} {ann : Dict N A} :
    (∃ r, annotate any fs ann = .ok r) ↔ ∀ f ∈ fs, f.name ∈ ann.keys → f.converter ≠ some .notCallable := by
  induction fs generalizing ann with
  | nil => simp [annotate]
  | cons f fs ih =>
    simp only [annotate, List.forall_mem_cons]
    split
    · rename_i hm
      cases hc : f.converter with
      | none => simp only [ih]; simp
      | some c =>
        simp only [bind, Except.bind]
        cases hca : converterAnnotation any c with
        | error e =>
          cases c with
          | notCallable => simp [hm]
          | unknown => simp [converterAnnotation] at hca
          | params ps =>
            cases ps with
            | nil => simp [converterAnnotation] at hca
            | cons p ps => cases p <;> simp [converterAnnotation] at hca
        | ok a =>
          have : c ≠ .notCallable := by rintro rfl; simp [converterAnnotation] at hca
          have hkeys : (ann.insert f.name a).keys = ann.keys := Dict.keys_insert_of_mem _ _ _ hm
          simp only [ih, hkeys]
          simp [this]
    · rename_i hm
      simp only [ih]
      simp [hm]

omit [DecidableEq N] in
theorem field_unique {l : List (Field N A)} (hn : (l.map (·.name)).Nodup) {f g : Field N A} (hf : f ∈ l) (hg : g ∈ l)
    (he : g.name = f.name) : g = f := by
  induction l with
  | nil => simp at hf
  | cons x l ih =>
    simp only [List.map_cons, List.nodup_cons] at hn
    rcases List.mem_cons.1 hf with rfl | hf'
    · rcases List.mem_cons.1 hg with rfl | hg'
      · rfl
      · exact absurd (List.mem_map.2 ⟨g, hg', he⟩) hn.1
    · rcases List.mem_cons.1 hg with rfl | hg'
      · exact absurd (List.mem_map.2 ⟨f, hf', he.symm⟩) hn.1
      · exact ih hn.2 hf' hg'

theorem annotate_error {any : A} {fs : List (Field N A)} {ann : Dict N A} {e : Err} (h : annotate any fs ann = .error e) :
    e = .typeError := by
  induction fs generalizing ann with
  | nil => simp [annotate] at h
  | cons f fs ih =>
    simp only [annotate] at h
    split at h
    · split at h
      · exact ih h
      · rename_i c hc
        simp only [bind, Except.bind] at h
        split at h
        · rename_i e' he
          cases h
          cases c with
          | unknown => simp [converterAnnotation] at he
          | notCallable => simp only [converterAnnotation, Except.error.injEq] at he; exact he.symm
          | params ps =>
            cases ps with
            | nil => simp [converterAnnotation] at he
            | cons p ps => cases p <;> simp [converterAnnotation] at he
        · exact ih h
    · exact ih h

/-- Annotating again with the same fields changes nothing. -/
theorem annotate_idem {any : A} {fs : List (Field N A)} (hn : (fs.map (·.name)).Nodup) {ann r : Dict N A} (ha : ann.keys.Nodup)
    (h : annotate any fs ann = .ok r) : annotate any fs r = .ok r := by
  obtain ⟨k1, k2, k3⟩ := annotate_get hn h
  obtain ⟨r', hr'⟩ := (annotate_ok (any := any) (fs := fs) (ann := r)).2 (by
    rw [k1]; exact annotate_ok.1 ⟨r, h⟩)
  obtain ⟨l1, l2, l3⟩ := annotate_get hn hr'
  rw [hr']
  congr 1
  refine Dict.ext_of_keys (by rw [l1, k1]; exact ha) l1 ?_
  intro n
  by_cases hx : ∀ f ∈ fs, f.name = n → f.converter = none
  · exact l2 n hx
  · simp only [not_forall] at hx
    obtain ⟨f, hf, rfl, hc⟩ := hx
    cases hcv : f.converter with
    | none => exact absurd hcv hc
    | some c =>
      by_cases hm : f.name ∈ ann.keys
      · obtain ⟨a, ha, hg⟩ := k3 f hf hm c hcv
        obtain ⟨a', ha', hg'⟩ := l3 f hf (by rw [k1]; exact hm) c hcv
        rw [ha] at ha'; cases ha'
        rw [hg, hg']
      · rw [(Dict.get?_eq_none_iff r' _).2 (by rw [l1, k1]; exact hm), (Dict.get?_eq_none_iff r _).2 (by rw [k1]; exact hm)]

theorem classStmt_spec {any : A} {w : World N A} {s : Stmt N A} {r : World N A × Nat} (h : classStmt any w s = .ok r) :
    r.2 = (allocate w s).2 ∧
    (∃ ann, annotate any s.fields ((allocate w s).1.getD r.2 []) = .ok ann ∧ r.1 = (allocate w s).1.set r.2 ann) := by
  simp only [classStmt, bind, Except.bind, pure, Except.pure] at h
  split at h
  · cases h
  · rename_i ann ha
    cases h
    exact ⟨rfl, ann, ha, rfl⟩

/-- **C102**: the generated `__init__` has exactly the parameters' names annotated, each with what its converter takes, or else with the type of
the field. -/
theorem generated_annotations {any : A} {w w' : World N A} {fs : List (Field N A)} {i : Nat} (hn : (fs.map (·.name)).Nodup)
    (h : classStmt any w ⟨fs, .generated⟩ = .ok (w', i)) :
    i = w.length ∧ w'.length = w.length + 1 ∧ (∀ j, j < w.length → w'[j]? = w[j]?) ∧
    ∃ ann, w'[i]? = some ann ∧ (∀ n, n ∈ ann.keys ↔ ∃ f ∈ fs, f.init = true ∧ f.name = n) ∧
      ∀ f ∈ fs, f.init = true → ∃ a, ann.get? f.name = some a ∧ Takes any f a := by
  obtain ⟨h1, ann, h2, h3⟩ := classStmt_spec h
  simp only [allocate] at h1 h2 h3
  subst h1
  simp only [List.getD_eq_getElem?_getD, List.getElem?_concat_length, Option.getD_some] at h2
  obtain ⟨k1, k2, k3⟩ := annotate_get hn h2
  have hkeys : ∀ n, n ∈ (generatedAnn fs).keys ↔ ∃ f ∈ fs, f.init = true ∧ f.name = n := by
    intro n
    simp only [generatedAnn, Dict.keys, List.map_map, List.mem_map, List.mem_filter, Function.comp]
    constructor
    · rintro ⟨f, ⟨a, b⟩, c⟩; exact ⟨f, a, b, c⟩
    · rintro ⟨f, a, b, c⟩; exact ⟨f, ⟨a, b⟩, c⟩
  have hnd : (generatedAnn fs).keys.Nodup := by
    simp only [generatedAnn, Dict.keys, List.map_map]
    exact hn.sublist (List.filter_sublist.map _)
  refine ⟨rfl, by rw [h3]; simp, ?_, ann, by rw [h3]; simp, by intro n; rw [k1]; exact hkeys n, ?_⟩
  · intro j hj
    rw [h3, List.getElem?_set_ne (by omega), List.getElem?_append_left hj]
  · intro f hf hi
    cases hc : f.converter with
    | none =>
      refine ⟨f.type, ?_, .plain hc⟩
      rw [k2 f.name]
      · refine Dict.get?_of_mem _ hnd ?_
        exact List.mem_map.2 ⟨f, List.mem_filter.2 ⟨hf, hi⟩, rfl⟩
      · intro g hg he
        rw [field_unique hn hf hg he]; exact hc
    | some c =>
      obtain ⟨a, ha, hg⟩ := k3 f hf ((hkeys _).2 ⟨f, hf, hi, rfl⟩) c hc
      refine ⟨a, hg, ?_⟩
      cases c with
      | unknown => simp only [converterAnnotation, Except.ok.injEq] at ha; subst ha; exact .unknown hc
      | notCallable => simp [converterAnnotation] at ha
      | params ps =>
        cases ps with
        | nil => simp only [converterAnnotation, Except.ok.injEq] at ha; subst ha; exact .noParams hc
        | cons p ps =>
          cases p with
          | none => simp only [converterAnnotation, Except.ok.injEq] at ha; subst ha; exact .untyped hc
          | some b => simp only [converterAnnotation, Except.ok.injEq] at ha; subst ha; exact .typed hc

/-- **C102**: the class statement raises exactly if a converter of a parameter is not callable, and then `TypeError`. -/
theorem generated_raises {any : A} {w : World N A} {fs : List (Field N A)} (hn : (fs.map (·.name)).Nodup) :
    ((∃ r, classStmt any w ⟨fs, .generated⟩ = .ok r) ↔ ∀ f ∈ fs, f.init = true → f.converter ≠ some .notCallable) ∧
    ∀ e, classStmt any w ⟨fs, .generated⟩ = .error e → e = .typeError := by
  have hloop : classStmt any w ⟨fs, .generated⟩ =
      (annotate any fs (generatedAnn fs)).map fun ann => ((w ++ [generatedAnn fs]).set w.length ann, w.length) := by
    simp only [classStmt, allocate, bind, Except.bind, pure, Except.pure, List.getD_eq_getElem?_getD, List.getElem?_concat_length,
      Option.getD_some]
    cases annotate any fs (generatedAnn fs) <;> rfl
  constructor
  · have : (∃ r, classStmt any w ⟨fs, .generated⟩ = .ok r) ↔ ∃ r, annotate any fs (generatedAnn fs) = .ok r := by
      rw [hloop]
      cases annotate any fs (generatedAnn fs) <;> simp [Except.map]
    rw [this, annotate_ok]
    have hkeys : ∀ n, n ∈ (generatedAnn fs).keys ↔ ∃ f, (f ∈ fs ∧ f.init = true) ∧ f.name = n := by
      intro n
      simp only [generatedAnn, Dict.keys, List.map_map, List.mem_map, List.mem_filter, Function.comp]
    constructor
    · intro h f hf hi
      exact h f hf ((hkeys _).2 ⟨f, ⟨hf, hi⟩, rfl⟩)
    · intro h f hf hm
      obtain ⟨g, ⟨hg, hi⟩, he⟩ := (hkeys _).1 hm
      rw [← field_unique hn hf hg he]
      exact h g hg hi
  · intro e he
    rw [hloop] at he
    cases ha : annotate any fs (generatedAnn fs) with
    | ok r => rw [ha] at he; cases he
    | error e' => rw [ha] at he; cases he; exact annotate_error ha

/-- **C102**, `__init__`s that the user wrote. Wanted: the class statement leaves their annotations alone. Proved: it leaves alone those of names
that are not fields with a converter; the others are replaced (`written_replaced`). -/
theorem written_annotations_partial {any : A} {w w' : World N A} {fs : List (Field N A)} {ann : Dict N A} {i : Nat}
    (hn : (fs.map (·.name)).Nodup) (h : classStmt any w ⟨fs, .written ann⟩ = .ok (w', i)) :
    ∃ ann', w'[i]? = some ann' ∧ ann'.keys = ann.keys ∧
      ∀ n, (∀ f ∈ fs, f.name = n → f.converter = none) → ann'.get? n = ann.get? n := by
  obtain ⟨h1, ann', h2, h3⟩ := classStmt_spec h
  simp only [allocate] at h1 h2 h3
  subst h1
  simp only [List.getD_eq_getElem?_getD, List.getElem?_concat_length, Option.getD_some] at h2
  obtain ⟨k1, k2, -⟩ := annotate_get hn h2
  exact ⟨ann', by rw [h3]; simp, k1, k2⟩

/-- **C102**, the finding: an annotation of an `__init__` that the user wrote is replaced, if there is a field of that name with a converter. -/
theorem written_replaced {any : A} {w w' : World N A} {fs : List (Field N A)} {ann : Dict N A} {i : Nat}
    (hn : (fs.map (·.name)).Nodup) (h : classStmt any w ⟨fs, .written ann⟩ = .ok (w', i)) {f : Field N A} (hf : f ∈ fs)
    (hm : f.name ∈ ann.keys) (hc : f.converter ≠ none) :
    ∃ ann' a, w'[i]? = some ann' ∧ ann'.get? f.name = some a ∧ Takes any f a := by
  obtain ⟨h1, ann', h2, h3⟩ := classStmt_spec h
  simp only [allocate] at h1 h2 h3
  subst h1
  simp only [List.getD_eq_getElem?_getD, List.getElem?_concat_length, Option.getD_some] at h2
  obtain ⟨-, -, k3⟩ := annotate_get hn h2
  cases hcv : f.converter with
  | none => exact absurd hcv hc
  | some c =>
    obtain ⟨a, ha, hg⟩ := k3 f hf hm c hcv
    refine ⟨ann', a, by rw [h3]; simp, hg, ?_⟩
    cases c with
    | unknown => simp only [converterAnnotation, Except.ok.injEq] at ha; subst ha; exact .unknown hcv
    | notCallable => simp [converterAnnotation] at ha
    | params ps =>
      cases ps with
      | nil => simp only [converterAnnotation, Except.ok.injEq] at ha; subst ha; exact .noParams hcv
      | cons p ps =>
        cases p with
        | none => simp only [converterAnnotation, Except.ok.injEq] at ha; subst ha; exact .untyped hcv
        | some b => simp only [converterAnnotation, Except.ok.injEq] at ha; subst ha; exact .typed hcv

/-- A class statement changes the annotations of no other `__init__`. -/
theorem others_kept {any : A} {w w' : World N A} {s : Stmt N A} {i : Nat} (h : classStmt any w s = .ok (w', i)) {j : Nat}
    (hj : j < w.length) (hi : s.init ≠ .inherited j) : w'[j]? = w[j]? ∧ w.length ≤ w'.length := by
  obtain ⟨h1, ann, -, h3⟩ := classStmt_spec h
  simp only at h1 h3
  cases hs : s.init with
  | generated =>
    simp only [allocate, hs] at h1 h3
    subst h1
    exact ⟨by rw [h3, List.getElem?_set_ne (by omega), List.getElem?_append_left hj], by rw [h3]; simp⟩
  | written a =>
    simp only [allocate, hs] at h1 h3
    subst h1
    exact ⟨by rw [h3, List.getElem?_set_ne (by omega), List.getElem?_append_left hj], by rw [h3]; simp⟩
  | inherited f =>
    simp only [allocate, hs] at h1 h3
    subst h1
    have hne : i ≠ j := by rintro rfl; exact hi hs
    exact ⟨by rw [h3, List.getElem?_set_ne hne], by rw [h3]; simp⟩

/-- **C102**: defining further classes does not change the annotations of an `__init__`. Wanted for all classes; proved if none of them inherits
that `__init__` (where one is generated, every class gets its own, see C83). -/
theorem later_classes_partial {any : A} {w : World N A} {ss : List (Stmt N A)} {j : Nat} (hj : j < w.length)
    (hi : ∀ s ∈ ss, s.init ≠ .inherited j) : (run any w ss)[j]? = w[j]? := by
  induction ss generalizing w with
  | nil => rfl
  | cons s ss ih =>
    have hi' : ∀ s ∈ ss, s.init ≠ .inherited j := fun s hs => hi s (List.mem_cons_of_mem _ hs)
    simp only [run]
    split
    · rename_i r hr
      obtain ⟨a, b⟩ := others_kept (w' := r.1) (i := r.2) hr hj (hi s (by simp))
      rw [ih (by omega) hi', a]
    · exact ih hj hi'

/-- **C102**, the finding: `class A(Module): x: int; def __init__(self, x: int)` and then
`class B(A): x: int = field(converter=f)` with `def f(v: str)`. The definition of `B` changes `A.__init__.__annotations__` from `int` (1) to
`str` (2), although `A` has no converter. -/
theorem inherited_changes :
    let w := run 0 ([] : World Nat Nat) [⟨[⟨7, 1, true, none⟩], .written [(7, 1)]⟩]
    w = [[(7, 1)]] ∧
    run 0 w [⟨[⟨7, 1, true, some (.params [some 2])⟩], .inherited 0⟩] = [[(7, 2)]] := by
  exact ⟨rfl, rfl⟩

/-- The hypotheses can be met: a field with a converter, one with a converter of unknown signature, one without, one that is no parameter. -/
example :
    let fs : List (Field Nat Nat) := [⟨1, 10, true, some (.params [some 5, none])⟩, ⟨2, 20, true, some .unknown⟩, ⟨3, 30, true, none⟩,
      ⟨4, 40, false, some .notCallable⟩]
    (fs.map (·.name)).Nodup ∧ classStmt 0 [] ⟨fs, .generated⟩ = .ok ([[(1, 5), (2, 0), (3, 30)]], 0) ∧
    classStmt 0 [] ⟨fs, .written [(4, 1)]⟩ = .error .typeError := by
  exact ⟨by simp, rfl, rfl⟩

end Verif.Module.Annotations
