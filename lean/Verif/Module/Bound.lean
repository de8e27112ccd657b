import Verif.Module.Wrapper
import Verif.Module.InstanceEq
import Verif.Module.Partial

/-!
# Methods of modules (`equinox/_module.py`: 212-214, 619-637, 1032-1055, and `__get__` of the wrappers in `_jit.py` 220-224, `_ad.py` 83-86,
105-108, 1223-1226, `_vmap_pmap.py` 186-190, 508-512)

Attributes are looked up as Python does it: properties of the class first, then the `__dict__` of the instance, then the class. `__getattr__`
and `classmethod` are not modelled.
-/

namespace Verif.Module.Bound

/-- A Python value. -/
abbrev MObj (C K A : Type) := Obj String C K A

/-- What may be in the body of a class. Functions are leaves of pytrees. -/
inductive Member (C K A : Type) where
  | function (f : A)
  /-- `_wrap_method(f)` -/
  | wrapMethod (f : A)
  /-- an instance of one of the wrappers: `filter_jit(...)`, `filter_grad(...)` and so on -/
  | transform (w : MObj C K A)
  | staticmethod (f : A)
  | property (f : A)
  | value (v : MObj C K A)

/-- What is outside of `_module.py`. -/
structure MWorld (C K A : Type) where
  info : Info String C (MObj C K A)
  /-- names like `__call__` -/
  magic : String → Bool
  /-- the body of a class, as it is written -/
  body : C → Dict String (Member C K A)
  mro : C → List C
  /-- the class `BoundMethod` -/
  bound : C
  /-- the class `Partial` -/
  part : C
  tuple : K
  isTuple : K → Bool
  dict : List String → K
  dictKeys : K → Option (List String)
  /-- calling a leaf -/
  apply : A → Callable (MObj C K A)
  /-- Python's own bound methods, which are leaves -/
  method : A → MObj C K A → A
  /-- `getattr` on a function -/
  fnAttr : A → String → Option (MObj C K A)
  propertyObj : A → A
  /-- `__call__` of all other modules -/
  callInst : C → Dict String (MObj C K A) → Callable (MObj C K A)

variable {C K A : Type} [DecidableEq C]

/-- Step 2 of `__new__` (212-214). -/
def install (W : MWorld C K A) (name : String) : Member C K A → Member C K A
  | .function f => if !W.magic name then .wrapMethod f else .function f
  | m => m

/-- `__dict__` of a class. -/
def classDict (W : MWorld C K A) (c : C) : Dict String (Member C K A) := (W.body c).map fun p => (p.1, install W p.1 p.2)

/-- The first entry along the method resolution order. -/
def lookup (W : MWorld C K A) (c : C) (n : String) : Option (Member C K A) := (W.mro c).findSome? fun k => Dict.get? (classDict W k) n

/-- An instance with this `__dict__`. -/
def ofDict (c : C) (d : Dict String (MObj C K A)) : MObj C K A := .inst c (d.map (·.1)) (d.map (·.2))

/-- `_wrap_method.__get__` on an instance (625-637): the fields of the `BoundMethod`, then `_module_update_wrapper` in place. The attributes
of `__wrapped__`, Python's bound method, are those of the function. -/
def wrapMethodGet (W : MWorld C K A) (f : A) (o : MObj C K A) : MObj C K A :=
  ofDict W.bound (copyWrapped (W.fnAttr f) W.info.wrapper [("__func__", .leaf f), ("__self__", o)])

/-- `Partial(self, instance)` -/
def partialGet (W : MWorld C K A) (w o : MObj C K A) : MObj C K A :=
  ofDict W.part [("func", w), ("args", .node W.tuple [o]), ("keywords", .node (W.dict []) [])]

/-- `m.__get__(instance, owner)`, or the object itself if it is not a descriptor. -/
def get (W : MWorld C K A) (o : MObj C K A) : Member C K A → Except Err (MObj C K A)
  | .function f => .ok (.leaf (W.method f o))
  | .wrapMethod f => .ok (wrapMethodGet W f o)
  | .transform w => .ok (partialGet W w o)
  | .staticmethod f => .ok (.leaf f)
  | .property f => W.apply f [o] []
  | .value v => .ok v

/-- `m.__get__(None, owner)` -/
def getNone (W : MWorld C K A) : Member C K A → MObj C K A
  | .function f => .leaf f
  | .wrapMethod f => .leaf f
  | .transform w => w
  | .staticmethod f => .leaf f
  | .property f => .leaf (W.propertyObj f)
  | .value v => v

/-- `o.n` -/
def getAttr (W : MWorld C K A) (o : MObj C K A) (n : String) : Except Err (MObj C K A) :=
  match o with
  | .inst c ns vs =>
    match lookup W c n, Dict.get? (ns.zip vs) n with
    | some (.property f), _ => get W o (.property f)
    | _, some v => .ok v
    | some m, none => get W o m
    | none, none => .error .attributeError
  | _ => .error .attributeError

/-- `cls.n` -/
def classAttr (W : MWorld C K A) (c : C) (n : String) : Except Err (MObj C K A) :=
  match lookup W c n with
  | some m => .ok (getNone W m)
  | none => .error .attributeError

/-- `BoundMethod.__call__` (1041-1043) -/
def callBound (f : Option (Callable (MObj C K A))) (s : Option (MObj C K A)) : Callable (MObj C K A) :=
  match f, s with
  | some f, some s => boundCall f s
  | _, _ => fun _ _ => .error .attributeError

/-- `Partial.__call__` (1172-1185) -/
def callPartial (W : MWorld C K A) (f : Option (Callable (MObj C K A))) (args kwargs : Option (MObj C K A)) : Callable (MObj C K A) :=
  match f, args, kwargs with
  | some f, some (.node k as), some (.node l vs) =>
    match W.isTuple k, W.dictKeys l with
    | true, some ks => Partial.call ⟨f, as, ks.zip vs⟩
    | _, _ => fun _ _ => .error .typeError
  | _, _, _ => fun _ _ => .error .attributeError

mutual
/-- Calling an object. -/
def callObj (W : MWorld C K A) : MObj C K A → Callable (MObj C K A)
  | .leaf a => W.apply a
  | .none => fun _ _ => .error .typeError
  | .node _ _ => fun _ _ => .error .typeError
  | .inst c ns vs =>
    if c = W.bound then callBound (Dict.get? (ns.zip (callL W vs)) "__func__") (Dict.get? (ns.zip vs) "__self__")
    else if c = W.part then
      callPartial W (Dict.get? (ns.zip (callL W vs)) "func") (Dict.get? (ns.zip vs) "args") (Dict.get? (ns.zip vs) "keywords")
    else W.callInst c (ns.zip vs)
/-- `callObj` of each of a list. -/
def callL (W : MWorld C K A) : List (MObj C K A) → List (Callable (MObj C K A))
  | [] => []
  | o :: os => callObj W o :: callL W os
end

/-! ## Properties -/

/-- The class finds `m`, as it is written in some class, under this name. -/
def Finds (W : MWorld C K A) (c : C) (n : String) (m : Member C K A) : Prop :=
  ∃ pre k post, W.mro c = pre ++ k :: post ∧ Dict.get? (W.body k) n = some m ∧ ∀ j ∈ pre, Dict.get? (W.body j) n = none

/-- The classes `BoundMethod` and `Partial` as they are declared (1038-1039, 1157-1159), and containers. -/
structure MWorld.OK (W : MWorld C K A) : Prop where
  ok : W.info.OK
  disjoint : W.info.Disjoint
  bound_fields : W.info.fields W.bound = [⟨"__func__", true⟩, ⟨"__self__", false⟩]
  part_fields : W.info.fields W.part = [⟨"func", false⟩, ⟨"args", false⟩, ⟨"keywords", false⟩]
  ne : W.part ≠ W.bound
  isTuple : W.isTuple W.tuple = true
  dictKeys : W.dictKeys (W.dict []) = some []

omit [DecidableEq C] in
theorem get?_map_install (W : MWorld C K A) (d : Dict String (Member C K A)) (n : String) :
    Dict.get? (d.map fun p => (p.1, install W p.1 p.2)) n = (Dict.get? d n).map (install W n) := by
  induction d with
  | nil => rfl
  | cons p d ih =>
    simp only [List.map_cons, Dict.get?]
    split
    · rename_i h; subst h; rfl
    · exact ih

omit [DecidableEq C] in
theorem lookup_eq {W : MWorld C K A} {c : C} {n : String} {m : Member C K A} (h : Finds W c n m) : lookup W c n = some (install W n m) := by
  obtain ⟨pre, k, post, h1, h2, h3⟩ := h
  rw [lookup, h1, List.findSome?_append]
  have : pre.findSome? (fun k => Dict.get? (classDict W k) n) = none := by
    rw [List.findSome?_eq_none_iff]
    intro j hj
    rw [classDict, get?_map_install, h3 j hj]
    rfl
  rw [this]
  simp only [List.findSome?_cons, classDict, get?_map_install, h2, Option.map_some, Option.none_or]

theorem callL_eq (W : MWorld C K A) (os : List (MObj C K A)) : callL W os = os.map (callObj W) := by
  induction os with
  | nil => rfl
  | cons o os ih => simp [callL, ih]

/-- Calling a `BoundMethod`. -/
theorem callObj_bound (W : MWorld C K A) {ns : List String} {vs : List (MObj C K A)} {f s : MObj C K A}
    (hf : Dict.get? (ns.zip vs) "__func__" = some f) (hs : Dict.get? (ns.zip vs) "__self__" = some s) (args : List (MObj C K A))
    {kwargs : Dict String (MObj C K A)} (hk : "self" ∉ kwargs.keys) :
    callObj W (.inst W.bound ns vs) args kwargs = callObj W f (s :: args) kwargs := by
  rw [callObj, if_pos rfl, callL_eq, get?_zip_map, hf, hs]
  simp only [Option.map_some, callBound]
  exact bound_call _ _ _ hk

/-- Calling a `Partial` with one argument. -/
theorem callObj_part {W : MWorld C K A} (hW : W.OK) {ns : List String} {vs : List (MObj C K A)} {f s : MObj C K A}
    (hf : Dict.get? (ns.zip vs) "func" = some f) (ha : Dict.get? (ns.zip vs) "args" = some (.node W.tuple [s]))
    (hd : Dict.get? (ns.zip vs) "keywords" = some (.node (W.dict []) [])) (args : List (MObj C K A))
    {kwargs : Dict String (MObj C K A)} (hk : "self" ∉ kwargs.keys) :
    callObj W (.inst W.part ns vs) args kwargs = callObj W f (s :: args) kwargs := by
  rw [callObj, if_neg hW.ne, if_pos rfl, callL_eq, get?_zip_map, hf, ha, hd]
  simp only [Option.map_some, callPartial, hW.isTuple, hW.dictKeys, Partial.call, if_neg hk, callStar]
  simp [Dict.keys]

omit [DecidableEq C] in
theorem bound_entry {W : MWorld C K A} (hW : W.OK) (f : A) (o : MObj C K A) {n : String} (hn : n ∉ W.info.wrapper) :
    Dict.get? (copyWrapped (W.fnAttr f) W.info.wrapper [("__func__", .leaf f), ("__self__", o)]) n =
      Dict.get? [("__func__", .leaf f), ("__self__", o)] n := by
  rw [copyWrapped_get, if_neg hn]

omit [DecidableEq C] in
theorem bound_names {W : MWorld C K A} (hW : W.OK) : "__func__" ∉ W.info.wrapper ∧ "__self__" ∉ W.info.wrapper := by
  have := hW.disjoint W.bound
  rw [hW.bound_fields] at this
  exact ⟨this ⟨"__func__", true⟩ (by simp), this ⟨"__self__", false⟩ (by simp)⟩

/-- **C91**: a function in the body of a class, under a name that is not magic, is found on instances as a method: it is called with the
instance first. -/
theorem method_call {W : MWorld C K A} (hW : W.OK) {c : C} {n : String} {f : A} {ns : List String} {vs : List (MObj C K A)}
    (hf : Finds W c n (.function f)) (hm : W.magic n = false) (hown : entry ns vs n = none) :
    ∃ b, getAttr W (.inst c ns vs) n = .ok b ∧
      ∀ args kwargs, "self" ∉ Dict.keys kwargs → callObj W b args kwargs = W.apply f (.inst c ns vs :: args) kwargs := by
  have hl := lookup_eq hf
  simp only [install, hm, Bool.not_false, if_true] at hl
  unfold entry at hown
  refine ⟨wrapMethodGet W f (.inst c ns vs), by simp only [getAttr, hl, hown, get], ?_⟩
  intro args kwargs hk
  have e : ∀ n, n ∉ W.info.wrapper → _ := fun n hn => bound_entry hW f (.inst c ns vs) (n := n) hn
  rw [wrapMethodGet, ofDict, callObj_bound W (f := .leaf f) (s := .inst c ns vs) _ _ _ hk]
  · rfl
  · rw [zip_fst_snd, e _ (bound_names hW).1]; rfl
  · rw [zip_fst_snd, e _ (bound_names hW).2]; rfl

omit [DecidableEq C] in
/-- **C91**: a method has the name, the documentation etc. of its function, if that has them. -/
theorem method_metadata {W : MWorld C K A} (hW : W.OK) {c : C} {n : String} {f : A} {ns : List String} {vs : List (MObj C K A)}
    (hf : Finds W c n (.function f)) (hm : W.magic n = false) (hown : entry ns vs n = none) :
    ∃ ms us, getAttr W (.inst c ns vs) n = .ok (.inst W.bound ms us) ∧
      ∀ a ∈ W.info.wrapper, getattr W.info W.bound (ms.zip us) a = (W.fnAttr f a).or (W.info.classAttr W.bound a) := by
  have hl := lookup_eq hf
  simp only [install, hm, Bool.not_false, if_true] at hl
  unfold entry at hown
  refine ⟨_, _, by simp only [getAttr, hl, hown, get, wrapMethodGet, ofDict]; rfl, ?_⟩
  intro a ha
  have m1 : "__func__" ≠ a := fun h => (bound_names hW).1 (h ▸ ha)
  have m2 : "__self__" ≠ a := fun h => (bound_names hW).2 (h ▸ ha)
  rw [zip_fst_snd, getattr, copyWrapped_get, if_pos ha]
  simp only [Dict.get?, if_neg m1, if_neg m2]
  cases W.fnAttr f a <;> rfl

/-- **C91**: a decorated function is called with the instance first, too. -/
theorem decorated_call {W : MWorld C K A} (hW : W.OK) {c : C} {n : String} {w : MObj C K A} {ns : List String} {vs : List (MObj C K A)}
    (hf : Finds W c n (.transform w)) (hown : entry ns vs n = none) :
    ∃ b, getAttr W (.inst c ns vs) n = .ok b ∧
      ∀ args kwargs, "self" ∉ Dict.keys kwargs → callObj W b args kwargs = callObj W w (.inst c ns vs :: args) kwargs := by
  have hl := lookup_eq hf
  simp only [install] at hl
  unfold entry at hown
  refine ⟨partialGet W w (.inst c ns vs), by simp only [getAttr, hl, hown, get], ?_⟩
  intro args kwargs hk
  exact callObj_part hW rfl rfl rfl args hk

omit [DecidableEq C] in
/-- **C91**: on the class itself the function and the decorated function are what was written. -/
theorem class_access {W : MWorld C K A} {c : C} {n : String} :
    (∀ f, Finds W c n (.function f) → classAttr W c n = .ok (.leaf f)) ∧
    (∀ w, Finds W c n (.transform w) → classAttr W c n = .ok w) ∧
    (∀ f, Finds W c n (.staticmethod f) → classAttr W c n = .ok (.leaf f)) ∧
    (∀ v, Finds W c n (.value v) → classAttr W c n = .ok v) := by
  refine ⟨fun f h => ?_, fun w h => ?_, fun f h => ?_, fun v h => ?_⟩ <;>
    (simp only [classAttr, lookup_eq h, install]; try rfl)
  cases W.magic n <;> rfl

omit [DecidableEq C] in
/-- **C91**: static methods, other objects, properties and magic methods are Python's own; an attribute of the instance hides all of them except
properties. -/
theorem other_access {W : MWorld C K A} {c : C} {n : String} {ns : List String} {vs : List (MObj C K A)} :
    (∀ f, Finds W c n (.property f) → getAttr W (.inst c ns vs) n = W.apply f [.inst c ns vs] []) ∧
    (∀ m v, Finds W c n m → (∀ f, m ≠ .property f) → entry ns vs n = some v → getAttr W (.inst c ns vs) n = .ok v) ∧
    (entry ns vs n = none →
      (∀ f, Finds W c n (.staticmethod f) → getAttr W (.inst c ns vs) n = .ok (.leaf f)) ∧
      (∀ v, Finds W c n (.value v) → getAttr W (.inst c ns vs) n = .ok v) ∧
      (∀ f, Finds W c n (.function f) → W.magic n = true → getAttr W (.inst c ns vs) n = .ok (.leaf (W.method f (.inst c ns vs))))) := by
  unfold entry
  refine ⟨fun f h => ?_, fun m v h hp hv => ?_, fun hown => ⟨fun f h => ?_, fun v h => ?_, fun f h hm => ?_⟩⟩
  · simp only [getAttr, lookup_eq h, install]; rfl
  · simp only [getAttr, lookup_eq h, hv]
    cases m with
    | property f => exact absurd rfl (hp f)
    | function f => simp only [install]; cases W.magic n <;> rfl
    | _ => rfl
  · simp only [getAttr, lookup_eq h, install, hown, get]
  · simp only [getAttr, lookup_eq h, install, hown, get]
  · simp only [getAttr, lookup_eq h, install, hm, Bool.not_true, Bool.false_eq_true, if_false, hown, get]

omit [DecidableEq C] in
/-- A `BoundMethod` of a function and an instance, taken apart. -/
theorem flatten_bound {W : MWorld C K A} (hW : W.OK) {d : Dict String (MObj C K A)} {f s : MObj C K A}
    (hf : d.get? "__func__" = some f) (hs : d.get? "__self__" = some s) :
    (flattenModule W.info W.bound d).1 = [s] ∧ (flattenModule W.info W.bound d).2.dynamicNames = ["__self__"] ∧
    (flattenModule W.info W.bound d).2.staticNames = ["__func__"] ∧ (flattenModule W.info W.bound d).2.staticValues = [f] := by
  simp [flattenModule, hW.bound_fields, flattenFields, hf, hs]

omit [DecidableEq C] in
theorem flatten_part {W : MWorld C K A} (hW : W.OK) {d : Dict String (MObj C K A)} {f a k : MObj C K A}
    (hf : d.get? "func" = some f) (ha : d.get? "args" = some a) (hk : d.get? "keywords" = some k) :
    (flattenModule W.info W.part d).1 = [f, a, k] ∧ (flattenModule W.info W.part d).2.dynamicNames = ["func", "args", "keywords"] ∧
    (flattenModule W.info W.part d).2.staticNames = [] ∧ (flattenModule W.info W.part d).2.staticValues = [] := by
  simp [flattenModule, hW.part_fields, flattenFields, hf, ha, hk]

omit [DecidableEq C] in
theorem toPT_bound {W : MWorld C K A} (hW : W.OK) (f : A) (o : MObj C K A) :
    ∃ aux, toPT W.info id (wrapMethodGet W f o) = .node (.module W.bound aux) [toPT W.info id o] := by
  have h1 := bound_entry hW f o (bound_names hW).1
  have h2 := bound_entry hW f o (bound_names hW).2
  refine ⟨_, by rw [wrapMethodGet, ofDict, toPT_inst, zip_fst_snd, (flatten_bound hW h1 h2).1]; rfl⟩

omit [DecidableEq C] in
theorem toPT_part {W : MWorld C K A} (hW : W.OK) (w o : MObj C K A) :
    ∃ aux, toPT W.info id (partialGet W w o) =
      .node (.module W.part aux) [toPT W.info id w, .node (.base W.tuple) [toPT W.info id o], .node (.base (W.dict [])) []] := by
  refine ⟨_, by
    rw [partialGet, ofDict, toPT_inst, zip_fst_snd, (flatten_part hW rfl rfl rfl).1]
    simp [toPT, toPTL]; rfl⟩

/-! ### As pytrees -/

omit [DecidableEq C] in
/-- **C91**: the leaves of a method are the leaves of its instance; those of a decorated method are the leaves of the decorated function and then
those of the instance. -/
theorem method_leaves {W : MWorld C K A} (hW : W.OK) {c : C} {n : String} {ns : List String} {vs : List (MObj C K A)}
    (hown : entry ns vs n = none) :
    (∀ f, Finds W c n (.function f) → W.magic n = false → ∃ b, getAttr W (.inst c ns vs) n = .ok b ∧
      (treeFlatten W.info b).1 = (treeFlatten W.info (.inst c ns vs)).1) ∧
    (∀ w, Finds W c n (.transform w) → ∃ b, getAttr W (.inst c ns vs) n = .ok b ∧
      (treeFlatten W.info b).1 = (treeFlatten W.info w).1 ++ (treeFlatten W.info (.inst c ns vs)).1) := by
  unfold entry at hown
  constructor
  · intro f h hm
    refine ⟨wrapMethodGet W f (.inst c ns vs), by simp [getAttr, lookup_eq h, install, hm, hown, get], ?_⟩
    obtain ⟨aux, h⟩ := toPT_bound hW f (.inst c ns vs)
    simp [treeFlatten, h, PT.leaves, PT.leavesL]
  · intro w h
    refine ⟨partialGet W w (.inst c ns vs), by simp [getAttr, lookup_eq h, install, hown, get], ?_⟩
    obtain ⟨aux, h⟩ := toPT_part hW w (.inst c ns vs)
    simp [treeFlatten, h, PT.leaves, PT.leavesL]

omit [DecidableEq C] in
theorem unflatten_of_shape {info : Info String C (MObj C K A)} {o : MObj C K A} {t : PT (Key String C K (MObj C K A)) A}
    (h : t.shape = (toPT info id o).shape) : treeUnflattenObj (treeFlatten info o).2 t.leaves = .ok (fromPT t) := by
  have := PT.fill_shape t []
  rw [List.append_nil] at this
  simp only [treeUnflattenObj, treeFlatten, ← h, this]
  rfl

omit [DecidableEq C] in
/-- The structure of a method does not depend on the instance. -/
theorem bound_aux {W : MWorld C K A} (hW : W.OK) (f : A) (o o' : MObj C K A) :
    (flattenModule W.info W.bound (copyWrapped (W.fnAttr f) W.info.wrapper [("__func__", .leaf f), ("__self__", o)])).2 =
    (flattenModule W.info W.bound (copyWrapped (W.fnAttr f) W.info.wrapper [("__func__", .leaf f), ("__self__", o')])).2 := by
  obtain ⟨n1, n2⟩ := bound_names hW
  have hw : wrapperFields (getattr W.info W.bound (copyWrapped (W.fnAttr f) W.info.wrapper [("__func__", .leaf f), ("__self__", o)])) W.info.wrapper =
      wrapperFields (getattr W.info W.bound (copyWrapped (W.fnAttr f) W.info.wrapper [("__func__", .leaf f), ("__self__", o')])) W.info.wrapper := by
    refine wrapperFields_congr fun n hn => ?_
    have m1 : "__func__" ≠ n := fun h => n1 (h ▸ hn)
    have m2 : "__self__" ≠ n := fun h => n2 (h ▸ hn)
    simp only [getattr, copyWrapped_get, if_pos hn, Dict.get?, if_neg m1, if_neg m2]
  have h1 := bound_entry hW f o n1
  have h2 := bound_entry hW f o n2
  have h3 := bound_entry hW f o' n1
  have h4 := bound_entry hW f o' n2
  obtain ⟨-, a1, a2, a3⟩ := flatten_bound hW (f := .leaf f) (s := o) h1 h2
  obtain ⟨-, b1, b2, b3⟩ := flatten_bound hW (f := .leaf f) (s := o') h3 h4
  simp only [flattenModule] at a1 a2 a3 b1 b2 b3 ⊢
  rw [a1, a2, a3, b1, b2, b3, hw]

omit [DecidableEq C] in
/-- An instance with other leaves has no more attributes of its own. -/
theorem own_none {W : MWorld C K A} (hW : W.OK) {c : C} {n : String} {ns : List String} {vs : List (MObj C K A)} (hown : entry ns vs n = none)
    (hn : n ∉ W.info.wrapper) {t : PT (Key String C K (MObj C K A)) A} (ht : t.shape = (toPT W.info id (.inst c ns vs)).shape) :
    ∃ ns' vs', fromPT t = .inst c ns' vs' ∧ entry ns' vs' n = none := by
  unfold entry at hown
  rw [toPT_inst, PT.shape_node] at ht
  cases t with
  | leaf a => simp [PT.shape, PT.map] at ht
  | none => simp [PT.shape, PT.map] at ht
  | node k cs =>
    rw [PT.shape_node] at ht
    simp only [PT.node.injEq] at ht
    obtain ⟨rfl, hcs⟩ := ht
    refine ⟨_, _, rfl, ?_⟩
    rw [entry, zip_fst_snd, Aux.map_id, fromPTL_eq]
    have hlen : (cs.map fromPT).length = (flattenModule W.info c (ns.zip vs)).1.length := by
      have := congrArg List.length hcs
      simpa using this
    have hg := (unflatten_get hW.ok (c := c) (d := ns.zip vs) hlen n).2 (.inl hn)
    by_cases h1 : IsStat W.info c n
    · rw [hg.1 h1]; exact hown
    · by_cases h2 : IsDyn W.info c n
      · rw [hg.2.1 h2]
        cases hv : Dict.get? ((flattenModule W.info c (ns.zip vs)).2.dynamicNames.zip (cs.map fromPT)) n with
        | none => rfl
        | some v =>
          have hm := (List.of_mem_zip (Dict.mem_of_get? _ hv)).1
          simp only [flattenModule] at hm
          obtain ⟨p, hp, hp'⟩ := List.mem_map.1 hm
          have := flattenFields_mem (.inl hp)
          rw [hp', hown] at this
          cases this
      · exact hg.2.2 h2 h1

/-- **C91**: methods are pytrees. Taken apart and put together with other leaves, `m.n` is the method `n` of the instance with these leaves:
it has the same structure and leaves, and calls the function with that instance. -/
theorem method_map {W : MWorld C K A} (hW : W.OK) {c : C} {n : String} {f : A} {ns : List String} {vs : List (MObj C K A)} {b : MObj C K A}
    (hf : Finds W c n (.function f)) (hm : W.magic n = false) (hown : entry ns vs n = none) (hn : n ∉ W.info.wrapper)
    (hb : getAttr W (.inst c ns vs) n = .ok b) {xs : List A} (hl : xs.length = (treeFlatten W.info (.inst c ns vs)).1.length) :
    ∃ m' b' b'', treeUnflattenObj (treeFlatten W.info (.inst c ns vs)).2 xs = .ok m' ∧
      treeUnflattenObj (treeFlatten W.info b).2 xs = .ok b' ∧ getAttr W m' n = .ok b'' ∧
      treeFlatten W.info b' = treeFlatten W.info b'' ∧
      ∀ args kwargs, "self" ∉ Dict.keys kwargs →
        callObj W b' args kwargs = W.apply f (m' :: args) kwargs ∧ callObj W b'' args kwargs = W.apply f (m' :: args) kwargs := by
  have hl' := lookup_eq hf
  simp only [install, hm, Bool.not_false, if_true] at hl'
  have hb' : wrapMethodGet W f (.inst c ns vs) = b := by
    unfold entry at hown
    simp only [getAttr, hl', hown, get, Except.ok.injEq] at hb
    exact hb
  subst hb'
  obtain ⟨t, ht, rfl⟩ := PT.exists_fill (toPT W.info id (.inst c ns vs)) xs hl
  obtain ⟨ns', vs', e1, e2⟩ := own_none hW hown hn ht
  obtain ⟨n1, n2⟩ := bound_names hW
  let D : MObj C K A → Dict String (MObj C K A) := fun o => copyWrapped (W.fnAttr f) W.info.wrapper [("__func__", .leaf f), ("__self__", o)]
  have eD : ∀ o, toPT W.info id (wrapMethodGet W f o) = .node (.module W.bound (flattenModule W.info W.bound (D o)).2) [toPT W.info id o] := by
    intro o
    have h1 := bound_entry hW f o n1
    have h2 := bound_entry hW f o n2
    rw [wrapMethodGet, ofDict, toPT_inst, zip_fst_snd, (flatten_bound hW h1 h2).1, Aux.map_id]
    rfl
  let tb : PT (Key String C K (MObj C K A)) A := .node (.module W.bound (flattenModule W.info W.bound (D (.inst c ns vs))).2) [t]
  have hs : tb.shape = (toPT W.info id (wrapMethodGet W f (.inst c ns vs))).shape := by
    rw [eD, PT.shape_node, PT.shape_node]
    simp [ht]
  have hleaves : tb.leaves = t.leaves := by simp [tb, PT.leaves, PT.leavesL]
  refine ⟨fromPT t, fromPT tb, wrapMethodGet W f (fromPT t), unflatten_of_shape ht, ?_, ?_, ?_, ?_⟩
  · rw [← hleaves]; exact unflatten_of_shape hs
  · rw [e1]
    unfold entry at e2
    simp only [getAttr, hl', e2, get]
  · have h1 : toPT W.info id (fromPT tb) = toPT W.info id (wrapMethodGet W f (fromPT t)) := by
      rw [toPT_fromPT hW.ok hW.disjoint _ _ hs, eD, toPT_fromPT hW.ok hW.disjoint _ _ ht]
      simp only [tb, D]
      rw [bound_aux hW f (.inst c ns vs) (fromPT t)]
    simp only [treeFlatten, h1]
  · intro args kwargs hk
    have h1 := bound_entry hW f (.inst c ns vs) n1
    have h2 := bound_entry hW f (.inst c ns vs) n2
    have hfl := flatten_bound hW (f := .leaf f) (s := .inst c ns vs) h1 h2
    constructor
    · have hlen : [fromPT t].length = (flattenModule W.info W.bound (D (.inst c ns vs))).1.length := by rw [hfl.1]; rfl
      have g1 := ((unflatten_get hW.ok (c := W.bound) (d := D (.inst c ns vs)) hlen "__func__").2 (.inl n1)).1
        ⟨⟨"__func__", true⟩, by rw [hW.bound_fields]; simp, rfl, rfl⟩
      have g2 := ((unflatten_get hW.ok (c := W.bound) (d := D (.inst c ns vs)) hlen "__self__").2 (.inl n2)).2.1
        ⟨⟨"__self__", false⟩, by rw [hW.bound_fields]; simp, rfl, rfl⟩
      simp only [tb, fromPT, fromPTL]
      rw [callObj_bound W (f := .leaf f) (s := fromPT t) _ _ _ hk]
      · rfl
      · rw [zip_fst_snd, g1]; exact h1
      · rw [zip_fst_snd, g2, hfl.2.1]; rfl
    · have h3 := bound_entry hW f (fromPT t) n1
      have h4 := bound_entry hW f (fromPT t) n2
      rw [wrapMethodGet, ofDict, callObj_bound W (f := .leaf f) (s := fromPT t) _ _ _ hk]
      · rfl
      · rw [zip_fst_snd]; exact h3
      · rw [zip_fst_snd]; exact h4

/-- **C91**: so are decorated methods. With other leaves, the decorated function with its part of them is called on the instance with the rest. -/
theorem decorated_map {W : MWorld C K A} (hW : W.OK) {c : C} {n : String} {w : MObj C K A} {ns : List String} {vs : List (MObj C K A)} {b : MObj C K A}
    (hf : Finds W c n (.transform w)) (hown : entry ns vs n = none) (hb : getAttr W (.inst c ns vs) n = .ok b) {xs ys : List A}
    (hx : xs.length = (treeFlatten W.info w).1.length) (hy : ys.length = (treeFlatten W.info (.inst c ns vs)).1.length) :
    ∃ w' m' b', treeUnflattenObj (treeFlatten W.info w).2 xs = .ok w' ∧
      treeUnflattenObj (treeFlatten W.info (.inst c ns vs)).2 ys = .ok m' ∧
      treeUnflattenObj (treeFlatten W.info b).2 (xs ++ ys) = .ok b' ∧
      ∀ args kwargs, "self" ∉ Dict.keys kwargs → callObj W b' args kwargs = callObj W w' (m' :: args) kwargs := by
  have hl' := lookup_eq hf
  simp only [install] at hl'
  have hb' : partialGet W w (.inst c ns vs) = b := by
    unfold entry at hown
    simp only [getAttr, hl', hown, get, Except.ok.injEq] at hb
    exact hb
  subst hb'
  obtain ⟨t, ht, rfl⟩ := PT.exists_fill (toPT W.info id w) xs hx
  obtain ⟨u, hu, rfl⟩ := PT.exists_fill (toPT W.info id (.inst c ns vs)) ys hy
  let D : Dict String (MObj C K A) := [("func", w), ("args", .node W.tuple [.inst c ns vs]), ("keywords", .node (W.dict []) [])]
  have hfl := flatten_part hW (d := D) rfl rfl rfl
  have eD : toPT W.info id (partialGet W w (.inst c ns vs)) = .node (.module W.part (flattenModule W.info W.part D).2)
      [toPT W.info id w, .node (.base W.tuple) [toPT W.info id (.inst c ns vs)], .node (.base (W.dict [])) []] := by
    rw [partialGet, ofDict, toPT_inst, zip_fst_snd, Aux.map_id]
    rw [hfl.1]
    simp [toPT, toPTL, D]
  let tb : PT (Key String C K (MObj C K A)) A := .node (.module W.part (flattenModule W.info W.part D).2)
    [t, .node (.base W.tuple) [u], .node (.base (W.dict [])) []]
  have hs : tb.shape = (toPT W.info id (partialGet W w (.inst c ns vs))).shape := by
    rw [eD, PT.shape_node, PT.shape_node]
    simp [ht, hu, PT.shape_node]
  have hleaves : tb.leaves = t.leaves ++ u.leaves := by simp [tb, PT.leaves, PT.leavesL]
  refine ⟨fromPT t, fromPT u, fromPT tb, unflatten_of_shape ht, unflatten_of_shape hu, ?_, ?_⟩
  · rw [← hleaves]; exact unflatten_of_shape hs
  · intro args kwargs hk
    have hdis := hW.disjoint W.part
    rw [hW.part_fields] at hdis
    have hlen : [fromPT t, .node W.tuple [fromPT u], .node (W.dict []) []].length = (flattenModule W.info W.part D).1.length := by
      rw [hfl.1]; rfl
    have g : ∀ n, (⟨n, false⟩ : Field String) ∈ W.info.fields W.part → _ := fun n hn =>
      ((unflatten_get hW.ok (c := W.part) (d := D) hlen n).2 (.inl (hW.disjoint W.part _ hn))).2.1 ⟨_, hn, rfl, rfl⟩
    rw [hW.part_fields, hfl.2.1] at g
    simp only [tb, fromPT, fromPTL]
    refine callObj_part hW (f := fromPT t) (s := fromPT u) ?_ ?_ ?_ args hk
    · rw [zip_fst_snd, g "func" (by simp)]; rfl
    · rw [zip_fst_snd, g "args" (by simp)]; rfl
    · rw [zip_fst_snd, g "keywords" (by simp)]; rfl

namespace BoundToy

/-- Numbers are leaves and the functions 100 and 101. Class 2 has the method `f`, the decorated `g` and a field `x`; class 3 is a wrapper. Class 4
inherits from 2. -/
def W : MWorld Nat (Option (List String)) Nat where
  info := ⟨fun c => if c = 0 then [⟨"__func__", true⟩, ⟨"__self__", false⟩]
    else if c = 1 then [⟨"func", false⟩, ⟨"args", false⟩, ⟨"keywords", false⟩]
    else if c = 3 then [⟨"fun", false⟩] else [⟨"x", false⟩], ["__name__", "__doc__"], fun _ _ => none⟩
  magic := fun n => n == "__call__"
  body := fun c => if c = 2 then [("f", .function 100), ("g", .transform (.inst 3 ["fun"] [.leaf 101])), ("__call__", .function 100)] else []
  mro := fun c => if c = 4 then [4, 2] else [c]
  bound := 0
  part := 1
  tuple := none
  isTuple := Option.isNone
  dict := some
  dictKeys := id
  apply := fun a args _ => .ok (.node none (.leaf a :: args))
  method := fun a _ => a + 1000
  fnAttr := fun a n => if n = "__name__" then some (.leaf a) else none
  propertyObj := id
  callInst := fun _ d args _ => .ok (.node none (((Dict.get? d "fun").getD .none) :: args))

def m : MObj Nat (Option (List String)) Nat := .inst 4 ["x"] [.leaf 7]

example : W.OK where
  ok := by
    refine ⟨fun c => ?_, by simp [W]⟩
    simp only [W]
    split
    · simp
    · split
      · simp
      · split <;> simp
  disjoint := by
    intro c f hf
    simp only [W] at hf ⊢
    split at hf
    · simp at hf; rcases hf with rfl | rfl <;> simp
    · split at hf
      · simp at hf; rcases hf with rfl | rfl | rfl <;> simp
      · split at hf <;> (simp at hf; subst hf; simp)
  bound_fields := rfl
  part_fields := rfl
  ne := by simp [W]
  isTuple := rfl
  dictKeys := rfl

example : Finds W 4 "f" (.function 100) ∧ Finds W 4 "g" (.transform (.inst 3 ["fun"] [.leaf 101])) :=
  ⟨⟨[4], 2, [], rfl, rfl, by simp [W, Dict.get?]⟩, ⟨[4], 2, [], rfl, rfl, by simp [W, Dict.get?]⟩⟩

/-- The method with other leaves is the method of the other instance. -/
example : getAttr W m "f" = .ok (.inst 0 ["__func__", "__self__", "__name__"] [.leaf 100, m, .leaf 100]) ∧
    treeFlatten W.info (.inst 0 ["__func__", "__self__", "__name__"] [.leaf 100, m, .leaf 100]) = ([7], .node (.module 0
      ⟨["__self__"], ["__func__"], [.leaf 100], ["__name__"], [.leaf 100]⟩) [.node (.module 4 ⟨["x"], [], [], [], []⟩) [.leaf ()]]) ∧
    callObj W (.inst 0 ["__func__", "__self__", "__name__"] [.leaf 100, m, .leaf 100]) [.leaf 1] [] = .ok (.node none [.leaf 100, m, .leaf 1]) :=
  ⟨rfl, rfl, rfl⟩

end BoundToy

end Verif.Module.Bound
