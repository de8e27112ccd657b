import Verif.Enum.Props
import Verif.Errors.Props

/-!
# Enumeration items under `jit` and `vmap`, and their errors (`equinox/_enum.py`, 122-133, 142-199, 293-373)

The value of an item is an array, which may be traced (see `Verif.Errors.Traced`): under `jax.vmap` the elements of the batch may
be different items. As an `EnumerationItem` is a pytree, its value may also be replaced by anything with `jax.tree_map`.

Simplified: comparisons and `where` are modelled with one traced operand (the item, or the predicate), the other items having
concrete values, as `RESULTS.success` has. `_index_to_message` and `_base_offsets` are those of `Verif.Enum.Model`.
-/

namespace Verif
namespace Enum
namespace Lanes

open Errors NN

/-- An elementwise operation on a traced array. -/
def tmap {α β : Type} (f : α → β) : Traced α → Traced β
  | .array a => .array ⟨a.shape, fun i => f (a.at_ i)⟩
  | .batched x axis => .batched (tmap f x) axis
  | .jitted x => .jitted (tmap f x)

/-- The attribute `_value`: an array, or something put there by `jax.tree_map`. -/
inductive Value where
  | arr (t : Traced Int)
  | obj
deriving Inhabited

/-- An `EnumerationItem` (142-146). -/
structure TItem where
  value : Value
  cls : Nat

/-- Something that is compared with an item. -/
inductive Operand where
  | item (i : Item)
  | obj

variable {N : Type} [DecidableEq N]

/-- `_value.item()`: `ValueError` unless there is one entry. -/
def theItem (a : NArr Int) : Except Err Int :=
  match indices a.shape with
  | [i] => .ok (a.at_ i)
  | _ => .error .valueError

/-- `cls[item]` (122-133). -/
def tMessage (env : List (Cls N String)) (c : Nat) (item : TItem) : Except Err String :=
  if item.cls ≠ c then .error .valueError
  else match item.value with
    | .obj => .ok "unknown"
    | .arr (.array a) => do
      let v ← theItem a
      match env[c]? with
      | none => .error .attributeError
      | some k => pyIndex k.tab.msgs v
    | .arr _ => .ok "traced"

/-- `is_traced` (198-199). -/
def isTraced (item : TItem) : Bool :=
  match item.value with
  | .arr t => t.isTracer
  | .obj => false

/-- `isinstance(value, cls)` (138-139) for an item. -/
def isInstance (c : Nat) (item : TItem) : Bool := item.cls == c

/-- `item == other` (153-160). -/
def tEq (a : TItem) (b : Operand) : Except Err (Traced Bool) :=
  match b with
  | .obj => .error .valueError
  | .item b =>
    if a.cls = b.cls then
      match a.value with
      | .arr t => .ok (tmap (fun v => v == (b.value : Int)) t)
      | .obj => .error .typeError
    else .error .valueError

/-- `item != other` (162-169). -/
def tNe (a : TItem) (b : Operand) : Except Err (Traced Bool) :=
  match b with
  | .obj => .error .valueError
  | .item b =>
    if a.cls = b.cls then
      match a.value with
      | .arr t => .ok (tmap (fun v => v != (b.value : Int)) t)
      | .obj => .error .typeError
    else .error .valueError

/-- `jnp.asarray(off)[v]`: negative indices count from the end, others out of range are clamped. -/
def gather (off : List Nat) (v : Int) : Int :=
  let j := if v < 0 then v + off.length else v
  (off.getD (min j.toNat (off.length - 1)) 0 : Nat)

/-- `cls.promote(item)` (293-332). -/
def tPromote (env : List (Cls N String)) (c : Nat) (item : TItem) : Except Err TItem :=
  if isSubclass env c item.cls = false ∨ item.cls = c then .error .valueError
  else match (env[c]?).bind (fun k => k.offsets.get? item.cls) with
    | none => .error .keyError
    | some off =>
      match item.value with
      | .arr t => .ok ⟨.arr (tmap (gather off) t), c⟩
      | .obj => .error .typeError

/-- The predicate of `where`: whether it is a scalar boolean is known at trace time. -/
inductive WherePred where
  | bool (t : Traced Bool)
  | other

/-- `jnp.shape(pred) == ()`. -/
def isScalar {α : Type} : Traced α → List Nat → Bool
  | .array a, axes => a.shape.length == axes.length
  | .batched x axis, axes => isScalar x (axis :: axes)
  | .jitted x, axes => isScalar x axes

/-- `cls.where(pred, a, b)` (335-373). `same` is `a._value is b._value`. -/
def tWhere (c : Nat) (pred : WherePred) (a b : Item) (same : Bool) : Except Err TItem :=
  match pred with
  | .other => .error .valueError
  | .bool t =>
    if isScalar t [] = false then .error .valueError
    else if a.cls = c ∧ b.cls = c then
      if same then .ok ⟨.arr (.array (scalar a.value)), a.cls⟩
      else .ok ⟨.arr (tmap (fun p => if p then (a.value : Int) else b.value) t), c⟩
    else .error .valueError

/-- `item.error_if(token, pred)` (176-196). -/
def itemErrorIf {K : Type} [DecidableEq K] (mode : Mode) (env : List (Cls N String)) (item : TItem) (token : PT K Leaf)
    (pred : Pred) : Run (PT K Leaf) :=
  match env[item.cls]? with
  | none => .fail (.err .attributeError)
  | some k =>
    match item.value with
    | .arr t => branchedErrorIf mode token pred (.arr t) k.tab.msgs .default
    | .obj => .fail (.err .typeError)

/-! ## Specification -/

/-- Every entry, in every element of the batch, is the value of an item of class `c`: so it is for the items a class gives and for
what `promote` and `where` make of them. -/
def Valid (env : List (Cls N String)) (item : TItem) : Prop :=
  ∃ t, item.value = .arr t ∧ t.WF ∧ ∀ lane idx v, t.HasEntry lane idx v →
    ∃ n j, getattr (fun _ => false) env item.cls n = .ok j ∧ v = (j.value : Int)

/-- In the batch element `lane`, `item` is the item `j`. -/
def Is (item : TItem) (lane idx : List Nat) (j : Item) : Prop :=
  item.cls = j.cls ∧ ∃ t, item.value = .arr t ∧ t.HasEntry lane idx (j.value : Int)

/-! ## Theorems -/

theorem hasEntry_tmap {α β : Type} (f : α → β) (t : Traced α) (lane idx : List Nat) (w : β) :
    (tmap f t).HasEntry lane idx w ↔ ∃ v, t.HasEntry lane idx v ∧ f v = w := by
  induction t generalizing lane idx with
  | array a =>
    simp only [tmap, Traced.HasEntry]
    constructor
    · rintro ⟨h1, h2, h3⟩; exact ⟨_, ⟨h1, h2, rfl⟩, h3⟩
    · rintro ⟨v, ⟨h1, h2, rfl⟩, h3⟩; exact ⟨h1, h2, h3⟩
  | batched x axis ih =>
    simp only [tmap, Traced.HasEntry, ih]
    constructor
    · rintro ⟨i, rest, h1, h2, v, h3, h4⟩; exact ⟨v, ⟨i, rest, h1, h2, h3⟩, h4⟩
    · rintro ⟨v, ⟨i, rest, h1, h2, h3⟩, h4⟩; exact ⟨i, rest, h1, h2, v, h3, h4⟩
  | jitted x ih => exact ih lane idx

theorem rank_tmap {α β : Type} (f : α → β) (t : Traced α) : (tmap f t).rank = t.rank := by
  induction t with
  | array a => rfl
  | batched x axis ih => simp only [tmap, Traced.rank, ih]
  | jitted x ih => exact ih

theorem wf_tmap {α β : Type} (f : α → β) (t : Traced α) (h : t.WF) : (tmap f t).WF := by
  induction t with
  | array a => trivial
  | batched x axis ih => exact ⟨ih h.1, by rw [rank_tmap]; exact h.2⟩
  | jitted x ih => exact ih h

theorem hasEntry_unique {α : Type} {t : Traced α} {lane idx : List Nat} {v w : α} (h1 : t.HasEntry lane idx v)
    (h2 : t.HasEntry lane idx w) : v = w := by
  induction t generalizing lane idx with
  | array a => exact h1.2.2.symm.trans h2.2.2
  | batched x axis ih =>
    obtain ⟨i, r, e1, _, h1⟩ := h1
    obtain ⟨i', r', e2, _, h2⟩ := h2
    rw [e1] at e2
    cases e2
    exact ih h1 h2
  | jitted x ih => exact ih h1 h2

section
variable {magic reserved shadowed : N → Bool} {decls : List (Decl N String)} {env : List (Cls N String)}

omit [DecidableEq N] in
theorem gather_of {off : List Nat} {i v : Nat} (h : off[i]? = some v) : gather off i = v := by
  have hlt : i < off.length := by
    rcases Nat.lt_or_ge i off.length with hc | hc
    · exact hc
    · rw [List.getElem?_eq_none hc] at h
      cases h
  have h0 : ¬ ((i : Int) < 0) := by omega
  have hm : min i (off.length - 1) = i := by omega
  simp [gather, h0, hm, List.getD, h]

theorem valid_lt (h : build magic reserved decls = .ok env) {c : Nat} {k : Cls N String} (hk : env[c]? = some k) {n : N} {j : Item}
    (hj : getattr shadowed env c n = .ok j) : j.cls = c ∧ ∃ m, k.tab.msgs[j.value]? = some m ∧ message env c j = .ok m := by
  obtain ⟨_, k', hk', hv, hc⟩ := getattr_ok hj
  rw [hk] at hk'; cases hk'
  have := (facts h c k hk).good.lt hv
  exact ⟨hc, k.tab.msgs[j.value], by simp [this], by simp [message, hc, hk, this]⟩

/-- **C92**, messages: of a concrete item the class gives the message declared for it (as in C17), of a traced one `"traced"`, and of one whose
value has been replaced by something else `"unknown"`. -/
theorem item_message (h : build magic reserved decls = .ok env) {c : Nat} (hc : c < decls.length) (item : TItem) :
    (item.cls ≠ c → tMessage env c item = .error .valueError) ∧
    (item.cls = c → item.value = .obj → tMessage env c item = .ok "unknown") ∧
    (item.cls = c → isTraced item = true → tMessage env c item = .ok "traced") ∧
    (∀ n j m, getattr shadowed env c n = .ok j → message env c j = .ok m → item.cls = c →
      item.value = .arr (.array (scalar (j.value : Int))) → tMessage env c item = .ok m) ∧
    (isInstance c item = true ↔ item.cls = c) ∧
    (isTraced item = true ↔ ∃ t, item.value = .arr t ∧ ∀ a, t ≠ .array a) := by
  obtain ⟨k, hk⟩ := length_env h hc
  obtain ⟨val, ic⟩ := item
  refine ⟨?_, ?_, ?_, ?_, ?_, ?_⟩
  · intro h1
    simp only at h1
    simp [tMessage, h1]
  · rintro rfl rfl
    simp [tMessage]
  · rintro rfl h2
    cases val with
    | obj => cases h2
    | arr t =>
      cases t with
      | array a => cases h2
      | batched x axis => simp [tMessage]
      | jitted x => simp [tMessage]
  · rintro n j m hj hm rfl rfl
    obtain ⟨_, m', h1, h2⟩ := valid_lt h hk hj
    rw [hm] at h2; cases h2
    have h0 : ¬ ((j.value : Int) < 0) := by omega
    have hi : indices (scalar (j.value : Int)).shape = [[]] := rfl
    simp only [tMessage, ne_eq, not_true_eq_false, if_false, theItem, hi, hk]
    simp [bind, Except.bind, pyIndex, scalar, h0, h1]
  · simp [isInstance]
  · cases val with
    | obj => simp [isTraced]
    | arr t => cases t <;> simp [isTraced, Traced.isTracer]

/-- **C92**, comparisons: in every element of the batch, an item compares equal to `Cls.x` just if it is `Cls.x` there; anything but an item of
the same class raises. -/
theorem item_compare {item : TItem} {b : Operand} :
    (∀ j, b = .item j → item.cls = j.cls → ∀ t, item.value = .arr t →
      ∃ e n, tEq item b = .ok e ∧ tNe item b = .ok n ∧
        ∀ lane idx i, Is item lane idx i →
          (e.HasEntry lane idx true ↔ i = j) ∧ (e.HasEntry lane idx false ↔ i ≠ j) ∧
          (n.HasEntry lane idx true ↔ i ≠ j) ∧ (n.HasEntry lane idx false ↔ i = j)) ∧
    (∀ j, b = .item j → item.cls ≠ j.cls → tEq item b = .error .valueError ∧ tNe item b = .error .valueError) ∧
    (b = .obj → tEq item b = .error .valueError ∧ tNe item b = .error .valueError) := by
  obtain ⟨val, c⟩ := item
  refine ⟨?_, ?_, ?_⟩
  · rintro j rfl rfl t rfl
    refine ⟨_, _, by simp only [tEq, if_true]; rfl, by simp only [tNe, if_true]; rfl, ?_⟩
    rintro lane idx ⟨iv, ic⟩ ⟨rfl, t', ht', hi⟩
    cases ht'
    obtain ⟨jv, jc⟩ := j
    simp only [hasEntry_tmap]
    have key : ∀ P : Int → Prop, (∃ v, t.HasEntry lane idx v ∧ P v) ↔ P iv :=
      fun P => ⟨fun ⟨v, h1, h2⟩ => hasEntry_unique h1 hi ▸ h2, fun h2 => ⟨_, hi, h2⟩⟩
    simp only [key]
    simp
    omega
  · rintro j rfl hne
    simp only at hne
    simp [tEq, tNe, hne]
  · rintro rfl
    simp [tEq, tNe]

/-- **C92**, `promote` in a batch: in every element, if the item is `Base.x`, the promoted one is `Sub.x`. -/
theorem item_promote (h : build magic reserved decls = .ok env) {c : Nat} (hc : c < decls.length) (item : TItem)
    (hv : Valid env item) :
    (Ancestor decls c item.cls → item.cls ≠ c →
      ∃ r, tPromote env c item = .ok r ∧ Valid env r ∧ r.cls = c ∧ isTraced r = isTraced item ∧
        ∀ lane idx n i, Is item lane idx i → getattr shadowed env item.cls n = .ok i →
          ∃ j, getattr shadowed env c n = .ok j ∧ Is r lane idx j) ∧
    (¬ (Ancestor decls c item.cls ∧ item.cls ≠ c) → tPromote env c item = .error .valueError) := by
  obtain ⟨k, hk⟩ := length_env h hc
  obtain ⟨val, d⟩ := item
  obtain ⟨t, rfl, hw, hent⟩ := hv
  simp only at hent
  constructor
  · intro ha hne
    simp only at ha hne
    have F := facts h c k hk
    have hkey : d ∈ Dict.keys k.offsets := (F.offk d).2 ⟨ha, hne⟩
    rw [← Dict.get?_isSome_iff, Option.isSome_iff_exists] at hkey
    obtain ⟨off, hoff⟩ := hkey
    have key : ∀ (sh : N → Bool) n i, getattr sh env d n = .ok i →
        ∃ j, getattr sh env c n = .ok j ∧ j.cls = c ∧ gather off i.value = (j.value : Int) := by
      intro sh n i hi
      obtain ⟨hs, kd, hkd, hiv, hic⟩ := getattr_ok hi
      obtain ⟨v, hv, hv'⟩ := F.offs d off kd hoff hkd n i.value hiv
      exact ⟨⟨v, c⟩, getattr_of hs hk hv', rfl, gather_of hv⟩
    refine ⟨⟨.arr (tmap (gather off) t), c⟩, ?_, ?_, rfl, ?_, ?_⟩
    · simp [tPromote, (isSubclass_iff h hc d).2 ha, hne, hk, hoff]
    · refine ⟨_, rfl, wf_tmap _ _ hw, ?_⟩
      intro lane idx w hwent
      obtain ⟨v, hv1, rfl⟩ := (hasEntry_tmap _ _ _ _ _).1 hwent
      obtain ⟨n, i, hi, rfl⟩ := hent _ _ _ hv1
      obtain ⟨j, hj, _, he⟩ := key _ n i hi
      exact ⟨n, j, hj, he⟩
    · cases t <;> rfl
    · rintro lane idx n i ⟨hic, t', ht', hie⟩ hi
      cases ht'
      obtain ⟨j, hj, hjc, he⟩ := key _ n i hi
      exact ⟨j, hj, hjc.symm, _, rfl, (hasEntry_tmap _ _ _ _ _).2 ⟨_, hie, he⟩⟩
  · intro hn
    simp only at hn
    rw [tPromote, if_pos]
    simp only
    by_cases hne : d = c
    · exact .inr hne
    · left
      cases hs : isSubclass env c d with
      | false => rfl
      | true => exact absurd ⟨(isSubclass_iff h hc d).1 hs, hne⟩ hn

omit [DecidableEq N] in
theorem isScalar_iff {α : Type} (t : Traced α) (axes : List Nat) (hw : t.WF) :
    isScalar t axes = true ↔ t.rank = axes.length := by
  induction t generalizing axes with
  | array a => simp [isScalar, Traced.rank]
  | batched x axis ih =>
    simp only [isScalar, ih _ hw.1, Traced.rank, List.length_cons]
    have := hw.2
    omega
  | jitted x ih => exact ih axes hw

/-- **C92**, `where` in a batch: in every element, the item that the predicate chooses there; not a scalar boolean, or items of another class,
raise. -/
theorem item_where {c : Nat} {pred : WherePred} {a b : Item} {same : Bool} (hs : same = true → a.value = b.value) :
    (∀ t, pred = .bool t → t.WF → t.rank = 0 → a.cls = c → b.cls = c →
      ∃ r, tWhere c pred a b same = .ok r ∧ r.cls = c ∧
        (same = true → Is r [] [] a) ∧
        (same = false → ∀ lane, (t.HasEntry lane [] true → Is r lane [] a) ∧ (t.HasEntry lane [] false → Is r lane [] b))) ∧
    (∀ t, pred = .bool t → t.WF → t.rank ≠ 0 → tWhere c pred a b same = .error .valueError) ∧
    (pred = .other → tWhere c pred a b same = .error .valueError) ∧
    (¬ (a.cls = c ∧ b.cls = c) → tWhere c pred a b same = .error .valueError) := by
  refine ⟨?_, ?_, ?_, ?_⟩
  · rintro t rfl hw hr ha hb
    have h1 : isScalar t [] = true := (isScalar_iff t [] hw).2 hr
    cases same with
    | true =>
      refine ⟨_, by simp only [tWhere, h1, Bool.true_eq_false, if_false, ha, hb, and_self, if_true]; rfl, by first | exact ha | rfl, ?_, by simp⟩
      intro _
      exact ⟨by first | rfl | exact ha.symm, _, rfl, rfl, by trivial, rfl⟩
    | false =>
      refine ⟨_, by simp only [tWhere, h1, Bool.true_eq_false, Bool.false_eq_true, if_false, ha, hb, and_self, if_true]; rfl, rfl, by simp, ?_⟩
      intro _ lane
      constructor
      · intro hp
        exact ⟨ha.symm, _, rfl, (hasEntry_tmap _ _ _ _ _).2 ⟨_, hp, by simp⟩⟩
      · intro hp
        exact ⟨hb.symm, _, rfl, (hasEntry_tmap _ _ _ _ _).2 ⟨_, hp, by simp⟩⟩
  · rintro t rfl hw hr
    have h1 : isScalar t [] = false := by
      rw [Bool.eq_false_iff, ne_eq, isScalar_iff t [] hw]
      exact hr
    simp [tWhere, h1]
  · rintro rfl
    rfl
  · intro hn
    cases pred with
    | other => rfl
    | bool t =>
      simp only [tWhere, if_neg hn]
      split <;> rfl

end

section
variable {magic reserved shadowed : N → Bool} {decls : List (Decl N String)} {env : List (Cls N String)}
variable {K : Type} [DecidableEq K]

/-- The largest of some entries. -/
theorem exists_largest {t : Traced Int} (hw : t.WF) (h0 : ∃ lane idx v, t.HasEntry lane idx v) : ∃ m, (Index.arr t).Largest m := by
  obtain ⟨lane, idx, v, hv⟩ := h0
  have hm := (mem_entries hw).2 ⟨lane, idx, hv⟩
  cases he : entries t with
  | nil => rw [he] at hm; cases hm
  | cons x xs =>
    obtain ⟨h1, h2, h3⟩ := foldl_max xs x
    refine ⟨xs.foldl max x, ?_, ?_⟩
    · apply (mem_entries hw).1
      rw [he, List.mem_cons]
      exact h1
    · intro l i w hwe
      have := (mem_entries hw).2 ⟨l, i, hwe⟩
      rw [he, List.mem_cons] at this
      rcases this with rfl | this
      · exact h2
      · exact h3 _ this

/-- **C92**, errors: `item.error_if(x, pred)` gives `x` back if the predicate holds nowhere. Otherwise it raises, with the message of an
item that occurs in the batch, namely the one with the largest value; so with the message of the item, if it is the same throughout the
batch. Without an array to attach the check to, it raises `ValueError`. -/
theorem item_error_if (h : build magic reserved decls = .ok env) {item : TItem} (hc : item.cls < decls.length)
    (hv : Valid env item) (h0 : ∃ lane idx j, Is item lane idx j) {x : PT K Leaf} {pred : Pred} (hp : pred.WF) :
    (¬ pred.SomeTrue → (pred.isArray = false ∨ HasArray x) → ∀ mode, itemErrorIf mode env item x pred = ⟨[], .ok x⟩) ∧
    (pred.SomeTrue → HasArray x →
      ∃ lane idx j msg, Is item lane idx j ∧ (∀ lane' idx' j', Is item lane' idx' j' → j'.value ≤ j.value) ∧
        message env item.cls j = .ok msg ∧ itemErrorIf .raise env item x pred = ⟨[], .error (.runtime msg)⟩) ∧
    (¬ HasArray x → (pred.isArray = true ∨ pred.SomeTrue) →
      ∀ mode, itemErrorIf mode env item x pred = ⟨[], .error (.err .valueError)⟩) := by
  obtain ⟨k, hk⟩ := length_env h hc
  obtain ⟨val, c⟩ := item
  obtain ⟨t, rfl, hw, hent⟩ := hv
  simp only at hent hk hc
  have h0' : ∃ lane idx v, t.HasEntry lane idx v := by
    obtain ⟨lane, idx, j, _, t', ht', hj⟩ := h0
    cases ht'
    exact ⟨_, _, _, hj⟩
  obtain ⟨m, hl⟩ := exists_largest hw h0'
  have hcall : ∀ mode, itemErrorIf mode env ⟨.arr t, c⟩ x pred = branchedErrorIf mode x pred (.arr t) k.tab.msgs .default := by
    intro mode
    simp [itemErrorIf, hk]
  refine ⟨?_, ?_, ?_⟩
  · intro h1 h2 mode
    rw [hcall]
    exact branched_error_if_quiet (m := mode) (index := .arr t) hp hw hl rfl h1 h2
  · intro h1 h2
    obtain ⟨⟨lane, idx, hm⟩, hmax⟩ := hl
    obtain ⟨n, j, hj, rfl⟩ := hent _ _ _ hm
    obtain ⟨hjc, msg, h3, h4⟩ := valid_lt h hk hj
    refine ⟨lane, idx, j, msg, ⟨hjc.symm, _, rfl, hm⟩, ?_, h4, ?_⟩
    · rintro lane' idx' j' ⟨_, t', ht', hj'⟩
      cases ht'
      have := hmax _ _ _ hj'
      omega
    · rw [hcall, branched_error_if_raises (env := .raise) (index := .arr t) (o := .default) hp hw ⟨⟨lane, idx, hm⟩, hmax⟩ rfl h1 (.inl ⟨_, rfl, h3⟩) (.inr h2)]
      simp [Index.isArray]
  · intro h1 h2 mode
    rw [hcall]
    exact branched_error_if_no_array (m := mode) (index := .arr t) hp hw hl rfl h1 (h2.imp id fun h => ⟨h, rfl⟩)

/-- The items of a class are valid. -/
theorem item_valid {c : Nat} {n : N} {j : Item}
    (hj : getattr (fun _ => false) env c n = .ok j) :
    Valid env ⟨.arr (.array (scalar (j.value : Int))), c⟩ ∧ Is ⟨.arr (.array (scalar (j.value : Int))), c⟩ [] [] j := by
  obtain ⟨_, k, hk, _, hc⟩ := getattr_ok hj
  refine ⟨⟨_, rfl, trivial, ?_⟩, hc.symm, _, rfl, rfl, trivial, rfl⟩
  rintro lane idx v ⟨_, _, h3⟩
  exact ⟨n, j, hj, h3.symm⟩

end

/-! ### A concrete case: a batch of three items, of a class and of one derived from it. -/

/-- `class A: x, y`, `class C: w` and `class B(C, A): z`. -/
def exD : List (Decl String String) :=
  [⟨[], [("x", "first"), ("y", "second")]⟩, ⟨[], [("w", "other")]⟩, ⟨[1, 0], [("z", "third")]⟩]

def exEnv : List (Cls String String) := match build isMagic isReserved exD with | .ok e => e | .error _ => []

theorem exEnv_eq : build isMagic isReserved exD = .ok exEnv := rfl

/-- In a batch of three: `A.x`, `A.y`, `A.x`. -/
def exItem : TItem := ⟨.arr (.batched (.array ⟨[3], fun i => if i = [1] then 1 else 0⟩) 0), 0⟩

def exTok : PT Nat Leaf := .leaf (.arr .inexact (scalar (.flt 1)))

theorem exItem_valid : Valid exEnv exItem := by
  refine ⟨_, rfl, ⟨trivial, by decide⟩, ?_⟩
  rintro lane idx v ⟨i, rest, _, _, _, _, h⟩
  simp only at h
  split at h
  · exact ⟨"y", ⟨1, 0⟩, rfl, h.symm⟩
  · exact ⟨"x", ⟨0, 0⟩, rfl, h.symm⟩

/-- The second element of the batch is `A.y`. -/
example : Is exItem [1] [] ⟨1, 0⟩ := ⟨rfl, _, rfl, 1, [], rfl, by decide, rfl, ⟨by decide, trivial⟩, rfl⟩

/-- An error in this batch has the message of `A.y`, whose value is the largest. -/
example : (itemErrorIf .raise exEnv exItem exTok (.py true)).result.map (fun _ => ()) = .error (.runtime "second") := rfl

/-- Promoted to `B`, the values of the items change. -/
example : (match tPromote exEnv 2 exItem with
    | .ok ⟨.arr (.batched (.array a) 0), c⟩ => some (c, a.at_ [0], a.at_ [1], a.at_ [2])
    | _ => none) = some (2, 1, 2, 1) := rfl

/-- Some of the batch is compared equal to `A.x`. -/
example : (match tEq exItem (.item ⟨0, 0⟩) with
    | .ok (.batched (.array a) 0) => some (a.at_ [0], a.at_ [1], a.at_ [2])
    | _ => none) = some (true, false, true) := rfl

example : tMessage exEnv 0 exItem = .ok "traced" := rfl

end Lanes
end Enum
end Verif
