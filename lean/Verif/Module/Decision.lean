import Verif.Module.WhichInit

/-! # C33: exactly when `strict=True` refuses a class, whatever the configuration -/

namespace Verif.Module

open Enum (c3)

variable {N : Type} [DecidableEq N]

/-- The rules of `strict=True`, for a class `c` that would be accepted without it. -/
structure Obeys (magic abstractName : N → Bool) (w : World N) (cfg : StrictConfig) (c : Cls N) : Prop where
  /-- bases other than `equinox.Module` and special forms are modules, strict and abstract -/
  bases : ∀ b ∈ c.bases, b ≠ 0 → ∀ base, w[b]? = some base → base.kind ≠ .special →
    0 ∈ base.mro ∧ base.isStrict = true ∧ base.isAbstract = true
  /-- if one of them has fields or an `__init__`, nothing is added to them -/
  fields : ∀ b ∈ c.bases, b ≠ 0 → ∀ base, w[b]? = some base → base.kind ≠ .special →
    (numFields base.fields > 0 ∨ base.dataclassInit = false) → numFields c.fields = numFields base.fields ∧ c.customInit = false
  /-- the name says whether the class is abstract -/
  name : cfg.allowAbstractName = true ∨ (abstractName c.name = true ↔ c.isAbstract = true)
  /-- methods override abstract methods only (or any methods, if configured), and never other attributes -/
  methods : ∀ k, (k, Attr.func false) ∈ c.body.dict → magic k = false → ∀ b ∈ c.bases, ∀ j a, lookup w (mroOf w b) k = some (j, a) →
    a = .func true ∨ (cfg.allowMethodOverride = true ∧ a = .func false)

theorem allOk_error {l : List (Except Err Unit)} (h : ∀ e, .error e ∈ l → e = .typeError) :
    allOk l = .ok () ∨ allOk l = .error .typeError := by
  induction l with
  | nil => exact .inl rfl
  | cons x l ih =>
    cases x with
    | ok u => exact ih fun e he => h e (List.mem_cons_of_mem _ he)
    | error e => right; rw [allOk, h e (by simp)]

theorem checkBase_ok {w : World N} {c : Cls N} {b : Nat} (hb : b < w.length) :
    checkBase w c b = .ok () ∨ checkBase w c b = .error .typeError := by
  unfold checkBase
  rw [List.getElem?_eq_getElem hb]
  by_cases h0 : b = 0
  · simp [h0]
  · simp only [h0, if_false]
    repeat' split
    all_goals simp

theorem checkBase_iff {w : World N} {c base : Cls N} {b : Nat} (hb : w[b]? = some base) :
    checkBase w c b = .ok () ↔ (b ≠ 0 → base.kind ≠ .special → (0 ∈ base.mro ∧ base.isStrict = true ∧ base.isAbstract = true) ∧
      ((numFields base.fields > 0 ∨ base.dataclassInit = false) → numFields c.fields = numFields base.fields ∧ c.customInit = false)) := by
  unfold checkBase
  rw [hb]
  by_cases h0 : b = 0
  · simp [h0]
  by_cases h1 : base.kind = .special
  · simp [h0, h1]
  by_cases h2 : 0 ∈ base.mro
  · cases h3 : base.isStrict <;> cases h4 : base.isAbstract <;> cases h5 : c.customInit <;> cases h6 : base.dataclassInit <;>
      by_cases h7 : numFields base.fields > 0 <;> by_cases h8 : numFields c.fields = numFields base.fields <;> simp_all
  · simp [h0, h1, h2]

theorem checkName_iff {abstractName : N → Bool} {cfg : StrictConfig} {c : Cls N} :
    (checkName abstractName cfg c = .ok () ∨ checkName abstractName cfg c = .error .typeError) ∧
    (checkName abstractName cfg c = .ok () ↔ (cfg.allowAbstractName = true ∨ (abstractName c.name = true ↔ c.isAbstract = true))) := by
  unfold checkName
  cases cfg.allowAbstractName <;> cases c.isAbstract <;> cases abstractName c.name <;> simp

theorem checkOverride_iff {w : World N} {cfg : StrictConfig} {k : N} {b : Nat} :
    (checkOverride w cfg k b = .ok () ∨ checkOverride w cfg k b = .error .typeError) ∧
    (checkOverride w cfg k b = .ok () ↔ ∀ j a, lookup w (mroOf w b) k = some (j, a) →
      a = .func true ∨ (cfg.allowMethodOverride = true ∧ a = .func false)) := by
  unfold checkOverride
  cases hl : lookup w (mroOf w b) k with
  | none => simp
  | some p =>
    obtain ⟨j, a⟩ := p
    cases a with
    | func x => cases x <;> cases cfg.allowMethodOverride <;> simp
    | other x => simp
    | field => simp

theorem checkMethods_iff {magic : N → Bool} {w : World N} {cfg : StrictConfig} {c : Cls N} :
    (checkMethods magic w cfg c = .ok () ∨ checkMethods magic w cfg c = .error .typeError) ∧
    (checkMethods magic w cfg c = .ok () ↔ ∀ k, (k, Attr.func false) ∈ c.body.dict → magic k = false → ∀ b ∈ c.bases, ∀ j a,
      lookup w (mroOf w b) k = some (j, a) → a = .func true ∨ (cfg.allowMethodOverride = true ∧ a = .func false)) := by
  have hmem : ∀ e : Except Err Unit, (e ∈ c.body.dict.flatMap fun p => match p.2 with
      | .func false => if magic p.1 then [] else c.bases.map (checkOverride w cfg p.1)
      | _ => []) ↔ ∃ k b, (k, Attr.func false) ∈ c.body.dict ∧ magic k = false ∧ b ∈ c.bases ∧ checkOverride w cfg k b = e := by
    intro e
    rw [List.mem_flatMap]
    constructor
    · rintro ⟨⟨k, a⟩, hp, he⟩
      cases a with
      | func x =>
        cases x with
        | true => simp at he
        | false =>
          cases hm : magic k with
          | true => simp [hm] at he
          | false =>
            simp only [hm, Bool.false_eq_true, if_false, List.mem_map] at he
            obtain ⟨b, hb, rfl⟩ := he
            exact ⟨k, b, hp, hm, hb, rfl⟩
      | other x => simp at he
      | field => simp at he
    · rintro ⟨k, b, hp, hm, hb, rfl⟩
      refine ⟨_, hp, ?_⟩
      simp only [hm, Bool.false_eq_true, if_false, List.mem_map]
      exact ⟨b, hb, rfl⟩
  constructor
  · refine allOk_error fun e he => ?_
    obtain ⟨k, b, -, -, -, hc⟩ := (hmem _).1 he
    rcases (checkOverride_iff (w := w) (cfg := cfg) (k := k) (b := b)).1 with h | h
    · rw [h] at hc; cases hc
    · rw [h] at hc; cases hc; rfl
  · unfold checkMethods
    rw [allOk_iff]
    constructor
    · intro h k hk hm b hb
      exact checkOverride_iff.2.1 (h _ ((hmem _).2 ⟨k, b, hk, hm, hb, rfl⟩))
    · intro h e he
      obtain ⟨k, b, hk, hm, hb, rfl⟩ := (hmem _).1 he
      exact checkOverride_iff.2.2 (h k hk hm b hb)

theorem newClass_strict {magic abstractName : N → Bool} {w : World N} {d : ClassDef N} (hk : d.kind = .module) (cfg : StrictConfig)
    {c₀ : Cls N} (h₀ : newClass magic abstractName w { d with strict := none } = .ok c₀) :
    (∀ b ∈ c₀.bases, b < w.length) ∧
    newClass magic abstractName w { d with strict := some cfg } =
      (match checkStrict magic abstractName w cfg { c₀ with forceAbstract := cfg.forceAbstract, isStrict := true } with
        | .error e => .error e
        | .ok _ => .ok { c₀ with forceAbstract := cfg.forceAbstract, isStrict := true }) := by
  obtain ⟨rest, s, body, -, -, -, hceq, hlt, -⟩ := newClass_module h₀ hk
  refine ⟨by rw [hceq]; exact hlt, ?_⟩
  simp only [newClass] at h₀ ⊢
  split at h₀
  · cases h₀
  rename_i hb
  rw [if_neg hb]
  split at h₀
  · cases h₀
  rename_i hbm
  rw [if_neg hbm]
  split at h₀
  · cases h₀
  rename_i r hr
  rw [if_neg (by simp [hk])] at h₀
  rw [if_neg (by simp [hk])]
  simp only [bind, Except.bind, pure, Except.pure] at h₀ ⊢
  split at h₀
  · cases h₀
  rename_i s' hs
  split at h₀
  · cases h₀
  rename_i body' hbody
  cases h₀
  simp only [Option.getD_some, Option.isSome_some]
  generalize checkStrict magic abstractName w cfg _ = r
  cases r <;> rfl

/-- **C33**, the decision: a class that would be accepted without `strict` is accepted by `strict=StrictConfig(...)` exactly if it obeys the
rules; it is then the same class, marked as strict. Otherwise `TypeError` is raised. -/
theorem strict_decision (magic abstractName : N → Bool) (w : World N) (d : ClassDef N) (hk : d.kind = .module) (cfg : StrictConfig)
    {c₀ : Cls N} (h₀ : newClass magic abstractName w { d with strict := none } = .ok c₀) :
    (Obeys magic abstractName w cfg { c₀ with forceAbstract := cfg.forceAbstract, isStrict := true } →
      newClass magic abstractName w { d with strict := some cfg } =
        .ok { c₀ with forceAbstract := cfg.forceAbstract, isStrict := true }) ∧
    (¬ Obeys magic abstractName w cfg { c₀ with forceAbstract := cfg.forceAbstract, isStrict := true } →
      newClass magic abstractName w { d with strict := some cfg } = .error .typeError) := by
  obtain ⟨hlt, hnew⟩ := newClass_strict hk cfg h₀
  rw [hnew]
  generalize hc : ({ c₀ with forceAbstract := cfg.forceAbstract, isStrict := true } : Cls N) = c
  have hlt : ∀ b ∈ c.bases, b < w.length := by rw [← hc]; exact hlt
  have hbases : (allOk (c.bases.map (checkBase w c)) = .ok () ∨ allOk (c.bases.map (checkBase w c)) = .error .typeError) := by
    refine allOk_error fun e he => ?_
    obtain ⟨b, hb, hbe⟩ := List.mem_map.1 he
    rcases checkBase_ok (w := w) (c := c) (hlt b hb) with h | h
    · rw [h] at hbe; cases hbe
    · rw [h] at hbe; cases hbe; rfl
  have hor : checkStrict magic abstractName w cfg c = .ok () ∨ checkStrict magic abstractName w cfg c = .error .typeError := by
    simp only [checkStrict, bind, Except.bind]
    rcases hbases with h | h <;> rw [h]
    · simp only
      rcases (checkName_iff (abstractName := abstractName) (cfg := cfg) (c := c)).1 with h | h <;> rw [h]
      · exact checkMethods_iff.1
      · exact .inr rfl
    · exact .inr rfl
  have hiff : checkStrict magic abstractName w cfg c = .ok () ↔ Obeys magic abstractName w cfg c := by
    have hb : allOk (c.bases.map (checkBase w c)) = .ok () ↔ ∀ b ∈ c.bases, checkBase w c b = .ok () := by
      rw [allOk_iff]; simp
    have hall : checkStrict magic abstractName w cfg c = .ok () ↔ allOk (c.bases.map (checkBase w c)) = .ok () ∧
        checkName abstractName cfg c = .ok () ∧ checkMethods magic w cfg c = .ok () := by
      simp only [checkStrict, bind, Except.bind]
      cases allOk (c.bases.map (checkBase w c)) with
      | error e => simp
      | ok u => cases checkName abstractName cfg c with
        | error e => simp
        | ok u => simp
    rw [hall, hb, checkName_iff.2, checkMethods_iff.2]
    constructor
    · rintro ⟨h1, h2, h3⟩
      refine ⟨fun b hb h0 base hbase hs => ?_, fun b hb h0 base hbase hs => ?_, h2, h3⟩
      · exact ((checkBase_iff hbase).1 (h1 b hb) h0 hs).1
      · exact ((checkBase_iff hbase).1 (h1 b hb) h0 hs).2
    · rintro ⟨h1, h1', h2, h3⟩
      refine ⟨fun b hb => ?_, h2, h3⟩
      have hbase := List.getElem?_eq_getElem (hlt b hb)
      exact (checkBase_iff hbase).2 fun h0 hs => ⟨h1 b hb h0 _ hbase hs, h1' b hb h0 _ hbase hs⟩
  constructor
  · intro h; rw [hiff.2 h]
  · intro h
    rcases hor with ho | ho
    · exact absurd (hiff.1 ho) h
    · rw [ho]

/-- A strict class which overrides a method is refused, and accepted if configured so. -/
example :
    let w := Ex.world [Ex.cls 10 [0] [(1, .func false), (2, .func true)]]
    let d := Ex.cls 20 [1] [(1, .func false), (2, .func false)]
    (∃ c, newClass Ex.mag Ex.absName w { d with strict := none } = .ok c) ∧
    newClass Ex.mag Ex.absName w { d with strict := some {} } = .error .typeError ∧
    (∃ c, newClass Ex.mag Ex.absName w { d with strict := some { allowMethodOverride := true } } = .ok c) :=
  ⟨⟨_, rfl⟩, rfl, ⟨_, rfl⟩⟩

end Verif.Module
