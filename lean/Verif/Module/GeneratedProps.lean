import Verif.Module.Generated
import Mathlib.Logic.Basic

/-! # C101: what the generated `__init__` takes and does -/

namespace Verif.Module.Generated

open Init (Cls Field Inst Prog getattr)

variable {N V : Type} [DecidableEq N]

/-! ### Specification -/

/-- A parameter that can be passed by position. -/
def Positional (d : Decl N V) : Bool := d.init && !d.kwOnly

/-- The field `n` is passed `v` by position: it is preceded by as many positional fields as `v` is by positional arguments. -/
def ByPosition (ds : List (Decl N V)) (args : List V) (n : N) (v : V) : Prop :=
  ∃ pre d post, ds = pre ++ d :: post ∧ d.name = n ∧ Positional d = true ∧ args[pre.countP Positional]? = some v

/-- The field `n` is passed `v`. -/
def Passed (ds : List (Decl N V)) (args : List V) (kwargs : Dict N V) (n : N) (v : V) : Prop :=
  ByPosition ds args n v ∨ (n, v) ∈ kwargs

/-- The arguments fit the fields. -/
structure Fits (ds : List (Decl N V)) (args : List V) (kwargs : Dict N V) : Prop where
  /-- not too many -/
  few : args.length ≤ ds.countP Positional
  /-- no unknown keyword, and none for a field that is not a parameter -/
  known : ∀ n v, (n, v) ∈ kwargs → ∃ d ∈ ds, d.name = n ∧ d.init = true
  /-- nothing twice -/
  once : ∀ n v u, ByPosition ds args n v → (n, u) ∉ kwargs
  /-- nothing missing -/
  enough : ∀ d ∈ ds, d.init = true → d.default = .missing → ∃ v, Passed ds args kwargs d.name v

/-- What a field holds once the body of `__init__` has run, `passed` being what was passed for it: that, or its default. -/
inductive Start (passed : V → Prop) (d : Decl N V) : V → Prop where
  | passed {v : V} : d.init = true → passed v → Start passed d v
  | value {v : V} : (d.init = true → ∀ u, ¬ passed u) → d.default = .value v → Start passed d v
  | factory {v : V} : (d.init = true → ∀ u, ¬ passed u) → d.default = .factory (.ok v) → Start passed d v

/-- The fields have different names, and on the class these are bound to the plain defaults. -/
structure WF (c : GCls N V) : Prop where
  names : (c.decls.map (·.name)).Nodup
  default : ∀ d ∈ c.decls, ∀ v, d.default = .value v → c.attrs d.name = some (.plain v)
  noDefault : ∀ d ∈ c.decls, (∀ v, d.default ≠ .value v) → c.attrs d.name = none

/-! ### `eqx.field` -/

/-- **C101**: `eqx.field` refuses `converter` and `static` in `metadata`, and two defaults. Otherwise its field has the converter and is static
as asked, keeps all other metadata, and has the default and the flags that were given. -/
theorem field_spec (a : FieldArgs V) :
    (∀ f, field a = .ok f →
      f.conv = a.converter ∧
      (f.metadata.get? .static = if a.static then some (.bool true) else none) ∧
      (∀ k, f.metadata.get? (.other k) = (a.metadata.getD []).get? (.other k)) ∧
      (∀ v, f.default = .value v ↔ a.default = some v) ∧ (∀ r, f.default = .factory r ↔ a.factory = some r) ∧
      f.init = a.init ∧ f.kwOnly = a.kwOnly) ∧
    ((∃ f, field a = .ok f) ↔
      ((a.metadata.getD []).get? .converter = none ∧ (a.metadata.getD []).get? .static = none ∧ (a.default = none ∨ a.factory = none))) ∧
    (∀ e, field a = .error e → e = .valueError) := by
  have hput : ∀ m : Dict Key (Meta V), m.get? .converter = none → m.get? .static = none →
      ((putStatic a (putConverter a m)).get? .static = if a.static then some (.bool true) else none) ∧
      (∀ k, (putStatic a (putConverter a m)).get? (.other k) = m.get? (.other k)) ∧
      ((putStatic a (putConverter a m)).get? .converter = a.converter.map .conv) := by
    intro m h1 h2
    unfold putStatic putConverter
    cases hs : a.static <;> cases hc : a.converter <;> simp [Dict.get?_insert, h1, h2]
  simp only [field]
  by_cases h1 : (a.metadata.getD []).get? .converter = none
  · by_cases h2 : (a.metadata.getD []).get? .static = none
    · rw [if_neg (by simp [h1]), if_neg (by simp [h2])]
      obtain ⟨p1, p2, p3⟩ := hput _ h1 h2
      refine ⟨?_, ?_, ?_⟩
      · intro f hf
        unfold dcField at hf
        split at hf
        · cases hf
        all_goals
          rename_i hd hr
          cases hf
          refine ⟨?_, p1, p2, ?_, ?_, rfl, rfl⟩
          · simp only [DField.conv, p3]
            cases a.converter <;> rfl
          · intro v; rw [hd]; simp
          · intro r; rw [hr]; simp
      · simp only [h1, h2, true_and]
        unfold dcField
        split
        · rename_i hd hr; rw [hd, hr]; simp
        all_goals
          rename_i hd hr
          rw [hd, hr]; simp
      · intro e he
        unfold dcField at he
        split at he <;> cases he
        rfl
    · have : ((a.metadata.getD []).get? .static).isSome = true := by
        cases h : (a.metadata.getD []).get? .static with
        | none => exact absurd h h2
        | some _ => rfl
      rw [if_neg (by simp [h1]), if_pos this]
      simp [h2]
  · have : ((a.metadata.getD []).get? .converter).isSome = true := by
      cases h : (a.metadata.getD []).get? .converter with
      | none => exact absurd h h1
      | some _ => rfl
    rw [if_pos this]
    simp [h1]

/-! ### The class -/

omit [DecidableEq N] in
theorem orderOk_iff (seen : Bool) (ds : List (Decl N V)) :
    orderOk seen ds = true ↔ (seen = true → ∀ d ∈ ds, d.default.has = true) ∧
      ∀ pre d mid e post, ds = pre ++ d :: (mid ++ e :: post) → d.default.has = true → e.default.has = true := by
  induction ds generalizing seen with
  | nil => simp [orderOk]
  | cons a ds ih =>
    simp only [orderOk]
    split
    · rename_i ha
      rw [ih]
      constructor
      · rintro ⟨h1, h2⟩
        refine ⟨fun _ d hd => ?_, ?_⟩
        · rcases List.mem_cons.1 hd with rfl | hd
          · exact ha
          · exact h1 rfl d hd
        · intro pre d mid e post he _
          apply h1 rfl
          cases pre with
          | nil => simp only [List.nil_append, List.cons.injEq] at he; rw [he.2]; simp
          | cons x pre => simp only [List.cons_append, List.cons.injEq] at he; rw [he.2]; simp
      · rintro ⟨-, h2⟩
        refine ⟨fun _ d hd => ?_, ?_⟩
        · obtain ⟨s, t, rfl⟩ := List.append_of_mem hd
          exact h2 [] a s d t rfl ha
        · intro pre d mid e post he
          exact h2 (a :: pre) d mid e post (by rw [he]; rfl)
    · rename_i ha
      rw [Bool.and_eq_true, ih]
      constructor
      · rintro ⟨hs, h1, h2⟩
        simp only [Bool.not_eq_true'] at hs
        refine ⟨fun h => by simp [hs] at h, ?_⟩
        intro pre d mid e post he hd
        cases pre with
        | nil => simp only [List.nil_append, List.cons.injEq] at he; rw [he.1] at ha; exact absurd hd ha
        | cons x pre => simp only [List.cons_append, List.cons.injEq] at he; exact h2 pre d mid e post he.2 hd
      · rintro ⟨h1, h2⟩
        refine ⟨?_, fun h => fun d hd => h1 h d (List.mem_cons_of_mem _ hd), ?_⟩
        · cases seen with
          | false => rfl
          | true => exact absurd (h1 rfl a (by simp)) ha
        · intro pre d mid e post he
          exact h2 (a :: pre) d mid e post (by rw [he]; rfl)

omit [DecidableEq N] in
theorem defaultsOk_iff (u : V → Bool) (ds : List (Decl N V)) :
    defaultsOk u ds = true ↔ ∀ d ∈ ds, ∀ v, d.default = .value v → u v = false := by
  induction ds with
  | nil => simp [defaultsOk]
  | cons a ds ih =>
    simp only [defaultsOk, List.forall_mem_cons]
    split
    · rename_i v hv
      rw [Bool.and_eq_true, ih, hv]
      simp
    · rename_i hv
      rw [ih]
      constructor
      · exact fun h => ⟨fun v h' => absurd h' (hv v), h⟩
      · exact fun h => h.2

omit [DecidableEq N] in
theorem filter_split (p : Decl N V → Bool) (ds : List (Decl N V)) (pre : List (Decl N V)) (d : Decl N V) (post : List (Decl N V))
    (h : ds.filter p = pre ++ d :: post) :
    ∃ pre' post', ds = pre' ++ d :: post' ∧ p d = true ∧ pre'.filter p = pre ∧ post'.filter p = post := by
  induction ds generalizing pre with
  | nil => simp at h
  | cons a ds ih =>
    by_cases ha : p a = true
    · rw [List.filter_cons_of_pos ha] at h
      cases pre with
      | nil =>
        simp only [List.nil_append, List.cons.injEq] at h
        exact ⟨[], ds, by rw [h.1]; rfl, h.1 ▸ ha, rfl, h.2⟩
      | cons x pre =>
        simp only [List.cons_append, List.cons.injEq] at h
        obtain ⟨p', q', e, h1, h2, h3⟩ := ih pre h.2
        exact ⟨a :: p', q', by rw [e]; rfl, h1, by rw [List.filter_cons_of_pos ha, h2, h.1], h3⟩
    · rw [List.filter_cons_of_neg ha] at h
      obtain ⟨p', q', e, h1, h2, h3⟩ := ih pre h
      exact ⟨a :: p', q', by rw [e]; rfl, h1, by rw [List.filter_cons_of_neg ha, h2], h3⟩

omit [DecidableEq N] in
/-- **C101**: the class statement is accepted exactly if no default is unhashable (`ValueError`), and no field that can be passed by position
and has no default comes after one with a default (`TypeError`). Keyword-only fields and those with `init=False` may come in any order. -/
theorem define_spec (u : V → Bool) (ds : List (Decl N V)) :
    ((∃ r, define u ds = .ok r) ↔
      ((∀ d ∈ ds, ∀ v, d.default = .value v → u v = false) ∧
       ∀ pre d mid e post, ds = pre ++ d :: (mid ++ e :: post) → Positional d = true → Positional e = true → d.default ≠ .missing →
         e.default ≠ .missing)) ∧
    (∀ e, define u ds = .error e →
      (e = .valueError ↔ ∃ d ∈ ds, ∃ v, d.default = .value v ∧ u v = true) ∧ (e = .valueError ∨ e = .typeError)) := by
  have hhas : ∀ x : Default V, x.has = true ↔ x ≠ .missing := by intro x; cases x <;> simp [Default.has]
  have hord : orderOk false (positional ds) = true ↔ ∀ pre d mid e post, ds = pre ++ d :: (mid ++ e :: post) → Positional d = true →
      Positional e = true → d.default ≠ .missing → e.default ≠ .missing := by
    rw [orderOk_iff]
    simp only [Bool.false_eq_true, false_implies, true_and, hhas]
    constructor
    · intro h pre d mid e post hds hd he
      have hfd : (d.init && !d.kwOnly) = true := hd
      have hfe : (e.init && !e.kwOnly) = true := he
      refine h ((pre.filter fun d => d.init && !d.kwOnly)) d (mid.filter fun d => d.init && !d.kwOnly) e
        (post.filter fun d => d.init && !d.kwOnly) ?_
      simp only [hds, positional, List.filter_append, List.filter_cons, hfd, hfe, if_true]
    · intro h pre d mid e post hds
      obtain ⟨p', q', e1, hd, -, h3⟩ := filter_split _ _ _ _ _ hds
      obtain ⟨p'', q'', e2, he, -, -⟩ := filter_split _ _ _ _ _ h3
      exact h p' d p'' e q'' (by rw [e1, e2]) hd he
  constructor
  · rw [← hord, ← defaultsOk_iff]
    unfold define
    by_cases h1 : defaultsOk u ds = true
    · rw [if_pos h1]
      by_cases h2 : orderOk false (positional ds) = true
      · rw [if_pos h2]; simp [h1, h2]
      · rw [if_neg h2]; simp [h1, h2]
    · rw [if_neg h1]; simp [h1]
  · intro e he
    unfold define at he
    by_cases h1 : defaultsOk u ds = true
    · rw [if_pos h1] at he
      have := (defaultsOk_iff u ds).1 h1
      split at he <;> cases he
      refine ⟨⟨(fun h => by cases h), ?_⟩, .inr rfl⟩
      rintro ⟨d, hd, v, hv, hu⟩
      rw [this d hd v hv] at hu; cases hu
    · rw [if_neg h1] at he
      cases he
      refine ⟨⟨fun _ => ?_, fun _ => rfl⟩, .inl rfl⟩
      rw [defaultsOk_iff] at h1
      simp only [not_forall] at h1
      obtain ⟨d, hd, v, hv, hu⟩ := h1
      exact ⟨d, hd, v, hv, by simpa using hu⟩

/-! ### Passing arguments -/

/-- `zip` of parameters and arguments. -/
def zipped (ps : List (Decl N V)) (vs : List V) : Dict N V := (ps.zip vs).map fun p => (p.1.name, p.2)

omit [DecidableEq N] in
theorem bindPos_eq (ps : List (Decl N V)) (vs : List V) :
    bindPos ps vs = if vs.length ≤ ps.length then some (zipped ps vs) else none := by
  induction ps generalizing vs with
  | nil => cases vs <;> simp [bindPos, zipped]
  | cons d ps ih =>
    cases vs with
    | nil => simp [bindPos, zipped]
    | cons v vs =>
      simp only [bindPos, ih, List.length_cons, Nat.add_le_add_iff_right]
      split <;> simp [zipped]

theorem bindKw_eq (params : List N) (b kw : Dict N V) (hn : kw.keys.Nodup) :
    (bindKw params b kw = some (b ++ kw) ∧ ∀ n ∈ kw.keys, n ∈ params ∧ n ∉ b.keys) ∨
    (bindKw params b kw = none ∧ ∃ n ∈ kw.keys, n ∉ params ∨ n ∈ b.keys) := by
  induction kw generalizing b with
  | nil => left; simp [bindKw, Dict.keys]
  | cons p kw ih =>
    obtain ⟨n, v⟩ := p
    simp only [Dict.keys, List.map_cons, List.nodup_cons] at hn
    simp only [bindKw]
    by_cases hc : (n ∈ params && (b.get? n).isNone) = true
    · rw [if_pos hc]
      simp only [Bool.and_eq_true, decide_eq_true_eq, Option.isNone_iff_eq_none, Dict.get?_eq_none_iff] at hc
      rcases ih (b ++ [(n, v)]) hn.2 with ⟨h1, h2⟩ | ⟨h1, h2⟩
      · left
        refine ⟨by rw [h1]; simp, ?_⟩
        intro m hm
        simp only [Dict.keys, List.map_cons, List.mem_cons] at hm
        rcases hm with rfl | hm
        · exact hc
        · have := h2 m hm
          refine ⟨this.1, fun hb => this.2 ?_⟩
          simp only [Dict.keys, List.map_append, List.mem_append] at hb ⊢
          exact .inl hb
      · right
        refine ⟨h1, ?_⟩
        obtain ⟨m, hm, hor⟩ := h2
        refine ⟨m, List.mem_cons_of_mem _ hm, ?_⟩
        rcases hor with hor | hor
        · exact .inl hor
        · simp only [Dict.keys, List.map_append, List.mem_append, List.map_cons, List.map_nil, List.mem_singleton] at hor
          rcases hor with hor | rfl
          · exact .inr hor
          · exact absurd hm hn.1
    · rw [if_neg hc]
      right
      refine ⟨rfl, n, by simp [Dict.keys], ?_⟩
      simp only [Bool.and_eq_true, decide_eq_true_eq, Option.isNone_iff_eq_none, Dict.get?_eq_none_iff, not_and, not_not] at hc
      by_cases hp : n ∈ params
      · exact .inr (hc hp)
      · exact .inl hp

omit [DecidableEq N] in
theorem filter_getElem? (p : Decl N V → Bool) (ds : List (Decl N V)) (i : Nat) (d : Decl N V) :
    (ds.filter p)[i]? = some d ↔ ∃ pre post, ds = pre ++ d :: post ∧ p d = true ∧ pre.countP p = i := by
  constructor
  · intro h
    obtain ⟨hlt, he⟩ := List.getElem?_eq_some_iff.1 h
    have hsplit : ds.filter p = (ds.filter p).take i ++ d :: (ds.filter p).drop (i + 1) := by
      rw [← he, ← List.drop_eq_getElem_cons hlt, List.take_append_drop]
    obtain ⟨pre, post, e, h1, h2, -⟩ := filter_split _ _ _ _ _ hsplit
    refine ⟨pre, post, e, h1, ?_⟩
    rw [List.countP_eq_length_filter, h2, List.length_take]
    omega
  · rintro ⟨pre, post, rfl, hd, rfl⟩
    rw [List.filter_append, List.countP_eq_length_filter, List.filter_cons_of_pos hd]
    simp

omit [DecidableEq N] in
theorem mem_zipped (ps : List (Decl N V)) (vs : List V) (n : N) (v : V) :
    (n, v) ∈ zipped ps vs ↔ ∃ (i : Nat) (d : Decl N V), ps[i]? = some d ∧ d.name = n ∧ vs[i]? = some v := by
  simp only [zipped, List.mem_map, Prod.mk.injEq, Prod.exists]
  constructor
  · rintro ⟨d, v', hm, rfl, rfl⟩
    obtain ⟨i, hi⟩ := List.mem_iff_getElem?.1 hm
    rw [List.getElem?_zip_eq_some] at hi
    exact ⟨i, d, hi.1, rfl, hi.2⟩
  · rintro ⟨i, d, h1, rfl, h2⟩
    exact ⟨d, v, List.mem_iff_getElem?.2 ⟨i, List.getElem?_zip_eq_some.2 ⟨h1, h2⟩⟩, rfl, rfl⟩

omit [DecidableEq N] in
theorem byPosition_iff (ds : List (Decl N V)) (args : List V) (n : N) (v : V) :
    ByPosition ds args n v ↔ (n, v) ∈ zipped (positional ds) args := by
  rw [mem_zipped]
  constructor
  · rintro ⟨pre, d, post, e, hn, hp, hv⟩
    exact ⟨_, d, (filter_getElem? _ _ _ _).2 ⟨pre, post, e, hp, rfl⟩, hn, hv⟩
  · rintro ⟨i, d, hd, hn, hv⟩
    obtain ⟨pre, post, e, hp, rfl⟩ := (filter_getElem? _ _ _ _).1 hd
    exact ⟨pre, d, post, e, hn, hp, hv⟩

omit [DecidableEq N] in
theorem passed_iff (ds : List (Decl N V)) (args : List V) (kwargs : Dict N V) (n : N) (v : V) :
    Passed ds args kwargs n v ↔ (n, v) ∈ zipped (positional ds) args ++ kwargs := by
  rw [Passed, byPosition_iff, List.mem_append]

omit [DecidableEq N] in
theorem zipped_keys (ps : List (Decl N V)) (vs : List V) : Dict.keys (zipped ps vs) = (ps.map (·.name)).take vs.length := by
  induction ps generalizing vs with
  | nil => simp [zipped, Dict.keys]
  | cons d ps ih =>
    cases vs with
    | nil => simp [zipped, Dict.keys]
    | cons v vs =>
      have := ih vs
      simp only [zipped, Dict.keys] at this ⊢
      simp [this]

omit [DecidableEq N] in
theorem mem_keys_iff (b : Dict N V) (n : N) : n ∈ b.keys ↔ ∃ v, (n, v) ∈ b := by
  simp [Dict.keys]

omit [DecidableEq N] in
theorem mem_params (ds : List (Decl N V)) (d : Decl N V) : d ∈ positional ds ++ keywordOnly ds ↔ d ∈ ds ∧ d.init = true := by
  simp only [List.mem_append, positional, keywordOnly, List.mem_filter, Bool.and_eq_true, Bool.not_eq_true']
  cases d.kwOnly <;> simp

/-- Python passes the arguments exactly if they fit, and raises `TypeError` otherwise. -/
theorem bindArgs_spec (ds : List (Decl N V)) (args : List V) (kwargs : Dict N V) (hn : (ds.map (·.name)).Nodup) (hk : kwargs.keys.Nodup) :
    (Fits ds args kwargs ∧ bindArgs ds args kwargs = .ok (zipped (positional ds) args ++ kwargs) ∧
      (Dict.keys (zipped (positional ds) args ++ kwargs)).Nodup) ∨
    (¬ Fits ds args kwargs ∧ bindArgs ds args kwargs = .error .typeError) := by
  have hlen : (positional ds).length = ds.countP Positional := by
    rw [List.countP_eq_length_filter]; rfl
  have hpn : ((positional ds).map (·.name)).Nodup := hn.sublist (List.filter_sublist.map _)
  unfold bindArgs
  rw [bindPos_eq]
  by_cases hl : args.length ≤ (positional ds).length
  · rw [if_pos hl]
    simp only
    rcases bindKw_eq ((positional ds ++ keywordOnly ds).map (·.name)) (zipped (positional ds) args) kwargs hk with ⟨h1, h2⟩ | ⟨h1, h2⟩
    · rw [h1]
      simp only
      have hnd : (Dict.keys (zipped (positional ds) args ++ kwargs)).Nodup := by
        simp only [Dict.keys, List.map_append]
        refine List.nodup_append.2 ⟨?_, hk, ?_⟩
        · have := zipped_keys (positional ds) args
          simp only [Dict.keys] at this
          rw [this]
          exact hpn.sublist (List.take_sublist _ _)
        · intro a ha b hb hab
          subst hab
          exact (h2 a hb).2 ha
      have hknown : ∀ n v, (n, v) ∈ kwargs → ∃ d ∈ ds, d.name = n ∧ d.init = true := by
        intro n v hm
        obtain ⟨d, hd, he⟩ := List.mem_map.1 (h2 n ((mem_keys_iff _ _).2 ⟨v, hm⟩)).1
        obtain ⟨hd, hi⟩ := (mem_params ds d).1 hd
        exact ⟨d, hd, he, hi⟩
      have honce : ∀ n v u, ByPosition ds args n v → (n, u) ∉ kwargs := by
        intro n v u hb hm
        exact (h2 n ((mem_keys_iff _ _).2 ⟨u, hm⟩)).2 ((mem_keys_iff _ _).2 ⟨v, (byPosition_iff _ _ _ _).1 hb⟩)
      by_cases hall : ((positional ds ++ keywordOnly ds).all fun d => d.default.has ||
          (Dict.get? (zipped (positional ds) args ++ kwargs) d.name).isSome) = true
      · rw [if_pos hall]
        left
        refine ⟨⟨hlen ▸ hl, hknown, honce, ?_⟩, rfl, hnd⟩
        intro d hd hi hm
        have := List.all_eq_true.1 hall d ((mem_params ds d).2 ⟨hd, hi⟩)
        rw [hm] at this
        simp only [Default.has, Bool.false_or] at this
        rw [Dict.get?_isSome_iff, mem_keys_iff] at this
        obtain ⟨v, hv⟩ := this
        exact ⟨v, (passed_iff _ _ _ _ _).2 hv⟩
      · rw [if_neg hall]
        right
        refine ⟨fun hf => hall ?_, rfl⟩
        rw [List.all_eq_true]
        intro d hd
        obtain ⟨hd, hi⟩ := (mem_params ds d).1 hd
        cases hdef : d.default with
        | missing =>
          obtain ⟨v, hv⟩ := hf.enough d hd hi hdef
          simp only [Default.has, Bool.false_or]
          rw [Dict.get?_isSome_iff, mem_keys_iff]
          exact ⟨v, (passed_iff _ _ _ _ _).1 hv⟩
        | value v => rfl
        | factory r => rfl
    · rw [h1]
      right
      refine ⟨fun hf => ?_, rfl⟩
      obtain ⟨n, hm, hor⟩ := h2
      obtain ⟨v, hv⟩ := (mem_keys_iff _ _).1 hm
      rcases hor with hor | hor
      · obtain ⟨d, hd, he, hi⟩ := hf.known n v hv
        exact hor (List.mem_map.2 ⟨d, (mem_params ds d).2 ⟨hd, hi⟩, he⟩)
      · obtain ⟨u, hu⟩ := (mem_keys_iff _ _).1 hor
        exact hf.once n u v ((byPosition_iff _ _ _ _).2 hu) hv
  · rw [if_neg hl]
    right
    exact ⟨fun hf => hl (hlen ▸ hf.few), rfl⟩

/-! ### The body -/

omit [DecidableEq N] in
theorem decl_unique {ds : List (Decl N V)} (hn : (ds.map (·.name)).Nodup) {d e : Decl N V} (hd : d ∈ ds) (he : e ∈ ds)
    (h : d.name = e.name) : d = e := by
  induction ds with
  | nil => simp at hd
  | cons a ds ih =>
    simp only [List.map_cons, List.nodup_cons] at hn
    rcases List.mem_cons.1 hd with rfl | hd'
    · rcases List.mem_cons.1 he with rfl | he'
      · rfl
      · exact absurd (List.mem_map.2 ⟨e, he', h.symm⟩) hn.1
    · rcases List.mem_cons.1 he with rfl | he'
      · exact absurd (List.mem_map.2 ⟨d, hd', h⟩) hn.1
      · exact ih hn.2 hd' he'

theorem assigned_get {b : Dict N V} {ds : List (Decl N V)} (hn : (ds.map (·.name)).Nodup) {r : Dict N V}
    (h : assigned b ds = .ok r) :
    (∀ d ∈ ds, fieldInit b d = .ok (r.get? d.name)) ∧ ∀ n, (∀ d ∈ ds, d.name ≠ n) → r.get? n = none := by
  induction ds generalizing r with
  | nil => simp only [assigned, Except.ok.injEq] at h; subst h; simp [Dict.get?]
  | cons a ds ih =>
    simp only [List.map_cons, List.nodup_cons] at hn
    have hne : ∀ d ∈ ds, d.name ≠ a.name := fun d hd he => hn.1 (List.mem_map.2 ⟨d, hd, he⟩)
    simp only [assigned, bind, Except.bind] at h
    split at h
    · cases h
    · rename_i o ho
      split at h
      · cases h
      · rename_i r' hr'
        obtain ⟨i1, i2⟩ := ih hn.2 hr'
        cases o with
        | none =>
          simp only [Except.ok.injEq] at h
          subst h
          refine ⟨?_, fun n hx => i2 n (fun d hd => hx d (List.mem_cons_of_mem _ hd))⟩
          intro d hd
          rcases List.mem_cons.1 hd with rfl | hd
          · rw [i2 _ hne]; exact ho
          · exact i1 d hd
        | some v =>
          simp only [Except.ok.injEq] at h
          subst h
          refine ⟨?_, ?_⟩
          · intro d hd
            rcases List.mem_cons.1 hd with rfl | hd
            · simp only [Dict.get?, if_true]; exact ho
            · have := hne d hd
              simp only [Dict.get?]
              rw [if_neg (fun h => this h.symm)]
              exact i1 d hd
          · intro n hx
            simp only [Dict.get?]
            rw [if_neg (hx a (by simp))]
            exact i2 n (fun d hd => hx d (List.mem_cons_of_mem _ hd))

theorem assigned_ok {b : Dict N V} {ds : List (Decl N V)} (h : ∀ d ∈ ds, ∃ o, fieldInit b d = .ok o) : ∃ r, assigned b ds = .ok r := by
  induction ds with
  | nil => exact ⟨[], rfl⟩
  | cons a ds ih =>
    obtain ⟨o, ho⟩ := h a (by simp)
    obtain ⟨r, hr⟩ := ih (fun d hd => h d (List.mem_cons_of_mem _ hd))
    cases o with
    | none => exact ⟨r, by simp only [assigned, bind, Except.bind, ho, hr]⟩
    | some v => exact ⟨(a.name, v) :: r, by simp only [assigned, bind, Except.bind, ho, hr]⟩

/-- The value on the instance, or else the one on the class. -/
def orClass (a : Option (Init.ClassAttr N V)) : Option V → Option V
  | some u => some u
  | none => match a with
    | some (.plain u) => some u
    | _ => none

/-- What the body assigns and the class keeps, together, is `Start`. -/
theorem start_iff {c : GCls N V} (hw : WF c) {args : List V} {kwargs : Dict N V} (hf : Fits c.decls args kwargs)
    (hnd : (Dict.keys (zipped (positional c.decls) args ++ kwargs)).Nodup) {d : Decl N V} (hd : d ∈ c.decls) {o : Option V}
    (ho : fieldInit (zipped (positional c.decls) args ++ kwargs) d = .ok o) (v : V) :
    orClass (c.attrs d.name) o = some v ↔
      Start (Passed c.decls args kwargs d.name) d v := by
  have hget : ∀ u, Dict.get? (zipped (positional c.decls) args ++ kwargs) d.name = some u ↔ Passed c.decls args kwargs d.name u := by
    intro u
    rw [passed_iff]
    exact ⟨Dict.mem_of_get? _, Dict.get?_of_mem _ hnd⟩
  have hnone : Dict.get? (zipped (positional c.decls) args ++ kwargs) d.name = none → ∀ u, ¬ Passed c.decls args kwargs d.name u := by
    intro h u hu
    rw [← hget, h] at hu
    cases hu
  unfold fieldInit at ho
  cases hi : d.init with
  | true =>
    cases hdef : d.default with
    | missing =>
      rw [hi, hdef] at ho
      simp only [Except.ok.injEq] at ho
      subst ho
      obtain ⟨w, hw'⟩ := hf.enough d hd hi hdef
      have hg := (hget w).2 hw'
      rw [hg]
      simp only [orClass, Option.some.injEq]
      constructor
      · rintro rfl; exact .passed hi hw'
      · intro hs
        cases hs with
        | passed _ hp => rw [← hget, hg] at hp; exact Option.some.inj hp
        | value _ h => rw [hdef] at h; cases h
        | factory _ h => rw [hdef] at h; cases h
    | value w =>
      rw [hi, hdef] at ho
      simp only at ho
      cases hg : Dict.get? (zipped (positional c.decls) args ++ kwargs) d.name with
      | some u =>
        rw [hg] at ho
        simp only [Except.ok.injEq] at ho
        subst ho
        have hp := (hget u).1 hg
        simp only [orClass, Option.some.injEq]
        constructor
        · rintro rfl; exact .passed hi hp
        · intro hs
          cases hs with
          | passed _ hp' => rw [← hget, hg] at hp'; exact Option.some.inj hp'
          | value h _ => exact absurd hp (h hi u)
          | factory h _ => exact absurd hp (h hi u)
      | none =>
        rw [hg] at ho
        simp only [Except.ok.injEq] at ho
        subst ho
        simp only [orClass, Option.some.injEq]
        constructor
        · rintro rfl; exact .value (fun _ => hnone hg) hdef
        · intro hs
          cases hs with
          | passed _ hp' => exact absurd hp' (hnone hg v)
          | value _ h => rw [hdef] at h; cases h; rfl
          | factory _ h => rw [hdef] at h; cases h
    | factory r =>
      rw [hi, hdef] at ho
      simp only at ho
      cases hg : Dict.get? (zipped (positional c.decls) args ++ kwargs) d.name with
      | some u =>
        rw [hg] at ho
        simp only [Except.ok.injEq] at ho
        subst ho
        have hp := (hget u).1 hg
        simp only [orClass, Option.some.injEq]
        constructor
        · rintro rfl; exact .passed hi hp
        · intro hs
          cases hs with
          | passed _ hp' => rw [← hget, hg] at hp'; exact Option.some.inj hp'
          | value h _ => exact absurd hp (h hi u)
          | factory h _ => exact absurd hp (h hi u)
      | none =>
        rw [hg] at ho
        cases r with
        | error e => simp [Except.map] at ho
        | ok w =>
          simp only [Except.map, Except.ok.injEq] at ho
          subst ho
          simp only [orClass, Option.some.injEq]
          constructor
          · rintro rfl; exact .factory (fun _ => hnone hg) hdef
          · intro hs
            cases hs with
            | passed _ hp' => exact absurd hp' (hnone hg v)
            | value _ h => rw [hdef] at h; cases h
            | factory _ h => rw [hdef] at h; cases h; rfl
  | false =>
    cases hdef : d.default with
    | missing =>
      rw [hi, hdef] at ho
      simp only [Except.ok.injEq] at ho
      subst ho
      rw [hw.noDefault d hd (by rw [hdef]; intro v h; cases h)]
      simp only [orClass, reduceCtorEq, false_iff]
      intro hs
      cases hs with
      | passed h _ => rw [hi] at h; cases h
      | value _ h => rw [hdef] at h; cases h
      | factory _ h => rw [hdef] at h; cases h
    | value w =>
      rw [hi, hdef] at ho
      simp only [Except.ok.injEq] at ho
      subst ho
      rw [hw.default d hd w hdef]
      simp only [orClass, Option.some.injEq]
      constructor
      · rintro rfl; exact .value (by rw [hi]; intro h; cases h) hdef
      · intro hs
        cases hs with
        | passed h _ => rw [hi] at h; cases h
        | value _ h => rw [hdef] at h; cases h; rfl
        | factory _ h => rw [hdef] at h; cases h
    | factory r =>
      rw [hi, hdef] at ho
      cases r with
      | error e => simp [Except.map] at ho
      | ok w =>
        simp only [Except.map, Except.ok.injEq] at ho
        subst ho
        simp only [orClass, Option.some.injEq]
        constructor
        · rintro rfl; exact .factory (by rw [hi]; intro h; cases h) hdef
        · intro hs
          cases hs with
          | passed h _ => rw [hi] at h; cases h
          | value _ h => rw [hdef] at h; cases h
          | factory _ h => rw [hdef] at h; cases h; rfl

theorem fieldInit_ok (b : Dict N V) {d : Decl N V} (h : ∀ e, d.default = .factory (.error e) → d.init = true ∧ (b.get? d.name).isSome = true) :
    ∃ o, fieldInit b d = .ok o := by
  unfold fieldInit
  cases hi : d.init <;> cases hdef : d.default with
  | missing => exact ⟨_, rfl⟩
  | value v => first | exact ⟨_, rfl⟩ | (simp only; split <;> exact ⟨_, rfl⟩)
  | factory r =>
    cases r with
    | ok v => first | exact ⟨_, rfl⟩ | (simp only; split <;> exact ⟨_, rfl⟩)
    | error e =>
      obtain ⟨h1, h2⟩ := h e hdef
      first
      | (rw [hi] at h1; cases h1; done)
      | (obtain ⟨u, hu⟩ := Option.isSome_iff_exists.1 h2
         simp only [hu]
         exact ⟨_, rfl⟩)

omit [DecidableEq N] in
theorem wf_noprop {c : GCls N V} (hw : WF c) {d : Decl N V} (hd : d ∈ c.decls) : ∀ g, c.cls.attrs d.name ≠ some (.property g) := by
  intro g h
  change c.attrs d.name = _ at h
  cases hdef : d.default with
  | value v => rw [hw.default d hd v hdef] at h; cases h
  | missing => rw [hw.noDefault d hd (by rw [hdef]; intro v h; cases h)] at h; cases h
  | factory r => rw [hw.noDefault d hd (by rw [hdef]; intro v h; cases h)] at h; cases h

omit [DecidableEq N] in
theorem cls_names (c : GCls N V) : c.cls.fields.map (·.name) = c.decls.map (·.name) := by
  simp [GCls.cls, Function.comp_def]

omit [DecidableEq N] in
theorem mem_cls {c : GCls N V} {d : Decl N V} (hd : d ∈ c.decls) : (⟨d.name, d.converter⟩ : Field N V) ∈ c.cls.fields :=
  List.mem_map.2 ⟨d, hd, rfl⟩

theorem cls_noprop {c : GCls N V} (hw : WF c) : ∀ f ∈ c.cls.fields, ∀ g, c.cls.attrs f.name ≠ some (.property g) := by
  intro f hf
  obtain ⟨d, hd, rfl⟩ := List.mem_map.1 hf
  exact wf_noprop hw hd

theorem getattr_iff {c : GCls N V} (hw : WF c) {d : Decl N V} (hd : d ∈ c.decls) (s : Inst N V) (v : V) :
    getattr c.cls s d.name = .ok v ↔ orClass (c.attrs d.name) (s.dict.get? d.name) = some v := by
  have hh : Init.held c.cls s d.name = orClass (c.attrs d.name) (s.dict.get? d.name) := by
    unfold Init.held orClass
    cases s.dict.get? d.name <;> rfl
  rw [Init.getattr_held (wf_noprop hw hd), hh]
  cases orClass (c.attrs d.name) (s.dict.get? d.name) <;> simp

theorem getattr_held' {c : GCls N V} (hw : WF c) {d : Decl N V} (hd : d ∈ c.decls) (s : Inst N V) (v : V) :
    Init.held c.cls s d.name = some v ↔ getattr c.cls s d.name = .ok v := by
  rw [Init.getattr_held (wf_noprop hw hd)]
  cases Init.held c.cls s d.name <;> simp

/-- What the call comes to: whether the arguments fit and can be flattened, then the body of `__init__` on the values of the fields. -/
theorem call_reduces {c : GCls N V} (hw : WF c) {args : List V} {kwargs : Dict N V} (hk : kwargs.keys.Nodup) :
    (c.clsName ∈ kwargs.keys ∧ call c args kwargs = .error .typeError) ∨
    (c.clsName ∉ kwargs.keys ∧ (∃ v ∈ args ++ kwargs.map (·.2), c.flattens v = false) ∧ call c args kwargs = .error .valueError) ∨
    (c.clsName ∉ kwargs.keys ∧ (∀ v ∈ args ++ kwargs.map (·.2), c.flattens v = true) ∧ ¬ Fits c.decls args kwargs ∧
      call c args kwargs = .error .typeError) ∨
    (c.clsName ∉ kwargs.keys ∧ (∀ v ∈ args ++ kwargs.map (·.2), c.flattens v = true) ∧ Fits c.decls args kwargs ∧
      (Dict.keys (zipped (positional c.decls) args ++ kwargs)).Nodup ∧
      call c args kwargs = (assigned (zipped (positional c.decls) args ++ kwargs) c.decls).bind
        fun r => Init.construct c.cls (.generated r.get? c.post)) := by
  unfold call
  by_cases h1 : c.clsName ∈ kwargs.keys
  · left; rw [if_pos h1]; exact ⟨h1, rfl⟩
  · right
    rw [if_neg h1]
    by_cases h2 : ((args ++ kwargs.map (·.2)).all c.flattens) = true
    · right
      rw [if_pos h2]
      rcases bindArgs_spec c.decls args kwargs hw.names hk with ⟨hf, hb, hnd⟩ | ⟨hf, hb⟩
      · right
        refine ⟨h1, List.all_eq_true.1 h2, hf, hnd, ?_⟩
        simp only [bind, Except.bind, hb]
      · left
        refine ⟨h1, List.all_eq_true.1 h2, hf, ?_⟩
        simp only [bind, Except.bind, hb]
    · left
      rw [if_neg h2]
      refine ⟨h1, ?_, rfl⟩
      rw [List.all_eq_true] at h2
      simp only [not_forall] at h2
      obtain ⟨v, hv, hf⟩ := h2
      exact ⟨v, hv, by simpa using hf⟩

/-- **C101**: if the call returns, the arguments fit; `__post_init__` was run when every field held what was passed for it, or else its default
(and nothing, if it is no parameter and has no default); and then every field holds what `__post_init__` left there, put once through its
converter, defaults included. -/
theorem call_spec {c : GCls N V} (hw : WF c) {args : List V} {kwargs : Dict N V} (hk : kwargs.keys.Nodup) {s : Inst N V}
    (h : call c args kwargs = .ok s) :
    Fits c.decls args kwargs ∧ s.initable = false ∧
    ∃ s₀ s₁ : Inst N V,
      (∀ d ∈ c.decls, ∀ v, getattr c.cls s₀ d.name = .ok v ↔ Start (Passed c.decls args kwargs d.name) d v) ∧
      Init.run c.cls c.post s₀ = .ok s₁ ∧
      ∀ d ∈ c.decls, ∃ v, getattr c.cls s₁ d.name = .ok v ∧
        match d.converter with
        | none => getattr c.cls s d.name = .ok v
        | some g => ∃ v', g v = .ok v' ∧ getattr c.cls s d.name = .ok v' := by
  rcases call_reduces hw (args := args) hk with ⟨-, he⟩ | ⟨-, -, he⟩ | ⟨-, -, -, he⟩ | ⟨-, -, hf, hnd, he⟩
  · rw [he] at h; cases h
  · rw [he] at h; cases h
  · rw [he] at h; cases h
  · rw [he] at h
    cases hr : assigned (zipped (positional c.decls) args ++ kwargs) c.decls with
    | error e => rw [hr] at h; cases h
    | ok r =>
      rw [hr] at h
      change Init.construct c.cls (.generated r.get? c.post) = .ok s at h
      obtain ⟨hr1, -⟩ := assigned_get hw.names hr
      have hn' : (c.cls.fields.map (·.name)).Nodup := by rw [cls_names]; exact hw.names
      obtain ⟨s₀, g1, -, g3⟩ := Init.generated_assigns (args := r.get?) hn' (cls_noprop hw)
      obtain ⟨k1, -, k3, -, s₁, k5, k6⟩ := Init.construct_spec hn' (cls_noprop hw) h
      refine ⟨hf, k1, s₀, s₁, ?_, by rw [← g3]; exact k5, ?_⟩
      · intro d hd v
        rw [getattr_iff hw hd, g1 _ (mem_cls hd)]
        exact start_iff hw hf hnd hd (hr1 d hd) v
      · intro d hd
        have h6 := k6 _ (mem_cls hd)
        cases hc : d.converter with
        | none =>
          simp only [hc] at h6
          obtain ⟨v, hv⟩ := k3 _ (mem_cls hd)
          have hv' := (getattr_held' hw hd s v).1 hv
          refine ⟨v, ?_, hv'⟩
          rw [getattr_iff hw hd] at hv' ⊢
          rw [← h6]; exact hv'
        | some g =>
          simp only [hc] at h6
          obtain ⟨v, v', h1, h2, h3⟩ := h6
          refine ⟨v, (getattr_held' hw hd s₁ v).1 h1, v', h2, ?_⟩
          rw [getattr_iff hw hd, h3]
          rfl

/-! ### When the call returns -/

theorem runConverters_ok {c : Cls N V} {fs : List (Field N V)} (hfs : ∀ f ∈ fs, f ∈ c.fields) (hn : (fs.map (·.name)).Nodup)
    (hp : ∀ f ∈ fs, ∀ g, c.attrs f.name ≠ some (.property g)) {s : Inst N V} (hi : s.initable = true) :
    (∃ s', Init.runConverters c fs s = .ok s') ↔
    ∀ f ∈ fs, ∀ g, f.converter = some g → ∀ v, Init.held c s f.name = some v → ∃ v', g v = .ok v' ∧ c.boundToSelf v' = false := by
  induction fs generalizing s with
  | nil => simp [Init.runConverters]
  | cons f fs ih =>
    have hfs' : ∀ f ∈ fs, f ∈ c.fields := fun f hf => hfs f (List.mem_cons_of_mem _ hf)
    have hp' : ∀ f ∈ fs, ∀ g, c.attrs f.name ≠ some (.property g) := fun f hf => hp f (List.mem_cons_of_mem _ hf)
    simp only [List.map_cons, List.nodup_cons] at hn
    have hne : ∀ g ∈ fs, f.name ≠ g.name := fun g hg he => hn.1 (by rw [he]; exact List.mem_map.2 ⟨g, hg, rfl⟩)
    simp only [Init.runConverters, List.forall_mem_cons]
    cases hc : f.converter with
    | none =>
      simp only [ih hfs' hn.2 hp' hi]
      simp
    | some g =>
      simp only [Init.getattr_held (hp f (by simp)), Option.some.injEq, forall_eq']
      cases hh : Init.held c s f.name with
      | none =>
        simp only [ih hfs' hn.2 hp' hi]
        simp
      | some v =>
        simp only [Option.some.injEq, forall_eq', bind, Except.bind]
        cases hv : g v with
        | error e => simp
        | ok v' =>
          simp only [Except.ok.injEq, exists_eq_left']
          cases hb : c.boundToSelf v' with
          | true =>
            rw [Init.bound_method_raises hi (hfs f (by simp)) hb]
            simp
          | false =>
            obtain ⟨s₁, h1, h2, h3⟩ := Init.declared_assigns hi (hfs f (by simp)) hb (hp f (by simp))
            rw [h1]
            simp only [ih hfs' hn.2 hp' h2, true_and]
            have hheld : ∀ g ∈ fs, Init.held c s₁ g.name = Init.held c s g.name := by
              intro g hg
              unfold Init.held
              rw [h3, if_neg (hne g hg)]
            constructor
            · intro h g hg conv hconv w hw
              exact h g hg conv hconv w (by rw [hheld g hg]; exact hw)
            · intro h g hg conv hconv w hw
              exact h g hg conv hconv w (by rw [← hheld g hg]; exact hw)

/-- **C101**: without `__post_init__` and `__check_init__` the call returns exactly if no keyword is `cls`, all arguments can be flattened, the
arguments fit, every field has something to hold (and the factories that are needed return), and the converters return, not a method of the
new instance. -/
theorem call_returns_iff {c : GCls N V} (hw : WF c) (hpost : c.post = .done) (hchecks : c.checks = []) {args : List V} {kwargs : Dict N V}
    (hk : kwargs.keys.Nodup) :
    (∃ s, call c args kwargs = .ok s) ↔
      c.clsName ∉ kwargs.keys ∧ (∀ v ∈ args ++ kwargs.map (·.2), c.flattens v = true) ∧ Fits c.decls args kwargs ∧
      ∀ d ∈ c.decls, ∃ v, Start (Passed c.decls args kwargs d.name) d v ∧
        ∀ g, d.converter = some g → ∃ v', g v = .ok v' ∧ c.boundToSelf v' = false := by
  have hn' : (c.cls.fields.map (·.name)).Nodup := by rw [cls_names]; exact hw.names
  constructor
  · rintro ⟨s, h⟩
    have hspec := call_spec hw hk h
    rcases call_reduces hw (args := args) hk with ⟨-, he⟩ | ⟨-, -, he⟩ | ⟨-, -, -, he⟩ | ⟨a1, a2, hf, hnd, he⟩
    · rw [he] at h; cases h
    · rw [he] at h; cases h
    · rw [he] at h; cases h
    · refine ⟨a1, a2, hf, ?_⟩
      obtain ⟨-, -, s₀', s₁', b1, b2, b3⟩ := hspec
      rw [hpost] at b2
      cases b2
      rw [he] at h
      cases hr : assigned (zipped (positional c.decls) args ++ kwargs) c.decls with
      | error e => rw [hr] at h; cases h
      | ok r =>
        rw [hr] at h
        change Init.construct c.cls (.generated r.get? c.post) = .ok s at h
        obtain ⟨hr1, -⟩ := assigned_get hw.names hr
        obtain ⟨s₀, g1, g2, g3⟩ := Init.generated_assigns (args := r.get?) hn' (cls_noprop hw)
        rw [hpost] at h
        simp only [Init.construct, bind, Except.bind, g3, Init.run] at h
        cases hcv : Init.runConverters c.cls c.cls.fields s₀ with
        | error e => rw [hcv] at h; cases h
        | ok s₁ =>
          have := (runConverters_ok (fun _ h => h) hn' (cls_noprop hw) g2).1 ⟨s₁, hcv⟩
          intro d hd
          obtain ⟨v, hv, -⟩ := b3 d hd
          have hst := (b1 d hd v).1 hv
          refine ⟨v, hst, fun g hg => ?_⟩
          refine this _ (mem_cls hd) g hg v ?_
          rw [getattr_held' hw hd, getattr_iff hw hd, g1 _ (mem_cls hd)]
          exact (start_iff hw hf hnd hd (hr1 d hd) v).2 hst
  · rintro ⟨a1, a2, hf, hall⟩
    rcases call_reduces hw (args := args) hk with ⟨h, -⟩ | ⟨-, ⟨v, hv, h⟩, -⟩ | ⟨-, -, h, -⟩ | ⟨-, -, -, hnd, he⟩
    · exact absurd h a1
    · rw [a2 v hv] at h; cases h
    · exact absurd hf h
    · have hget : ∀ n u, Dict.get? (zipped (positional c.decls) args ++ kwargs) n = some u ↔ Passed c.decls args kwargs n u := by
        intro n u
        rw [passed_iff]
        exact ⟨Dict.mem_of_get? _, Dict.get?_of_mem _ hnd⟩
      obtain ⟨r, hr⟩ := assigned_ok (b := zipped (positional c.decls) args ++ kwargs) (ds := c.decls) (fun d hd => by
        apply fieldInit_ok
        intro e hdef
        obtain ⟨v, hst, -⟩ := hall d hd
        cases hst with
        | passed h1 h2 => exact ⟨h1, by rw [(hget _ _).2 h2]; rfl⟩
        | value _ h => rw [hdef] at h; cases h
        | factory _ h => rw [hdef] at h; cases h)
      obtain ⟨hr1, -⟩ := assigned_get hw.names hr
      rw [he, hr]
      change ∃ s, Init.construct c.cls (.generated r.get? c.post) = .ok s
      obtain ⟨s₀, g1, g2, g3⟩ := Init.generated_assigns (args := r.get?) hn' (cls_noprop hw)
      have hstart : ∀ d ∈ c.decls, ∀ v, Init.held c.cls s₀ d.name = some v ↔ Start (Passed c.decls args kwargs d.name) d v := by
        intro d hd v
        rw [getattr_held' hw hd, getattr_iff hw hd, g1 _ (mem_cls hd)]
        exact start_iff hw hf hnd hd (hr1 d hd) v
      obtain ⟨s₁, hcv⟩ := (runConverters_ok (fun _ h => h) hn' (cls_noprop hw) g2).2 (by
        intro f hfm g hg v hv
        obtain ⟨d, hd, rfl⟩ := List.mem_map.1 hfm
        obtain ⟨v', hst, hconv⟩ := hall d hd
        have := (hstart d hd v').2 hst
        rw [hv] at this
        cases this
        exact hconv g hg)
      have honly : Init.OnlyFields c.cls s₀ := (Init.runInit_only (by rw [g3 .done]; rfl)).1
      obtain ⟨-, -, p3, p4⟩ := Init.runConverters_spec (fun _ h => h) hn' (cls_noprop hw) g2 honly hcv
      rw [hpost]
      simp only [Init.construct, bind, Except.bind, g3, Init.run, hcv]
      rw [if_pos]
      · exact ⟨_, by simp only [GCls.cls, hchecks, Init.runChecks]; rfl⟩
      · rw [List.all_eq_true]
        intro f hfm
        obtain ⟨d, hd, rfl⟩ := List.mem_map.1 hfm
        obtain ⟨v, hst, -⟩ := hall d hd
        have hh := (hstart d hd v).2 hst
        simp only [Init.inDir, Bool.or_eq_true]
        cases hc : d.converter with
        | some g =>
          have := p4 _ hfm g hc
          rw [hh] at this
          obtain ⟨v', -, h2⟩ := this
          left; rw [h2]; rfl
        | none =>
          have := p3 d.name (fun f' hf' he => by
            obtain ⟨d', hd', rfl⟩ := List.mem_map.1 hf'
            rw [decl_unique hw.names hd' hd he]; exact hc)
          rw [this]
          unfold Init.held at hh
          cases hg : s₀.dict.get? d.name with
          | some u => left; rfl
          | none =>
            rw [hg] at hh
            right
            cases ha : c.cls.attrs d.name with
            | none => simp only [ha] at hh; cases hh
            | some _ => rfl

/-- **C101**: what the call raises before `__init__`: the keyword `cls` is refused, then an argument that cannot be flattened gives
`ValueError`, then arguments that do not fit give `TypeError`. -/
theorem call_raises {c : GCls N V} (hw : WF c) {args : List V} {kwargs : Dict N V} (hk : kwargs.keys.Nodup) :
    (c.clsName ∈ kwargs.keys → call c args kwargs = .error .typeError) ∧
    (c.clsName ∉ kwargs.keys → (∃ v ∈ args ++ kwargs.map (·.2), c.flattens v = false) → call c args kwargs = .error .valueError) ∧
    ((∀ v ∈ args ++ kwargs.map (·.2), c.flattens v = true) → ¬ Fits c.decls args kwargs → call c args kwargs = .error .typeError) := by
  rcases call_reduces hw (args := args) hk with ⟨a, he⟩ | ⟨a, ⟨v, hv, b⟩, he⟩ | ⟨a, b, d, he⟩ | ⟨a, b, d, -, -⟩
  · exact ⟨fun _ => he, fun h => absurd a h, fun _ _ => he⟩
  · exact ⟨fun h => absurd h a, fun _ _ => he, fun h => by rw [h v hv] at b; cases b⟩
  · exact ⟨fun h => absurd h a, fun _ ⟨v, hv, h⟩ => (by rw [b v hv] at h; cases h), fun _ _ => he⟩
  · exact ⟨fun h => absurd h a, fun _ ⟨v, hv, h⟩ => (by rw [b v hv] at h; cases h), fun _ h => absurd d h⟩

/-- **C101**: a field that is no parameter, has no default, and is not set by a `__post_init__`: `ValueError`. -/
theorem call_missing {c : GCls N V} (hw : WF c) (hpost : c.post = .done) {args : List V} {kwargs : Dict N V} (hk : kwargs.keys.Nodup)
    (hcls : c.clsName ∉ kwargs.keys) (hfl : ∀ v ∈ args ++ kwargs.map (·.2), c.flattens v = true) (hf : Fits c.decls args kwargs)
    (hfac : ∀ d ∈ c.decls, ∀ e, d.default ≠ .factory (.error e))
    (hconv : ∀ d ∈ c.decls, ∀ g, d.converter = some g → ∀ v, ∃ v', g v = .ok v' ∧ c.boundToSelf v' = false)
    {d : Decl N V} (hd : d ∈ c.decls) (hi : d.init = false) (hdef : d.default = .missing) :
    call c args kwargs = .error .valueError := by
  have hn' : (c.cls.fields.map (·.name)).Nodup := by rw [cls_names]; exact hw.names
  rcases call_reduces hw (args := args) hk with ⟨h, -⟩ | ⟨-, ⟨v, hv, h⟩, -⟩ | ⟨-, -, h, -⟩ | ⟨-, -, -, hnd, he⟩
  · exact absurd h hcls
  · rw [hfl v hv] at h; cases h
  · exact absurd hf h
  · obtain ⟨r, hr⟩ := assigned_ok (b := zipped (positional c.decls) args ++ kwargs) (ds := c.decls) (fun d hd => by
      apply fieldInit_ok
      intro e h
      exact absurd h (hfac d hd e))
    obtain ⟨hr1, -⟩ := assigned_get hw.names hr
    rw [he, hr]
    change Init.construct c.cls (.generated r.get? c.post) = _
    obtain ⟨s₀, g1, g2, g3⟩ := Init.generated_assigns (args := r.get?) hn' (cls_noprop hw)
    obtain ⟨s₁, hcv⟩ := (runConverters_ok (fun _ h => h) hn' (cls_noprop hw) g2).2 (by
      intro f hfm g hg v hv
      obtain ⟨d, hd, rfl⟩ := List.mem_map.1 hfm
      exact hconv d hd g hg v)
    refine Init.missing_raises hn' (cls_noprop hw) (s₀ := s₀) (by rw [g3, hpost]; rfl) hcv (mem_cls hd) ?_
    cases hh : Init.held c.cls s₀ d.name with
    | none => exact hh ▸ rfl
    | some v =>
      exfalso
      rw [getattr_held' hw hd, getattr_iff hw hd, g1 _ (mem_cls hd), start_iff hw hf hnd hd (hr1 d hd) v] at hh
      cases hh with
      | passed h _ => rw [hi] at h; cases h
      | value _ h => rw [hdef] at h; cases h
      | factory _ h => rw [hdef] at h; cases h

/-! ### Position or keyword -/

omit [DecidableEq N] in
theorem zipped_append (ps : List (Decl N V)) (as bs : List V) :
    zipped ps (as ++ bs) = zipped ps as ++ zipped (ps.drop as.length) bs := by
  induction as generalizing ps with
  | nil => simp [zipped]
  | cons a as ih =>
    cases ps with
    | nil => simp [zipped]
    | cons d ps =>
      have := ih ps
      simp only [zipped] at this ⊢
      simp [this]

/-- **C101**: fields that are not `kw_only` can be passed by position or by keyword: the last positional arguments may as well be passed by the
names of their fields. -/
theorem position_or_keyword {c : GCls N V} (hw : WF c) {as bs : List V} {kwargs kwargs' : Dict N V}
    (hk' : kwargs'.keys.Nodup) (hlen : (as ++ bs).length ≤ c.decls.countP Positional)
    (hkw : kwargs' = (((c.decls.filter Positional).drop as.length).zip bs).map (fun p => (p.1.name, p.2)) ++ kwargs)
    (hcls : ∀ d ∈ c.decls, d.name ≠ c.clsName) :
    call c (as ++ bs) kwargs = call c as kwargs' := by
  have hps : c.decls.filter Positional = positional c.decls := rfl
  rw [hps] at hkw
  change kwargs' = zipped ((positional c.decls).drop as.length) bs ++ kwargs at hkw
  have hlen' : (as ++ bs).length ≤ (positional c.decls).length := by
    rw [← hps, ← List.countP_eq_length_filter]; exact hlen
  have hkn : kwargs.keys.Nodup := by
    rw [hkw] at hk'
    simp only [Dict.keys, List.map_append] at hk' ⊢
    exact (List.nodup_append.1 hk').2.1
  have hsame : zipped (positional c.decls) (as ++ bs) ++ kwargs = zipped (positional c.decls) as ++ kwargs' := by
    rw [hkw, zipped_append, List.append_assoc]
  have hvals : (zipped ((positional c.decls).drop as.length) bs).map (·.2) = bs := by
    simp only [zipped, List.map_map, Function.comp_def]
    have : ∀ (ps : List (Decl N V)) (vs : List V), vs.length ≤ ps.length → (ps.zip vs).map (fun p => p.2) = vs := by
      intro ps vs h
      exact List.map_snd_zip h
    apply this
    rw [List.length_drop]
    rw [List.length_append] at hlen'
    omega
  have hflat : (as ++ bs) ++ kwargs.map (·.2) = as ++ kwargs'.map (·.2) := by
    rw [hkw, List.map_append, hvals, List.append_assoc]
  have hclsk : c.clsName ∈ kwargs'.keys ↔ c.clsName ∈ kwargs.keys := by
    rw [hkw]
    simp only [Dict.keys, List.map_append, List.mem_append]
    constructor
    · rintro (h | h)
      · exfalso
        have hz := zipped_keys ((positional c.decls).drop as.length) bs
        simp only [Dict.keys] at hz
        rw [hz] at h
        obtain ⟨d, hd, he⟩ := List.mem_map.1 (List.mem_of_mem_take h)
        exact hcls d (List.mem_filter.1 (List.mem_of_mem_drop hd)).1 he
      · exact h
    · exact .inr
  have hfit : Fits c.decls (as ++ bs) kwargs ↔ Fits c.decls as kwargs' := by
    have hpass : ∀ n v, Passed c.decls (as ++ bs) kwargs n v ↔ Passed c.decls as kwargs' n v := by
      intro n v; rw [passed_iff, passed_iff, hsame]
    constructor
    · intro h
      refine ⟨?_, ?_, ?_, ?_⟩
      · have := h.few; rw [List.length_append] at this; omega
      · intro n v hm
        rw [hkw, List.mem_append] at hm
        rcases hm with hm | hm
        · obtain ⟨i, d, h1, h2, -⟩ := (mem_zipped _ _ _ _).1 hm
          have hd := List.mem_of_mem_drop (List.mem_of_getElem? h1)
          have := List.mem_filter.1 hd
          exact ⟨d, this.1, h2, (by simpa using (Bool.and_eq_true _ _ ▸ this.2 : d.init = true ∧ _).1)⟩
        · exact h.known n v hm
      · intro n v u hb hm
        rw [byPosition_iff] at hb
        rw [hkw, List.mem_append] at hm
        rcases hm with hm | hm
        · -- a name among both the first and the last positional fields
          have hpn : ((positional c.decls).map (·.name)).Nodup := hw.names.sublist (List.filter_sublist.map _)
          have hz := zipped_keys (positional c.decls) (as ++ bs)
          have hnd : (Dict.keys (zipped (positional c.decls) (as ++ bs))).Nodup := by
            rw [hz]; exact hpn.sublist (List.take_sublist _ _)
          rw [zipped_append] at hnd
          simp only [Dict.keys, List.map_append] at hnd
          exact (List.nodup_append.1 hnd).2.2 n (List.mem_map.2 ⟨_, hb, rfl⟩) n (List.mem_map.2 ⟨_, hm, rfl⟩) rfl
        · refine h.once n v u ((byPosition_iff _ _ _ _).2 ?_) hm
          rw [zipped_append]
          exact List.mem_append_left _ hb
      · intro d hd hi hdef
        obtain ⟨v, hv⟩ := h.enough d hd hi hdef
        exact ⟨v, (hpass _ _).1 hv⟩
    · intro h
      refine ⟨hlen, ?_, ?_, ?_⟩
      · intro n v hm
        exact h.known n v (by rw [hkw]; exact List.mem_append_right _ hm)
      · intro n v u hb hm
        rw [byPosition_iff, zipped_append, List.mem_append] at hb
        rcases hb with hb | hb
        · exact h.once n v u ((byPosition_iff _ _ _ _).2 hb) (by rw [hkw]; exact List.mem_append_right _ hm)
        · rw [hkw] at hk'
          simp only [Dict.keys, List.map_append] at hk'
          exact (List.nodup_append.1 hk').2.2 n (List.mem_map.2 ⟨_, hb, rfl⟩) n (List.mem_map.2 ⟨_, hm, rfl⟩) rfl
      · intro d hd hi hdef
        obtain ⟨v, hv⟩ := h.enough d hd hi hdef
        exact ⟨v, (hpass _ _).2 hv⟩
  rcases call_reduces hw (args := as ++ bs) hkn with ⟨a, he⟩ | ⟨a, b, he⟩ | ⟨a, b, d, he⟩ | ⟨a, b, d, -, he⟩ <;>
  rcases call_reduces hw (args := as) hk' with ⟨a', he'⟩ | ⟨a', b', he'⟩ | ⟨a', b', d', he'⟩ | ⟨a', b', d', -, he'⟩
  all_goals first
    | (rw [he, he']; done)
    | (rw [he, he', hsame]; done)
    | exact absurd (hclsk.1 a') a
    | exact absurd (hclsk.2 a) a'
    | (rw [hflat] at b; obtain ⟨v, hv, hb⟩ := b; rw [b' v hv] at hb; cases hb)
    | (rw [hflat] at b; obtain ⟨v, hv, hb⟩ := b'; rw [b v hv] at hb; cases hb)
    | exact absurd (hfit.1 d) d'
    | exact absurd (hfit.2 d') d

/-! ### The hypotheses can be met, and the corner -/

/-- `class Foo(Module): a: int; b: int = 5; c: int = field(init=False, default=7, converter=lambda v: v + 1);
d: int = field(kw_only=True); e: list = field(default_factory=lambda: 9)`; 100 cannot be flattened. The name `cls` is 50. -/
def exCls : GCls Nat Nat :=
  ⟨[⟨1, .missing, true, false, none⟩, ⟨2, .value 5, true, false, none⟩, ⟨3, .value 7, false, false, some fun v => .ok (v + 1)⟩,
     ⟨4, .missing, true, true, none⟩, ⟨5, .factory (.ok 9), true, false, none⟩],
   fun n => if n = 2 then some (.plain 5) else if n = 3 then some (.plain 7) else none, fun _ => false, [], .done, (· != 100), 50⟩

theorem exCls_wf : WF exCls := by
  constructor
  · simp [exCls]
  · intro d hd v hv
    simp only [exCls, List.mem_cons, List.not_mem_nil, or_false] at hd
    rcases hd with rfl | rfl | rfl | rfl | rfl <;> simp_all [exCls]
  · intro d hd hv
    simp only [exCls, List.mem_cons, List.not_mem_nil, or_false] at hd
    rcases hd with rfl | rfl | rfl | rfl | rfl <;> simp_all [exCls]

example : (define (fun v => v == 0) exCls.decls).toOption.isSome = true ∧
    call exCls [1] [(4, 2)] = .ok ⟨false, [(1, 1), (2, 5), (4, 2), (5, 9), (3, 8)]⟩ ∧
    call exCls [1, 6] [(4, 2)] = call exCls [1] [(2, 6), (4, 2)] ∧
    call exCls [1] [] = .error .typeError ∧ call exCls [1] [(4, 2), (3, 0)] = .error .typeError ∧
    call exCls [1] [(1, 1), (4, 2)] = .error .typeError := by
  refine ⟨rfl, rfl, rfl, rfl, rfl, rfl⟩

/-- **C101**, the corner: an argument that is not a pytree that JAX can flatten is refused by a generated `__init__`, whatever the field is (it
may be static), but an `__init__` that assigns the same value is fine. -/
theorem unflattenable_refused :
    call (⟨[⟨1, .missing, true, false, none⟩], fun _ => none, fun _ => false, [], .done, (· != 100), 50⟩ : GCls Nat Nat) [100] []
      = .error .valueError ∧
    Init.construct (⟨[⟨1, none⟩], fun _ => none, fun _ => false, []⟩ : Cls Nat Nat) (.custom (.set 1 100 fun _ => .done))
      = .ok ⟨false, [(1, 100)]⟩ := ⟨rfl, rfl⟩

end Verif.Module.Generated
