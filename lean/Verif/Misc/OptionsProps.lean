import Verif.Misc.Options
import Mathlib.Tactic.Tauto

/-! # C109: options can be given in advance, and are checked -/

namespace Verif.Misc.Options

open Verif.Module.Signature

variable {O : Type}

/-! ### What a call depends on -/

/-- The keywords that go to `**jitkwargs`. -/
def extras (w : World O) (m : Maker) (kw : Kw O) : Kw O :=
  kw.filter fun e => !(first m :: (named w m).map (·.1)).contains e.1

/-- The keyword-only arguments, with defaults. -/
def vals (kw : Kw O) : List (String × Option (Val O)) → Option (Kw O)
  | [] => some []
  | (n, d) :: ps =>
    match (kw.get? n).or d, vals kw ps with
    | some v, some r => some ((n, v) :: r)
    | _, _ => Option.none

/-- A call with the function `f` or the sentinel, keywords being bound. -/
def core (w : World O) (m : Maker) (f : Val O) (kw : Kw O) : Except Err (Made O) :=
  if star m = true ∨ extras w m kw = [] then
    match vals kw (named w m), f with
    | Option.none, _ => .error .typeError
    | some d, .sentinel => .ok (.part (d ++ extras w m kw))
    | some d, f => make w m f d (extras w m kw)
  else .error .typeError

theorem named_nodup (w : World O) (m : Maker) : (first m :: (named w m).map (·.1)).Nodup := by
  cases m <;> simp [first, named]

theorem keywords_params (w : World O) (m : Maker) : keywords (params w m) = first m :: (named w m).map (·.1) := by
  cases m <;> simp [keywords, params, named, first, star, List.filter_cons, Param.named]

theorem hasVarKw_params (w : World O) (m : Maker) : hasVarKw (params w m) = star m := by
  cases m <;> simp [hasVarKw, params, named, star]

theorem hasVarPos_params (w : World O) (m : Maker) : hasVarPos (params w m) = false := by
  cases m <;> simp [hasVarPos, params, named, star]

theorem front_params (w : World O) (m : Maker) : (params w m).filter Param.pos = [⟨first m, .posOrKw, some .sentinel⟩] := by
  cases m <;> simp [params, named, first, star, List.filter_cons, Param.pos]

theorem get?_append (d e : Kw O) (k : String) : Dict.get? (d ++ e : Kw O) k = (d.get? k).or (e.get? k) := by
  induction d with
  | nil => simp [Dict.get?]
  | cons p d ih =>
    obtain ⟨a, b⟩ := p
    by_cases h : a = k
    · simp [Dict.get?, h]
    · simpa [Dict.get?, h] using ih

theorem get?_filter (d : Kw O) (p : String → Bool) (k : String) :
    Dict.get? (d.filter (fun e => p e.1) : Kw O) k = if p k then d.get? k else Option.none := by
  induction d with
  | nil => simp [Dict.get?]
  | cons e d ih =>
    obtain ⟨a, b⟩ := e
    by_cases hk : a = k
    · subst hk
      by_cases hp : p a = true
      · simp [Dict.get?, hp]
      · simp only [Bool.not_eq_true] at hp
        rw [List.filter_cons_of_neg (by simp [hp]), ih]; simp [hp]
    · by_cases hp : p a = true
      · rw [List.filter_cons_of_pos (by simpa using hp)]; simpa [Dict.get?, hk] using ih
      · rw [List.filter_cons_of_neg (by simpa using hp), ih]; simp [Dict.get?, hk]

theorem fill_named (loc : Kw O) (extra : Kw O) (ps : List (String × Option (Val O))) (kw : Kw O) (s : Bool)
    (h : ∀ p ∈ ps, loc.get? p.1 = kw.get? p.1) :
    fill loc [] extra (ps.map (fun d => (⟨d.1, .kwOnly, d.2⟩ : Param String (Val O))) ++ (if s then [⟨"**", .varKw, Option.none⟩] else [])) =
      match vals kw ps with
      | some d => .ok (d.map (fun e => (e.1, .one e.2)) ++ (if s then [("**", .dict extra)] else []))
      | Option.none => .error .typeError := by
  induction ps with
  | nil => cases s <;> simp [fill, vals, heldBy, Bind.bind, Except.bind]
  | cons p ps ih =>
    obtain ⟨n, d⟩ := p
    have ih := ih fun p hp => h p (List.mem_cons_of_mem _ hp)
    have h0 := h (n, d) (List.mem_cons_self ..)
    simp only [List.map_cons, List.cons_append, fill, heldBy, h0, Bind.bind, Except.bind, vals]
    rw [ih]
    cases kw.get? n with
    | some v => cases vals kw ps <;> simp
    | none => cases d <;> cases vals kw ps <;> simp

theorem onesOf_map (d : Kw O) (r : List (String × Held String (Val O))) : onesOf (d.map (fun e => (e.1, .one e.2)) ++ r) = d ++ onesOf r := by
  induction d with
  | nil => rfl
  | cons e d ih => simp [onesOf, ih]

theorem dictOf_map (d : Kw O) (r : List (String × Held String (Val O))) : dictOf (d.map (fun e => (e.1, .one e.2)) ++ r) = dictOf r := by
  induction d with
  | nil => rfl
  | cons e d ih => simp [dictOf, ih]

theorem mem_extras (w : World O) (m : Maker) (kw : Kw O) (e : String × Val O) :
    e ∈ extras w m kw ↔ e ∈ kw ∧ e.1 ∉ first m :: (named w m).map (·.1) := by
  simp [extras]

/-- The end of a call, the function being `f`. -/
theorem call_end (w : World O) (m : Maker) (f : Val O) (kw : Kw O) (b : List (String × Held String (Val O)))
    (hb : ∃ d, vals kw (named w m) = some d ∧
      b = (first m, .one f) :: (d.map (fun e => (e.1, .one e.2)) ++ (if star m then [("**", .dict (extras w m kw))] else [])))
    (hs : star m = true ∨ extras w m kw = []) :
    body w m b = core w m f kw := by
  obtain ⟨d, hd, rfl⟩ := hb
  have h1 : onesOf (if star m then [("**", Held.dict (extras w m kw))] else []) = [] := by cases star m <;> rfl
  have h2 : dictOf (if star m then [("**", Held.dict (extras w m kw))] else []) = extras w m kw := by
    cases h : star m
    · have : extras w m kw = [] := by simpa [h] using hs
      simp [dictOf, this]
    · rfl
  unfold core
  rw [if_pos hs, hd]
  cases f <;> simp only [body, onesOf_map, dictOf_map, h1, h2, List.append_nil]

theorem call_nil (w : World O) (m : Maker) {kw : Kw O} (hk : kw.keys.Nodup) :
    call w m [] kw = core w m ((kw.get? (first m)).getD .sentinel) kw := by
  unfold call
  simp only [Verif.Module.Signature.bind, front_params, keywords_params, hasVarKw_params, hasVarPos_params, List.map_cons, List.map_nil, List.zip_nil_right,
    List.drop_nil, List.isEmpty_nil, Bool.true_or, if_true]
  rcases passKw_eq (first m :: (named w m).map (·.1)) (star m) [] [] kw hk with ⟨h1, h2⟩ | ⟨h1, h2⟩
  · rw [h2]
    have hs : star m = true ∨ extras w m kw = [] := by
      by_cases hs : star m = true
      · exact .inl hs
      · right
        rw [List.eq_nil_iff_forall_not_mem]
        intro e he
        rw [mem_extras] at he
        rcases h1 e.1 e.2 he.1 with h | h
        · exact he.2 h.1
        · exact hs h.2
    have hloc : ∀ n ∈ first m :: (named w m).map (·.1),
        Dict.get? ([] ++ kw.filter (fun e => (first m :: (named w m).map (·.1)).contains e.1) : Kw O) n = kw.get? n := by
      intro n hn
      rw [List.nil_append, get?_filter, if_pos (by simpa using hn)]
    simp only []
    have hfill := fill_named ([] ++ kw.filter (fun e => (first m :: (named w m).map (·.1)).contains e.1) : Kw O) (extras w m kw) (named w m) kw
      (star m) (fun p hp => hloc p.1 (List.mem_cons_of_mem _ (List.mem_map_of_mem hp)))
    have h0 := hloc (first m) (List.mem_cons_self ..)
    have hparams : params w m = ⟨first m, .posOrKw, some .sentinel⟩ :: ((named w m).map (fun d => ⟨d.1, .kwOnly, d.2⟩) ++
      (if star m then [⟨"**", .varKw, Option.none⟩] else [])) := rfl
    rw [hparams]
    rw [List.nil_append] at h0 hfill
    simp only [fill, heldBy, List.nil_append, h0, Bind.bind, Except.bind]
    rw [show (kw.filter fun e => !(first m :: (named w m).map (·.1)).contains e.1) = extras w m kw from rfl, hfill]
    cases hv : vals kw (named w m) with
    | none =>
      cases kw.get? (first m) <;> simp [core, hv]
    | some d =>
      cases hg : kw.get? (first m) with
      | none => exact call_end w m .sentinel kw _ ⟨d, hv, rfl⟩ hs
      | some f => exact call_end w m f kw _ ⟨d, hv, rfl⟩ hs
  · rw [h2]
    have hs : ¬(star m = true ∨ extras w m kw = []) := by
      intro hs
      apply h1
      intro n v hm
      by_cases hn : n ∈ first m :: (named w m).map (·.1)
      · exact .inl ⟨hn, rfl⟩
      · refine .inr ⟨hn, hs.resolve_right fun h => ?_⟩
        have := (mem_extras w m kw (n, v)).2 ⟨hm, hn⟩
        rw [h] at this; cases this
    simp [core, hs, Bind.bind, Except.bind]

theorem call_one (w : World O) (m : Maker) (f : Val O) {kw : Kw O} (hk : kw.keys.Nodup) :
    call w m [f] kw = if (kw.get? (first m)).isSome then .error .typeError else core w m f kw := by
  unfold call
  simp only [Verif.Module.Signature.bind, front_params, keywords_params, hasVarKw_params, hasVarPos_params, List.map_cons, List.map_nil, List.zip_cons_cons,
    List.zip_nil_right, List.length_cons, List.length_nil, List.drop_succ_cons, List.drop_nil, List.isEmpty_nil, Bool.true_or, if_true]
  have hget : ∀ n, Dict.get? [(first m, f)] n = if first m = n then some f else Option.none := by
    intro n; simp [Dict.get?]
  rcases passKw_eq (first m :: (named w m).map (·.1)) (star m) [(first m, f)] [] kw hk with ⟨h1, h2⟩ | ⟨h1, h2⟩
  · rw [h2]
    have hs : star m = true ∨ extras w m kw = [] := by
      by_cases hs : star m = true
      · exact .inl hs
      · right
        rw [List.eq_nil_iff_forall_not_mem]
        intro e he
        rw [mem_extras] at he
        rcases h1 e.1 e.2 he.1 with h | h
        · exact he.2 h.1
        · exact hs h.2
    have hfirst : kw.get? (first m) = Option.none := by
      cases hg : kw.get? (first m) with
      | none => rfl
      | some v =>
        rcases h1 _ v (Dict.mem_of_get? _ hg) with h | h
        · rw [hget, if_pos rfl] at h; cases h.2
        · exact absurd (List.mem_cons_self ..) h.1
    have hloc : ∀ n ∈ (named w m).map (·.1),
        Dict.get? ([(first m, f)] ++ kw.filter (fun e => (first m :: (named w m).map (·.1)).contains e.1) : Kw O) n = kw.get? n := by
      intro n hn
      have hne : first m ≠ n := fun h => (List.nodup_cons.1 (named_nodup w m)).1 (h ▸ hn)
      rw [get?_append, get?_filter, if_pos (by simpa using Or.inr hn), hget, if_neg hne]; rfl
    have h0 : Dict.get? ([(first m, f)] ++ kw.filter (fun e => (first m :: (named w m).map (·.1)).contains e.1) : Kw O) (first m) = some f := by
      rw [get?_append, hget, if_pos rfl]; rfl
    simp only []
    have hfill := fill_named ([(first m, f)] ++ kw.filter (fun e => (first m :: (named w m).map (·.1)).contains e.1) : Kw O) (extras w m kw)
      (named w m) kw (star m) (fun p hp => hloc p.1 (List.mem_map_of_mem hp))
    have hparams : params w m = ⟨first m, .posOrKw, some .sentinel⟩ :: ((named w m).map (fun d => ⟨d.1, .kwOnly, d.2⟩) ++
      (if star m then [⟨"**", .varKw, Option.none⟩] else [])) := rfl
    rw [hparams, hfirst]
    simp only [fill, heldBy, h0, List.nil_append, Bind.bind, Except.bind] at hfill ⊢
    rw [show (kw.filter fun e => !(first m :: (named w m).map (·.1)).contains e.1) = extras w m kw from rfl, hfill]
    cases hv : vals kw (named w m) with
    | none => simp [core, hv]
    | some d =>
      simp only [Option.isSome_none, Bool.false_eq_true, if_false]
      exact call_end w m f kw _ ⟨d, hv, rfl⟩ hs
  · rw [h2]
    by_cases hg : (kw.get? (first m)).isSome = true
    · simp [hg, Bind.bind, Except.bind]
    · have hs : ¬(star m = true ∨ extras w m kw = []) := by
        intro hs
        apply h1
        intro n v hm
        by_cases hn : n ∈ first m :: (named w m).map (·.1)
        · refine .inl ⟨hn, ?_⟩
          rw [hget, if_neg]
          rintro rfl
          rw [Dict.get?_of_mem _ hk hm] at hg; exact hg rfl
        · refine .inr ⟨hn, hs.resolve_right fun h => ?_⟩
          have := (mem_extras w m kw (n, v)).2 ⟨hm, hn⟩
          rw [h] at this; cases this
      simp [core, hs, hg, Bind.bind, Except.bind]

theorem call_many (w : World O) (m : Maker) (f g : Val O) (as : List (Val O)) {kw : Kw O} (hk : kw.keys.Nodup) :
    call w m (f :: g :: as) kw = .error .typeError := by
  unfold call
  simp only [Verif.Module.Signature.bind, front_params, keywords_params, hasVarKw_params, hasVarPos_params, List.map_cons, List.map_nil, List.zip_cons_cons,
    List.zip_nil_left, List.length_cons, List.length_nil, List.drop_succ_cons, List.drop_zero, List.isEmpty_cons, Bool.false_or,
    Bool.false_eq_true, if_false]
  rcases passKw_eq (first m :: (named w m).map (·.1)) (star m) [(first m, f)] [] kw hk with ⟨_, h2⟩ | ⟨_, h2⟩ <;> rw [h2] <;> rfl

/-- Calls look at keywords only in this way. -/
theorem call_congr (w : World O) (m : Maker) (args : List (Val O)) {kw kw' : Kw O} (hk : kw.keys.Nodup) (hk' : kw'.keys.Nodup)
    (h1 : kw.get? (first m) = kw'.get? (first m)) (h2 : extras w m kw = extras w m kw')
    (h3 : ∀ p ∈ named w m, (kw.get? p.1).or p.2 = (kw'.get? p.1).or p.2) : call w m args kw = call w m args kw' := by
  have hv : ∀ ps : List (String × Option (Val O)), (∀ p ∈ ps, (kw.get? p.1).or p.2 = (kw'.get? p.1).or p.2) → vals kw ps = vals kw' ps := by
    intro ps
    induction ps with
    | nil => intro _; rfl
    | cons p ps ih =>
      intro h
      obtain ⟨n, d⟩ := p
      have h0 := h (n, d) (List.mem_cons_self ..)
      simp only at h0
      simp only [vals, h0, ih fun p hp => h p (List.mem_cons_of_mem _ hp)]
  have hc : ∀ f, core w m f kw = core w m f kw' := by
    intro f; unfold core; rw [h2, hv _ h3]
  match args with
  | [] => rw [call_nil w m hk, call_nil w m hk', h1, hc]
  | [f] => rw [call_one w m f hk, call_one w m f hk', h1, hc]
  | f :: g :: as => rw [call_many w m f g as hk, call_many w m f g as hk']

theorem filter_insert (d : Kw O) (k : String) (v : Val O) (p : String → Bool) :
    (d.insert k v).filter (fun e => p e.1) = if p k then Dict.insert (d.filter (fun e => p e.1) : Kw O) k v else d.filter (fun e => p e.1) := by
  induction d with
  | nil => cases h : p k <;> simp [Dict.insert, h]
  | cons e d ih =>
    obtain ⟨a, b⟩ := e
    by_cases hk : a = k
    · subst hk
      cases h : p a <;> simp [Dict.insert, h]
    · cases h : p a <;> cases h' : p k <;> simp_all [Dict.insert]

theorem filter_update (d e : Kw O) (p : String → Bool) :
    (d.update e).filter (fun e => p e.1) = Dict.update (d.filter (fun e => p e.1) : Kw O) (e.filter (fun e => p e.1)) := by
  induction e generalizing d with
  | nil => rfl
  | cons x e ih =>
    obtain ⟨a, b⟩ := x
    have : Dict.update d ((a, b) :: e) = Dict.update (d.insert a b) e := rfl
    rw [this, ih, filter_insert]
    cases h : p a
    · simp [h]
    · simp only [h, if_true, List.filter_cons]; rfl

theorem vals_keys {kw : Kw O} {ps : List (String × Option (Val O))} {d : Kw O} (h : vals kw ps = some d) : Dict.keys d = ps.map (·.1) := by
  induction ps generalizing d with
  | nil => simp only [vals, Option.some.injEq] at h; subst h; rfl
  | cons p ps ih =>
    obtain ⟨n, x⟩ := p
    simp only [vals] at h
    cases h1 : (kw.get? n).or x with
    | none => simp [h1] at h
    | some v =>
      cases h2 : vals kw ps with
      | none => simp [h1, h2] at h
      | some r =>
        simp only [h1, h2, Option.some.injEq] at h
        subst h
        simpa [Dict.keys] using ih h2

theorem vals_get? {kw : Kw O} {ps : List (String × Option (Val O))} {d : Kw O} (h : vals kw ps = some d) (hn : (ps.map (·.1)).Nodup)
    {p : String × Option (Val O)} (hp : p ∈ ps) : d.get? p.1 = (kw.get? p.1).or p.2 := by
  induction ps generalizing d with
  | nil => cases hp
  | cons q ps ih =>
    obtain ⟨n, x⟩ := q
    simp only [vals] at h
    cases h1 : (kw.get? n).or x with
    | none => simp [h1] at h
    | some v =>
      cases h2 : vals kw ps with
      | none => simp [h1, h2] at h
      | some r =>
        simp only [h1, h2, Option.some.injEq] at h
        subst h
        rw [List.map_cons, List.nodup_cons] at hn
        rcases List.mem_cons.1 hp with rfl | hp
        · simp [Dict.get?, h1]
        · have hne : n ≠ p.1 := fun h => hn.1 (List.mem_map.2 ⟨p, hp, h.symm⟩)
          simpa [Dict.get?, hne] using ih h2 hn.2 hp

/-! ### Specification -/

/-- The keywords of a chain of calls, later ones on top of earlier ones. -/
def merged (held : Kw O) : List (Kw O) → Kw O → Kw O
  | [], kw => held.update kw
  | o :: os, kw => merged (held.update o) os kw

/-- The options that must be given. -/
def required : Maker → List String
  | .maxTraces => ["max_traces"]
  | _ => []

/-- There is an unknown keyword. -/
def Unknown (w : World O) (m : Maker) (kw : Kw O) : Prop := ¬(star m = true ∨ extras w m kw = [])

theorem Unknown.update {w : World O} {m : Maker} {kw : Kw O} (h : Unknown w m kw) (o : Kw O) : Unknown w m (kw.update o) := by
  rintro (h' | h')
  · exact h (.inl h')
  · have hne : extras w m kw ≠ [] := fun h' => h (.inr h')
    obtain ⟨e, he⟩ := List.exists_mem_of_ne_nil _ hne
    rw [mem_extras] at he
    have : e.1 ∈ Dict.keys (kw.update o) := (Dict.mem_keys_update _ _ _).2 (.inl (List.mem_map_of_mem he.1))
    obtain ⟨e', he', heq⟩ := List.mem_map.1 this
    have hm := (mem_extras w m (kw.update o) e').2 ⟨he', heq ▸ he.2⟩
    rw [h'] at hm; cases hm

theorem Unknown.merged {w : World O} {m : Maker} {kw : Kw O} (h : Unknown w m kw) (os : List (Kw O)) (o : Kw O) :
    Unknown w m (merged kw os o) := by
  induction os generalizing kw with
  | nil => exact h.update o
  | cons o' os ih => exact ih (h.update o')

theorem Unknown.call {w : World O} {m : Maker} {kw : Kw O} (h : Unknown w m kw) (hk : kw.keys.Nodup) (args : List (Val O)) :
    call w m args kw = .error .typeError := by
  have hc : ∀ f, core w m f kw = .error .typeError := fun f => by unfold core; rw [if_neg h]
  match args with
  | [] => rw [call_nil w m hk, hc]
  | [f] => rw [call_one w m f hk, hc]; simp
  | f :: g :: as => rw [call_many w m f g as hk]

/-- Without the function, a call returns a `functools.partial` or fails. -/
theorem part_or_error (w : World O) (m : Maker) {kw : Kw O} (hk : kw.keys.Nodup) (hf : first m ∉ kw.keys) :
    (call w m [] kw = .error .typeError ∧ ((∀ n ∈ required m, n ∈ kw.keys) → Unknown w m kw)) ∨
    ∃ held, call w m [] kw = .ok (.part held) ∧ held.keys.Nodup ∧ ∀ args (o : Kw O), o.keys.Nodup →
      call w m args (held.update o) = call w m args (kw.update o) := by
  have hget : kw.get? (first m) = Option.none := (Dict.get?_eq_none_iff _ _).2 hf
  have hn := List.nodup_cons.1 (named_nodup w m)
  rw [call_nil w m hk, hget]
  by_cases hs : star m = true ∨ extras w m kw = []
  · cases hv : vals kw (named w m) with
    | none =>
      left
      refine ⟨by simp [core, hv], fun hr => absurd hv ?_⟩
      have : ∀ ps : List (String × Option (Val O)), (∀ p ∈ ps, p.2 = Option.none → p.1 ∈ kw.keys) → vals kw ps ≠ Option.none := by
        intro ps
        induction ps with
        | nil => intro _ h; cases h
        | cons p ps ih =>
          obtain ⟨n, x⟩ := p
          intro h
          have ih := ih fun p hp => h p (List.mem_cons_of_mem _ hp)
          have h0 := h (n, x) (List.mem_cons_self ..)
          simp only [vals]
          cases hr : vals kw ps with
          | none => exact absurd hr ih
          | some r =>
            cases hg : kw.get? n with
            | some v => simp
            | none =>
              cases x with
              | some v => simp
              | none => exact absurd (h0 rfl) ((Dict.get?_eq_none_iff _ _).1 hg)
      refine this _ ?_
      intro p hp hd
      cases m <;> simp [named] at hp <;> (try (rcases hp with rfl | rfl | rfl | rfl | rfl)) <;> simp_all [required]
    | some d =>
      right
      have hd := vals_keys hv
      have hnot : ∀ n ∈ (named w m).map (·.1), n ∉ Dict.keys (extras w m kw) := by
        intro n hn' hm
        obtain ⟨e, he, rfl⟩ := List.mem_map.1 hm
        exact ((mem_extras w m kw e).1 he).2 (List.mem_cons_of_mem _ hn')
      have hsub : (Dict.keys (extras w m kw)).Sublist kw.keys := List.Sublist.map _ List.filter_sublist
      have hnd : Dict.keys (d ++ extras w m kw : Kw O) = (named w m).map (·.1) ++ Dict.keys (extras w m kw) := by
        rw [← hd]; simp [Dict.keys]
      have hheld : (Dict.keys (d ++ extras w m kw : Kw O)).Nodup := by
        rw [hnd, List.nodup_append]
        exact ⟨hn.2, hsub.nodup hk, fun a ha b hb hab => hnot a ha (hab ▸ hb)⟩
      refine ⟨d ++ extras w m kw, by simp only [core, if_pos hs, hv, Option.getD_none], hheld, fun args o ho => ?_⟩
      apply call_congr w m args (Dict.nodup_update _ _ hheld) (Dict.nodup_update _ _ hk)
      · rw [Dict.get?_update _ _ ho, Dict.get?_update _ _ ho, hget]
        congr 1
        rw [Dict.get?_eq_none_iff, hnd, List.mem_append, not_or]
        refine ⟨hn.1, fun h => hf (hsub.subset h)⟩
      · unfold extras
        rw [filter_update _ _ (fun n => !(first m :: (named w m).map (·.1)).contains n),
          filter_update _ _ (fun n => !(first m :: (named w m).map (·.1)).contains n)]
        congr 1
        rw [List.filter_append, List.filter_filter]
        have h1 : (d.filter fun e => !(first m :: (named w m).map (·.1)).contains e.1) = [] := by
          rw [List.filter_eq_nil_iff]
          intro e he
          have : e.1 ∈ (named w m).map (·.1) := hd ▸ List.mem_map_of_mem (f := (·.1)) he
          simp only [Bool.not_eq_true, Bool.not_eq_false', List.contains_eq_mem, decide_eq_true_eq]
          exact List.mem_cons_of_mem _ this
        rw [h1, List.nil_append]
        congr 1
        funext e; simp
      · intro p hp
        rw [Dict.get?_update _ _ ho, Dict.get?_update _ _ ho]
        have h1 := vals_get? hv hn.2 hp
        have h2 : Dict.get? (extras w m kw) p.1 = Option.none := by
          rw [Dict.get?_eq_none_iff]; exact hnot _ (List.mem_map_of_mem hp)
        rw [get?_append, h1, h2]
        cases o.get? p.1 <;> cases kw.get? p.1 <;> cases p.2 <;> rfl
  · left
    exact ⟨by simp [core, hs], fun _ => hs⟩

theorem nodup_merged (held : Kw O) (os : List (Kw O)) (kw : Kw O) (h : held.keys.Nodup) : (Dict.keys (merged held os kw)).Nodup := by
  induction os generalizing held with
  | nil => exact Dict.nodup_update _ _ h
  | cons o os ih => exact ih _ (Dict.nodup_update _ _ h)

theorem chain_eq (w : World O) (m : Maker) (os : List (Kw O)) (args : List (Val O)) {kw : Kw O} (hkw : kw.keys.Nodup) (held held0 : Kw O)
    (h0 : held0.keys.Nodup) (hf : first m ∉ held0.keys) (hr : ∀ n ∈ required m, n ∈ held0.keys) (ho : ∀ o ∈ os, o.keys.Nodup)
    (hos : ∀ o ∈ os, first m ∉ o.keys)
    (heq : ∀ args (o : Kw O), o.keys.Nodup → call w m args (held.update o) = call w m args (held0.update o)) :
    chain w m held os args kw = call w m args (merged held0 os kw) := by
  induction os generalizing held held0 with
  | nil => exact heq args kw hkw
  | cons o os ih =>
    have hn := ho o (List.mem_cons_self ..)
    have hf' : first m ∉ (held0.update o).keys := by
      rw [Dict.mem_keys_update]; rintro (h | h)
      · exact hf h
      · exact hos o (List.mem_cons_self ..) h
    have hr' : ∀ n ∈ required m, n ∈ (held0.update o).keys := fun n h => (Dict.mem_keys_update _ _ _).2 (.inl (hr n h))
    have hk' := Dict.nodup_update held0 o h0
    simp only [chain, callPartial, heq [] o hn, Bind.bind, Except.bind]
    rcases part_or_error w m hk' hf' with ⟨h1, h2⟩ | ⟨held', h1, h2, h3⟩
    · rw [h1, show merged held0 (o :: os) kw = merged (held0.update o) os kw from rfl,
        ((h2 hr').merged os kw).call (nodup_merged _ _ _ hk')]
    · rw [h1]
      exact ih held' _ hk' hf' hr' (fun o h => ho o (List.mem_cons_of_mem _ h)) (fun o h => hos o (List.mem_cons_of_mem _ h)) h3

/-- Options in any number of calls before that with the function: as if all were given with the function, later ones replacing earlier ones.
The function itself must not be among these options, and the first call must have the options without default. -/
theorem in_advance_partial (w : World O) (m : Maker) (o : Kw O) (os : List (Kw O)) (args : List (Val O)) {kw : Kw O} (hkw : kw.keys.Nodup)
    (ho : ∀ o' ∈ o :: os, o'.keys.Nodup ∧ first m ∉ o'.keys) (hr : ∀ n ∈ required m, n ∈ o.keys) :
    chain w m [] (o :: os) args kw = call w m args (merged [] (o :: os) kw) := by
  have hn := (ho o (List.mem_cons_self ..)).1
  have hf := (ho o (List.mem_cons_self ..)).2
  have he : Dict.update [] o = o := by rw [Dict.update_disjoint [] o (by simpa using hn)]; rfl
  simp only [chain, callPartial, he, Bind.bind, Except.bind]
  rcases part_or_error w m hn hf with ⟨h1, h2⟩ | ⟨held', h1, h2, h3⟩
  · rw [h1, show merged [] (o :: os) kw = merged (Dict.update [] o) os kw from rfl, he,
      ((h2 hr).merged os kw).call (nodup_merged _ _ _ hn)]
  · rw [h1]
    simp only []
    rw [chain_eq w m os args hkw held' o hn hf hr (fun o h => (ho o (List.mem_cons_of_mem _ h)).1)
      (fun o h => (ho o (List.mem_cons_of_mem _ h)).2) h3]
    rw [show merged [] (o :: os) kw = merged (Dict.update [] o) os kw from rfl, he]

/-- What a name has in the end: the last call with it. -/
theorem merged_get? (held : Kw O) (os : List (Kw O)) {kw : Kw O} (hkw : kw.keys.Nodup) (ho : ∀ o ∈ os, o.keys.Nodup) (n : String) :
    (merged held os kw).get? n = ((os ++ [kw]).reverse.findSome? fun o => o.get? n).or (held.get? n) := by
  induction os generalizing held with
  | nil => simp [merged, Dict.get?_update _ _ hkw]
  | cons o os ih =>
    rw [merged, ih _ fun o h => ho o (List.mem_cons_of_mem _ h), Dict.get?_update _ _ (ho o (List.mem_cons_self ..)), List.cons_append,
      List.reverse_cons, List.findSome?_append, Option.or_assoc]
    simp

/-- The function by keyword. -/
theorem by_keyword (w : World O) (m : Maker) (f : Val O) {kw : Kw O} (hk : kw.keys.Nodup) (hf : (first m, f) ∈ kw) :
    call w m [] kw = call w m [f] (kw.filter fun e => e.1 != first m) := by
  have hg := Dict.get?_of_mem _ hk hf
  have hk' : (Dict.keys (kw.filter fun e => e.1 != first m)).Nodup := (List.Sublist.map _ List.filter_sublist).nodup hk
  have hget : ∀ n, Dict.get? (kw.filter fun e => e.1 != first m) n = if n != first m then kw.get? n else Option.none :=
    get?_filter kw (fun n => n != first m)
  have hn := List.nodup_cons.1 (named_nodup w m)
  rw [call_nil w m hk, call_one w m f hk', hget, hg]
  simp only [bne_self_eq_false, Bool.false_eq_true, if_false, Option.isSome_none, Option.getD_some]
  have h2 : extras w m (kw.filter fun e => e.1 != first m) = extras w m kw := by
    unfold extras
    rw [List.filter_filter]
    congr 1; funext e
    by_cases h : e.1 = first m <;> simp [h]
  have hv : ∀ ps : List (String × Option (Val O)), first m ∉ ps.map (·.1) → vals (kw.filter fun e => e.1 != first m) ps = vals kw ps := by
    intro ps
    induction ps with
    | nil => intro _; rfl
    | cons p ps ih =>
      intro h
      obtain ⟨n, d⟩ := p
      rw [List.map_cons, List.mem_cons, not_or] at h
      have : n ≠ first m := fun h' => h.1 h'.symm
      simp [vals, hget, this, ih h.2]
  unfold core
  rw [h2, hv _ hn.1]

/-- The function both by position and by keyword; or two positional arguments. -/
theorem twice (w : World O) (m : Maker) (f : Val O) (args : List (Val O)) {kw : Kw O} (hk : kw.keys.Nodup) (h : first m ∈ kw.keys ∨ args ≠ []) :
    call w m (f :: args) kw = .error .typeError := by
  cases args with
  | cons g as => exact call_many w m f g as hk
  | nil =>
    rw [call_one w m f hk, if_pos]
    exact (Dict.get?_isSome_iff _ _).2 (h.resolve_right fun h => h rfl)

/-! ### Options are checked -/

/-- The keywords that are refused. -/
def forbidden : Maker → List String
  | .jit => ["default", "fn", "args", "kwargs", "out", "static_argnums", "static_argnames", "donate_argnums"]
  | .vmap => ["default", "fn", "args", "kwargs", "out"]
  | .pmap => ["default", "fn", "args", "kwargs", "out", "static_broadcasted_argnums", "donate_argnums"]
  | .valueAndGrad => ["arg", "filter_spec"]
  | .grad => ["arg", "filter_spec"]
  | _ => []

/-- The option `n`, `d` being its default. -/
def IsOption (kw : Kw O) (n : String) (d v : Val O) : Prop := (n, v) ∈ kw ∨ (n ∉ kw.keys ∧ v = d)

/-- The keywords that are not options of equinox. -/
def others (ns : List String) (kw : Kw O) : Kw O := kw.filter fun e => !ns.contains e.1

theorem isOption_iff {kw : Kw O} (hk : kw.keys.Nodup) (n : String) (d v : Val O) : IsOption kw n d v ↔ (kw.get? n).getD d = v := by
  unfold IsOption
  cases hg : kw.get? n with
  | none =>
    have := (Dict.get?_eq_none_iff _ _).1 hg
    have h' : (n, v) ∉ kw := fun h => this (List.mem_map_of_mem (f := (·.1)) h)
    simp [this, h', eq_comm]
  | some u =>
    have hm := Dict.mem_of_get? _ hg
    have : n ∈ kw.keys := List.mem_map_of_mem (f := (·.1)) hm
    simp only [this, not_true_eq_false, false_and, or_false, Option.getD_some]
    constructor
    · intro h; have := Dict.get?_of_mem _ hk h; rw [hg] at this; exact Option.some.inj this
    · rintro rfl; exact hm

theorem extras_eq (w : World O) (m : Maker) {kw : Kw O} (hf : first m ∉ kw.keys) : extras w m kw = others ((named w m).map (·.1)) kw := by
  unfold extras others
  apply List.filter_congr
  intro e he
  have : e.1 ≠ first m := fun h => hf (h ▸ List.mem_map_of_mem (f := (·.1)) he)
  simp [this]

theorem mem_keys_others (ns : List String) (kw : Kw O) (n : String) : n ∈ Dict.keys (others ns kw) ↔ n ∈ kw.keys ∧ n ∉ ns := by
  simp only [Dict.keys, others, List.mem_map, List.mem_filter, Bool.not_eq_true', List.contains_eq_mem, decide_eq_false_iff_not]
  constructor
  · rintro ⟨e, ⟨h1, h2⟩, rfl⟩; exact ⟨⟨e, h1, rfl⟩, h2⟩
  · rintro ⟨⟨e, h1, rfl⟩, h2⟩; exact ⟨e, ⟨h1, h2⟩, rfl⟩

theorem deprecated_eq (kw : Kw O) (ns : List String) :
    deprecated kw ns = if ∀ n ∈ ns, n ∉ kw.keys then .ok () else .error .valueError := by
  induction ns with
  | nil => simp [deprecated]
  | cons n ns ih =>
    by_cases h : n ∈ kw.keys
    · simp [deprecated, h]
    · simp only [deprecated, List.contains_eq_mem, h, decide_false, Bool.false_eq_true, if_false, ih, List.mem_cons, forall_eq_or_imp,
        not_false_eq_true, true_and]

/-- With a function, what is made. -/
theorem call_make (w : World O) (m : Maker) (f : Val O) (hs : f ≠ .sentinel) {kw : Kw O} (hk : kw.keys.Nodup) (hf : first m ∉ kw.keys)
    (d : Kw O) (hd : vals kw (named w m) = some d) (hst : star m = true) :
    call w m [f] kw = make w m f d (others ((named w m).map (·.1)) kw) := by
  rw [call_one w m f hk, (Dict.get?_eq_none_iff _ _).2 hf, extras_eq w m hf |>.symm]
  simp only [Option.isSome_none, Bool.false_eq_true, if_false, core, hst, true_or, if_true, hd]

/-- `filter_jit(fun, **kw)` -/
theorem jit_iff (w : World O) (f : Val O) (hs : f ≠ .sentinel) {kw : Kw O} (hk : kw.keys.Nodup) (hf : "fun" ∉ kw.keys) (r : Made O) :
    call w .jit [f] kw = .ok r ↔
      (∀ n ∈ forbidden .jit, n ∉ kw.keys) ∧ w.signature f = Option.none ∧
      ∃ s, IsOption kw "donate" (.str "none") (.str s) ∧ s ∈ ["all", "all-except-first", "warn", "warn-except-first", "none"] ∧
        r = .jit f (decide (s = "all" ∨ s = "all-except-first")) (decide (s = "all" ∨ s = "warn")) (decide (s ≠ "none")) (others ["donate"] kw) := by
  have hd : vals kw (named w .jit) = some [("donate", (kw.get? "donate").getD (.str "none"))] := by simp [named, vals]
  rw [call_make w .jit f hs hk hf _ hd rfl]
  have hkeys : ∀ n, n ∈ Dict.keys (others ["donate"] kw) ↔ n ∈ kw.keys ∧ n ∉ ["donate"] := mem_keys_others _ kw
  simp only [isOption_iff hk]
  generalize (kw.get? "donate").getD (.str "none") = v
  simp only [make, makeJit, named, List.map_cons, List.map_nil, deprecated_eq, hkeys, oldNames, List.mem_cons, List.not_mem_nil, or_false,
    forall_eq_or_imp, forall_eq, forbidden, Bind.bind, Except.bind, List.any_cons, List.any_nil, List.contains_eq_mem]
  by_cases h : (("default" ∉ kw.keys ∧ "fn" ∉ kw.keys ∧ "args" ∉ kw.keys ∧ "kwargs" ∉ kw.keys ∧ "out" ∉ kw.keys) ∧
      "static_argnums" ∉ kw.keys ∧ "static_argnames" ∉ kw.keys ∧ "donate_argnums" ∉ kw.keys)
  · obtain ⟨⟨h1, h2, h3, h4, h5⟩, h6, h7, h8⟩ := h
    cases hsig : w.signature f with
    | some e => simp [h1, h2, h3, h4, h5, h6, h7, h8]
    | none =>
      simp only [h1, h2, h3, h4, h5, h6, h7, h8]
      cases v with
      | str s =>
        simp only [Dict.get?, jitDonate]
        by_cases a1 : s = "all"
        · subst a1; simp [eq_comm]
        by_cases a2 : s = "all-except-first"
        · subst a2; simp [eq_comm]
        by_cases a3 : s = "warn"
        · subst a3; simp [eq_comm]
        by_cases a4 : s = "warn-except-first"
        · subst a4; simp [eq_comm]
        by_cases a5 : s = "none"
        · subst a5; simp [eq_comm]
        simp [a1, a2, a3, a4, a5]
      | _ => simp [Dict.get?, jitDonate]
  · have : ¬("default" ∉ kw.keys ∧ "fn" ∉ kw.keys ∧ "args" ∉ kw.keys ∧ "kwargs" ∉ kw.keys ∧ "out" ∉ kw.keys ∧
      "static_argnums" ∉ kw.keys ∧ "static_argnames" ∉ kw.keys ∧ "donate_argnums" ∉ kw.keys) := fun h' => h
        ⟨⟨h'.1, h'.2.1, h'.2.2.1, h'.2.2.2.1, h'.2.2.2.2.1⟩, h'.2.2.2.2.2⟩
    simp only [this, false_and, iff_false]
    intro h'
    split at h'
    · cases h'
    · rename_i hx
      split at hx
      · rename_i hy
        split at h'
        · cases h'
        · rename_i hz
          apply h
          simp at hy hz
          exact ⟨hy, hz⟩
      · cases hx

/-- `filter_vmap(fun, **kw)` -/
theorem vmap_iff (w : World O) (f : Val O) (hs : f ≠ .sentinel) {kw : Kw O} (hk : kw.keys.Nodup) (hf : "fun" ∉ kw.keys) (r : Made O) :
    call w .vmap [f] kw = .ok r ↔
      (∀ n ∈ forbidden .vmap, n ∉ kw.keys) ∧
      ∃ a b c d, IsOption kw "in_axes" (.obj w.ifArray) a ∧ IsOption kw "out_axes" (.obj w.ifArray) b ∧ IsOption kw "axis_name" .none c ∧
        IsOption kw "axis_size" .none d ∧
        r = .vmap f [("in_axes", a), ("out_axes", b), ("axis_name", c), ("axis_size", d)]
          (others ["in_axes", "out_axes", "axis_name", "axis_size"] kw) := by
  have hd : vals kw (named w .vmap) = some [("in_axes", (kw.get? "in_axes").getD (.obj w.ifArray)), ("out_axes", (kw.get? "out_axes").getD (.obj w.ifArray)),
    ("axis_name", (kw.get? "axis_name").getD .none), ("axis_size", (kw.get? "axis_size").getD .none)] := by simp [named, vals]
  rw [call_make w .vmap f hs hk hf _ hd rfl]
  have hkeys : ∀ n, n ∈ Dict.keys (others ["in_axes", "out_axes", "axis_name", "axis_size"] kw) ↔
    n ∈ kw.keys ∧ n ∉ ["in_axes", "out_axes", "axis_name", "axis_size"] := mem_keys_others _ kw
  have hall : (∀ n ∈ oldNames, n ∉ Dict.keys (others ["in_axes", "out_axes", "axis_name", "axis_size"] kw)) ↔ ∀ n ∈ forbidden .vmap, n ∉ kw.keys := by
    simp [hkeys, oldNames, forbidden]
  simp only [isOption_iff hk, make, makeVmap, named, List.map_cons, List.map_nil, deprecated_eq, hall, Bind.bind, Except.bind]
  by_cases h : ∀ n ∈ forbidden .vmap, n ∉ kw.keys
  · rw [if_pos h]
    simp only [Except.ok.injEq]
    constructor
    · intro hr; exact ⟨h, _, _, _, _, rfl, rfl, rfl, rfl, hr.symm⟩
    · rintro ⟨_, a, b, c, d, rfl, rfl, rfl, rfl, hr⟩; exact hr.symm
  · rw [if_neg h]
    simp only [h, false_and, iff_false]
    rintro ⟨⟩

/-- `filter_pmap(fun, **kw)`: "arrays" is "all", with a warning. -/
theorem pmap_iff (w : World O) (f : Val O) (hs : f ≠ .sentinel) {kw : Kw O} (hk : kw.keys.Nodup) (hf : "fun" ∉ kw.keys) (r : Made O) :
    call w .pmap [f] kw = .ok r ↔
      (∀ n ∈ forbidden .pmap, n ∉ kw.keys) ∧
      ∃ a b c d s, IsOption kw "in_axes" (.obj w.ifArray) a ∧ IsOption kw "out_axes" (.obj w.ifArray) b ∧ IsOption kw "axis_name" .none c ∧
        IsOption kw "axis_size" .none d ∧ IsOption kw "donate" (.str "none") (.str s) ∧ s ∈ ["all", "arrays", "warn", "none"] ∧
        r = .pmap f [("in_axes", a), ("out_axes", b), ("axis_name", c), ("axis_size", d)] (decide (s = "all" ∨ s = "arrays"))
          (others ["in_axes", "out_axes", "axis_name", "axis_size", "donate"] kw ++ if s = "none" then [] else [("donate_argnums", .zeroTuple)])
          (decide (s = "arrays")) := by
  have hd : vals kw (named w .pmap) = some [("in_axes", (kw.get? "in_axes").getD (.obj w.ifArray)), ("out_axes", (kw.get? "out_axes").getD (.obj w.ifArray)),
    ("axis_name", (kw.get? "axis_name").getD .none), ("axis_size", (kw.get? "axis_size").getD .none),
    ("donate", (kw.get? "donate").getD (.str "none"))] := by simp [named, vals]
  rw [call_make w .pmap f hs hk hf _ hd rfl]
  have hkeys : ∀ n, n ∈ Dict.keys (others ["in_axes", "out_axes", "axis_name", "axis_size", "donate"] kw) ↔
    n ∈ kw.keys ∧ n ∉ ["in_axes", "out_axes", "axis_name", "axis_size", "donate"] := mem_keys_others _ kw
  have hall : (∀ n ∈ oldNames, n ∉ Dict.keys (others ["in_axes", "out_axes", "axis_name", "axis_size", "donate"] kw)) ∧
      (["static_broadcasted_argnums", "donate_argnums"].any fun n =>
        (Dict.keys (others ["in_axes", "out_axes", "axis_name", "axis_size", "donate"] kw)).contains n) = false ↔
      ∀ n ∈ forbidden .pmap, n ∉ kw.keys := by
    simp [hkeys, oldNames, forbidden, and_assoc]
  simp only [isOption_iff hk, make, makePmap, named, List.map_cons, List.map_nil, deprecated_eq, Bind.bind, Except.bind]
  by_cases h : ∀ n ∈ forbidden .pmap, n ∉ kw.keys
  · have hno : "donate_argnums" ∉ Dict.keys (others ["in_axes", "out_axes", "axis_name", "axis_size", "donate"] kw) := by
      rw [hkeys]; exact fun h' => h _ (by simp [forbidden]) h'.1
    have h' := hall.2 h
    rw [if_pos h'.1, h'.2]
    generalize (kw.get? "donate").getD (.str "none") = v
    simp only [Bool.false_eq_true, if_false, Dict.insert_of_not_mem _ _ _ hno]
    have hget : ∀ a b c d : Val O, Dict.get? [("in_axes", a), ("out_axes", b), ("axis_name", c), ("axis_size", d), ("donate", v)] "donate" = some v := by
      intros; simp [Dict.get?]
    have hfil : ∀ a b c d : Val O, ([("in_axes", a), ("out_axes", b), ("axis_name", c), ("axis_size", d), ("donate", v)].filter fun e => e.1 != "donate") =
        [("in_axes", a), ("out_axes", b), ("axis_name", c), ("axis_size", d)] := by
      intros; simp
    rw [hget, hfil]
    cases v with
    | str s =>
      simp only [pmapDonate]
      by_cases a1 : s = "all"
      · subst a1
        constructor
        · intro hr; exact ⟨h, _, _, _, _, "all", rfl, rfl, rfl, rfl, rfl, by simp, by simpa [eq_comm] using hr⟩
        · rintro ⟨_, _, _, _, _, s, rfl, rfl, rfl, rfl, hs, _, rfl⟩; cases hs; simp
      by_cases a2 : s = "arrays"
      · subst a2
        constructor
        · intro hr; exact ⟨h, _, _, _, _, "arrays", rfl, rfl, rfl, rfl, rfl, by simp, by simpa [eq_comm] using hr⟩
        · rintro ⟨_, _, _, _, _, s, rfl, rfl, rfl, rfl, hs, _, rfl⟩; cases hs; simp
      by_cases a3 : s = "warn"
      · subst a3
        constructor
        · intro hr; exact ⟨h, _, _, _, _, "warn", rfl, rfl, rfl, rfl, rfl, by simp, by simpa [eq_comm] using hr⟩
        · rintro ⟨_, _, _, _, _, s, rfl, rfl, rfl, rfl, hs, _, rfl⟩; cases hs; simp
      by_cases a4 : s = "none"
      · subst a4
        constructor
        · intro hr; exact ⟨h, _, _, _, _, "none", rfl, rfl, rfl, rfl, rfl, by simp, by simpa [eq_comm] using hr⟩
        · rintro ⟨_, _, _, _, _, s, rfl, rfl, rfl, rfl, hs, _, rfl⟩; cases hs; simp
      simp [a1, a2, a3, a4]
    | obj o => cases h : w.unhashable o <;> simp [pmapDonate, h]
    | _ => simp [pmapDonate]
  · simp only [h, false_and, iff_false]
    rw [← hall] at h
    by_cases h1 : ∀ n ∈ oldNames, n ∉ Dict.keys (others ["in_axes", "out_axes", "axis_name", "axis_size", "donate"] kw)
    · rw [if_pos h1]
      have : ¬ _ := fun h2 => h ⟨h1, h2⟩
      rw [Bool.not_eq_false] at this
      simp only [this, if_true]
      rintro ⟨⟩
    · rw [if_neg h1]; rintro ⟨⟩

/-- The derivatives: `argnums` must be `None`, which is left out. -/
theorem gradKwargs_iff (kw : Kw O) (hk : kw.keys.Nodup) (r : Kw O) :
    gradKwargs (others ["has_aux"] kw) = .ok r ↔
      (∀ n ∈ ["arg", "filter_spec"], n ∉ kw.keys) ∧ IsOption kw "argnums" .none .none ∧ r = others ["has_aux", "argnums"] kw := by
  have hkeys : ∀ n, n ∈ Dict.keys (others ["has_aux"] kw) ↔ n ∈ kw.keys ∧ n ∉ ["has_aux"] := mem_keys_others _ kw
  have hall : (∀ n ∈ ["arg", "filter_spec"], n ∉ Dict.keys (others ["has_aux"] kw)) ↔ ∀ n ∈ ["arg", "filter_spec"], n ∉ kw.keys := by
    simp [hkeys]
  have hget : Dict.get? (others ["has_aux"] kw) "argnums" = kw.get? "argnums" := by
    rw [others, get?_filter kw (fun n => !["has_aux"].contains n)]; simp
  have hfil : ((others ["has_aux"] kw).filter fun e => e.1 != "argnums") = others ["has_aux", "argnums"] kw := by
    simp only [others, List.filter_filter]
    congr 1; funext e
    by_cases h1 : e.1 = "has_aux" <;> by_cases h2 : e.1 = "argnums" <;> simp [h1, h2]
  simp only [gradKwargs, deprecated_eq, hall, Bind.bind, Except.bind, isOption_iff hk, hget, hfil]
  by_cases h : ∀ n ∈ ["arg", "filter_spec"], n ∉ kw.keys
  · rw [if_pos h]
    have h1 := h "arg" (by simp)
    have h2 := h "filter_spec" (by simp)
    cases hg : kw.get? "argnums" with
    | none =>
      have hno := (Dict.get?_eq_none_iff _ _).1 hg
      have : others ["has_aux", "argnums"] kw = others ["has_aux"] kw := by
        rw [← hfil, List.filter_eq_self]
        intro e he
        have : e.1 ∈ Dict.keys (others ["has_aux"] kw) := List.mem_map_of_mem (f := (·.1)) he
        rw [hkeys] at this
        simp only [bne_iff_ne, ne_eq]
        intro h'; exact hno (h' ▸ this.1)
      simp [this, h1, h2, eq_comm]
    | some v => cases v <;> simp [h1, h2, eq_comm]
  · rw [if_neg h]
    simp only [h, false_and, iff_false]
    rintro ⟨⟩

/-- `filter_value_and_grad(fun, **kw)` and `filter_grad(fun, **kw)` -/
theorem grad_iff (w : World O) (f : Val O) (hs : f ≠ .sentinel) {kw : Kw O} (hk : kw.keys.Nodup) (hf : "fun" ∉ kw.keys) (r : Made O) :
    (call w .valueAndGrad [f] kw = .ok r ↔
      (∀ n ∈ forbidden .valueAndGrad, n ∉ kw.keys) ∧ IsOption kw "argnums" .none .none ∧
      ∃ a, IsOption kw "has_aux" (.bool false) a ∧ r = .valueAndGrad f (some a) (others ["has_aux", "argnums"] kw)) ∧
    (call w .grad [f] kw = .ok r ↔
      (∀ n ∈ forbidden .grad, n ∉ kw.keys) ∧ IsOption kw "argnums" .none .none ∧
      ∃ a, IsOption kw "has_aux" (.bool false) a ∧ r = .grad f (some a) (others ["has_aux", "argnums"] kw)) := by
  have hd : vals kw (named w .valueAndGrad) = some [("has_aux", (kw.get? "has_aux").getD (.bool false))] := by simp [named, vals]
  have hd' : vals kw (named w .grad) = some [("has_aux", (kw.get? "has_aux").getD (.bool false))] := by simp [named, vals]
  rw [call_make w .valueAndGrad f hs hk hf _ hd rfl, call_make w .grad f hs hk hf _ hd' rfl]
  have hg := gradKwargs_iff kw hk
  simp only [make, named, List.map_cons, List.map_nil, Bind.bind, Except.bind, forbidden, Dict.get?, if_true, isOption_iff hk] at hg ⊢
  cases hr : gradKwargs (others ["has_aux"] kw) with
  | error e =>
    have hno : ∀ r, ¬ _ := fun r h => by have := (hg r).2 h; rw [hr] at this; cases this
    constructor
    all_goals
      constructor
      · rintro ⟨⟩
      · rintro ⟨h1, h2, _, _, _⟩; exact absurd ⟨h1, h2, rfl⟩ (hno _)
  | ok d =>
    obtain ⟨h1, h2, rfl⟩ := (hg d).1 hr
    constructor
    all_goals
      simp only [Except.ok.injEq]
      constructor
      · rintro rfl; exact ⟨h1, h2, _, rfl, rfl⟩
      · rintro ⟨_, _, _, rfl, h⟩; exact h.symm

/-- A refused keyword: `ValueError`, whatever the other options are. -/
theorem forbidden_refused (w : World O) (m : Maker) (f : Val O) (hs : f ≠ .sentinel) {kw : Kw O} (hk : kw.keys.Nodup) (hf : first m ∉ kw.keys)
    {n : String} (hn : n ∈ forbidden m) (h : n ∈ kw.keys) : call w m [f] kw = .error .valueError := by
  have hst : star m = true := by cases m <;> first | rfl | cases hn
  have hnot : n ∉ (named w m).map (·.1) := by
    intro h'
    cases m <;> simp only [forbidden, named, List.map_cons, List.map_nil, List.mem_cons, List.not_mem_nil, or_false] at hn h' <;>
      (try rcases h' with rfl | rfl | rfl | rfl | rfl) <;> simp at hn
  have hmem : n ∈ Dict.keys (others ((named w m).map (·.1)) kw) := (mem_keys_others _ _ _).2 ⟨h, hnot⟩
  obtain ⟨d, hd⟩ : ∃ d, vals kw (named w m) = some d := by
    cases m <;> first | (cases hn; done) | simp [named, vals]
  rw [call_make w m f hs hk hf d hd hst]
  generalize others ((named w m).map (·.1)) kw = x at hmem
  have hno : ∀ ns : List String, n ∈ ns → deprecated x ns = .error .valueError := by
    intro ns hns
    rw [deprecated_eq, if_neg]; intro h'; exact h' n hns hmem
  cases m
  case jit =>
    simp only [make, makeJit]
    by_cases hold : n ∈ oldNames
    · rw [hno _ hold]; rfl
    · have : n ∈ ["static_argnums", "static_argnames", "donate_argnums"] := by
        simp only [forbidden, oldNames, List.mem_cons, List.not_mem_nil, or_false, not_or] at hn hold ⊢
        tauto
      rw [deprecated_eq]
      split
      · rw [if_pos]
        · rfl
        · rw [List.any_eq_true]; exact ⟨n, this, by simpa using hmem⟩
      · rfl
  case vmap => simp only [make, makeVmap]; rw [hno oldNames hn]; rfl
  case pmap =>
    simp only [make, makePmap]
    by_cases hold : n ∈ oldNames
    · rw [hno _ hold]; rfl
    · have : n ∈ ["static_broadcasted_argnums", "donate_argnums"] := by
        simp only [forbidden, oldNames, List.mem_cons, List.not_mem_nil, or_false, not_or] at hn hold ⊢
        tauto
      rw [deprecated_eq]
      split
      · rw [if_pos]
        · rfl
        · rw [List.any_eq_true]; exact ⟨n, this, by simpa using hmem⟩
      · rfl
  case valueAndGrad => simp only [make, gradKwargs]; rw [hno ["arg", "filter_spec"] hn]; rfl
  case grad => simp only [make, gradKwargs]; rw [hno ["arg", "filter_spec"] hn]; rfl
  all_goals cases hn

/-- Another value of `donate`: `ValueError`, or `TypeError` if `filter_pmap` cannot hash it. -/
theorem donate_refused (w : World O) (m : Maker) (f : Val O) (hs : f ≠ .sentinel) {kw : Kw O} (hk : kw.keys.Nodup) (hf : "fun" ∉ kw.keys)
    (hno : ∀ n ∈ forbidden m, n ∉ kw.keys) (v : Val O) (hv : ("donate", v) ∈ kw) :
    (m = .jit → w.signature f = Option.none → v ∉ ["all", "all-except-first", "warn", "warn-except-first", "none"].map Val.str →
      call w m [f] kw = .error .valueError) ∧
    (m = .pmap → v ∉ ["all", "arrays", "warn", "none"].map Val.str →
      ((∃ o, v = .obj o ∧ w.unhashable o = true) → call w m [f] kw = .error .typeError) ∧
      ((¬∃ o, v = .obj o ∧ w.unhashable o = true) → call w m [f] kw = .error .valueError)) := by
  have hg := Dict.get?_of_mem _ hk hv
  constructor
  · rintro rfl hsig hnot
    have hd : vals kw (named w .jit) = some [("donate", v)] := by simp [named, vals, hg]
    rw [call_make w .jit f hs hk hf _ hd rfl]
    have hdep : deprecated (others ["donate"] kw) oldNames = .ok () := by
      rw [deprecated_eq, if_pos]
      intro n hn h
      exact hno n (by simp only [oldNames, List.mem_cons, List.not_mem_nil, or_false, forbidden] at hn ⊢; tauto) ((mem_keys_others _ _ _).1 h).1
    have hany : (["static_argnums", "static_argnames", "donate_argnums"].any fun n => (Dict.keys (others ["donate"] kw)).contains n) = false := by
      rw [List.any_eq_false]
      intro n hn h
      simp only [List.contains_eq_mem, decide_eq_true_eq] at h
      exact hno n (by simp only [List.mem_cons, List.not_mem_nil, or_false, forbidden] at hn ⊢; tauto) ((mem_keys_others _ _ _).1 h).1
    simp only [make, makeJit, named, List.map_cons, List.map_nil, hdep, hany, hsig, Bind.bind, Except.bind, Bool.false_eq_true, if_false, Dict.get?,
      if_true]
    cases v with
    | str s =>
      simp only [List.map_cons, List.map_nil, List.mem_cons, Val.str.injEq, List.not_mem_nil, or_false, not_or] at hnot
      simp [jitDonate, hnot]
    | _ => rfl
  · rintro rfl hnot
    obtain ⟨d, hd, hget⟩ : ∃ d, vals kw (named w .pmap) = some d ∧ d.get? "donate" = some v := by simp [named, vals, hg, Dict.get?]
    rw [call_make w .pmap f hs hk hf _ hd rfl]
    have hdep : deprecated (others ((named w .pmap).map (·.1)) kw) oldNames = .ok () := by
      rw [deprecated_eq, if_pos]
      intro n hn h
      exact hno n (by simp only [oldNames, List.mem_cons, List.not_mem_nil, or_false, forbidden] at hn ⊢; tauto) ((mem_keys_others _ _ _).1 h).1
    have hany : (["static_broadcasted_argnums", "donate_argnums"].any fun n =>
        (Dict.keys (others ((named w .pmap).map (·.1)) kw)).contains n) = false := by
      rw [List.any_eq_false]
      intro n hn h
      simp only [List.contains_eq_mem, decide_eq_true_eq] at h
      exact hno n (by simp only [List.mem_cons, List.not_mem_nil, or_false, forbidden] at hn ⊢; tauto) ((mem_keys_others _ _ _).1 h).1
    simp only [make, makePmap, hdep, hany, hget, Bind.bind, Except.bind, Bool.false_eq_true, if_false]
    cases v with
    | str s =>
      simp only [List.map_cons, List.map_nil, List.mem_cons, Val.str.injEq, List.not_mem_nil, or_false, not_or] at hnot
      simp [pmapDonate, hnot]
    | obj o => cases h : w.unhashable o <;> simp [pmapDonate, h]
    | _ => simp [pmapDonate]

/-- `filter_checkpoint`, `assert_max_traces` and `filter_primitive_transpose` have no other keywords than their options. -/
theorem unknown_refused (w : World O) (m : Maker) (hm : star m = false) (args : List (Val O)) {kw : Kw O} (hk : kw.keys.Nodup)
    {n : String} (hn : n ∈ kw.keys) (hf : n ≠ first m) (ho : n ∉ (named w m).map (·.1)) : call w m args kw = .error .typeError := by
  apply Unknown.call _ hk
  rintro (h | h)
  · rw [hm] at h; cases h
  · obtain ⟨e, he, rfl⟩ := List.mem_map.1 hn
    have := (mem_extras w m kw e).2 ⟨he, by simp only [List.mem_cons, not_or]; exact ⟨hf, ho⟩⟩
    rw [h] at this; cases this

/-- With a function, for those without other keywords. -/
theorem call_other (w : World O) (m : Maker) (f : Val O) (hs : f ≠ .sentinel) {kw : Kw O} (hk : kw.keys.Nodup) (hf : first m ∉ kw.keys)
    (hm : star m = false) (r : Made O) :
    call w m [f] kw = .ok r ↔ (∀ n ∈ kw.keys, n ∈ (named w m).map (·.1)) ∧ ∃ d, vals kw (named w m) = some d ∧ r = .other f d := by
  have hx : extras w m kw = [] ↔ ∀ n ∈ kw.keys, n ∈ (named w m).map (·.1) := by
    rw [extras_eq w m hf, others, List.filter_eq_nil_iff]
    constructor
    · intro h n hn
      obtain ⟨e, he, rfl⟩ := List.mem_map.1 hn
      simpa using h e he
    · intro h e he
      have := h e.1 (List.mem_map_of_mem (f := (·.1)) he)
      simpa using this
  rw [call_one w m f hk, (Dict.get?_eq_none_iff _ _).2 hf, ← hx]
  simp only [Option.isSome_none, Bool.false_eq_true, if_false, core, hm, false_or]
  by_cases h : extras w m kw = []
  · rw [if_pos h, h]
    simp only [true_and]
    cases vals kw (named w m) with
    | none => simp
    | some d =>
      have hmk : make w m f d [] = .ok (.other f d) := by cases m <;> first | rfl | cases hm
      cases f <;> first | exact absurd rfl hs | (simp only [hmk]; simp [eq_comm])
  · rw [if_neg h]; simp [h]

/-- `filter_checkpoint(fun, **kw)` -/
theorem checkpoint_iff (w : World O) (f : Val O) (hs : f ≠ .sentinel) {kw : Kw O} (hk : kw.keys.Nodup) (hf : "fun" ∉ kw.keys) (r : Made O) :
    call w .checkpoint [f] kw = .ok r ↔ (∀ n ∈ kw.keys, n = "prevent_cse" ∨ n = "policy") ∧
      ∃ a b, IsOption kw "prevent_cse" (.bool true) a ∧ IsOption kw "policy" .none b ∧ r = .other f [("prevent_cse", a), ("policy", b)] := by
  rw [call_other w .checkpoint f hs hk hf rfl]
  simp [named, vals, isOption_iff hk]

/-- `assert_max_traces(fn, **kw)` -/
theorem maxTraces_iff (w : World O) (f : Val O) (hs : f ≠ .sentinel) {kw : Kw O} (hk : kw.keys.Nodup) (hf : "fn" ∉ kw.keys) (r : Made O) :
    call w .maxTraces [f] kw = .ok r ↔ ∃ a, kw = [("max_traces", a)] ∧ r = .other f [("max_traces", a)] := by
  rw [call_other w .maxTraces f hs hk hf rfl]
  simp only [named, List.map_cons, List.map_nil, List.mem_singleton, vals, Option.or_none]
  constructor
  · rintro ⟨h, d, hd, rfl⟩
    match kw, hk, h, hd with
    | [], _, _, hd => simp [Dict.get?] at hd
    | [(n, a)], _, h, hd =>
      have : n = "max_traces" := h n (by simp [Dict.keys])
      subst this
      simp only [Dict.get?, if_true, Option.some.injEq] at hd
      exact ⟨a, rfl, by rw [← hd]⟩
    | (n, a) :: (n', b) :: kw, hk, h, _ =>
      have h1 : n = "max_traces" := h n (by simp [Dict.keys])
      have h2 : n' = "max_traces" := h n' (by simp [Dict.keys])
      subst h1; subst h2
      simp [Dict.keys] at hk
  · rintro ⟨a, rfl, rfl⟩
    exact ⟨by simp [Dict.keys], [("max_traces", a)], by simp [Dict.get?], rfl⟩

/-- `filter_primitive_transpose(rule, **kw)` -/
theorem transpose_iff (w : World O) (f : Val O) (hs : f ≠ .sentinel) {kw : Kw O} (hk : kw.keys.Nodup) (hf : "rule" ∉ kw.keys) (r : Made O) :
    call w .transpose [f] kw = .ok r ↔ (∀ n ∈ kw.keys, n = "materialise_zeros") ∧
      ∃ a, IsOption kw "materialise_zeros" (.bool false) a ∧ r = .other f [("materialise_zeros", a)] := by
  rw [call_other w .transpose f hs hk hf rfl]
  simp [named, vals, isOption_iff hk]

/-- Without the function nothing is checked: a wrong option is refused when the function is given. -/
theorem checked_late (w : World O) (m : Maker) (hm : star m = true) {kw : Kw O} (hk : kw.keys.Nodup) (hf : first m ∉ kw.keys) :
    ∃ held, call w m [] kw = .ok (.part held) := by
  rcases part_or_error w m hk hf with ⟨_, h⟩ | ⟨held, h, _⟩
  · exact absurd (Or.inl hm) (h (by cases m <;> first | (intro n hn; cases hn; done) | cases hm))
  · exact ⟨held, h⟩

/-! ### Cases -/

def exWorld : World Nat := ⟨0, fun v => if v = .obj 9 then some .valueError else Option.none, fun o => o == 5⟩

/-- `filter_jit(donate="all")(donate="warn-except-first", inline=True)(f)` -/
example : chain exWorld .jit [] [[("donate", .str "all")], [("donate", .str "warn-except-first"), ("inline", .bool true)]] [.obj 1] [] =
    .ok (.jit (.obj 1) false false true [("inline", .bool true)]) := rfl

/-- `filter_pmap(axis_name="i")(fun=f, donate="arrays")` -/
example : chain exWorld .pmap [] [[("axis_name", .str "i")]] [] [("fun", .obj 1), ("donate", .str "arrays")] =
    .ok (.pmap (.obj 1) [("in_axes", .obj 0), ("out_axes", .obj 0), ("axis_name", .str "i"), ("axis_size", .none)] true
      [("donate_argnums", .zeroTuple)] true) := rfl

/-- `filter_grad(argnums=None, holomorphic=True)(f)` -/
example : chain exWorld .grad [] [[("argnums", .none), ("holomorphic", .bool true)]] [.obj 1] [] =
    .ok (.grad (.obj 1) (some (.bool false)) [("holomorphic", .bool true)]) := rfl

/-- `filter_jit(donate="some")`, which is not refused, and then `(f)`, which is. -/
example : call exWorld .jit [] [("donate", .str "some")] = .ok (.part [("donate", .str "some")]) ∧
    chain exWorld .jit [] [[("donate", .str "some")]] [.obj 1] [] = .error .valueError := ⟨rfl, rfl⟩

/-- The hypotheses of `in_advance_partial`, for `assert_max_traces(max_traces=1)(max_traces=2)(f)` -/
example : (∀ o' ∈ ([("max_traces", .obj 1)] :: [[("max_traces", .obj 2)]] : List (Kw Nat)), o'.keys.Nodup ∧ first .maxTraces ∉ o'.keys) ∧
    (∀ n ∈ required .maxTraces, n ∈ Dict.keys ([("max_traces", .obj 1)] : Kw Nat)) := by decide

/-- `assert_max_traces()(f, max_traces=1)` fails although `assert_max_traces(f, max_traces=1)` does not. -/
theorem max_traces_first : ∃ (w : World Nat) (f : Val Nat) (kw : Kw Nat), f ≠ .sentinel ∧ kw.keys.Nodup ∧
    (∃ r, call w .maxTraces [f] kw = .ok r) ∧ chain w .maxTraces [] [[]] [f] kw = .error .typeError :=
  ⟨exWorld, .obj 1, [("max_traces", .obj 1)], by decide, by decide, ⟨_, rfl⟩, rfl⟩

/-- `filter_jit(f, donate_argnames="x")` goes through, unlike `donate_argnums`. -/
theorem donate_argnames : ∃ (w : World Nat) (f : Val Nat) (r : Made Nat), f ≠ .sentinel ∧
    call w .jit [f] [("donate_argnames", .str "x")] = .ok r ∧ call w .jit [f] [("donate_argnums", .zeroTuple)] = .error .valueError :=
  ⟨exWorld, .obj 1, _, by decide, rfl, rfl⟩

end Verif.Misc.Options
