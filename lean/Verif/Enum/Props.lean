import Verif.Enum.Lemmas

/-!
# Properties of enumerations (C16, C17)

In every theorem `decls` is an arbitrary sequence of class statements which ran without raising, and `c`, `d` are
classes in it.
-/

namespace Verif
namespace Enum

variable {N M : Type} [DecidableEq N] {magic reserved shadowed : N → Bool} {decls : List (Decl N M)}
  {env : List (Cls N M)}

theorem getattr_ok {c : Nat} {n : N} {i : Item} (h : getattr shadowed env c n = .ok i) :
    shadowed n = false ∧ ∃ k, env[c]? = some k ∧ k.tab.items.get? n = some i.value ∧ i.cls = c := by
  unfold getattr at h
  split at h
  · exact absurd h (by simp)
  · rename_i hs
    refine ⟨by simpa using hs, ?_⟩
    cases hk : env[c]? with
    | none => simp [hk] at h
    | some k =>
      cases hi : k.tab.items.get? n with
      | none => simp [hk, hi] at h
      | some v =>
        simp only [hk, Option.bind_some, hi, Except.ok.injEq] at h
        subst h
        exact ⟨k, rfl, hi, rfl⟩

theorem getattr_of {c : Nat} {n : N} {k : Cls N M} {v : Nat} (hs : shadowed n = false) (hk : env[c]? = some k)
    (hv : k.tab.items.get? n = some v) : getattr shadowed env c n = .ok ⟨v, c⟩ := by
  simp [getattr, hs, hk, hv]

theorem msgOf_declared_mono (h : build magic reserved decls = .ok env) {c : Nat} {k : Cls N M} (hk : env[c]? = some k)
    (n : N) : (msgOf k.tab n).isSome ↔ ∃ d, Ancestor decls c d ∧ (declared magic decls d n).isSome := by
  induction c using Nat.strongRecOn generalizing k with
  | ind c ih =>
    have F := facts h c k hk
    rw [F.msgs n]
    constructor
    · intro hs
      cases hd : declared magic decls c n with
      | some m => exact ⟨c, .refl c, by simp [hd]⟩
      | none =>
        rw [hd, Option.none_or, List.findSome?_isSome_iff] at hs
        obtain ⟨b, hb, hbs⟩ := hs
        rw [List.mem_reverse, F.offk] at hb
        simp only [msgIn] at hbs
        cases hkb : env[b]? with
        | none => simp [hkb] at hbs
        | some kb =>
          simp only [hkb, Option.bind_some] at hbs
          have hlt : b < c := by have := ancestor_le h hb.1; have := hb.2; omega
          obtain ⟨d, hd1, hd2⟩ := (ih b hlt hkb).1 hbs
          refine ⟨d, ?_, hd2⟩
          have htrans : ∀ {x y z}, Ancestor decls x y → Ancestor decls y z → Ancestor decls x z := by
            intro x y z hxy hyz
            induction hxy with
            | refl => exact hyz
            | step h1 h2 _ ih => exact .step h1 h2 (ih hyz)
          exact htrans hb.1 hd1
    · rintro ⟨d, had, hds⟩
      cases hd : declared magic decls c n with
      | some m => simp
      | none =>
        rw [Option.none_or, List.findSome?_isSome_iff]
        have hne : d ≠ c := by rintro rfl; simp [hd] at hds
        refine ⟨d, by rw [List.mem_reverse, F.offk]; exact ⟨had, hne⟩, ?_⟩
        have hle := ancestor_le h had
        have hdl : d < env.length := by
          have := (List.getElem?_eq_some_iff.1 hk).1; omega
        simp only [msgIn, List.getElem?_eq_getElem hdl, Option.bind_some]
        exact (ih d (by omega) (List.getElem?_eq_getElem hdl)).2 ⟨d, .refl d, hds⟩

theorem items_iff (h : build magic reserved decls = .ok env) {c : Nat} {k : Cls N M} (hk : env[c]? = some k)
    (n : N) : (∃ v, k.tab.items.get? n = some v) ↔ ∃ d, Ancestor decls c d ∧ (declared magic decls d n).isSome := by
  rw [← msgOf_declared_mono h hk n, (facts h c k hk).good.msgOf_isSome, Option.isSome_iff_exists]

theorem length_env (h : build magic reserved decls = .ok env) {c : Nat} (hc : c < decls.length) :
    ∃ k, env[c]? = some k := by
  rw [← (build_spec h).1] at hc
  exact ⟨env[c], List.getElem?_eq_getElem hc⟩

/-! ## C16 -/

/-- The names of an enumeration are those declared in its body or by an ancestor. -/
theorem enum_names (h : build magic reserved decls = .ok env) {c : Nat} (hc : c < decls.length) (n : N) :
    (∃ i, getattr shadowed env c n = .ok i) ↔
      shadowed n = false ∧ ∃ d, Ancestor decls c d ∧ (declared magic decls d n).isSome := by
  obtain ⟨k, hk⟩ := length_env h hc
  rw [← items_iff h hk n]
  constructor
  · rintro ⟨i, hi⟩
    obtain ⟨hs, k', hk', hv, _⟩ := getattr_ok hi
    rw [hk] at hk'; cases hk'
    exact ⟨hs, i.value, hv⟩
  · rintro ⟨hs, v, hv⟩
    exact ⟨_, getattr_of hs hk hv⟩

/-- Looking up any other name raises `AttributeError`. -/
theorem enum_other_names (h : build magic reserved decls = .ok env) {c : Nat} (hc : c < decls.length) (n : N)
    (hn : ∀ d, Ancestor decls c d → declared magic decls d n = none) :
    getattr shadowed env c n = .error .attributeError := by
  have := (not_congr (enum_names (shadowed := shadowed) h hc n)).2 (by
    rintro ⟨_, d, hd, hs⟩
    rw [hn d hd] at hs
    simp at hs)
  cases hg : getattr shadowed env c n with
  | ok i => exact absurd ⟨i, hg⟩ this
  | error e =>
    unfold getattr at hg
    split at hg
    · exact hg.symm
    · split at hg
      · exact hg.symm
      · exact absurd hg (by simp)

/-- Distinct names have distinct values, and the comparison operators agree. -/
theorem enum_distinct (h : build magic reserved decls = .ok env) {c : Nat} {n m : N} {i j : Item}
    (hi : getattr shadowed env c n = .ok i) (hj : getattr shadowed env c m = .ok j) :
    itemEq i j = .ok (decide (n = m)) ∧ itemNe i j = .ok (decide (n ≠ m)) ∧ (i.value = j.value ↔ n = m) := by
  obtain ⟨_, k, hk, hiv, hic⟩ := getattr_ok hi
  obtain ⟨_, k', hk', hjv, hjc⟩ := getattr_ok hj
  rw [hk] at hk'; cases hk'
  have g := (facts h c k hk).good
  have key : i.value = j.value ↔ n = m := by
    constructor
    · intro e; rw [e] at hiv; exact g.inj hiv hjv
    · rintro rfl; rw [hiv] at hjv; exact Option.some.inj hjv
  refine ⟨?_, ?_, key⟩
  · unfold itemEq
    rw [if_pos (hic.trans hjc.symm)]
    by_cases e : n = m
    · simp [e, key.2 e]
    · simp [e, mt key.1 e]
  · unfold itemNe
    rw [if_pos (hic.trans hjc.symm)]
    by_cases e : n = m
    · simp [e, key.2 e]
    · simp [e, mt key.1 e]

/-- The values are `0, ..., len(cls) - 1`: every item has one of these as its value and a message, every one of
these is the value of exactly one name, and there are no further messages. -/
theorem enum_values (h : build magic reserved decls = .ok env) {c : Nat} (hc : c < decls.length) :
    (∀ n i, getattr shadowed env c n = .ok i → i.cls = c ∧ i.value < len env c ∧ Except.Ok (message env c i)) ∧
    (∀ v, v < len env c → ∃ n, getattr (fun _ => false) env c n = .ok ⟨v, c⟩ ∧
      ∀ m, getattr (fun _ => false) env c m = .ok ⟨v, c⟩ → m = n) ∧
    (∀ v, len env c ≤ v → Except.Raises (message env c ⟨v, c⟩)) := by
  obtain ⟨k, hk⟩ := length_env h hc
  have g := (facts h c k hk).good
  have hlen : len env c = k.tab.msgs.length := by simp [len, hk, g.length]
  rw [hlen]
  refine ⟨?_, ?_, ?_⟩
  · intro n i hi
    obtain ⟨_, k', hk', hiv, hic⟩ := getattr_ok hi
    rw [hk] at hk'; cases hk'
    have := g.lt hiv
    exact ⟨hic, this, k.tab.msgs[i.value], by simp [message, hic, hk, this]⟩
  · intro v hv
    obtain ⟨n, hn⟩ := g.surj hv
    refine ⟨n, getattr_of rfl hk hn, ?_⟩
    intro m hm
    obtain ⟨_, k', hk', hiv, _⟩ := getattr_ok hm
    rw [hk] at hk'; cases hk'
    exact g.inj hiv hn
  · intro v hv
    exact ⟨.indexError, by simp [message, hk, hv]⟩

omit [DecidableEq N] in
theorem ancestor_trans {x y z : Nat} (hxy : Ancestor decls x y) (hyz : Ancestor decls y z) : Ancestor decls x z := by
  induction hxy with
  | refl => exact hyz
  | step h1 h2 _ ih => exact .step h1 h2 (ih hyz)

theorem isSubclass_iff (h : build magic reserved decls = .ok env) {c : Nat} (hc : c < decls.length) (d : Nat) :
    isSubclass env c d = true ↔ Ancestor decls c d := by
  obtain ⟨k, hk⟩ := length_env h hc
  simp only [isSubclass, hk, decide_eq_true_eq]
  exact (facts h c k hk).mro d

/-- `Sub.promote(Base.x)` is `Sub.x`, for every proper ancestor `Base` of `Sub`. -/
theorem enum_promote (h : build magic reserved decls = .ok env) {c d : Nat} (hc : c < decls.length)
    (ha : Ancestor decls c d) (hne : d ≠ c) {n : N} {i : Item} (hi : getattr shadowed env d n = .ok i) :
    ∃ j, getattr shadowed env c n = .ok j ∧ promote env c i = .ok j := by
  obtain ⟨k, hk⟩ := length_env h hc
  obtain ⟨hs, kd, hkd, hiv, hic⟩ := getattr_ok hi
  have F := facts h c k hk
  have hkey : d ∈ Dict.keys k.offsets := (F.offk d).2 ⟨ha, hne⟩
  rw [← Dict.get?_isSome_iff, Option.isSome_iff_exists] at hkey
  obtain ⟨off, hoff⟩ := hkey
  obtain ⟨v, hv, hv'⟩ := F.offs d off kd hoff hkd n i.value hiv
  refine ⟨⟨v, c⟩, getattr_of hs hk hv', ?_⟩
  unfold promote
  rw [hic, (isSubclass_iff h hc d).2 ha]
  simp [hne, hk, hoff, hv]

/-- Promoting any item, of whatever value, to a subclass gives the item of the same name. -/
theorem enum_promote_item (h : build magic reserved decls = .ok env) {c : Nat} {i : Item} (hc : c < decls.length)
    (ha : Ancestor decls c i.cls) (hne : i.cls ≠ c) (hv : i.value < len env i.cls) :
    ∃ n j, getattr (fun _ => false) env i.cls n = .ok i ∧ getattr (fun _ => false) env c n = .ok j ∧
      promote env c i = .ok j := by
  have hd : i.cls < decls.length := Nat.lt_of_le_of_lt (ancestor_le h ha) hc
  obtain ⟨n, hn, _⟩ := (enum_values (shadowed := fun _ => false) h hd).2.1 i.value hv
  obtain ⟨j, hj, hp⟩ := enum_promote h hc ha hne hn
  exact ⟨n, j, hn, hj, hp⟩

/-- Promotions compose: going through an intermediate class gives the same item as promoting directly. -/
theorem enum_promote_compose (h : build magic reserved decls = .ok env) {c d : Nat} {i : Item} (hc : c < decls.length)
    (hcd : Ancestor decls c d) (hdi : Ancestor decls d i.cls) (h1 : d ≠ c) (h2 : i.cls ≠ d) (hv : i.value < len env i.cls) :
    ∃ j, promote env d i = .ok j ∧ promote env c j = promote env c i ∧ Except.Ok (promote env c i) := by
  have hd : d < decls.length := Nat.lt_of_le_of_lt (ancestor_le h hcd) hc
  have h3 : i.cls ≠ c := by
    have := ancestor_le h hcd
    have := ancestor_le h hdi
    omega
  obtain ⟨n, j, hn, hj, hp⟩ := enum_promote_item h hd hdi h2 hv
  obtain ⟨l, hl, hp2⟩ := enum_promote h hc hcd h1 hj
  obtain ⟨l', hl', hp3⟩ := enum_promote h hc (ancestor_trans hcd hdi) h3 hn
  rw [hl] at hl'
  cases hl'
  exact ⟨j, hp, by rw [hp2, hp3], l, hp3⟩

/-- Promoting is injective: distinct items stay distinct. -/
theorem enum_promote_injective (h : build magic reserved decls = .ok env) {c : Nat} {i j : Item} (hc : c < decls.length)
    (hcl : i.cls = j.cls) (ha : Ancestor decls c i.cls) (hne : i.cls ≠ c) (hi : i.value < len env i.cls)
    (hj : j.value < len env j.cls) (he : promote env c i = promote env c j) : i = j := by
  obtain ⟨n, i', hn, hi', hp⟩ := enum_promote_item h hc ha hne hi
  obtain ⟨m, j', hm, hj', hq⟩ := enum_promote_item h hc (hcl ▸ ha) (hcl ▸ hne) hj
  rw [hp, hq] at he
  cases he
  have := ((enum_distinct h hi' hj').2.2).1 rfl
  subst this
  rw [← hcl, hn] at hm
  exact Except.ok.inj hm

/-- Promoting an item of a class which is not a proper ancestor raises `ValueError`. -/
theorem enum_promote_unrelated (h : build magic reserved decls = .ok env) {c : Nat} {i : Item} (hc : c < decls.length)
    (hn : ¬ (Ancestor decls c i.cls ∧ i.cls ≠ c)) : promote env c i = .error .valueError := by
  unfold promote
  rw [if_pos]
  by_cases e : i.cls = c
  · exact .inr e
  · left
    cases hb : isSubclass env c i.cls with
    | false => rfl
    | true => exact absurd ⟨(isSubclass_iff h hc _).1 hb, e⟩ hn

omit [DecidableEq N] in
/-- Comparing items of different enumerations, even related ones, raises `ValueError`, and so do looking up a
message in the wrong class and choosing between items of the wrong class. -/
theorem enum_mixed_raises (c : Nat) (i j : Item) :
    (i.cls ≠ j.cls → itemEq i j = .error .valueError ∧ itemNe i j = .error .valueError) ∧
    (i.cls ≠ c → message env c i = .error .valueError) ∧
    (∀ p, i.cls ≠ c ∨ j.cls ≠ c ∨ p = none → enumWhere c p i j = .error .valueError) := by
  refine ⟨?_, ?_, ?_⟩
  · intro hne; simp [itemEq, itemNe, hne]
  · intro hne; simp [message, hne]
  · intro p hp
    cases p with
    | none => rfl
    | some p =>
      simp only [reduceCtorEq, or_false] at hp
      unfold enumWhere
      simp only
      rw [if_neg]
      rintro ⟨h1, h2⟩
      rcases hp with hp | hp
      · exact hp h1
      · exact hp h2

/-- `where` chooses. -/
theorem enum_where (c : Nat) (i j : Item) (hi : i.cls = c) (hj : j.cls = c) :
    enumWhere c (some true) i j = .ok i ∧ enumWhere c (some false) i j = .ok j := by
  obtain ⟨v, d⟩ := i
  obtain ⟨w, e⟩ := j
  simp only at hi hj
  subst hi; subst hj
  simp [enumWhere]

/-- Which class statements run: the bases must exist, no item may be called `promote` or `where`, and a consistent
method resolution order must exist. Nothing else can go wrong. -/
theorem enum_create_ok (h : build magic reserved decls = .ok env) (bases : List Nat) (own : List (N × M)) :
    Except.Ok (build magic reserved (decls ++ [(bases, own)])) ↔
      (∀ b ∈ bases, b < decls.length) ∧ (∀ p ∈ own, reserved p.1 = false) ∧
      (c3 ((mros env bases ++ [bases]).flatten.length) (mros env bases ++ [bases])).isSome := by
  have hb : build magic reserved (decls ++ [(bases, own)]) = create magic reserved env bases own := by
    unfold build at h ⊢
    rw [foldE_append, h]
    simp only [foldE]
    cases create magic reserved env bases own <;> rfl
  rw [hb]
  have hlen := (build_spec h).1
  have hany : (Dict.ofList own).any (fun p => reserved p.1) = true ↔ ∃ p ∈ own, reserved p.1 = true := by
    rw [List.any_eq_true]
    have hkeys : ∀ n, n ∈ Dict.keys (Dict.ofList own) ↔ n ∈ Dict.keys own := by
      intro n
      have := Dict.mem_keys_update [] own n
      simpa [Dict.keys, Dict.ofList, Dict.update] using this
    constructor
    · rintro ⟨p, hp, hr⟩
      have : p.1 ∈ Dict.keys own := (hkeys p.1).1 (List.mem_map.2 ⟨p, hp, rfl⟩)
      obtain ⟨q, hq, e⟩ := List.mem_map.1 this
      exact ⟨q, hq, e ▸ hr⟩
    · rintro ⟨p, hp, hr⟩
      have : p.1 ∈ Dict.keys (Dict.ofList own) := (hkeys p.1).2 (List.mem_map.2 ⟨p, hp, rfl⟩)
      obtain ⟨q, hq, e⟩ := List.mem_map.1 this
      exact ⟨q, hq, e ▸ hr⟩
  unfold create newClass
  by_cases h1 : ∀ b ∈ bases, b < decls.length
  · have e1 : bases.any (fun b => decide (env.length ≤ b)) = false := by
      rw [List.any_eq_false]
      intro b hb
      have := h1 b hb
      simp; omega
    rw [if_neg (by simp [e1])]
    by_cases h2 : ∀ p ∈ own, reserved p.1 = false
    · rw [if_neg]
      · cases hc : c3 ((mros env bases ++ [bases]).flatten.length) (mros env bases ++ [bases]) with
        | none => simp [Except.Ok]
        | some rest =>
          have hgood : ∀ b ∈ (mros env bases).flatten, ∃ base, env[b]? = some base ∧ Good base.tab := by
            intro d hd
            simp only [mros, List.mem_flatten, List.mem_map] at hd
            obtain ⟨l, ⟨b, hb, rfl⟩, hdl⟩ := hd
            obtain ⟨kb, hkb⟩ := length_env h (h1 b hb)
            simp only [hkb] at hdl
            have ha := ((facts h b kb hkb).mro d).1 hdl
            have hd := ancestor_le h ha
            obtain ⟨kd, hkd⟩ := length_env h (Nat.lt_of_le_of_lt hd (h1 b hb))
            exact ⟨kd, hkd, (facts h d kd hkd).good⟩
          have hinit : Built env [] ((⟨[], []⟩, []) : Building N M) :=
            ⟨good_nil, rfl, fun n => rfl, by intro b off base hh; simp [Dict.get?] at hh⟩
          obtain ⟨s, hs, _⟩ := addBases_spec (env := env) _ hinit hgood
          simp only [hs, Option.isSome_some]
          exact ⟨fun _ => ⟨h1, h2, trivial⟩, fun _ => ⟨_, rfl⟩⟩
      · rw [hany]
        rintro ⟨p, hp, hr⟩
        rw [h2 p hp] at hr
        exact absurd hr (by simp)
    · rw [if_pos]
      · exact ⟨fun ⟨_, e⟩ => absurd e (by simp), fun e => absurd e.2.1 h2⟩
      · rw [hany]
        simp only [Classical.not_forall] at h2
        obtain ⟨p, hp, hr⟩ := h2
        exact ⟨p, hp, by simpa using hr⟩
  · rw [if_pos]
    · exact ⟨fun ⟨_, e⟩ => absurd e (by simp), fun e => absurd e.1 h1⟩
    · rw [List.any_eq_true]
      simp only [Classical.not_forall] at h1
      obtain ⟨b, hb, hr⟩ := h1
      exact ⟨b, hb, by simp; omega⟩

/-- The reserved names raise `ValueError`. -/
theorem enum_reserved (h : build magic reserved decls = .ok env) (bases : List Nat) (own : List (N × M))
    (hb : ∀ b ∈ bases, b < decls.length) {p : N × M} (hp : p ∈ own) (hr : reserved p.1 = true) :
    create magic reserved env bases own = .error .valueError := by
  have hlen := (build_spec h).1
  unfold create newClass
  rw [if_neg, if_pos]
  · have hkeys : p.1 ∈ Dict.keys (Dict.ofList own) := by
      have := (Dict.mem_keys_update [] own p.1).2 (.inr (List.mem_map.2 ⟨p, hp, rfl⟩))
      simpa [Dict.ofList, Dict.update] using this
    obtain ⟨q, hq, e⟩ := List.mem_map.1 hkeys
    rw [List.any_eq_true]
    exact ⟨q, hq, e ▸ hr⟩
  · rw [List.any_eq_true]
    rintro ⟨b, hbm, hle⟩
    have := hb b hbm
    simp at hle
    omega

/-! ## C17 -/

theorem message_of (h : build magic reserved decls = .ok env) {c : Nat} {k : Cls N M} (hk : env[c]? = some k)
    {n : N} {i : Item} (hi : getattr shadowed env c n = .ok i) {m : M} :
    message env c i = .ok m ↔ msgOf k.tab n = some m := by
  obtain ⟨_, k', hk', hiv, hic⟩ := getattr_ok hi
  rw [hk] at hk'; cases hk'
  have := (facts h c k hk).good.lt hiv
  simp [message, msgOf, hic, hk, hiv, this]

/-- An item declared in the class body has the declared message. -/
theorem enum_message_own (h : build magic reserved decls = .ok env) {c : Nat} {n : N} {i : Item} {m : M}
    (hi : getattr shadowed env c n = .ok i) (hm : declared magic decls c n = some m) : message env c i = .ok m := by
  obtain ⟨_, k, hk, _⟩ := getattr_ok hi
  rw [message_of h hk hi, (facts h c k hk).msgs n, hm]
  simp

/-- An item whose declarations, in the class or in its ancestors, all give the same message (in particular one with
exactly one declaration) has this message. -/
theorem enum_message_unique (h : build magic reserved decls = .ok env) {c : Nat} {n : N} {i : Item} {m : M}
    (hi : getattr shadowed env c n = .ok i)
    (hm : ∀ d m', Ancestor decls c d → declared magic decls d n = some m' → m' = m) : message env c i = .ok m := by
  obtain ⟨_, k, hk, hiv, _⟩ := getattr_ok hi
  rw [message_of h hk hi]
  have key : ∀ (c : Nat) (k : Cls N M), env[c]? = some k →
      (∀ d m', Ancestor decls c d → declared magic decls d n = some m' → m' = m) →
      ∀ m', msgOf k.tab n = some m' → m' = m := by
    intro c
    induction c using Nat.strongRecOn with
    | ind c ih =>
      intro k hk hm m' hm'
      have F := facts h c k hk
      rw [F.msgs n] at hm'
      cases hd : declared magic decls c n with
      | some m'' =>
        rw [hd] at hm'
        simp at hm'; subst hm'
        exact hm c _ (.refl c) hd
      | none =>
        rw [hd, Option.none_or] at hm'
        obtain ⟨b, hb, hbm⟩ := List.exists_of_findSome?_eq_some hm'
        rw [List.mem_reverse, F.offk] at hb
        simp only [msgIn] at hbm
        cases hkb : env[b]? with
        | none => simp [hkb] at hbm
        | some kb =>
          simp only [hkb, Option.bind_some] at hbm
          have hlt : b < c := by have := ancestor_le h hb.1; have := hb.2; omega
          exact ih b hlt kb hkb (fun d m' hd => hm d m' (ancestor_trans hb.1 hd)) m' hbm
  have hs : (msgOf k.tab n).isSome := by rw [(facts h c k hk).good.msgOf_isSome, hiv]; rfl
  rw [Option.isSome_iff_exists] at hs
  obtain ⟨m', hm'⟩ := hs
  rw [hm', key c k hk hm m' hm']

/-- In general, an item which is not declared in the class body has the message it has in the last class processed
which knows its name. Classes are processed in the order of the concatenated method resolution orders of the bases,
each when it occurs first. -/
theorem enum_message_inherited (h : build magic reserved decls = .ok env) {c : Nat} {bases : List Nat}
    {own : List (N × M)} (hc : decls[c]? = some (bases, own)) {n : N} {i : Item}
    (hi : getattr shadowed env c n = .ok i) (hd : declared magic decls c n = none) :
    ∃ before b after j, firsts (mros env bases).flatten = before ++ b :: after ∧
      getattr shadowed env b n = .ok j ∧ message env b j = message env c i ∧
      (∀ b' ∈ after, Except.Raises (getattr shadowed env b' n)) := by
  obtain ⟨hsh, k, hk, hiv, _⟩ := getattr_ok hi
  have F := facts h c k hk
  have hs : (msgOf k.tab n).isSome := by rw [F.good.msgOf_isSome, hiv]; rfl
  rw [Option.isSome_iff_exists] at hs
  obtain ⟨m, hm⟩ := hs
  have hmc := (message_of h hk hi).2 hm
  rw [F.msgs n, hd, Option.none_or, F.order bases own hc] at hm
  rw [List.findSome?_eq_some_iff] at hm
  obtain ⟨l1, b, l2, hl, hb, hno⟩ := hm
  have hl' : firsts (mros env bases).flatten = l2.reverse ++ b :: l1.reverse := by
    have := congrArg List.reverse hl
    simpa using this
  simp only [msgIn] at hb
  cases hkb : env[b]? with
  | none => simp [hkb] at hb
  | some kb =>
    simp only [hkb, Option.bind_some] at hb
    have hsb : (kb.tab.items.get? n).isSome := by
      rw [← (facts h b kb hkb).good.msgOf_isSome, hb]; rfl
    rw [Option.isSome_iff_exists] at hsb
    obtain ⟨v, hv⟩ := hsb
    have hj : getattr shadowed env b n = .ok ⟨v, b⟩ := getattr_of hsh hkb hv
    refine ⟨l2.reverse, b, l1.reverse, ⟨v, b⟩, hl', hj, ?_, ?_⟩
    · rw [hmc, (message_of h hkb hj).2 hb]
    · intro b' hb'
      rw [List.mem_reverse] at hb'
      have hn := hno b' hb'
      cases hg : getattr shadowed env b' n with
      | error e => exact ⟨e, rfl⟩
      | ok j' =>
        obtain ⟨_, k', hk', hv', _⟩ := getattr_ok hg
        simp only [msgIn, hk', Option.bind_some] at hn
        have : (msgOf k'.tab n).isSome := by rw [(facts h b' k' hk').good.msgOf_isSome, hv']; rfl
        rw [hn] at this
        exact absurd this (by simp)

/-! ## Examples -/

/-- Names of the form `__...__`. -/
def isMagic (s : String) : Bool := s = "__module__" ∨ s = "__doc__"

/-- Names with which class statements raise. -/
def isReserved (s : String) : Bool := s = "promote" ∨ s = "where"

/-- A diamond with overlapping names, and an override two levels up. -/
def exDecls : List (Decl String String) :=
  [([], [("__module__", "m"), ("x", "a"), ("y", "b")]),
   ([0], [("z", "c")]),
   ([0], [("x", "override"), ("w", "d")]),
   ([2, 1], [("y", "own"), ("v", "e")])]

example : ((build isMagic isReserved exDecls).toOption.map (fun env => env.map (fun k => (k.mro, k.tab.items, k.tab.msgs, k.offsets)))) =
    some [([0], [("x", 0), ("y", 1)], ["a", "b"], []),
      ([1, 0], [("x", 0), ("y", 1), ("z", 2)], ["a", "b", "c"], [(0, [0, 1])]),
      ([2, 0], [("x", 0), ("y", 1), ("w", 2)], ["override", "b", "d"], [(0, [0, 1])]),
      ([3, 2, 1, 0], [("x", 0), ("y", 1), ("w", 2), ("z", 3), ("v", 4)], ["a", "own", "d", "c", "e"],
        [(2, [0, 1, 2]), (0, [0, 1]), (1, [0, 1, 3])])] := rfl

/-- Promoting `z` from class 1 to class 3 changes its value. -/
example : ((build isMagic isReserved exDecls).toOption.map (fun env => promote env 3 ⟨2, 1⟩)) =
    some (.ok ⟨3, 3⟩) := rfl

/-- A method resolution order which does not exist, and a reserved name. -/
example : build isMagic isReserved (exDecls ++ [([0, 1], [])]) = .error .typeError ∧
    build isMagic isReserved (exDecls ++ [([0], [("where", "x")])]) = .error .valueError := by
  constructor <;> rfl

/-- An override in a parent is lost in its subclasses: the message the grandparent gives wins, as it is processed
later. So the nearest declaration does not decide in general. -/
theorem enum_override_lost :
    ∃ env, build isMagic isReserved [([], [("x", "grandparent")]), ([0], [("x", "parent")]), ([1], [])] = .ok env ∧
      message env 1 ⟨0, 1⟩ = .ok "parent" ∧ getattr (fun _ => false) env 2 "x" = .ok ⟨0, 2⟩ ∧
      message env 2 ⟨0, 2⟩ = .ok "grandparent" := ⟨_, rfl, rfl, rfl, rfl⟩

end Enum
end Verif
