import Verif.Enum.Props

/-!
# The generated documentation of enumerations (`equinox/_enum.py`, lines 99-113)

A class statement without a docstring lists the items in `__doc__`. Strings are lists of characters. As in
`Verif/Enum/Model` all bases are enumerations. Left out: messages that are neither strings nor `None` are opaque and have no
`replace` method, and compare unequal to the empty string.
-/

namespace Verif
namespace Enum
namespace Doc

/-! ## Model -/

/-- A string of Python. -/
abbrev Str := List Char

/-- What a class body assigns to a name: a string, `None`, or something else such as a function. -/
inductive Msg
  | str (s : Str)
  | none
  | other (n : Nat)
deriving DecidableEq

/-- `_magic` (lines 18-19) -/
def magic (name : Str) : Bool := ['_', '_'].isPrefixOf name && ['_', '_'].isSuffixOf name

/-- The names of lines 65-74. -/
def reserved (name : Str) : Bool := name = "promote".toList || name = "where".toList

/-- `message.replace("\n", "\n    ")` (line 111) -/
def indent (s : Str) : Str := s.flatMap fun c => if c = '\n' then ['\n', ' ', ' ', ' ', ' '] else [c]

/-- `f"- `{name}`"` (line 109) -/
def bullet (name : Str) : Str := "- `".toList ++ (name ++ ['`'])

/-- One piece of the documentation (lines 107-112); what is not a string has no `replace`. -/
def piece (name : Str) : Msg → Except Err Str
  | .str s => if s = [] then .ok (bullet name) else .ok (bullet name ++ ([':', ' '] ++ indent s))
  | .none => .error .attributeError
  | .other _ => .error .attributeError

/-- Lines 101-104. -/
def heading : Str :=
  "An\n[enumeration](https://docs.kidger.site/equinox/api/enumerations/), with the\nfollowing entries:\n".toList

/-- The pieces of all items (lines 106-112). -/
def pieces (msgs : List Msg) : List (Str × Nat) → Except Err (List Str)
  | [] => .ok []
  | (name, i) :: l =>
    match msgs[i]? with
    | Option.none => .error .indexError
    | some m =>
      match piece name m with
      | .error e => .error e
      | .ok p => (pieces msgs l).map (p :: ·)

/-- `"\n\n".join(doc_pieces)` (line 113) -/
def join : List Str → Str
  | [] => []
  | [p] => p
  | p :: q :: ps => p ++ (['\n', '\n'] ++ join (q :: ps))

/-- What the class body assigns to `__doc__` (lines 75-77); `type.__new__` puts `None` if there is nothing. -/
def ownDoc (own : List (Str × Msg)) : Msg := ((Dict.ofList own).get? "__doc__".toList).getD .none

/-- `cls.__doc__` at the end of the class statement (lines 99-113). -/
def docOf (own : List (Str × Msg)) (t : Tab Str Msg) : Except Err Msg :=
  if ownDoc own = .none then (pieces t.msgs t.items).map fun ps => .str (join (heading :: ps)) else .ok (ownDoc own)

/-- A class and its `__doc__`. -/
abbrev DCls := Cls Str Msg × Msg

/-- A class statement (lines 49-114) with its documentation. -/
def statement (env : List DCls) (d : Decl Str Msg) : Except Err (List DCls) :=
  match newClass magic reserved (env.map (·.1)) d.1 d.2 with
  | .error e => .error e
  | .ok k =>
    match docOf d.2 k.tab with
    | .error e => .error e
    | .ok s => .ok (env ++ [(k, s)])

/-- A sequence of class statements. -/
def run (decls : List (Decl Str Msg)) : Except Err (List DCls) := foldE statement [] decls

/-! ## Specification -/

/-- The text of an entry: an empty message is left out, and lines after the first are indented by four spaces. -/
inductive Entry (name : Str) : Str → Str → Prop
  | empty : Entry name [] ("- `".toList ++ name ++ "`".toList)
  | lines (first : Str) (rest : List Str) (hne : first ≠ [] ∨ rest ≠ []) (h1 : '\n' ∉ first)
      (hr : ∀ l ∈ rest, '\n' ∉ l) :
      Entry name (first ++ (rest.map fun l => '\n' :: l).flatten)
        ("- `".toList ++ name ++ "`: ".toList ++ first ++ (rest.map fun l => "\n    ".toList ++ l).flatten)

/-- The docstring of a class statement. -/
def docstring (own : List (Str × Msg)) : Option Msg :=
  match (own.reverse.find? fun p : Str × Msg => decide (p.1 = "__doc__".toList)).map (·.2) with
  | some Msg.none => Option.none
  | r => r

/-! ## Lemmas -/

theorem ownDoc_docstring (own : List (Str × Msg)) :
    (ownDoc own = .none ↔ docstring own = Option.none) ∧ ∀ m, docstring own = some m → ownDoc own = m := by
  unfold ownDoc docstring
  rw [get?_ofList]
  cases h : (own.reverse.find? fun p => decide (p.1 = "__doc__".toList)).map (·.2) with
  | none => simp
  | some m => cases m <;> simp

theorem indent_cons (c : Char) (s : Str) :
    indent (c :: s) = (if c = '\n' then ['\n', ' ', ' ', ' ', ' '] else [c]) ++ indent s := by
  simp [indent]

theorem indent_append (s t : Str) : indent (s ++ t) = indent s ++ indent t := by simp [indent]

theorem indent_plain (s : Str) (h : '\n' ∉ s) : indent s = s := by
  induction s with
  | nil => rfl
  | cons c s ih =>
    simp only [List.mem_cons, not_or] at h
    rw [indent_cons, ih h.2, if_neg (fun e => h.1 e.symm)]
    rfl

theorem indent_lines (first : Str) (rest : List Str) (h1 : '\n' ∉ first) (hr : ∀ l ∈ rest, '\n' ∉ l) :
    indent (first ++ (rest.map fun l => '\n' :: l).flatten) = first ++ (rest.map fun l => "\n    ".toList ++ l).flatten := by
  rw [indent_append, indent_plain first h1]
  congr 1
  induction rest with
  | nil => rfl
  | cons l rest ih =>
    simp only [List.map_cons, List.flatten_cons, List.cons_append]
    rw [indent_cons, if_pos rfl, indent_append, indent_plain l (hr l (by simp)),
      ih (fun x hx => hr x (List.mem_cons_of_mem _ hx))]
    simp

/-- Every string is made of lines. -/
theorem exists_lines (s : Str) : ∃ (first : Str) (rest : List Str), '\n' ∉ first ∧ (∀ l ∈ rest, '\n' ∉ l) ∧
    s = first ++ (rest.map fun l => '\n' :: l).flatten := by
  induction s with
  | nil => exact ⟨[], [], by simp, by simp, rfl⟩
  | cons c s ih =>
    obtain ⟨first, rest, h1, hr, rfl⟩ := ih
    by_cases hc : c = '\n'
    · subst hc
      refine ⟨[], first :: rest, by simp, ?_, by simp⟩
      intro l hl
      rcases List.mem_cons.1 hl with rfl | hl
      · exact h1
      · exact hr l hl
    · refine ⟨c :: first, rest, ?_, hr, rfl⟩
      simp only [List.mem_cons, not_or]
      exact ⟨fun e => hc e.symm, h1⟩

theorem piece_str (name s : Str) : ∃ t, piece name (.str s) = .ok t ∧ Entry name s t := by
  unfold piece
  by_cases h : s = []
  · subst h
    exact ⟨_, if_pos rfl, by simpa [bullet] using Entry.empty (name := name)⟩
  · obtain ⟨first, rest, h1, hr, rfl⟩ := exists_lines s
    refine ⟨_, if_neg h, ?_⟩
    rw [indent_lines first rest h1 hr]
    have hne : first ≠ [] ∨ rest ≠ [] := by
      by_cases e1 : first = []
      · exact .inr fun e2 => h (by simp [e1, e2])
      · exact .inl e1
    have := Entry.lines (name := name) first rest hne h1 hr
    simpa [bullet, List.append_assoc] using this

theorem piece_error (name : Str) (m : Msg) (h : ∀ s, m ≠ .str s) : piece name m = .error .attributeError := by
  cases m with
  | str s => exact absurd rfl (h s)
  | none => rfl
  | other n => rfl

theorem join_cons (p : Str) (ps : List Str) : join (p :: ps) = p ++ (ps.map fun q => ['\n', '\n'] ++ q).flatten := by
  induction ps generalizing p with
  | nil => simp [join]
  | cons q ps ih => simp [join, ih q]

theorem pieces_ok (msgs : List Msg) (items : List (Str × Nat)) (hi : ∀ p ∈ items, p.2 < msgs.length) :
    (∃ ps, pieces msgs items = .ok ps ∧ ps.length = items.length ∧
      ∀ (j : Nat) (n : Str) (i : Nat) (t : Str), items[j]? = some (n, i) → ps[j]? = some t →
        ∃ s, msgs[i]? = some (.str s) ∧ piece n (.str s) = .ok t) ∨
    (pieces msgs items = .error .attributeError ∧ ∃ p ∈ items, ∃ m, msgs[p.2]? = some m ∧ ∀ s, m ≠ .str s) := by
  induction items with
  | nil => exact .inl ⟨[], rfl, rfl, by simp⟩
  | cons p items ih =>
    obtain ⟨n, i⟩ := p
    have hlt : i < msgs.length := hi (n, i) (by simp)
    have hget : msgs[i]? = some msgs[i] := List.getElem?_eq_getElem hlt
    simp only [pieces, hget]
    by_cases hm : ∃ s, msgs[i] = .str s
    · obtain ⟨s, hs⟩ := hm
      obtain ⟨t, ht, _⟩ := piece_str n s
      rw [hs, ht]
      rcases ih (fun p hp => hi p (List.mem_cons_of_mem _ hp)) with ⟨ps, h1, h2, h3⟩ | ⟨h1, p, hp, m, hm⟩
      · left
        refine ⟨t :: ps, by simp [h1, Except.map], by simp [h2], ?_⟩
        intro j n' i' t' hj ht'
        cases j with
        | zero =>
          simp only [List.getElem?_cons_zero, Option.some.injEq, Prod.mk.injEq] at hj ht'
          obtain ⟨rfl, rfl⟩ := hj
          subst ht'
          exact ⟨s, by rw [hget, hs], ht⟩
        | succ j =>
          simp only [List.getElem?_cons_succ] at hj ht'
          exact h3 j n' i' t' hj ht'
      · right
        exact ⟨by simp [h1, Except.map], p, List.mem_cons_of_mem _ hp, m, hm⟩
    · right
      have hm : ∀ s, msgs[i] ≠ .str s := fun s e => hm ⟨s, e⟩
      rw [piece_error n _ hm]
      exact ⟨rfl, (n, i), by simp, msgs[i], hget, hm⟩

theorem docOf_spec (own : List (Str × Msg)) {t : Tab Str Msg} (g : Good t) :
    (∃ m, docstring own = some m ∧ docOf own t = .ok m) ∨
    (docstring own = Option.none ∧
      ((∃ ps : List Str, docOf own t = .ok (.str (heading ++ (ps.map fun q => ['\n', '\n'] ++ q).flatten)) ∧
          ps.length = t.items.length ∧
          ∀ (j : Nat) (n : Str) (i : Nat) (e : Str), t.items[j]? = some (n, i) → ps[j]? = some e →
            ∃ s, t.msgs[i]? = some (.str s) ∧ piece n (.str s) = .ok e) ∨
       (docOf own t = .error .attributeError ∧ ∃ p ∈ t.items, ∃ m, t.msgs[p.2]? = some m ∧ ∀ s, m ≠ .str s))) := by
  obtain ⟨hd1, hd2⟩ := ownDoc_docstring own
  cases hd : docstring own with
  | some m =>
    left
    refine ⟨m, rfl, ?_⟩
    have hne : ownDoc own ≠ .none := fun e => by rw [hd1.1 e] at hd; simp at hd
    rw [docOf, if_neg hne, hd2 m hd]
  | none =>
    right
    refine ⟨rfl, ?_⟩
    have hi : ∀ p ∈ t.items, p.2 < t.msgs.length := by
      intro p hp
      have : p.2 ∈ t.items.map (·.2) := List.mem_map.2 ⟨p, hp, rfl⟩
      rw [g.2] at this
      exact List.mem_range.1 this
    rw [docOf, if_pos (hd1.2 hd)]
    rcases pieces_ok t.msgs t.items hi with ⟨ps, h1, h2, h3⟩ | ⟨h1, h2⟩
    · exact .inl ⟨ps, by simp [h1, Except.map, join_cons], h2, h3⟩
    · exact .inr ⟨by simp [h1, Except.map], h2⟩

theorem foldE_map {S T X : Type} (f : S → X → Except Err S) (g : T → X → Except Err T) (r : S → T)
    (hfg : ∀ s x s', f s x = .ok s' → g (r s) x = .ok (r s')) (l : List X) : ∀ s s', foldE f s l = .ok s' →
      foldE g (r s) l = .ok (r s') := by
  induction l with
  | nil => intro s s' h; simp only [foldE, Except.ok.injEq] at h ⊢; rw [h]
  | cons x l ih =>
    intro s s' h
    simp only [foldE] at h ⊢
    cases hs : f s x with
    | error e => rw [hs] at h; exact absurd h (by simp)
    | ok s1 =>
      rw [hs] at h
      rw [hfg s x s1 hs]
      exact ih s1 s' h

theorem statement_ok {env env' : List DCls} {d : Decl Str Msg} (h : statement env d = .ok env') :
    ∃ k s, newClass magic reserved (env.map (·.1)) d.1 d.2 = .ok k ∧ docOf d.2 k.tab = .ok s ∧ env' = env ++ [(k, s)] := by
  unfold statement at h
  cases hk : newClass magic reserved (env.map (·.1)) d.1 d.2 with
  | error e => rw [hk] at h; exact absurd h (by simp)
  | ok k =>
    rw [hk] at h
    simp only at h
    cases hs : docOf d.2 k.tab with
    | error e => rw [hs] at h; exact absurd h (by simp)
    | ok s =>
      rw [hs] at h
      simp only [Except.ok.injEq] at h
      exact ⟨k, s, rfl, hs, h.symm⟩

theorem run_build {decls : List (Decl Str Msg)} {env : List DCls} (h : run decls = .ok env) :
    build magic reserved decls = .ok (env.map (·.1)) := by
  have := foldE_map statement (fun env d => create magic reserved env d.1 d.2) (fun env => env.map (·.1)) ?_ decls [] env h
  · simpa [build] using this
  · intro s d s' hs
    obtain ⟨k, m, hk, _, rfl⟩ := statement_ok hs
    simp only [create, hk, List.map_append, List.map_cons, List.map_nil]

theorem run_docs_aux (decls : List (Decl Str Msg)) : ∀ (env0 env : List DCls), foldE statement env0 decls = .ok env →
    (∀ c : Nat, c < env0.length → env[c]? = env0[c]?) ∧
    ∀ (c : Nat) d, decls[c]? = some d → ∃ k s, env[env0.length + c]? = some (k, s) ∧ docOf d.2 k.tab = .ok s := by
  induction decls with
  | nil => intro env0 env h; simp only [foldE, Except.ok.injEq] at h; subst h; simp
  | cons d decls ih =>
    intro env0 env h
    simp only [foldE] at h
    cases hs : statement env0 d with
    | error e => rw [hs] at h; exact absurd h (by simp)
    | ok env1 =>
      rw [hs] at h
      obtain ⟨k, s, _, hdoc, rfl⟩ := statement_ok hs
      obtain ⟨h1, h2⟩ := ih _ _ h
      refine ⟨?_, ?_⟩
      · intro c hc
        rw [h1 c (by simp; omega), List.getElem?_append_left hc]
      · intro c d' hd
        cases c with
        | zero =>
          simp only [List.getElem?_cons_zero, Option.some.injEq] at hd
          subst hd
          refine ⟨k, s, ?_, hdoc⟩
          rw [Nat.add_zero, h1 env0.length (by simp)]
          simp
        | succ c =>
          simp only [List.getElem?_cons_succ] at hd
          obtain ⟨k', s', h3, h4⟩ := h2 c d' hd
          refine ⟨k', s', ?_, h4⟩
          rw [← h3]
          congr 1
          simp only [List.length_append, List.length_cons, List.length_nil]
          omega

theorem good_items {t : Tab Str Msg} (g : Good t) {v : Nat} (hv : v < t.items.length) :
    ∃ n, t.items[v]? = some (n, v) ∧ t.items.get? n = some v := by
  have h2 : (t.items.map (·.2))[v]? = (List.range t.msgs.length)[v]? := by rw [g.2]
  rw [List.getElem?_map, List.getElem?_eq_getElem hv, List.getElem?_range (g.length ▸ hv)] at h2
  simp only [Option.map_some, Option.some.injEq] at h2
  refine ⟨t.items[v].1, ?_, ?_⟩
  · rw [List.getElem?_eq_getElem hv]
    congr 1
    exact Prod.ext rfl h2
  · apply Dict.get?_of_mem _ g.1
    have : (t.items[v].1, v) = t.items[v] := Prod.ext rfl h2.symm
    rw [this]
    exact List.getElem_mem hv

/-! ## C116 -/

/-- Documentation changes nothing else: where all class statements run, the classes are those of C16 and C17. -/
theorem enum_doc_classes {decls : List (Decl Str Msg)} {env : List DCls} (h : run decls = .ok env) :
    build magic reserved decls = .ok (env.map (·.1)) ∧ env.length = decls.length := by
  have hb := run_build h
  refine ⟨hb, ?_⟩
  have := (build_spec hb).1
  simpa using this

/-- Without a docstring, the documentation is the heading followed by one entry for every item, in the order of their values,
each with the name and the message of the item. -/
theorem enum_doc {decls : List (Decl Str Msg)} {env : List DCls} (h : run decls = .ok env) {c : Nat} {bases : List Nat}
    {own : List (Str × Msg)} (hd : decls[c]? = some (bases, own)) (hn : docstring own = Option.none) :
    ∃ (k : Cls Str Msg) (entries : List Str),
      env[c]? = some (k, .str ("An
[enumeration](https://docs.kidger.site/equinox/api/enumerations/), with the
following entries:
".toList ++ (entries.map fun e => "\n\n".toList ++ e).flatten)) ∧
      entries.length = len (env.map (·.1)) c ∧
      ∀ v e, entries[v]? = some e → ∃ name s, getattr (fun _ => false) (env.map (·.1)) c name = .ok ⟨v, c⟩ ∧
        message (env.map (·.1)) c ⟨v, c⟩ = .ok (.str s) ∧ Entry name s e := by
  have hb := run_build h
  obtain ⟨k, s, hk, hdoc⟩ := (run_docs_aux decls [] env h).2 c _ hd
  simp only [List.length_nil, Nat.zero_add] at hk
  have hk1 : (env.map (·.1))[c]? = some k := by simp [List.getElem?_map, hk]
  have g := (facts hb c k hk1).good
  rcases docOf_spec own g with ⟨m, hm, _⟩ | ⟨_, ⟨ps, h1, h2, h3⟩ | ⟨h1, _⟩⟩
  · rw [hn] at hm; exact absurd hm (by simp)
  · rw [h1] at hdoc
    simp only [Except.ok.injEq] at hdoc
    subst hdoc
    refine ⟨k, ps, hk, by rw [h2]; simp [len, hk1], ?_⟩
    intro v e he
    have hv : v < k.tab.items.length := by
      rw [← h2]
      exact (List.getElem?_eq_some_iff.1 he).1
    obtain ⟨n, hn1, hn2⟩ := good_items g hv
    obtain ⟨s, hs, hp⟩ := h3 v n v e hn1 he
    obtain ⟨t, ht, hent⟩ := piece_str n s
    rw [hp] at ht
    cases ht
    exact ⟨n, s, getattr_of rfl hk1 hn2, by simp [message, hk1, hs], hent⟩
  · rw [h1] at hdoc; exact absurd hdoc (by simp)

/-- The items of a class are the names assigned in its body or in the body of an ancestor, except those that both begin and end
with two underscores. -/
theorem enum_doc_names {decls : List (Decl Str Msg)} {env : List DCls} (h : run decls = .ok env) {c : Nat}
    (hc : c < decls.length) (name : Str) :
    (∃ i, getattr (fun _ => false) (env.map (·.1)) c name = .ok i) ↔
      (∃ d bases own, Ancestor decls c d ∧ decls[d]? = some (bases, own) ∧ ∃ m, (name, m) ∈ own) ∧
        ¬ ((∃ r, name = "__".toList ++ r) ∧ ∃ r, name = r ++ "__".toList) := by
  have hmag : magic name = true ↔ (∃ r, name = "__".toList ++ r) ∧ ∃ r, name = r ++ "__".toList := by
    simp only [magic, Bool.and_eq_true, List.isPrefixOf_iff_prefix, List.isSuffixOf_iff_suffix]
    exact and_congr ⟨fun ⟨r, e⟩ => ⟨r, e.symm⟩, fun ⟨r, e⟩ => ⟨r, e.symm⟩⟩
      ⟨fun ⟨r, e⟩ => ⟨r, e.symm⟩, fun ⟨r, e⟩ => ⟨r, e.symm⟩⟩
  rw [enum_names (run_build h) hc name, ← hmag]
  simp only [true_and, declared]
  constructor
  · rintro ⟨d, ha, hs⟩
    split at hs
    · simp at hs
    · rename_i hm
      refine ⟨?_, hm⟩
      cases hdd : decls[d]? with
      | none => simp [hdd] at hs
      | some dd =>
        rw [hdd, Option.bind_some, Option.isSome_map, List.find?_isSome] at hs
        obtain ⟨q, hq, hqe⟩ := hs
        simp only [decide_eq_true_eq] at hqe
        exact ⟨d, dd.1, dd.2, ha, hdd, q.2, by rw [← hqe]; exact List.mem_reverse.1 hq⟩
  · rintro ⟨⟨d, bases, own, ha, hd, m, hm⟩, hn⟩
    refine ⟨d, ha, ?_⟩
    rw [if_neg hn, hd, Option.bind_some, Option.isSome_map, List.find?_isSome]
    exact ⟨(name, m), List.mem_reverse.2 hm, by simp⟩

/-- A class body cannot assign to `promote` or `where`. -/
theorem enum_doc_reserved {decls : List (Decl Str Msg)} {env : List DCls} (h : run decls = .ok env) {bases : List Nat}
    {own : List (Str × Msg)} (hb : ∀ b ∈ bases, b < decls.length) {name : Str} {m : Msg} (hm : (name, m) ∈ own)
    (hn : name = "promote".toList ∨ name = "where".toList) :
    run (decls ++ [(bases, own)]) = .error .valueError := by
  have hlen := (enum_doc_classes h).2
  have hk : newClass magic reserved (env.map (·.1)) bases own = .error .valueError := by
    unfold newClass
    rw [if_neg, if_pos]
    · have hkey : name ∈ Dict.keys (Dict.ofList own) := by
        rw [← Dict.get?_isSome_iff, get?_ofList, Option.isSome_map, List.find?_isSome]
        exact ⟨(name, m), List.mem_reverse.2 hm, by simp⟩
      obtain ⟨p, hp, hpe⟩ := List.mem_map.1 hkey
      rw [List.any_eq_true]
      refine ⟨p, hp, ?_⟩
      rw [hpe]
      rcases hn with rfl | rfl <;> rfl
    · simp only [List.any_eq_true, decide_eq_true_eq, not_exists, not_and, Nat.not_le, List.length_map]
      intro b hb'
      rw [hlen]
      exact hb b hb'
  unfold run at h ⊢
  rw [foldE_append, h]
  simp only [foldE, statement, hk]

/-- A docstring of the class body is kept. -/
theorem enum_doc_own {decls : List (Decl Str Msg)} {env : List DCls} (h : run decls = .ok env) {c : Nat} {bases : List Nat}
    {own : List (Str × Msg)} (hd : decls[c]? = some (bases, own)) {m : Msg} (hm : docstring own = some m) :
    ∃ k, env[c]? = some (k, m) := by
  have hb := run_build h
  obtain ⟨k, s, hk, hdoc⟩ := (run_docs_aux decls [] env h).2 c _ hd
  simp only [List.length_nil, Nat.zero_add] at hk
  have hk1 : (env.map (·.1))[c]? = some k := by simp [List.getElem?_map, hk]
  have g := (facts hb c k hk1).good
  rcases docOf_spec own g with ⟨m', hm', h1⟩ | ⟨hn, _⟩
  · rw [hm] at hm'
    cases hm'
    rw [h1] at hdoc
    cases hdoc
    exact ⟨k, hk⟩
  · rw [hm] at hn; exact absurd hn (by simp)

/-- A class statement that would run otherwise raises `AttributeError` exactly if it has no docstring and some item, own or
inherited, has a message that is not a string; otherwise it adds the class. -/
theorem enum_doc_statement {decls : List (Decl Str Msg)} {env : List DCls} (h : run decls = .ok env)
    {bases : List Nat} {own : List (Str × Msg)} {env' : List (Cls Str Msg)}
    (hc : create magic reserved (env.map (·.1)) bases own = .ok env') :
    let bad := docstring own = Option.none ∧ ∃ name i m, getattr (fun _ => false) env' decls.length name = .ok i ∧
      message env' decls.length i = .ok m ∧ ∀ s, m ≠ .str s
    (bad → run (decls ++ [(bases, own)]) = .error .attributeError) ∧
    (¬ bad → ∃ m, run (decls ++ [(bases, own)]) = .ok (env ++ [m]) ∧ env' = (env ++ [m]).map (·.1)) := by
  obtain ⟨hb, hlen⟩ := enum_doc_classes h
  have hb' : build magic reserved (decls ++ [(bases, own)]) = .ok env' := by
    unfold build at hb ⊢
    rw [foldE_append, hb]
    simp only [foldE, hc]
  unfold create at hc
  cases hk : newClass magic reserved (env.map (·.1)) bases own with
  | error e => rw [hk] at hc; exact absurd hc (by simp)
  | ok k =>
    rw [hk] at hc
    simp only [Except.ok.injEq] at hc
    subst hc
    have hk1 : (env.map (·.1) ++ [k])[decls.length]? = some k := by
      rw [← hlen, List.getElem?_append_right (by simp)]
      simp
    have g := (facts hb' _ k hk1).good
    have hrun : run (decls ++ [(bases, own)]) = match docOf own k.tab with
        | .error e => .error e
        | .ok s => .ok (env ++ [(k, s)]) := by
      unfold run at h ⊢
      rw [foldE_append, h]
      simp only [foldE, statement, hk]
      cases docOf own k.tab <;> rfl
    rw [hrun]
    rcases docOf_spec own g with ⟨m, hm, h1⟩ | ⟨hn, ⟨ps, h1, h2, h3⟩ | ⟨h1, p, hp, m, hm, hms⟩⟩
    · refine ⟨fun hbad => absurd (hm.symm.trans hbad.1) (by simp), fun _ => ⟨(k, m), by simp [h1], by simp⟩⟩
    · refine ⟨?_, fun _ => ⟨_, by simp only [h1]; rfl, by simp⟩⟩
      rintro ⟨_, n, i, m, hi, hm, hms⟩
      obtain ⟨_, k', hk', hiv, hic⟩ := getattr_ok hi
      rw [hk1] at hk'
      cases hk'
      have hlt := g.lt hiv
      rw [← g.length] at hlt
      obtain ⟨n', hn1, hn2⟩ := good_items g hlt
      have hpl : i.value < ps.length := by rw [h2]; exact hlt
      obtain ⟨s, hs, _⟩ := h3 i.value n' i.value ps[i.value] hn1 (List.getElem?_eq_getElem hpl)
      simp only [message, hic, hk1, Option.bind_some, hs, ne_eq, not_true_eq_false, if_false, Except.ok.injEq] at hm
      exact absurd hm.symm (hms s)
    · refine ⟨fun _ => by simp [h1], fun hbad => absurd ⟨hn, p.1, ⟨p.2, decls.length⟩, m, ?_, ?_, hms⟩ hbad⟩
      · exact getattr_of rfl hk1 (Dict.get?_of_mem _ g.1 hp)
      · simp [message, hk1, hm]

/-! ### Reading the documentation -/

theorem split_backtick {n n' r r' : Str} (hn : '`' ∉ n) (hn' : '`' ∉ n') (h : n ++ '`' :: r = n' ++ '`' :: r') :
    n = n' ∧ r = r' := by
  induction n generalizing n' with
  | nil =>
    cases n' with
    | nil => simpa using h
    | cons c n' =>
      simp only [List.nil_append, List.cons_append, List.cons.injEq] at h
      exact absurd h.1 (fun e => hn' (e ▸ List.mem_cons_self))
  | cons c n ih =>
    cases n' with
    | nil =>
      simp only [List.nil_append, List.cons_append, List.cons.injEq] at h
      exact absurd h.1.symm (fun e => hn (e ▸ List.mem_cons_self))
    | cons c' n' =>
      simp only [List.cons_append, List.cons.injEq] at h
      simp only [List.mem_cons, not_or] at hn hn'
      obtain ⟨h1, h2⟩ := ih hn.2 hn'.2 h.2
      exact ⟨by rw [h.1, h1], h2⟩

/-- What follows an entry: nothing, or an empty line. -/
def Ends (b : Str) : Prop := b = [] ∨ ∃ r, b = '\n' :: '\n' :: r

theorem indent_ne {c : Char} {s r b : Str} (hb : Ends b) : b ≠ indent (c :: s) ++ r := by
  intro h
  rw [indent_cons] at h
  rcases hb with rfl | ⟨q, rfl⟩
  · split at h <;> simp at h
  · split at h
    · simp at h
    · rename_i hc
      simp only [List.cons_append, List.nil_append, List.cons.injEq] at h
      exact hc h.1.symm

theorem split_indent {s s' b b' : Str} (hb : Ends b) (hb' : Ends b') (h : indent s ++ b = indent s' ++ b') :
    s = s' ∧ b = b' := by
  induction s generalizing s' with
  | nil =>
    cases s' with
    | nil => exact ⟨rfl, by simpa [indent] using h⟩
    | cons c s' => exact absurd (by simpa [indent] using h) (indent_ne (c := c) (s := s') (r := b') hb)
  | cons c s ih =>
    cases s' with
    | nil => exact absurd (by simpa [indent] using h.symm) (indent_ne (c := c) (s := s) (r := b) hb')
    | cons c' s' =>
      have hc : c = c' := by
        rw [indent_cons, indent_cons] at h
        split at h <;> split at h <;> simp only [List.cons_append, List.nil_append, List.cons.injEq] at h
        · rename_i e1 e2; rw [e1, e2]
        · rename_i e1 _; rw [e1, h.1]
        · rename_i _ e2; rw [e2, h.1]
        · exact h.1
      subst hc
      rw [indent_cons, indent_cons, List.append_assoc, List.append_assoc] at h
      obtain ⟨h1, h2⟩ := ih (List.append_cancel_left h)
      exact ⟨by rw [h1], h2⟩

theorem ends_flatten (ps : List Str) : Ends (ps.map fun q => ['\n', '\n'] ++ q).flatten := by
  cases ps with
  | nil => exact .inl rfl
  | cons p ps => exact .inr ⟨p ++ (ps.map fun q => ['\n', '\n'] ++ q).flatten, by simp⟩

theorem split_piece {n n' s s' p p' b b' : Str} (hn : '`' ∉ n) (hn' : '`' ∉ n') (hp : piece n (.str s) = .ok p)
    (hp' : piece n' (.str s') = .ok p') (hb : Ends b) (hb' : Ends b') (h : p ++ b = p' ++ b') :
    n = n' ∧ s = s' ∧ b = b' := by
  have hform : ∀ (n s p : Str), piece n (.str s) = .ok p →
      p = "- `".toList ++ (n ++ '`' :: (if s = [] then [] else ':' :: ' ' :: indent s)) := by
    intro n s p hp
    simp only [piece] at hp
    split at hp
    · rename_i hs
      simp only [Except.ok.injEq] at hp
      rw [← hp, if_pos hs]
      rfl
    · rename_i hs
      simp only [Except.ok.injEq] at hp
      rw [← hp, if_neg hs]
      simp [bullet]
  rw [hform n s p hp, hform n' s' p' hp', List.append_assoc, List.append_assoc, List.append_assoc, List.append_assoc] at h
  obtain ⟨h1, h2⟩ := split_backtick hn hn' (List.append_cancel_left h)
  refine ⟨h1, ?_⟩
  by_cases hs : s = []
  · by_cases hs' : s' = []
    · rw [if_pos hs, if_pos hs'] at h2
      exact ⟨hs.trans hs'.symm, by simpa using h2⟩
    · rw [if_pos hs, if_neg hs'] at h2
      rcases hb with rfl | ⟨r, rfl⟩ <;> simp at h2
  · by_cases hs' : s' = []
    · rw [if_neg hs, if_pos hs'] at h2
      rcases hb' with rfl | ⟨r, rfl⟩ <;> simp at h2
    · rw [if_neg hs, if_neg hs'] at h2
      exact split_indent hb hb' (List.append_cancel_left (as := [':', ' ']) h2)

theorem pieces_inj {T T' : Tab Str Msg} : ∀ (l l' : List (Str × Nat)) (ps ps' : List Str),
    pieces T.msgs l = .ok ps → pieces T'.msgs l' = .ok ps' → (∀ p ∈ l, '`' ∉ p.1) → (∀ p ∈ l', '`' ∉ p.1) →
    (ps.map fun q => ['\n', '\n'] ++ q).flatten = (ps'.map fun q => ['\n', '\n'] ++ q).flatten →
    l.map (fun p => (p.1, T.msgs[p.2]?)) = l'.map (fun p => (p.1, T'.msgs[p.2]?)) := by
  have hcons : ∀ (T : Tab Str Msg) (n : Str) (i : Nat) (l : List (Str × Nat)) (ps : List Str), pieces T.msgs ((n, i) :: l) = .ok ps →
      ∃ s p qs, T.msgs[i]? = some (.str s) ∧ piece n (.str s) = .ok p ∧ pieces T.msgs l = .ok qs ∧ ps = p :: qs := by
    intro T n i l ps h
    simp only [pieces] at h
    cases hm : T.msgs[i]? with
    | none => rw [hm] at h; exact absurd h (by simp)
    | some m =>
      rw [hm] at h
      cases m with
      | none => exact absurd h (by simp [piece])
      | other k => exact absurd h (by simp [piece])
      | str s =>
        obtain ⟨p, hp, _⟩ := piece_str n s
        simp only [hp] at h
        cases hq : pieces T.msgs l with
        | error e => rw [hq] at h; exact absurd h (by simp [Except.map])
        | ok qs =>
          rw [hq] at h
          simp only [Except.map, Except.ok.injEq] at h
          exact ⟨s, p, qs, rfl, hp, rfl, h.symm⟩
  intro l
  induction l with
  | nil =>
    intro l' ps ps' h h' _ _ he
    simp only [pieces, Except.ok.injEq] at h
    subst h
    cases l' with
    | nil => rfl
    | cons q l' =>
      obtain ⟨s, p, qs, _, _, _, rfl⟩ := hcons T' q.1 q.2 l' ps' h'
      simp at he
  | cons q l ih =>
    intro l' ps ps' h h' hn hn' he
    obtain ⟨s, p, qs, hm, hp, hqs, rfl⟩ := hcons T q.1 q.2 l ps h
    cases l' with
    | nil =>
      simp only [pieces, Except.ok.injEq] at h'
      subst h'
      simp at he
    | cons q' l' =>
      obtain ⟨s', p', qs', hm', hp', hqs', rfl⟩ := hcons T' q'.1 q'.2 l' ps' h'
      simp only [List.map_cons, List.flatten_cons, List.append_assoc] at he
      obtain ⟨h1, h2, h3⟩ := split_piece (hn q (by simp)) (hn' q' (by simp)) hp hp' (ends_flatten qs) (ends_flatten qs')
        (List.append_cancel_left he)
      rw [List.map_cons, List.map_cons, h1, hm, hm', h2,
        ih l' qs qs' hqs hqs' (fun p hp => hn p (List.mem_cons_of_mem _ hp)) (fun p hp => hn' p (List.mem_cons_of_mem _ hp)) h3]

/-- The documentation can be read back: if two classes without docstrings have the same documentation, then they have the same
names, with the same values and messages. (Names in class bodies are identifiers, so there are no backticks in them.) -/
theorem enum_doc_determines {decls decls' : List (Decl Str Msg)} {env env' : List DCls} (h : run decls = .ok env)
    (h' : run decls' = .ok env') {c c' : Nat} {bases bases' : List Nat} {own own' : List (Str × Msg)}
    (hd : decls[c]? = some (bases, own)) (hd' : decls'[c']? = some (bases', own'))
    (hn : docstring own = Option.none) (hn' : docstring own' = Option.none)
    (hid : ∀ d ∈ decls, ∀ p ∈ d.2, '`' ∉ p.1) (hid' : ∀ d ∈ decls', ∀ p ∈ d.2, '`' ∉ p.1)
    (hdoc : (env[c]?).map (·.2) = (env'[c']?).map (·.2)) :
    len (env.map (·.1)) c = len (env'.map (·.1)) c' ∧
    ∀ (name : Str) (v : Nat), (getattr (fun _ => false) (env.map (·.1)) c name = .ok ⟨v, c⟩ ↔
        getattr (fun _ => false) (env'.map (·.1)) c' name = .ok ⟨v, c'⟩) ∧
      message (env.map (·.1)) c ⟨v, c⟩ = message (env'.map (·.1)) c' ⟨v, c'⟩ := by
  have key : ∀ {decls : List (Decl Str Msg)} {env : List DCls}, run decls = .ok env → ∀ {c : Nat} {bases : List Nat}
      {own : List (Str × Msg)}, decls[c]? = some (bases, own) → docstring own = Option.none →
      (∀ d ∈ decls, ∀ p ∈ d.2, '`' ∉ p.1) → ∃ k ps, env[c]? = some (k, .str (heading ++ (ps.map fun q => ['\n', '\n'] ++ q).flatten)) ∧
        (env.map (·.1))[c]? = some k ∧ Good k.tab ∧ pieces k.tab.msgs k.tab.items = .ok ps ∧ ∀ p ∈ k.tab.items, '`' ∉ p.1 := by
    intro decls env h c bases own hd hn hid
    have hb := run_build h
    obtain ⟨k, s, hk, hdoc⟩ := (run_docs_aux decls [] env h).2 c _ hd
    simp only [List.length_nil, Nat.zero_add] at hk
    have hk1 : (env.map (·.1))[c]? = some k := by simp [List.getElem?_map, hk]
    have g := (facts hb c k hk1).good
    rw [docOf, if_pos ((ownDoc_docstring own).1.2 hn)] at hdoc
    cases hp : pieces k.tab.msgs k.tab.items with
    | error e => rw [hp] at hdoc; exact absurd hdoc (by simp [Except.map])
    | ok ps =>
      rw [hp] at hdoc
      simp only [Except.map, Except.ok.injEq, join_cons] at hdoc
      subst hdoc
      refine ⟨k, ps, hk, hk1, g, hp, ?_⟩
      intro p hp
      have hpk : k.tab.items.get? p.1 = some p.2 := Dict.get?_of_mem _ g.1 hp
      obtain ⟨d, _, hds⟩ := (items_iff hb hk1 p.1).1 ⟨_, hpk⟩
      unfold declared at hds
      split at hds
      · simp at hds
      · cases hdd : decls[d]? with
        | none => simp [hdd] at hds
        | some dd =>
          rw [hdd, Option.bind_some, Option.isSome_map, List.find?_isSome] at hds
          obtain ⟨q, hq, hqe⟩ := hds
          simp only [decide_eq_true_eq] at hqe
          rw [← hqe]
          exact hid dd (List.mem_of_getElem? hdd) q (List.mem_reverse.1 hq)
  obtain ⟨k, ps, hk, hk1, g, hp, hb⟩ := key h hd hn hid
  obtain ⟨k', ps', hk', hk1', g', hp', hb'⟩ := key h' hd' hn' hid'
  rw [hk, hk'] at hdoc
  simp only [Option.map_some, Option.some.injEq, Msg.str.injEq] at hdoc
  have hmap := pieces_inj (T := k.tab) (T' := k'.tab) _ _ _ _ hp hp' hb hb' (List.append_cancel_left hdoc)
  have hlen : k.tab.items.length = k'.tab.items.length := by simpa using congrArg List.length hmap
  have hval : ∀ v, v < k.tab.items.length → ∃ n, k.tab.items.get? n = some v ∧ k'.tab.items.get? n = some v ∧
      k.tab.msgs[v]? = k'.tab.msgs[v]? := by
    intro v hv
    obtain ⟨n, h1, h2⟩ := good_items g hv
    obtain ⟨n', h1', h2'⟩ := good_items g' (hlen ▸ hv)
    have := congrArg (fun l => l[v]?) hmap
    simp only [List.getElem?_map, h1, h1', Option.map_some, Option.some.injEq, Prod.mk.injEq] at this
    obtain ⟨rfl, hm⟩ := this
    exact ⟨n, h2, h2', hm⟩
  refine ⟨by simp [len, hk1, hk1', hlen], fun name v => ⟨?_, ?_⟩⟩
  · constructor
    · intro hg
      obtain ⟨_, k2, hk2, hv, _⟩ := getattr_ok hg
      rw [hk1] at hk2
      cases hk2
      have hv : k.tab.items.get? name = some v := hv
      obtain ⟨n, e1, e2, _⟩ := hval v (g.length ▸ g.lt hv)
      rw [g.inj hv e1]
      exact getattr_of rfl hk1' e2
    · intro hg
      obtain ⟨_, k2, hk2, hv, _⟩ := getattr_ok hg
      rw [hk1'] at hk2
      cases hk2
      have hv : k'.tab.items.get? name = some v := hv
      obtain ⟨n, e1, e2, _⟩ := hval v (hlen ▸ g'.length ▸ g'.lt hv)
      rw [g'.inj hv e2]
      exact getattr_of rfl hk1 e1
  · simp only [message, hk1, hk1', Option.bind_some, ne_eq, not_true_eq_false, if_false]
    by_cases hv : v < k.tab.items.length
    · obtain ⟨_, _, _, hm⟩ := hval v hv
      rw [hm]
    · have h1 : k.tab.msgs[v]? = Option.none := by rw [List.getElem?_eq_none_iff, ← g.length]; omega
      have h2 : k'.tab.msgs[v]? = Option.none := by rw [List.getElem?_eq_none_iff, ← g'.length]; omega
      rw [h1, h2]

/-! ## Examples -/

/-- A base with a message of two lines and one that looks like an entry, a child that overrides a message and has one that is
empty, a class with a docstring and a method, and a class that inherits from it. -/
def exBase : Decl Str Msg :=
  ([], [("__module__".toList, .str "m".toList), ("a".toList, .str "one\ntwo".toList), ("b".toList, .str "x\n\n- `c`".toList)])

def exChild : Decl Str Msg := ([0], [("b".toList, .str []), ("d".toList, .str "four".toList)])

def exDocumented : Decl Str Msg := ([0], [("__doc__".toList, .str "Mine.".toList), ("f".toList, .other 0)])

def textOf : Msg → Option String
  | .str s => some (String.ofList s)
  | _ => Option.none

set_option maxRecDepth 10000 in
example : (run [exBase, exChild, exDocumented]).toOption.map (fun env => env.map fun k => (textOf k.2)) = some
    [some "An\n[enumeration](https://docs.kidger.site/equinox/api/enumerations/), with the\nfollowing entries:\n\n\n- `a`: one\n    two\n\n- `b`: x\n    \n    - `c`",
     some "An\n[enumeration](https://docs.kidger.site/equinox/api/enumerations/), with the\nfollowing entries:\n\n\n- `a`: one\n    two\n\n- `b`\n\n- `d`: four",
     some "Mine."] := by rfl

example : run [exBase, exDocumented, ([1], [])] = .error .attributeError := by rfl

/-- The hypotheses of `enum_doc_determines` hold for the base and the child. -/
example : (∀ d ∈ [exBase, exChild], ∀ p ∈ d.2, '`' ∉ p.1) ∧ docstring exBase.2 = Option.none ∧
    docstring exChild.2 = Option.none ∧ docstring exDocumented.2 = some (.str "Mine.".toList) := by decide

end Doc
end Enum
end Verif
