import Verif.Module.Signature
import Mathlib.Logic.Basic
import Mathlib.Data.List.Nodup
import Batteries.Data.List.Perm
import Mathlib.Tactic.ByContra

/-! # C106: the signature of a module is what it can be called with -/

namespace Verif.Module.Signature

variable {N V : Type} [DecidableEq N]

/-! ### Specification -/

/-- The place of a kind of parameter in the list of parameters. -/
def place : Kind → Nat
  | .posOnly => 0
  | .posOrKw => 1
  | .varPos => 2
  | .kwOnly => 3
  | .varKw => 4

/-- Parameters as Python allows them: positional-only ones, others that can be passed by position, at most one `*args`, keyword-only ones, at
most one `**kwargs`; different names; behind a positional parameter with default only such. -/
structure Valid (ps : List (Param N V)) : Prop where
  places : ps.Pairwise fun p q => place p.kind ≤ place q.kind ∧ (p.kind = q.kind → p.kind ≠ .varPos ∧ p.kind ≠ .varKw)
  names : (ps.map (·.name)).Nodup
  defaults : ps.Pairwise fun p q => q.kind = .posOnly ∨ q.kind = .posOrKw → p.default.isSome = true → q.default.isSome = true

/-- What parameter number `i` is bound to. -/
inductive Gets (ps : List (Param N V)) (args : List V) (kwargs : Dict N V) (i : Nat) (p : Param N V) : Held N V → Prop where
  /-- the argument number `i`; the keyword must not be there as well -/
  | position {v : V} : p.kind = .posOnly ∨ (p.kind = .posOrKw ∧ ∀ u, (p.name, u) ∉ kwargs) → args[i]? = some v →
      Gets ps args kwargs i p (.one v)
  /-- the keyword argument -/
  | keyword {v : V} : (p.kind = .posOrKw ∧ args.length ≤ i) ∨ p.kind = .kwOnly → (p.name, v) ∈ kwargs → Gets ps args kwargs i p (.one v)
  /-- the default, if there is no argument -/
  | default {v : V} : (p.kind = .posOnly ∧ args.length ≤ i) ∨ (p.kind = .posOrKw ∧ args.length ≤ i ∧ ∀ u, (p.name, u) ∉ kwargs) ∨
      (p.kind = .kwOnly ∧ ∀ u, (p.name, u) ∉ kwargs) → p.default = some v → Gets ps args kwargs i p (.one v)
  /-- `*args`: the remaining positional arguments -/
  | rest : p.kind = .varPos → Gets ps args kwargs i p (.tuple (args.drop i))
  /-- `**kwargs`: the keyword arguments that are not those of a parameter -/
  | others : p.kind = .varKw →
      ∀ kw, kw.Sublist kwargs →
        (∀ e, e ∈ kw ↔ e ∈ kwargs ∧ ∀ q ∈ ps, q.name = e.1 → q.kind ≠ .posOrKw ∧ q.kind ≠ .kwOnly) → Gets ps args kwargs i p (.dict kw)

/-- A call of a function with the parameters `ps` enters its body, with these bound as in `b`. -/
structure Enters (ps : List (Param N V)) (args : List V) (kwargs : Dict N V) (b : List (N × Held N V)) : Prop where
  /-- not too many positional arguments -/
  few : args.length ≤ ps.countP (fun p => p.kind = .posOnly ∨ p.kind = .posOrKw) ∨ ∃ p ∈ ps, p.kind = .varPos
  /-- no unknown keyword -/
  known : ∀ n v, (n, v) ∈ kwargs → (∃ p ∈ ps, p.name = n ∧ (p.kind = .posOrKw ∨ p.kind = .kwOnly)) ∨ ∃ p ∈ ps, p.kind = .varKw
  /-- all parameters are bound -/
  length : b.length = ps.length
  gets : ∀ i p, ps[i]? = some p → ∃ h, b[i]? = some (p.name, h) ∧ Gets ps args kwargs i p h

/-! ### Passing arguments -/

theorem rank_place (k : Kind) : k.rank = place k := by cases k <;> rfl

omit [DecidableEq N] in
theorem Valid.order {ps : List (Param N V)} (hv : Valid ps) :
    ps.Pairwise fun p q => p.kind.rank ≤ q.kind.rank ∧ (p.kind = q.kind → p.kind ≠ .varPos ∧ p.kind ≠ .varKw) := by
  simpa only [rank_place] using hv.places

omit [DecidableEq N] in
theorem pos_iff (p : Param N V) : p.pos = true ↔ p.kind = .posOnly ∨ p.kind = .posOrKw := by
  unfold Param.pos; cases p.kind <;> simp

omit [DecidableEq N] in
theorem named_iff (p : Param N V) : p.named = true ↔ p.kind = .posOrKw ∨ p.kind = .kwOnly := by
  unfold Param.named; cases p.kind <;> simp

omit [DecidableEq N] in
theorem hasVarPos_iff (ps : List (Param N V)) : hasVarPos ps = true ↔ ∃ p ∈ ps, p.kind = .varPos := by
  simp [hasVarPos]

omit [DecidableEq N] in
theorem hasVarKw_iff (ps : List (Param N V)) : hasVarKw ps = true ↔ ∃ p ∈ ps, p.kind = .varKw := by
  simp [hasVarKw]

omit [DecidableEq N] in
theorem mem_keywords (ps : List (Param N V)) (n : N) :
    n ∈ keywords ps ↔ ∃ p ∈ ps, p.name = n ∧ (p.kind = .posOrKw ∨ p.kind = .kwOnly) := by
  simp only [keywords, List.mem_map, List.mem_filter, named_iff]
  constructor
  · rintro ⟨p, ⟨hp, hk⟩, hn⟩; exact ⟨p, hp, hn, hk⟩
  · rintro ⟨p, hp, hn, hk⟩; exact ⟨p, ⟨hp, hk⟩, hn⟩

theorem get?_append (a b : Dict N V) (n : N) : Dict.get? (a ++ b) n = (a.get? n).or (b.get? n) := by
  induction a with
  | nil => simp [Dict.get?]
  | cons e a ih =>
    obtain ⟨k, v⟩ := e
    simp only [List.cons_append, Dict.get?]
    split
    · simp
    · exact ih

theorem passKw_eq (names : List N) (star : Bool) (loc extra kw : Dict N V) (hk : kw.keys.Nodup) :
    ((∀ n v, (n, v) ∈ kw → (n ∈ names ∧ loc.get? n = none) ∨ (n ∉ names ∧ star = true)) ∧
      passKw names star loc extra kw = .ok (loc ++ kw.filter (fun e => names.contains e.1), extra ++ kw.filter (fun e => !names.contains e.1))) ∨
    ((¬ ∀ n v, (n, v) ∈ kw → (n ∈ names ∧ loc.get? n = none) ∨ (n ∉ names ∧ star = true)) ∧
      passKw names star loc extra kw = .error .typeError) := by
  induction kw generalizing loc extra with
  | nil => left; simp [passKw]
  | cons e kw ih =>
    obtain ⟨n, v⟩ := e
    have hk' : (Dict.keys kw).Nodup := by
      simp only [Dict.keys, List.map_cons, List.nodup_cons] at hk; exact hk.2
    have hnot : n ∉ Dict.keys kw := by
      simp only [Dict.keys, List.map_cons, List.nodup_cons] at hk; exact hk.1
    by_cases hn : n ∈ names
    · have hc : names.contains n = true := by simpa using hn
      by_cases hl : loc.get? n = none
      · have hstep : passKw names star loc extra ((n, v) :: kw) = passKw names star (loc ++ [(n, v)]) extra kw := by
          simp [passKw, hn, hl]
        have hiff : (∀ m u, (m, u) ∈ (n, v) :: kw → (m ∈ names ∧ loc.get? m = none) ∨ (m ∉ names ∧ star = true)) ↔
            ∀ m u, (m, u) ∈ kw → (m ∈ names ∧ Dict.get? (loc ++ [(n, v)]) m = none) ∨ (m ∉ names ∧ star = true) := by
          have key : ∀ m u, (m, u) ∈ kw → (Dict.get? (loc ++ [(n, v)]) m = loc.get? m) := by
            intro m u hm
            have hne : m ≠ n := by
              rintro rfl
              exact hnot (List.mem_map.2 ⟨_, hm, rfl⟩)
            rw [get?_append]
            have : Dict.get? ([(n, v)] : Dict N V) m = none := by simp [Dict.get?, Ne.symm hne]
            rw [this]; simp
          constructor
          · intro h m u hm
            rw [key m u hm]
            exact h m u (List.mem_cons_of_mem _ hm)
          · intro h m u hm
            rcases List.mem_cons.1 hm with he | hm
            · cases he; exact .inl ⟨hn, hl⟩
            · rw [← key m u hm]; exact h m u hm
        rw [hstep, hiff]
        rcases ih (loc ++ [(n, v)]) extra hk' with ⟨h1, h2⟩ | ⟨h1, h2⟩
        · left
          refine ⟨h1, ?_⟩
          rw [h2]
          simp [hn]
        · right; exact ⟨h1, h2⟩
      · right
        constructor
        · intro h
          rcases h n v (by simp) with ⟨_, h⟩ | ⟨h, _⟩
          · exact hl h
          · exact h hn
        · have : (loc.get? n).isSome = true := by
            cases h : loc.get? n with
            | none => exact absurd h hl
            | some _ => rfl
          simp [passKw, hn, this]
    · cases star with
      | true =>
        have hstep : passKw names true loc extra ((n, v) :: kw) = passKw names true loc (extra ++ [(n, v)]) kw := by
          simp [passKw, hn]
        have hiff : (∀ m u, (m, u) ∈ (n, v) :: kw → (m ∈ names ∧ loc.get? m = none) ∨ (m ∉ names ∧ true = true)) ↔
            ∀ m u, (m, u) ∈ kw → (m ∈ names ∧ loc.get? m = none) ∨ (m ∉ names ∧ true = true) := by
          constructor
          · intro h m u hm; exact h m u (List.mem_cons_of_mem _ hm)
          · intro h m u hm
            rcases List.mem_cons.1 hm with he | hm
            · cases he; exact .inr ⟨hn, rfl⟩
            · exact h m u hm
        rw [hstep, hiff]
        rcases ih loc (extra ++ [(n, v)]) hk' with ⟨h1, h2⟩ | ⟨h1, h2⟩
        · left
          refine ⟨h1, ?_⟩
          rw [h2]
          simp [hn]
        · right; exact ⟨h1, h2⟩
      | false =>
        right
        constructor
        · intro h
          rcases h n v (by simp) with ⟨h, _⟩ | ⟨_, h⟩
          · exact hn h
          · cases h
        · simp [passKw, hn]

theorem fill_iff (loc : Dict N V) (rest : List V) (extra : Dict N V) (ps : List (Param N V)) (b : List (N × Held N V)) :
    fill loc rest extra ps = .ok b ↔
      b.length = ps.length ∧ ∀ (i : Nat) (p : Param N V), ps[i]? = some p →
        ∃ h, b[i]? = some (p.name, h) ∧ heldBy loc rest extra p = .ok h := by
  induction ps generalizing b with
  | nil =>
    simp only [fill, Except.ok.injEq]
    constructor
    · rintro rfl; simp
    · rintro ⟨h, _⟩; exact (List.length_eq_zero_iff.1 h).symm
  | cons p ps ih =>
    simp only [fill, Bind.bind, Except.bind]
    cases hp : heldBy loc rest extra p with
    | error e =>
      constructor
      · intro h; cases h
      · rintro ⟨_, h⟩
        obtain ⟨h, _, h2⟩ := h 0 p rfl
        rw [hp] at h2; cases h2
    | ok h =>
      simp only
      cases hf : fill loc rest extra ps with
      | error e =>
        constructor
        · intro h; cases h
        · rintro ⟨hl, hall⟩
          exfalso
          cases b with
          | nil => simp at hl
          | cons x b =>
            have := (ih b).2 ⟨by simpa using hl, fun i q hq => by simpa using hall (i + 1) q (by simpa using hq)⟩
            rw [hf] at this; cases this
      | ok b' =>
        have ih' := (ih b').1 hf
        simp only [Except.ok.injEq]
        constructor
        · rintro rfl
          refine ⟨by simp [ih'.1], ?_⟩
          intro i q hq
          cases i with
          | zero => simp at hq; subst hq; exact ⟨h, rfl, hp⟩
          | succ i => simpa using ih'.2 i q (by simpa using hq)
        · rintro ⟨hl, hall⟩
          cases b with
          | nil => simp at hl
          | cons x b =>
            obtain ⟨h', hx, hh⟩ := hall 0 p rfl
            simp at hx
            rw [hp] at hh
            cases hh
            have := (ih b).2 ⟨by simpa using hl, fun i q hq => by simpa using hall (i + 1) q (by simpa using hq)⟩
            rw [hf] at this
            cases this
            rw [hx]

omit [DecidableEq N] in
/-- The positional parameters are the first ones. -/
theorem front_get {ps : List (Param N V)} (hv : ps.Pairwise fun p q => p.kind.rank ≤ q.kind.rank ∧ (p.kind = q.kind → p.kind ≠ .varPos ∧ p.kind ≠ .varKw))
    {i : Nat} {p : Param N V} (hi : ps[i]? = some p) :
    (p.pos = true → (ps.filter Param.pos)[i]? = some p) ∧ (p.pos = false → (ps.filter Param.pos).length ≤ i) ∧
      (p.kind = .varPos → (ps.filter Param.pos).length = i) := by
  induction ps generalizing i with
  | nil => simp at hi
  | cons q ps ih =>
    obtain ⟨hq, hv⟩ := List.pairwise_cons.1 hv
    by_cases hp : q.pos = true
    · rw [List.filter_cons_of_pos hp]
      cases i with
      | zero =>
        simp at hi; subst hi
        refine ⟨fun _ => rfl, fun h => absurd hp (by simp [h]), fun h => ?_⟩
        rw [pos_iff, h] at hp; simp at hp
      | succ i =>
        have := ih hv (i := i) (by simpa using hi)
        simpa using this
    · have hnone : ∀ r ∈ ps, r.pos = false := by
        intro r hr
        have hle := (hq r hr).1
        cases hrp : r.pos with
        | false => rfl
        | true =>
          rw [pos_iff] at hp hrp
          exfalso
          revert hle
          rcases hrp with h | h <;> rw [h] <;> revert hp <;> cases q.kind <;> simp [Kind.rank]
      rw [List.filter_cons_of_neg hp]
      have hf : ps.filter Param.pos = [] := by
        rw [List.filter_eq_nil_iff]; intro r hr; rw [hnone r hr]; simp
      rw [hf]
      cases i with
      | zero =>
        simp at hi; subst hi
        exact ⟨fun h => absurd h hp, fun _ => by simp, fun _ => by simp⟩
      | succ i =>
        have hm : p ∈ ps := List.mem_of_getElem? (by simpa using hi)
        refine ⟨fun h => ?_, fun _ => by simp, fun h => ?_⟩
        · rw [hnone p hm] at h; cases h
        · exfalso
          have hle := hq p hm
          rw [h] at hle
          rw [pos_iff] at hp
          revert hle hp
          cases q.kind <;> simp [Kind.rank]

theorem zip_get? (ns : List N) (vs : List V) (hn : ns.Nodup) (i : Nat) (n : N) (hi : ns[i]? = some n) :
    Dict.get? (ns.zip vs : Dict N V) n = vs[i]? := by
  induction ns generalizing vs i with
  | nil => simp at hi
  | cons m ns ih =>
    obtain ⟨hm, hn⟩ := List.nodup_cons.1 hn
    cases vs with
    | nil => simp [Dict.get?]
    | cons v vs =>
      cases i with
      | zero => simp at hi; subst hi; simp [Dict.get?]
      | succ i =>
        have hin : ns[i]? = some n := by simpa using hi
        have hne : m ≠ n := by
          rintro rfl; exact hm (List.mem_of_getElem? hin)
        simp only [List.zip_cons_cons, Dict.get?]
        rw [if_neg (by simpa using hne)]
        simpa using ih vs hn i hin

theorem filter_get? (kw : Dict N V) (f : N → Bool) (n : N) :
    Dict.get? (kw.filter fun e => f e.1 : Dict N V) n = if f n then kw.get? n else none := by
  induction kw with
  | nil => simp [Dict.get?]
  | cons e kw ih =>
    obtain ⟨k, v⟩ := e
    by_cases hk : f k = true
    · rw [List.filter_cons_of_pos (by simpa using hk)]
      simp only [Dict.get?]
      split
      · rename_i h
        have h : k = n := by simpa using h
        subst h; simp [hk]
      · exact ih
    · rw [List.filter_cons_of_neg (by simpa using hk), ih]
      simp only [Dict.get?]
      by_cases h : k = n
      · subst h; simp [hk]
      · simp [h]

theorem get?_none_iff (kw : Dict N V) (n : N) : kw.get? n = none ↔ ∀ u, (n, u) ∉ kw := by
  rw [Dict.get?_eq_none_iff]
  constructor
  · intro h u hu; exact h (List.mem_map.2 ⟨_, hu, rfl⟩)
  · intro h hn
    obtain ⟨⟨m, u⟩, hm, rfl⟩ := List.mem_map.1 hn
    exact h u hm

omit [DecidableEq N] in
theorem same_param {ps : List (Param N V)} (hn : (ps.map (·.name)).Nodup) {p q : Param N V} (hp : p ∈ ps) (hq : q ∈ ps)
    (h : p.name = q.name) : p = q := by
  induction ps with
  | nil => cases hp
  | cons r ps ih =>
    simp only [List.map_cons, List.nodup_cons, List.mem_map, not_exists, not_and] at hn
    rcases List.mem_cons.1 hp with e | hp' <;> rcases List.mem_cons.1 hq with e' | hq'
    · rw [e, e']
    · subst e; exact absurd h.symm (hn.1 q hq')
    · subst e'; exact absurd h (hn.1 p hp')
    · exact ih hn.2 hp' hq'

omit [DecidableEq N] in
theorem keywords_iff {ps : List (Param N V)} (hv : Valid ps) {p : Param N V} (hp : p ∈ ps) :
    p.name ∈ keywords ps ↔ p.kind = .posOrKw ∨ p.kind = .kwOnly := by
  rw [mem_keywords]
  constructor
  · rintro ⟨q, hq, hn, hk⟩
    rw [same_param hv.names hq hp hn] at hk
    exact hk
  · intro h; exact ⟨p, hp, rfl, h⟩

/-- The local variable of a parameter. -/
theorem loc_get {ps : List (Param N V)} (hv : Valid ps) (args : List V) (kwargs : Dict N V) {i : Nat} {p : Param N V} (hi : ps[i]? = some p) :
    Dict.get? (((ps.filter Param.pos).map (·.name)).zip args ++ kwargs.filter (fun e => (keywords ps).contains e.1) : Dict N V) p.name =
      (if p.kind = .posOnly ∨ p.kind = .posOrKw then args[i]? else none).or
        (if p.kind = .posOrKw ∨ p.kind = .kwOnly then kwargs.get? p.name else none) := by
  have hp : p ∈ ps := List.mem_of_getElem? hi
  rw [get?_append]
  congr 1
  · split
    · rename_i h
      have hfr := (front_get hv.order hi).1 ((pos_iff p).2 h)
      exact zip_get? _ _ (hv.names.sublist (List.filter_sublist.map _)) i _ (by rw [List.getElem?_map, hfr]; rfl)
    · rename_i h
      rw [get?_none_iff]
      intro u hu
      have := (List.of_mem_zip hu).1
      obtain ⟨q, hq, hqn⟩ := List.mem_map.1 this
      obtain ⟨hq, hqp⟩ := List.mem_filter.1 hq
      rw [same_param hv.names hq hp hqn] at hqp
      exact h ((pos_iff p).1 hqp)
  · rw [filter_get? kwargs (fun n => (keywords ps).contains n)]
    have := keywords_iff hv hp
    by_cases h : p.kind = .posOrKw ∨ p.kind = .kwOnly
    · rw [if_pos h, if_pos (by simpa using this.2 h)]
    · rw [if_neg h, if_neg (by simpa using fun h' => h (this.1 h'))]

omit [DecidableEq N] in
theorem countP_front (ps : List (Param N V)) :
    ps.countP (fun p => decide (p.kind = .posOnly ∨ p.kind = .posOrKw)) = (ps.filter Param.pos).length := by
  rw [List.countP_eq_length_filter]
  congr 2
  funext p
  rw [Bool.eq_iff_iff, pos_iff]; simp

theorem bind_iff {ps : List (Param N V)} (hv : Valid ps) (args : List V) {kwargs : Dict N V} (hk : kwargs.keys.Nodup)
    (b : List (N × Held N V)) : bind ps args kwargs = .ok b ↔ Enters ps args kwargs b := by
  have hrest : (args.drop (ps.filter Param.pos).length).isEmpty = true ↔ args.length ≤ (ps.filter Param.pos).length := by
    simp
  -- what a parameter is bound to, given that keywords are passed once
  have hheld : (∀ n v, (n, v) ∈ kwargs → (n ∈ keywords ps ∧ Dict.get? (((ps.filter Param.pos).map (·.name)).zip args : Dict N V) n = none) ∨
        (n ∉ keywords ps ∧ hasVarKw ps = true)) →
      ∀ i p, ps[i]? = some p → ∀ h,
      (heldBy (((ps.filter Param.pos).map (·.name)).zip args ++ kwargs.filter (fun e => (keywords ps).contains e.1))
        (args.drop (ps.filter Param.pos).length) (kwargs.filter (fun e => !(keywords ps).contains e.1)) p = .ok h ↔
          Gets ps args kwargs i p h) := by
    intro honce i p hi h
    have hp : p ∈ ps := List.mem_of_getElem? hi
    have hfr := front_get hv.order hi
    have hloc := loc_get hv args kwargs hi
    have hno : p.kind = .posOrKw → i < args.length → ∀ u, (p.name, u) ∉ kwargs := by
      intro hpk hlt u hu
      have hz := zip_get? _ args (hv.names.sublist (List.filter_sublist.map _)) i p.name
        (by rw [List.getElem?_map, hfr.1 ((pos_iff p).2 (.inr hpk))]; rfl)
      rcases honce _ _ hu with ⟨_, h⟩ | ⟨h, _⟩
      · rw [h] at hz
        have := List.getElem?_eq_none_iff.1 hz.symm
        omega
      · exact h ((keywords_iff hv hp).2 (.inl hpk))
    cases hpk : p.kind with
    | varPos =>
      simp only [heldBy, hpk, Except.ok.injEq]
      rw [hfr.2.2 hpk]
      constructor
      · rintro rfl; exact .rest hpk
      · intro hg; cases hg <;> simp_all
    | varKw =>
      simp only [heldBy, hpk, Except.ok.injEq]
      have hmem : ∀ e, e ∈ kwargs.filter (fun e => !(keywords ps).contains e.1) ↔
          e ∈ kwargs ∧ ∀ q ∈ ps, q.name = e.1 → q.kind ≠ .posOrKw ∧ q.kind ≠ .kwOnly := by
        intro e
        simp only [List.mem_filter, Bool.not_eq_true', List.contains_eq_mem, decide_eq_false_iff_not, mem_keywords, not_exists, not_and, not_or]
      constructor
      · rintro rfl
        exact .others hpk _ List.filter_sublist hmem
      · intro hg
        cases hg with
        | position h _ => simp [hpk] at h
        | keyword h _ => simp [hpk] at h
        | default h _ => simp [hpk] at h
        | rest h => simp [hpk] at h
        | others _ kw hs hm =>
          congr 1
          have h1 : kw.filter (fun e => !(keywords ps).contains e.1) = kw := by
            rw [List.filter_eq_self]
            intro e he
            exact (List.mem_filter.1 ((hmem e).2 ((hm e).1 he))).2
          have hs' : kw.Sublist (kwargs.filter (fun e => !(keywords ps).contains e.1)) := by
            rw [← h1]; exact hs.filter _
          -- both have no duplicates and the same elements
          have hnd : kwargs.Nodup := List.Nodup.of_map _ hk
          symm
          refine hs'.eq_of_length_le ?_
          refine (List.subperm_of_subset (hnd.sublist List.filter_sublist) ?_).length_le
          intro e he
          exact (hm e).2 ((hmem e).1 he)
    | posOnly =>
      simp only [heldBy, hpk, hloc]
      simp only [true_or, if_true, reduceCtorEq, or_self, if_false, Option.or_none]
      cases ha : args[i]? with
      | some v =>
        simp only [Except.ok.injEq]
        have hlt : i < args.length := (List.getElem?_eq_some_iff.1 ha).1
        constructor
        · rintro rfl; exact .position (.inl hpk) ha
        · intro hg
          cases hg with
          | position _ h => rw [ha] at h; cases h; rfl
          | keyword h _ => simp [hpk] at h
          | default h _ => simp [hpk] at h; omega
          | rest h => simp [hpk] at h
          | others h => simp [hpk] at h
      | none =>
        have hge := List.getElem?_eq_none_iff.1 ha
        cases hd : p.default with
        | some v =>
          simp only [Except.ok.injEq]
          constructor
          · rintro rfl; exact .default (.inl ⟨hpk, hge⟩) hd
          · intro hg
            cases hg with
            | position _ h => rw [ha] at h; cases h
            | keyword h _ => simp [hpk] at h
            | default _ h => rw [hd] at h; cases h; rfl
            | rest h => simp [hpk] at h
            | others h => simp [hpk] at h
        | none =>
          simp only [reduceCtorEq, false_iff]
          intro hg
          cases hg with
          | position _ h => rw [ha] at h; cases h
          | keyword h _ => simp [hpk] at h
          | default _ h => rw [hd] at h; cases h
          | rest h => simp [hpk] at h
          | others h => simp [hpk] at h
    | posOrKw =>
      simp only [heldBy, hpk, hloc]
      simp only [true_or, or_true, if_true]
      cases ha : args[i]? with
      | some v =>
        simp only [Option.some_or, Except.ok.injEq]
        have hlt : i < args.length := (List.getElem?_eq_some_iff.1 ha).1
        constructor
        · rintro rfl; exact .position (.inr ⟨hpk, hno hpk hlt⟩) ha
        · intro hg
          cases hg with
          | position _ h => rw [ha] at h; cases h; rfl
          | keyword h _ => simp [hpk] at h; omega
          | default h _ => simp [hpk] at h; omega
          | rest h => simp [hpk] at h
          | others h => simp [hpk] at h
      | none =>
        have hge := List.getElem?_eq_none_iff.1 ha
        simp only [Option.none_or]
        cases hw : kwargs.get? p.name with
        | some v =>
          simp only [Except.ok.injEq]
          have hm := Dict.mem_of_get? _ hw
          constructor
          · rintro rfl; exact .keyword (.inl ⟨hpk, hge⟩) hm
          · intro hg
            cases hg with
            | position _ h => rw [ha] at h; cases h
            | keyword _ h => rw [Dict.get?_of_mem _ hk h] at hw; cases hw; rfl
            | default h _ => simp [hpk] at h; exact absurd hm (h.2 _)
            | rest h => simp [hpk] at h
            | others h => simp [hpk] at h
        | none =>
          have hm := (get?_none_iff _ _).1 hw
          cases hd : p.default with
          | some v =>
            simp only [Except.ok.injEq]
            constructor
            · rintro rfl; exact .default (.inr (.inl ⟨hpk, hge, hm⟩)) hd
            · intro hg
              cases hg with
              | position _ h => rw [ha] at h; cases h
              | keyword _ h => exact absurd h (hm _)
              | default _ h => rw [hd] at h; cases h; rfl
              | rest h => simp [hpk] at h
              | others h => simp [hpk] at h
          | none =>
            simp only [reduceCtorEq, false_iff]
            intro hg
            cases hg with
            | position _ h => rw [ha] at h; cases h
            | keyword _ h => exact absurd h (hm _)
            | default _ h => rw [hd] at h; cases h
            | rest h => simp [hpk] at h
            | others h => simp [hpk] at h
    | kwOnly =>
      simp only [heldBy, hpk, hloc]
      simp only [or_true, reduceCtorEq, or_self, if_true, if_false, Option.none_or]
      cases hw : kwargs.get? p.name with
      | some v =>
        simp only [Except.ok.injEq]
        have hm := Dict.mem_of_get? _ hw
        constructor
        · rintro rfl; exact .keyword (.inr hpk) hm
        · intro hg
          cases hg with
          | position h _ => simp [hpk] at h
          | keyword _ h => rw [Dict.get?_of_mem _ hk h] at hw; cases hw; rfl
          | default h _ => simp [hpk] at h; exact absurd hm (h _)
          | rest h => simp [hpk] at h
          | others h => simp [hpk] at h
      | none =>
        have hm := (get?_none_iff _ _).1 hw
        cases hd : p.default with
        | some v =>
          simp only [Except.ok.injEq]
          constructor
          · rintro rfl; exact .default (.inr (.inr ⟨hpk, hm⟩)) hd
          · intro hg
            cases hg with
            | position h _ => simp [hpk] at h
            | keyword _ h => exact absurd h (hm _)
            | default _ h => rw [hd] at h; cases h; rfl
            | rest h => simp [hpk] at h
            | others h => simp [hpk] at h
        | none =>
          simp only [reduceCtorEq, false_iff]
          intro hg
          cases hg with
          | position h _ => simp [hpk] at h
          | keyword _ h => exact absurd h (hm _)
          | default _ h => rw [hd] at h; cases h
          | rest h => simp [hpk] at h
          | others h => simp [hpk] at h
  simp only [bind]
  rcases passKw_eq (keywords ps) (hasVarKw ps) (((ps.filter Param.pos).map (·.name)).zip args) [] kwargs hk with ⟨h1, h2⟩ | ⟨h1, h2⟩
  · rw [h2]
    simp only [List.nil_append]
    by_cases hf : ((args.drop (ps.filter Param.pos).length).isEmpty || hasVarPos ps) = true
    · rw [if_pos hf, fill_iff]
      rw [Bool.or_eq_true, hrest, hasVarPos_iff] at hf
      constructor
      · rintro ⟨hl, hall⟩
        refine ⟨by rw [countP_front]; exact hf, ?_, hl, ?_⟩
        · intro n v hm
          rcases h1 n v hm with ⟨h, _⟩ | ⟨_, h⟩
          · exact .inl ((mem_keywords _ _).1 h)
          · exact .inr ((hasVarKw_iff _).1 h)
        · intro i p hi
          obtain ⟨h, hb, hh⟩ := hall i p hi
          exact ⟨h, hb, (hheld h1 i p hi h).1 hh⟩
      · intro he
        refine ⟨he.length, fun i p hi => ?_⟩
        obtain ⟨h, hb, hh⟩ := he.gets i p hi
        exact ⟨h, hb, (hheld h1 i p hi h).2 hh⟩
    · rw [if_neg hf]
      simp only [reduceCtorEq, false_iff]
      intro he
      apply hf
      rw [Bool.or_eq_true, hrest, hasVarPos_iff, ← countP_front]
      exact he.few
  · rw [h2]
    simp only [reduceCtorEq, false_iff]
    intro he
    apply h1
    intro n v hm
    by_cases hn : n ∈ keywords ps
    · left
      refine ⟨hn, ?_⟩
      obtain ⟨p, hp, rfl, hpk⟩ := (mem_keywords _ _).1 hn
      obtain ⟨i, hi⟩ := List.mem_iff_getElem?.1 hp
      obtain ⟨h, _, hg⟩ := he.gets i p hi
      have hloc : ∀ hpk : p.kind = .posOrKw, Dict.get? (((ps.filter Param.pos).map (·.name)).zip args : Dict N V) p.name = args[i]? := by
        intro hpk
        exact zip_get? _ args (hv.names.sublist (List.filter_sublist.map _)) i p.name
          (by rw [List.getElem?_map, (front_get hv.order hi).1 ((pos_iff p).2 (.inr hpk))]; rfl)
      rcases hpk with hpk | hpk
      · rw [hloc hpk]
        cases hg with
        | position h _ => simp [hpk] at h; exact absurd hm (h v)
        | keyword h _ => simp [hpk] at h; exact List.getElem?_eq_none_iff.2 h
        | default h _ => simp [hpk] at h; exact absurd hm (h.2 v)
        | rest h => simp [hpk] at h
        | others h => simp [hpk] at h
      · rw [get?_none_iff]
        intro u hu
        have := (List.of_mem_zip hu).1
        obtain ⟨q, hq, hqn⟩ := List.mem_map.1 this
        obtain ⟨hq, hqp⟩ := List.mem_filter.1 hq
        rw [same_param hv.names hq hp hqn] at hqp
        rw [pos_iff, hpk] at hqp
        simp at hqp
    · right
      refine ⟨hn, ?_⟩
      rcases he.known n v hm with h | h
      · exact absurd ((mem_keywords _ _).2 h) hn
      · exact (hasVarKw_iff _).2 h

/-! ### Signatures -/

omit [DecidableEq N] in
theorem Valid.tail {p : Param N V} {ps : List (Param N V)} (hv : Valid (p :: ps)) : Valid ps :=
  ⟨(List.pairwise_cons.1 hv.places).2, (List.nodup_cons.1 hv.names).2, (List.pairwise_cons.1 hv.defaults).2⟩

theorem checkParams_ok {ps : List (Param N V)} (hv : Valid ps) (top : Nat) (seen : Bool) (names : List N)
    (h1 : ∀ p ∈ ps, top ≤ p.kind.rank) (h2 : seen = true → ∀ p ∈ ps, p.pos = true → p.default.isSome = true)
    (h3 : ∀ p ∈ ps, p.name ∉ names) : checkParams top seen names ps = true := by
  induction ps generalizing top seen names with
  | nil => rfl
  | cons p ps ih =>
    obtain ⟨ho, _⟩ := List.pairwise_cons.1 hv.order
    obtain ⟨hd, _⟩ := List.pairwise_cons.1 hv.defaults
    obtain ⟨hn, _⟩ := List.nodup_cons.1 hv.names
    simp only [checkParams]
    rw [ih hv.tail]
    · have a1 := h1 p (by simp)
      have a3 := h3 p (by simp)
      have a2 : p.pos = true → p.default = none → seen = false := by
        intro hp hdn
        cases hs : seen with
        | false => rfl
        | true => have := h2 hs p (by simp) hp; rw [hdn] at this; cases this
      simp only [Bool.and_true, Bool.not_eq_true', Bool.or_eq_false_iff, decide_eq_false_iff_not, Nat.not_lt, List.contains_eq_mem]
      refine ⟨⟨a1, ?_⟩, a3⟩
      cases hp : p.pos with
      | false => rfl
      | true =>
        cases hdn : p.default with
        | none => simp [a2 hp hdn]
        | some _ => rfl
    · intro q hq
      exact Nat.max_le.2 ⟨h1 q (by simp [hq]), (ho q hq).1⟩
    · intro hs q hq hqp
      rw [Bool.or_eq_true, Bool.and_eq_true] at hs
      rcases hs with hs | ⟨_, hs⟩
      · exact h2 hs q (by simp [hq]) hqp
      · exact hd q hq ((pos_iff q).1 hqp) hs
    · intro q hq
      rw [List.mem_cons, not_or]
      refine ⟨?_, h3 q (by simp [hq])⟩
      intro he
      exact hn (List.mem_map.2 ⟨q, hq, he⟩)

/-- **C106**: `inspect.signature` of a module class returns (making the signature raises nothing): the parameters of `__init__` but the first. -/
theorem signature_returns (p : Param N V) (ps : List (Param N V)) (hv : Valid (p :: ps)) : signature (p :: ps) = .ok ps := by
  simp only [signature, List.drop_one, List.tail_cons, mkSignature]
  rw [if_pos (checkParams_ok hv.tail 0 false [] (by simp) (by simp) (by simp))]

/-- Passing one more argument in front. -/
theorem enters_cons {p : Param N V} {ps : List (Param N V)} (hv : Valid (p :: ps)) (hp : p.kind = .posOnly ∨ p.kind = .posOrKw)
    (self : V) (args : List V) (kwargs : Dict N V) (b : List (N × Held N V)) :
    Enters (p :: ps) (self :: args) kwargs b ↔
      (p.kind = .posOrKw → ∀ u, (p.name, u) ∉ kwargs) ∧ ∃ b', b = (p.name, .one self) :: b' ∧ Enters ps args kwargs b' := by
  have hname : ∀ q ∈ ps, q.name ≠ p.name := by
    intro q hq he
    exact (List.nodup_cons.1 hv.names).1 (List.mem_map.2 ⟨q, hq, he⟩)
  have hpk : p.kind ≠ .varPos ∧ p.kind ≠ .varKw ∧ p.kind ≠ .kwOnly := by
    rcases hp with h | h <;> simp [h]
  have hgets : (p.kind = .posOrKw → ∀ u, (p.name, u) ∉ kwargs) → ∀ i q, ∀ h : Held N V,
      Gets (p :: ps) (self :: args) kwargs (i + 1) q h ↔ Gets ps args kwargs i q h := by
    intro hno i q h
    have hoth : ∀ e : N × V, e ∈ kwargs → ((∀ r ∈ p :: ps, r.name = e.1 → r.kind ≠ .posOrKw ∧ r.kind ≠ .kwOnly) ↔
        ∀ r ∈ ps, r.name = e.1 → r.kind ≠ .posOrKw ∧ r.kind ≠ .kwOnly) := by
      intro e he
      constructor
      · intro h r hr; exact h r (List.mem_cons_of_mem _ hr)
      · intro h r hr
        rcases List.mem_cons.1 hr with rfl | hr
        · intro hn
          refine ⟨fun hk => ?_, hpk.2.2⟩
          exact hno hk e.2 (by rw [hn]; exact he)
        · exact h r hr
    constructor
    · intro hg
      cases hg with
      | position a c => exact .position a (by simpa using c)
      | keyword a c => exact .keyword (by simpa using a) c
      | default a c => exact .default (by simpa using a) c
      | rest a => simpa using Gets.rest (ps := ps) (args := args) (kwargs := kwargs) (i := i) a
      | others a kw hs hm =>
        refine .others a kw hs fun e => ?_
        rw [hm e]
        exact and_congr_right (hoth e)
    · intro hg
      cases hg with
      | position a c => exact .position a (by simpa using c)
      | keyword a c => exact .keyword (by simpa using a) c
      | default a c => exact .default (by simpa using a) c
      | rest a => simpa using Gets.rest (ps := p :: ps) (args := self :: args) (kwargs := kwargs) (i := i + 1) a
      | others a kw hs hm =>
        refine .others a kw hs fun e => ?_
        rw [hm e]
        exact and_congr_right fun he => (hoth e he).symm
  have hcount : (p :: ps).countP (fun p => decide (p.kind = .posOnly ∨ p.kind = .posOrKw)) =
      ps.countP (fun p => decide (p.kind = .posOnly ∨ p.kind = .posOrKw)) + 1 := by
    rw [List.countP_cons_of_pos]; simpa using hp
  constructor
  · intro he
    obtain ⟨h0, hb0, hg0⟩ := he.gets 0 p rfl
    have hno : p.kind = .posOrKw → ∀ u, (p.name, u) ∉ kwargs := by
      intro hk
      cases hg0 with
      | position a _ => simpa [hk] using a
      | keyword a _ => simp [hk] at a
      | default a _ => simp [hk] at a
      | rest a => simp [hk] at a
      | others a => simp [hk] at a
    have hh0 : h0 = .one self := by
      cases hg0 with
      | position _ a => simp at a; rw [a]
      | keyword a _ => rcases hp with h | h <;> simp [h] at a
      | default a _ => rcases hp with h | h <;> simp [h] at a
      | rest a => exact absurd a hpk.1
      | others a => exact absurd a hpk.2.1
    refine ⟨hno, ?_⟩
    cases b with
    | nil => simp at hb0
    | cons x b' =>
      simp at hb0
      refine ⟨b', by rw [hb0, hh0], ?_, ?_, by simpa using he.length, ?_⟩
      · rcases he.few with h | ⟨q, hq, hk⟩
        · left; rw [hcount] at h; simpa using h
        · right
          rcases List.mem_cons.1 hq with rfl | hq
          · exact absurd hk hpk.1
          · exact ⟨q, hq, hk⟩
      · intro n v hm
        rcases he.known n v hm with ⟨q, hq, hn, hk⟩ | ⟨q, hq, hk⟩
        · rcases List.mem_cons.1 hq with rfl | hq
          · exfalso
            rcases hk with hk | hk
            · exact hno hk v (by rw [hn]; exact hm)
            · exact hpk.2.2 hk
          · exact .inl ⟨q, hq, hn, hk⟩
        · rcases List.mem_cons.1 hq with rfl | hq
          · exact absurd hk hpk.2.1
          · exact .inr ⟨q, hq, hk⟩
      · intro i q hq
        obtain ⟨h, hb, hg⟩ := he.gets (i + 1) q (by simpa using hq)
        exact ⟨h, by simpa using hb, (hgets hno i q h).1 hg⟩
  · rintro ⟨hno, b', rfl, he⟩
    refine ⟨?_, ?_, by simp [he.length], ?_⟩
    · rcases he.few with h | ⟨q, hq, hk⟩
      · left; rw [hcount]; simpa using h
      · exact .inr ⟨q, List.mem_cons_of_mem _ hq, hk⟩
    · intro n v hm
      rcases he.known n v hm with ⟨q, hq, hn, hk⟩ | ⟨q, hq, hk⟩
      · exact .inl ⟨q, List.mem_cons_of_mem _ hq, hn, hk⟩
      · exact .inr ⟨q, List.mem_cons_of_mem _ hq, hk⟩
    · intro i q hq
      cases i with
      | zero =>
        simp at hq; subst hq
        refine ⟨.one self, rfl, .position ?_ rfl⟩
        rcases hp with h | h
        · exact .inl h
        · exact .inr ⟨h, hno h⟩
      | succ i =>
        obtain ⟨h, hb, hg⟩ := he.gets i q (by simpa using hq)
        exact ⟨h, by simpa using hb, (hgets hno i q h).2 hg⟩

/-- **C106** (partial): let the first parameter of `__init__` be one that can be passed by position (`self`). Then `cls(*args, **kwargs)` enters
the body of `__init__` with `self` bound to the new instance and the other parameters bound as in `b` exactly if the arguments fit
`inspect.signature(cls)` with these parameters bound as in `b`, none of the keywords is `cls`, and none is the name of the first parameter
(unless this is positional-only). Without the last two conditions that is false, see `self_keyword`, `cls_keyword`. -/
theorem call_iff_partial {p : Param N V} {ps : List (Param N V)} (hv : Valid (p :: ps)) (hp : p.kind = .posOnly ∨ p.kind = .posOrKw)
    (clsName : N) (self : V) (args : List V) {kwargs : Dict N V} (hk : kwargs.keys.Nodup) (b : List (N × Held N V)) :
    enter clsName (p :: ps) self args kwargs = .ok ((p.name, .one self) :: b) ↔
      (∃ sig, signature (p :: ps) = .ok sig ∧ Enters sig args kwargs b) ∧ (∀ u, (clsName, u) ∉ kwargs) ∧
        (p.kind = .posOrKw → ∀ u, (p.name, u) ∉ kwargs) := by
  have hc : kwargs.keys.contains clsName = true ↔ ∃ u, (clsName, u) ∈ kwargs := by
    simp [Dict.keys]
  rw [signature_returns p ps hv]
  simp only [Except.ok.injEq, exists_eq_left', enter]
  by_cases h : kwargs.keys.contains clsName = true
  · rw [if_pos h]
    rw [hc] at h
    obtain ⟨u, hu⟩ := h
    simp only [reduceCtorEq, false_iff]
    rintro ⟨_, h, _⟩
    exact h u hu
  · rw [if_neg h, bind_iff hv _ hk, enters_cons hv hp]
    rw [hc] at h
    constructor
    · rintro ⟨h1, b', h2, h3⟩
      cases h2
      exact ⟨h3, fun u hu => h ⟨u, hu⟩, h1⟩
    · rintro ⟨h1, _, h3⟩
      exact ⟨h3, b, rfl, h1⟩

/-- **C106**: and there is no other way into the body: whatever enters has `self` bound to the new instance; everything else is a `TypeError`. -/
theorem call_self {p : Param N V} {ps : List (Param N V)} (hv : Valid (p :: ps)) (hp : p.kind = .posOnly ∨ p.kind = .posOrKw)
    (clsName : N) (self : V) (args : List V) {kwargs : Dict N V} (hk : kwargs.keys.Nodup) :
    (∃ b, enter clsName (p :: ps) self args kwargs = .ok ((p.name, .one self) :: b)) ∨
      enter clsName (p :: ps) self args kwargs = .error .typeError := by
  have hfill : ∀ (loc : Dict N V) (rest : List V) (extra : Dict N V) (ps : List (Param N V)) (e : Err),
      fill loc rest extra ps = .error e → e = .typeError := by
    intro loc rest extra ps
    induction ps with
    | nil => intro e h; cases h
    | cons q ps ih =>
      intro e h
      simp only [fill, Bind.bind, Except.bind] at h
      cases hq : heldBy loc rest extra q with
      | error e' =>
        rw [hq] at h
        simp only [Except.error.injEq] at h
        subst h
        unfold heldBy at hq
        split at hq
        · cases hq
        · cases hq
        · split at hq
          · cases hq
          · split at hq
            · cases hq
            · cases hq; rfl
      | ok x =>
        rw [hq] at h
        simp only at h
        cases hf : fill loc rest extra ps with
        | error e' => rw [hf] at h; simp only [Except.error.injEq] at h; subst h; exact ih _ hf
        | ok b => rw [hf] at h; cases h
  simp only [enter]
  split
  · right; rfl
  · cases h : bind (p :: ps) (self :: args) kwargs with
    | ok b =>
      left
      obtain ⟨_, b', h2, _⟩ := (enters_cons hv hp self args kwargs b).1 ((bind_iff hv _ hk b).1 h)
      exact ⟨b', by rw [h2]⟩
    | error e =>
      right
      simp only [bind] at h
      split at h
      · rename_i e' h'
        rcases passKw_eq (keywords (p :: ps)) (hasVarKw (p :: ps)) ((((p :: ps).filter Param.pos).map (·.name)).zip (self :: args)) [] kwargs hk with
          ⟨_, h2⟩ | ⟨_, h2⟩
        · rw [h2] at h'; cases h'
        · rw [h2] at h'; cases h'; rw [← h]
      · split at h
        · rw [hfill _ _ _ _ _ h]
        · rw [← h]

/-! ### Where signature and calls differ -/

/-- **C106**: if `__init__` has no first parameter that takes the instance (none at all, or a keyword-only one, or `**kwargs`), then no call is
possible, whatever the signature says. -/
theorem no_self (init : List (Param N V)) (hv : Valid init) (h : ∀ p, init[0]? = some p → p.kind = .kwOnly ∨ p.kind = .varKw)
    (clsName : N) (self : V) (args : List V) {kwargs : Dict N V} (hk : kwargs.keys.Nodup) (b : List (N × Held N V)) :
    enter clsName init self args kwargs ≠ .ok b := by
  intro he
  simp only [enter] at he
  split at he
  · cases he
  · rw [bind_iff hv _ hk] at he
    have hall : ∀ q ∈ init, q.kind = .kwOnly ∨ q.kind = .varKw := by
      cases init with
      | nil => simp
      | cons p ps =>
        have hp := h p rfl
        intro q hq
        rcases List.mem_cons.1 hq with rfl | hq
        · exact hp
        · have := ((List.pairwise_cons.1 hv.order).1 q hq).1
          revert this
          rcases hp with hp | hp <;> rw [hp] <;> cases q.kind <;> simp [Kind.rank]
    rcases he.few with h | ⟨q, hq, hk⟩
    · have h0 : init.countP (fun p => decide (p.kind = .posOnly ∨ p.kind = .posOrKw)) = 0 := by
        rw [List.countP_eq_zero]
        intro q hq
        rcases hall q hq with h | h <;> simp [h]
      rw [h0] at h
      simp at h
    · rcases hall q hq with h | h <;> rw [h] at hk <;> cases hk

/-- **C106**: if the first parameter of `__init__` is `*args`, then this is what is left out of the signature: calls with any positional
arguments are possible if the keywords fit, but the signature refuses all of them. -/
theorem first_star {p : Param N V} {ps : List (Param N V)} (hv : Valid (p :: ps)) (hp : p.kind = .varPos) (clsName : N) (self : V)
    (args : List V) {kwargs : Dict N V} (hk : kwargs.keys.Nodup) :
    ((∃ b, enter clsName (p :: ps) self args kwargs = .ok b) ↔ (∀ u, (clsName, u) ∉ kwargs) ∧ ∃ b, Enters ps [] kwargs b) ∧
    (args ≠ [] → ∀ b, ¬ Enters ps args kwargs b) := by
  have hc : kwargs.keys.contains clsName = true ↔ ∃ u, (clsName, u) ∈ kwargs := by
    simp [Dict.keys]
  have hlate : ∀ q ∈ ps, q.kind = .kwOnly ∨ q.kind = .varKw := by
    intro q hq
    have := (List.pairwise_cons.1 hv.order).1 q hq
    rw [hp] at this
    revert this
    cases q.kind <;> simp [Kind.rank]
  have hnot : ∀ q ∈ ps, q.kind ≠ .varPos ∧ q.kind ≠ .posOnly ∧ q.kind ≠ .posOrKw := by
    intro q hq
    rcases hlate q hq with h | h <;> rw [h] <;> simp
  have hgets : ∀ (i : Nat) (q : Param N V), q ∈ ps → ∀ h : Held N V,
      Gets (p :: ps) (self :: args) kwargs (i + 1) q h ↔ Gets ps [] kwargs i q h := by
    intro i q hq h
    have hoth : ∀ e : N × V, ((∀ r ∈ p :: ps, r.name = e.1 → r.kind ≠ .posOrKw ∧ r.kind ≠ .kwOnly) ↔
        ∀ r ∈ ps, r.name = e.1 → r.kind ≠ .posOrKw ∧ r.kind ≠ .kwOnly) := by
      intro e
      constructor
      · intro h r hr; exact h r (List.mem_cons_of_mem _ hr)
      · intro h r hr
        rcases List.mem_cons.1 hr with rfl | hr
        · intro _; simp [hp]
        · exact h r hr
    obtain ⟨n1, n2, n3⟩ := hnot q hq
    constructor
    · intro hg
      cases hg with
      | position a c => simp [n2, n3] at a
      | keyword a c => exact .keyword (by simpa [n3] using a) c
      | default a c => exact .default (by simpa [n2, n3] using a) c
      | rest a => exact absurd a n1
      | others a kw hs hm =>
        refine .others a kw hs fun e => ?_
        rw [hm e, hoth e]
    · intro hg
      cases hg with
      | position a c => simp [n2, n3] at a
      | keyword a c => exact .keyword (by simpa [n3] using a) c
      | default a c => exact .default (by simpa [n2, n3] using a) c
      | rest a => exact absurd a n1
      | others a kw hs hm =>
        refine .others a kw hs fun e => ?_
        rw [hm e, hoth e]
  constructor
  · simp only [enter]
    by_cases h : kwargs.keys.contains clsName = true
    · rw [if_pos h]
      rw [hc] at h
      obtain ⟨u, hu⟩ := h
      constructor
      · rintro ⟨_, h⟩; cases h
      · rintro ⟨h, _⟩; exact absurd hu (h u)
    · rw [if_neg h]
      rw [hc] at h
      constructor
      · rintro ⟨b, hb⟩
        rw [bind_iff hv _ hk] at hb
        refine ⟨fun u hu => h ⟨u, hu⟩, b.tail, .inl (by simp), ?_, by simp [hb.length], ?_⟩
        · intro n v hm
          rcases hb.known n v hm with ⟨q, hq, hn, hk⟩ | ⟨q, hq, hk⟩
          · rcases List.mem_cons.1 hq with rfl | hq
            · rw [hp] at hk; simp at hk
            · exact .inl ⟨q, hq, hn, hk⟩
          · rcases List.mem_cons.1 hq with rfl | hq
            · rw [hp] at hk; simp at hk
            · exact .inr ⟨q, hq, hk⟩
        · intro i q hq
          obtain ⟨h, hb, hg⟩ := hb.gets (i + 1) q (by simpa using hq)
          exact ⟨h, by simpa using hb, (hgets i q (List.mem_of_getElem? hq) h).1 hg⟩
      · rintro ⟨_, b, hb⟩
        refine ⟨(p.name, .tuple (self :: args)) :: b, (bind_iff hv _ hk _).2 ⟨.inr ⟨p, by simp, hp⟩, ?_, by simp [hb.length], ?_⟩⟩
        · intro n v hm
          rcases hb.known n v hm with ⟨q, hq, hn, hk⟩ | ⟨q, hq, hk⟩
          · exact .inl ⟨q, List.mem_cons_of_mem _ hq, hn, hk⟩
          · exact .inr ⟨q, List.mem_cons_of_mem _ hq, hk⟩
        · intro i q hq
          cases i with
          | zero =>
            simp at hq; subst hq
            exact ⟨_, rfl, .rest hp⟩
          | succ i =>
            have hq' : ps[i]? = some q := by simpa using hq
            obtain ⟨h, hb, hg⟩ := hb.gets i q hq'
            exact ⟨h, by simpa using hb, (hgets i q (List.mem_of_getElem? hq') h).2 hg⟩
  · intro hne b he
    rcases he.few with h | ⟨q, hq, hk⟩
    · have h0 : ps.countP (fun p => decide (p.kind = .posOnly ∨ p.kind = .posOrKw)) = 0 := by
        rw [List.countP_eq_zero]
        intro q hq
        rcases hlate q hq with h | h <;> simp [h]
      rw [h0] at h
      exact hne (List.length_eq_zero_iff.1 (by omega))
    · exact (hnot q hq).1 hk

/-! ### The generated `__init__` -/

open Generated in
/-- **C106**: a module with generated `__init__`: its signature lists the fields with `init=True` that can be passed by position, in order, then
the keyword-only ones, each with a default if the field has one; and it fits exactly the arguments that the generated `__init__` takes
(`Generated.Fits`, which by `call_returns_iff` and `call_raises` of C101 decides whether `cls(...)` raises `TypeError`). `selfName`: `self`, or
something else if that is a field. -/
theorem generated_signature (u : V → Bool) {ds : List (Decl N V)} (hd : define u ds = .ok ds) (hn : (ds.map (·.name)).Nodup)
    (selfName : N) (hs : selfName ∉ ds.map (·.name)) (placeholder : V) :
    ∃ sig, signature (generatedParams selfName placeholder ds) = .ok sig ∧
      sig.map (fun p => (p.name, p.kind, p.default.isSome)) =
        ((ds.filter fun d => d.init && !d.kwOnly).map fun d => (d.name, Kind.posOrKw, d.default.has)) ++
        ((ds.filter fun d => d.init && d.kwOnly).map fun d => (d.name, Kind.kwOnly, d.default.has)) ∧
      ∀ (args : List V) (kwargs : Dict N V), (∃ b, Enters sig args kwargs b) ↔ Fits ds args kwargs := by
  have hdef : ∀ d : Default V, (dflt placeholder d).isSome = d.has := by intro d; cases d <;> rfl
  have hpk : ∀ d ∈ positional ds, (fieldParam placeholder d).kind = .posOrKw := by
    intro d hd
    simp only [positional, List.mem_filter, Bool.and_eq_true, Bool.not_eq_true'] at hd
    simp [fieldParam, hd.2.2]
  have hkk : ∀ d ∈ keywordOnly ds, (fieldParam placeholder d).kind = .kwOnly := by
    intro d hd
    simp only [keywordOnly, List.mem_filter, Bool.and_eq_true] at hd
    simp [fieldParam, hd.2.2]
  have hnames : ((positional ds ++ keywordOnly ds).map (·.name)).Nodup := by
    rw [List.map_append]
    refine List.nodup_append.2 ⟨hn.sublist (List.filter_sublist.map _), hn.sublist (List.filter_sublist.map _), ?_⟩
    rintro _ ha _ hb rfl
    obtain ⟨d, hd, rfl⟩ := List.mem_map.1 ha
    obtain ⟨e, he, hne⟩ := List.mem_map.1 hb
    simp only [positional, keywordOnly, List.mem_filter, Bool.and_eq_true, Bool.not_eq_true'] at hd he
    have := decl_unique hn hd.1 he.1 hne.symm
    subst this
    rw [hd.2.2] at he
    exact absurd he.2.2 (by simp)
  have hord : orderOk false (positional ds) = true := by
    simp only [define] at hd
    split at hd
    · split at hd
      · assumption
      · cases hd
    · cases hd
  have hv : Valid (generatedParams selfName placeholder ds) := by
    refine ⟨?_, ?_, ?_⟩
    · refine List.pairwise_cons.2 ⟨?_, ?_⟩
      · intro q hq
        obtain ⟨d, hd, rfl⟩ := List.mem_map.1 hq
        rcases List.mem_append.1 hd with h | h
        · rw [hpk d h]; simp
        · rw [hkk d h]; simp [place]
      · rw [List.pairwise_map, List.pairwise_append]
        refine ⟨List.pairwise_of_forall_mem_list ?_, List.pairwise_of_forall_mem_list ?_, ?_⟩
        · intro d hd e he; rw [hpk d hd, hpk e he]; simp
        · intro d hd e he; rw [hkk d hd, hkk e he]; simp
        · intro d hd e he; rw [hpk d hd, hkk e he]; simp [place]
    · simp only [generatedParams, List.map_cons, List.map_map]
      refine List.nodup_cons.2 ⟨?_, hnames⟩
      intro h
      obtain ⟨d, hd, hdn⟩ := List.mem_map.1 h
      exact hs (List.mem_map.2 ⟨d, ((mem_params _ _).1 hd).1, hdn⟩)
    · refine List.pairwise_cons.2 ⟨?_, ?_⟩
      · intro q _ _ h; cases h
      · rw [List.pairwise_map, List.pairwise_append]
        refine ⟨?_, List.pairwise_of_forall_mem_list ?_, ?_⟩
        · have key : ∀ (seen : Bool) (l : List (Decl N V)), orderOk seen l = true →
              (seen = true → ∀ e ∈ l, e.default.has = true) ∧ l.Pairwise fun d e => d.default.has = true → e.default.has = true := by
            intro seen l
            induction l generalizing seen with
            | nil => simp
            | cons d l ih =>
              intro h
              simp only [orderOk] at h
              split at h
              · rename_i hdh
                obtain ⟨i1, i2⟩ := ih _ h
                refine ⟨fun _ e he => ?_, List.pairwise_cons.2 ⟨fun e he _ => i1 rfl e he, i2⟩⟩
                rcases List.mem_cons.1 he with rfl | he
                · exact hdh
                · exact i1 rfl e he
              · rename_i hdh
                rw [Bool.and_eq_true, Bool.not_eq_true'] at h
                obtain ⟨i1, i2⟩ := ih _ h.2
                refine ⟨fun hs => (by rw [h.1] at hs; cases hs), List.pairwise_cons.2 ⟨fun e he hh => absurd hh hdh, i2⟩⟩
          refine (key false _ hord).2.imp ?_
          intro d e h _
          simpa [fieldParam, hdef] using h
        · intro d hd e he h
          rw [hkk e he] at h; simp at h
        · intro d hd e he h
          rw [hkk e he] at h; simp at h
  refine ⟨_, signature_returns _ _ hv, ?_, ?_⟩
  · rw [List.map_map, List.map_append]
    congr 1
    · refine List.map_congr_left fun d hd => ?_
      simp only [Function.comp_apply, hpk d hd]
      simp [fieldParam, hdef]
    · refine List.map_congr_left fun d hd => ?_
      simp only [Function.comp_apply, hkk d hd]
      simp [fieldParam, hdef]
  · intro args kwargs
    have hlen : ((positional ds ++ keywordOnly ds).map (fieldParam placeholder)).countP
        (fun p => decide (p.kind = .posOnly ∨ p.kind = .posOrKw)) = ds.countP Positional := by
      rw [List.map_append, List.countP_append]
      have h1 : ((positional ds).map (fieldParam placeholder)).countP (fun p => decide (p.kind = .posOnly ∨ p.kind = .posOrKw)) =
          ((positional ds).map (fieldParam placeholder)).length := by
        rw [List.countP_eq_length]
        intro q hq
        obtain ⟨d, hd, rfl⟩ := List.mem_map.1 hq
        simp [hpk d hd]
      have h2 : ((keywordOnly ds).map (fieldParam placeholder)).countP (fun p => decide (p.kind = .posOnly ∨ p.kind = .posOrKw)) = 0 := by
        rw [List.countP_eq_zero]
        intro q hq
        obtain ⟨d, hd, rfl⟩ := List.mem_map.1 hq
        simp [hkk d hd]
      rw [h1, h2, List.length_map, List.countP_eq_length_filter]
      rfl
    have hno : ∀ q ∈ (positional ds ++ keywordOnly ds).map (fieldParam placeholder), q.kind = .posOrKw ∨ q.kind = .kwOnly := by
      intro q hq
      obtain ⟨d, hd, rfl⟩ := List.mem_map.1 hq
      rcases List.mem_append.1 hd with h | h
      · exact .inl (hpk d h)
      · exact .inr (hkk d h)
    -- a positional field and its place in the signature
    have hat : ∀ (i : Nat) (d : Decl N V), (positional ds)[i]? = some d →
        ((positional ds ++ keywordOnly ds).map (fieldParam placeholder))[i]? = some (fieldParam placeholder d) := by
      intro i d hi
      rw [List.getElem?_map, List.getElem?_append_left (List.getElem?_eq_some_iff.1 hi).1, hi]
      rfl
    constructor
    · rintro ⟨b, he⟩
      refine ⟨?_, ?_, ?_, ?_⟩
      · rcases he.few with h | ⟨q, hq, hk⟩
        · rwa [hlen] at h
        · rcases hno q hq with h | h <;> rw [h] at hk <;> cases hk
      · intro n v hm
        rcases he.known n v hm with ⟨q, hq, hqn, _⟩ | ⟨q, hq, hk⟩
        · obtain ⟨d, hd, rfl⟩ := List.mem_map.1 hq
          exact ⟨d, ((mem_params _ _).1 hd).1, hqn, ((mem_params _ _).1 hd).2⟩
        · rcases hno q hq with h | h <;> rw [h] at hk <;> cases hk
      · intro n v w hb
        rw [byPosition_iff, mem_zipped] at hb
        obtain ⟨i, d, hi, rfl, hv⟩ := hb
        have hlt := (List.getElem?_eq_some_iff.1 hv).1
        have hk := hpk d (List.mem_of_getElem? hi)
        obtain ⟨h, _, hg⟩ := he.gets i _ (hat i d hi)
        cases hg with
        | position a _ => simp [hk] at a; exact a w
        | keyword a _ => simp [hk] at a; omega
        | default a _ => simp [hk] at a; omega
        | rest a => simp [hk] at a
        | others a => simp [hk] at a
      · intro d hd hinit hmiss
        have hmem : d ∈ positional ds ++ keywordOnly ds := (mem_params _ _).2 ⟨hd, hinit⟩
        obtain ⟨i, hi⟩ := List.mem_iff_getElem?.1 hmem
        have hi' : ((positional ds ++ keywordOnly ds).map (fieldParam placeholder))[i]? = some (fieldParam placeholder d) := by
          rw [List.getElem?_map, hi]; rfl
        obtain ⟨h, _, hg⟩ := he.gets i _ hi'
        have hnd : (fieldParam placeholder d).default = none := by simp [fieldParam, hmiss, dflt]
        cases hg with
        | @position v a c =>
          refine ⟨v, .inl ?_⟩
          rw [byPosition_iff, mem_zipped]
          refine ⟨i, d, ?_, rfl, c⟩
          rcases List.mem_append.1 hmem with hp | hp
          · by_cases hlt : i < (positional ds).length
            · rwa [List.getElem?_append_left hlt] at hi
            · exfalso
              rw [List.getElem?_append_right (by omega)] at hi
              have := hkk d (List.mem_of_getElem? hi)
              rw [hpk d hp] at this; cases this
          · simp [hkk d hp] at a
        | @keyword v a c => exact ⟨v, .inr c⟩
        | default _ a => rw [hnd] at a; cases a
        | rest a => rcases hno _ (List.mem_of_getElem? hi') with h | h <;> rw [h] at a <;> cases a
        | others a => rcases hno _ (List.mem_of_getElem? hi') with h | h <;> rw [h] at a <;> cases a
    · intro hf
      have hex : ∀ (i : Nat) (p : Param N V), ((positional ds ++ keywordOnly ds).map (fieldParam placeholder))[i]? = some p →
          ∃ h, Gets ((positional ds ++ keywordOnly ds).map (fieldParam placeholder)) args kwargs i p h := by
        intro i p hi
        rw [List.getElem?_map] at hi
        cases hid : (positional ds ++ keywordOnly ds)[i]? with
        | none => rw [hid] at hi; cases hi
        | some d =>
          rw [hid] at hi
          simp only [Option.map_some, Option.some.injEq] at hi
          subst hi
          have hmem := List.mem_of_getElem? hid
          have hd := (mem_params _ _).1 hmem
          have hdflt : (∀ v, ¬ Passed ds args kwargs d.name v) → ∃ v, (fieldParam placeholder d).default = some v := by
            intro hno
            have : d.default.has = true := by
              cases hdd : d.default with
              | missing => obtain ⟨v, hv⟩ := hf.enough d hd.1 hd.2 hdd; exact absurd hv (hno v)
              | value _ => rfl
              | factory _ => rfl
            rw [← hdef] at this
            exact Option.isSome_iff_exists.1 this
          by_cases hlt : i < (positional ds).length
          · rw [List.getElem?_append_left hlt] at hid
            have hk := hpk d (List.mem_of_getElem? hid)
            cases ha : args[i]? with
            | some v =>
              refine ⟨.one v, .position (.inr ⟨hk, fun w => ?_⟩) ha⟩
              exact hf.once d.name v w ((byPosition_iff _ _ _ _).2 ((mem_zipped _ _ _ _).2 ⟨i, d, hid, rfl, ha⟩))
            | none =>
              have hge := List.getElem?_eq_none_iff.1 ha
              by_cases hw : ∃ v, (d.name, v) ∈ kwargs
              · obtain ⟨v, hv⟩ := hw
                exact ⟨.one v, .keyword (.inl ⟨hk, hge⟩) hv⟩
              · have hw' : ∀ v, (d.name, v) ∉ kwargs := fun v hv => hw ⟨v, hv⟩
                obtain ⟨v, hv⟩ := hdflt (by
                  rintro v (hb | hb)
                  · rw [byPosition_iff, mem_zipped] at hb
                    obtain ⟨j, e, hj, hen, hjv⟩ := hb
                    have hpn : ((positional ds).map (·.name)).Nodup := hn.sublist (List.filter_sublist.map _)
                    have hjlt := (List.getElem?_eq_some_iff.1 hj).1
                    have : j = i := by
                      refine (List.Nodup.getElem_inj_iff hpn (i := j) (j := i) (hi := by simpa using hjlt) (hj := by simpa using hlt)).1 ?_
                      simp only [List.getElem_map]
                      rw [(List.getElem?_eq_some_iff.1 hj).2, (List.getElem?_eq_some_iff.1 hid).2, hen]
                    subst this
                    rw [ha] at hjv; cases hjv
                  · exact hw' v hb)
                exact ⟨.one v, .default (.inr (.inl ⟨hk, hge, hw'⟩)) hv⟩
          · rw [List.getElem?_append_right (by omega)] at hid
            have hk := hkk d (List.mem_of_getElem? hid)
            by_cases hw : ∃ v, (d.name, v) ∈ kwargs
            · obtain ⟨v, hv⟩ := hw
              exact ⟨.one v, .keyword (.inr hk) hv⟩
            · have hw' : ∀ v, (d.name, v) ∉ kwargs := fun v hv => hw ⟨v, hv⟩
              obtain ⟨v, hv⟩ := hdflt (by
                rintro v (hb | hb)
                · rw [byPosition_iff, mem_zipped] at hb
                  obtain ⟨j, e, hj, hen, _⟩ := hb
                  have hem := List.mem_of_getElem? hj
                  have := decl_unique hn ((mem_params ds e).1 (List.mem_append_left _ hem)).1 hd.1 hen
                  subst this
                  have := hpk e hem
                  rw [hk] at this; cases this
                · exact hw' v hb)
              exact ⟨.one v, .default (.inr (.inr ⟨hk, hw'⟩)) hv⟩
      have hb : ∃ b : List (N × Held N V), b.length = ((positional ds ++ keywordOnly ds).map (fieldParam placeholder)).length ∧
          ∀ (i : Nat) (p : Param N V), ((positional ds ++ keywordOnly ds).map (fieldParam placeholder))[i]? = some p →
            ∃ h, b[i]? = some (p.name, h) ∧ Gets ((positional ds ++ keywordOnly ds).map (fieldParam placeholder)) args kwargs i p h := by
        generalize (positional ds ++ keywordOnly ds).map (fieldParam placeholder) = sig at hex
        have key : ∀ (l : List (Param N V)) (k : Nat), (∀ i p, l[i]? = some p → ∃ h, Gets sig args kwargs (k + i) p h) →
            ∃ b : List (N × Held N V), b.length = l.length ∧
              ∀ (i : Nat) (p : Param N V), l[i]? = some p → ∃ h, b[i]? = some (p.name, h) ∧ Gets sig args kwargs (k + i) p h := by
          intro l
          induction l with
          | nil => intro k _; exact ⟨[], rfl, by simp⟩
          | cons p l ih =>
            intro k hl
            obtain ⟨h, hg⟩ := hl 0 p rfl
            obtain ⟨b, hb, hall⟩ := ih (k + 1) (fun i q hq => by
              have := hl (i + 1) q (by simpa using hq)
              rwa [show k + (i + 1) = k + 1 + i by omega] at this)
            refine ⟨(p.name, h) :: b, by simp [hb], ?_⟩
            intro i q hq
            cases i with
            | zero => simp at hq; subst hq; exact ⟨h, rfl, hg⟩
            | succ i =>
              obtain ⟨h', hb', hg'⟩ := hall i q (by simpa using hq)
              refine ⟨h', by simpa using hb', ?_⟩
              rwa [show k + (i + 1) = k + 1 + i by omega]
        obtain ⟨b, h1, h2⟩ := key sig 0 (by simpa using hex)
        exact ⟨b, h1, by simpa using h2⟩
      obtain ⟨b, hbl, hall⟩ := hb
      refine ⟨b, ?_, ?_, hbl, hall⟩
      · left; rw [hlen]; exact hf.few
      · intro n v hm
        obtain ⟨d, hd, hdn, hinit⟩ := hf.known n v hm
        left
        have hmem := (mem_params ds d).2 ⟨hd, hinit⟩
        exact ⟨_, List.mem_map.2 ⟨d, hmem, rfl⟩, hdn, hno _ (List.mem_map.2 ⟨d, hmem, rfl⟩)⟩

/-! ### Concrete cases -/

/-- `def __init__(self, x, /, y=7, *rest, z, **more)`. -/
def exInit : List (Param String Nat) :=
  [⟨"self", .posOnly, none⟩, ⟨"x", .posOnly, none⟩, ⟨"y", .posOrKw, some 7⟩, ⟨"rest", .varPos, none⟩, ⟨"z", .kwOnly, none⟩,
    ⟨"more", .varKw, none⟩]

theorem exInit_valid : Valid exInit := by
  refine ⟨?_, by decide, ?_⟩ <;> simp [exInit, place]

/-- `cls(1, z=3, x=4)`: the keyword `x` is not the positional-only parameter. -/
example : bind exInit [0, 1] [("z", 3), ("x", 4)] =
    .ok [("self", .one 0), ("x", .one 1), ("y", .one 7), ("rest", .tuple []), ("z", .one 3), ("more", .dict [("x", 4)])] := rfl

example : enter "cls" exInit 0 [1, 2, 5, 6] [("z", 3)] =
    .ok [("self", .one 0), ("x", .one 1), ("y", .one 2), ("rest", .tuple [5, 6]), ("z", .one 3), ("more", .dict [])] := rfl

/-- The class of C101: the signature is `(x1, x2=5, x5=9, *, x4)`, without the field that is no parameter. -/
example : (signature (generatedParams 0 77 Generated.exCls.decls)).toOption.map (fun sig => sig.map fun p => (p.name, p.kind, p.default)) =
    some [(1, .posOrKw, none), (2, .posOrKw, some 5), (5, .posOrKw, some 77), (4, .kwOnly, none)] := rfl

example : Generated.define (fun _ => false) Generated.exCls.decls = .ok Generated.exCls.decls ∧ (Generated.exCls.decls.map (·.name)).Nodup ∧
    0 ∉ Generated.exCls.decls.map (·.name) := ⟨rfl, by decide, by decide⟩

/-- **C106**: `def __init__(self, **kwargs)`: the keyword `self` fits the signature, but the call raises `TypeError`. -/
theorem self_keyword : ∃ (init sig : List (Param String Nat)) (kwargs : Dict String Nat) (b : List (String × Held String Nat)),
    Valid init ∧ signature init = .ok sig ∧ Enters sig [] kwargs b ∧ "cls" ∉ kwargs.keys ∧
      enter "cls" init 0 [] kwargs = .error .typeError := by
  refine ⟨[⟨"self", .posOrKw, none⟩, ⟨"kwargs", .varKw, none⟩], [⟨"kwargs", .varKw, none⟩], [("self", 1)], [("kwargs", .dict [("self", 1)])],
    ?_, rfl, ?_, by decide, rfl⟩
  · refine ⟨?_, by decide, ?_⟩ <;> simp [place]
  · refine (bind_iff ⟨?_, by decide, ?_⟩ _ (by decide) _).1 rfl <;> simp

/-- **C106**: `def __init__(self, cls)`: the keyword `cls` fits the signature, but the call raises `TypeError`. -/
theorem cls_keyword : ∃ (init sig : List (Param String Nat)) (kwargs : Dict String Nat) (b : List (String × Held String Nat)),
    Valid init ∧ signature init = .ok sig ∧ Enters sig [] kwargs b ∧ enter "cls" init 0 [] kwargs = .error .typeError := by
  refine ⟨[⟨"self", .posOrKw, none⟩, ⟨"cls", .posOrKw, none⟩], [⟨"cls", .posOrKw, none⟩], [("cls", 1)], [("cls", .one 1)],
    ?_, rfl, ?_, rfl⟩
  · refine ⟨?_, by decide, ?_⟩ <;> simp
  · refine (bind_iff ⟨?_, by decide, ?_⟩ _ (by decide) _).1 rfl <;> simp

/-- **C106**: `def __init__(*args)`: `cls(1)` enters the body, but the signature `()` refuses the argument. -/
theorem star_refused : ∃ (init sig : List (Param String Nat)) (b : List (String × Held String Nat)),
    Valid init ∧ signature init = .ok sig ∧ enter "cls" init 0 [1] [] = .ok b ∧ ∀ b', ¬ Enters sig [1] [] b' := by
  have hv : Valid [(⟨"args", .varPos, none⟩ : Param String Nat)] := by refine ⟨?_, by decide, ?_⟩ <;> simp
  exact ⟨[⟨"args", .varPos, none⟩], [], [("args", .tuple [0, 1])], hv, rfl, rfl,
    (first_star hv rfl "cls" 0 [1] (kwargs := []) (by simp [Dict.keys])).2 (by simp)⟩

end Verif.Module.Signature
