import Verif.Module.Forward
import Mathlib.Data.List.TakeWhile
import Mathlib.Data.List.Nodup
import Mathlib.Logic.Basic
import Mathlib.Tactic.ByContra

/-! # C108: wrapped functions take the arguments of the function -/

namespace Verif.Module.Forward

open Verif.Module.Signature

section
variable {N V : Type} [DecidableEq N]

/-! ### Calls raise only `TypeError` -/

theorem fill_error (loc : Dict N V) (rest : List V) (extra : Dict N V) (ps : List (Param N V)) (e : Err)
    (h : fill loc rest extra ps = .error e) : e = .typeError := by
  induction ps with
  | nil => cases h
  | cons p ps ih =>
    simp only [fill, Bind.bind, Except.bind] at h
    have hp : ∀ e, heldBy loc rest extra p = .error e → e = .typeError := by
      intro e he
      unfold heldBy at he
      repeat' split at he
      all_goals first | cases he; done | (cases he; rfl)
    cases h1 : heldBy loc rest extra p with
    | error e' => rw [h1] at h; cases h; exact hp e h1
    | ok x =>
      rw [h1] at h
      simp only at h
      cases h2 : fill loc rest extra ps with
      | error e' => rw [h2] at h; cases h; exact ih h2
      | ok b => rw [h2] at h; cases h

theorem bind_error (ps : List (Param N V)) (args : List V) {kwargs : Dict N V} (hk : kwargs.keys.Nodup) (e : Err)
    (h : bind ps args kwargs = .error e) : e = .typeError := by
  simp only [Signature.bind] at h
  rcases passKw_eq (keywords ps) (hasVarKw ps) (((ps.filter Param.pos).map (·.name)).zip args) [] kwargs hk with ⟨_, h2⟩ | ⟨_, h2⟩
  · rw [h2] at h
    simp only at h
    split at h
    · exact fill_error _ _ _ _ _ h
    · cases h; rfl
  · rw [h2] at h; cases h; rfl

/-! ### `Signature.bind` -/

/-- What is recorded for a parameter. -/
def item (loc : Dict N V) (rest : List V) (extra : Dict N V) (p : Param N V) : Option (Held N V) :=
  match p.kind with
  | .varPos => if rest.isEmpty then none else some (.tuple rest)
  | .varKw => if extra.isEmpty then none else some (.dict extra)
  | _ => (loc.get? p.name).map .one

theorem given_held (loc : Dict N V) (rest : List V) (extra : Dict N V) (p : Param N V) :
    (∀ h, heldBy loc rest extra p = .ok h → given loc rest extra p = .ok (item loc rest extra p)) ∧
    (∀ e, heldBy loc rest extra p = .error e → given loc rest extra p = .error e) := by
  unfold heldBy given item
  cases p.kind <;> simp only [Except.ok.injEq, reduceCtorEq, false_implies, implies_true, and_self] <;>
    (cases loc.get? p.name <;> cases p.default <;> simp)

theorem collect_fill (loc : Dict N V) (rest : List V) (extra : Dict N V) (ps : List (Param N V)) :
    (∀ b, fill loc rest extra ps = .ok b → collect loc rest extra ps = .ok (ps.map fun p => (p, item loc rest extra p))) ∧
    (∀ e, fill loc rest extra ps = .error e → collect loc rest extra ps = .error e) := by
  induction ps with
  | nil => exact ⟨fun b _ => rfl, fun e h => by cases h⟩
  | cons p ps ih =>
    simp only [fill, collect, Bind.bind, Except.bind]
    obtain ⟨g1, g2⟩ := given_held loc rest extra p
    cases h1 : heldBy loc rest extra p with
    | error e =>
      rw [g2 e h1]
      exact ⟨(by intro b h; cases h), (by intro e h; cases h; rfl)⟩
    | ok x =>
      rw [g1 x h1]
      simp only
      cases h2 : fill loc rest extra ps with
      | error e => rw [ih.2 e h2]; exact ⟨(by intro b h; cases h), (by intro e h; cases h; rfl)⟩
      | ok b => rw [ih.1 b h2]; exact ⟨(by intro b h; rfl), (by intro e h; cases h)⟩

/-- `Signature.bind` refuses what the call refuses. -/
theorem sigBind_error (ps : List (Param N V)) (args : List V) (kwargs : Dict N V) (e : Err) (h : bind ps args kwargs = .error e) :
    sigBind ps args kwargs = .error e := by
  simp only [Signature.bind, sigBind] at h ⊢
  cases hp : passKw (keywords ps) (hasVarKw ps) (((ps.filter Param.pos).map (·.name)).zip args) [] kwargs with
  | error e' => rw [hp] at h; cases h; rfl
  | ok r =>
    rw [hp] at h
    simp only at h ⊢
    split
    · rename_i hc
      rw [if_pos hc] at h
      exact (collect_fill _ _ _ _).2 e h
    · rename_i hc
      rw [if_neg hc] at h
      cases h; rfl

theorem sigBind_ok (ps : List (Param N V)) (args : List V) {kwargs : Dict N V} (hk : kwargs.keys.Nodup) (b : List (N × Held N V))
    (h : bind ps args kwargs = .ok b) :
    sigBind ps args kwargs = .ok (ps.map fun p => (p, item
      (((ps.filter Param.pos).map (·.name)).zip args ++ kwargs.filter (fun e => (keywords ps).contains e.1))
      (args.drop (ps.filter Param.pos).length) (kwargs.filter (fun e => !(keywords ps).contains e.1)) p)) := by
  simp only [Signature.bind, sigBind] at h ⊢
  rcases passKw_eq (keywords ps) (hasVarKw ps) (((ps.filter Param.pos).map (·.name)).zip args) [] kwargs hk with ⟨_, h2⟩ | ⟨_, h2⟩
  · rw [h2] at h ⊢
    simp only [List.nil_append] at h ⊢
    split
    · rename_i hc
      rw [if_pos hc] at h
      exact (collect_fill _ _ _ _).1 b h
    · rename_i hc
      rw [if_neg hc] at h
      cases h
  · rw [h2] at h; cases h

/-! ### `BoundArguments` -/

/-- Parameters that are passed by position by `BoundArguments`. -/
def skip (f : Param N V → Option (Held N V)) (p : Param N V) : Bool := (p.pos || p.kind == .varPos) && (f p).isSome

def vals : Option (Held N V) → List V
  | some (.one v) => [v]
  | some (.tuple vs) => vs
  | _ => []

omit [DecidableEq N] in
theorem vals_one (v : V) : vals (N := N) (some (.one v)) = [v] := rfl

omit [DecidableEq N] in
theorem vals_tuple (vs : List V) : vals (N := N) (some (.tuple vs)) = vs := rfl

def pairs (n : N) : Option (Held N V) → Dict N V
  | some (.one v) => [(n, v)]
  | some (.dict d) => d
  | _ => []

/-- A parameter holds what its kind can hold. -/
def Fits (p : Param N V) (o : Option (Held N V)) : Prop :=
  match p.kind with
  | .varPos => ∀ h, o = some h → ∃ vs, h = .tuple vs
  | .varKw => ∀ h, o = some h → ∃ d, h = .dict d
  | _ => ∀ h, o = some h → ∃ v, h = .one v

omit [DecidableEq N] in
theorem boundArgs_cons (p : Param N V) (o : Option (Held N V)) (l : List (Param N V × Option (Held N V))) (h : Fits p o) :
    boundArgs ((p, o) :: l) = if (p.pos || p.kind == .varPos) && o.isSome then vals o ++ boundArgs l else [] := by
  obtain ⟨n, k, d⟩ := p
  rcases o with _ | (v | vs | kw) <;> cases k <;> first | rfl | (simp [Fits] at h)

omit [DecidableEq N] in
theorem kwItems_cons (p : Param N V) (o : Option (Held N V)) (l : List (Param N V × Option (Held N V))) (h : Fits p o) :
    kwItems false ((p, o) :: l) =
      if (p.pos || p.kind == .varPos) && o.isSome then kwItems false l else pairs p.name o ++ kwItems true l := by
  obtain ⟨n, k, d⟩ := p
  rcases o with _ | (v | vs | kw) <;> cases k <;> first | rfl | (simp [Fits] at h)

omit [DecidableEq N] in
theorem boundArgs_eq (f : Param N V → Option (Held N V)) (ps : List (Param N V)) (hf : ∀ p ∈ ps, Fits p (f p)) :
    boundArgs (ps.map fun p => (p, f p)) = (ps.takeWhile (skip f)).flatMap fun p => vals (f p) := by
  induction ps with
  | nil => rfl
  | cons p ps ih =>
    rw [List.map_cons, boundArgs_cons p (f p) _ (hf p (by simp)), ih fun q hq => hf q (List.mem_cons_of_mem _ hq), List.takeWhile_cons]
    change (if skip f p = true then _ else _) = _
    cases skip f p <;> simp

omit [DecidableEq N] in
theorem kwItems_true (f : Param N V → Option (Held N V)) (ps : List (Param N V)) :
    kwItems true (ps.map fun p => (p, f p)) = ps.flatMap fun p => pairs p.name (f p) := by
  induction ps with
  | nil => rfl
  | cons p ps ih =>
    simp only [List.map_cons, kwItems, List.flatMap_cons, ih]
    generalize f p = o
    rcases o with _ | (v | vs | kw) <;> rfl

omit [DecidableEq N] in
theorem kwItems_false (f : Param N V → Option (Held N V)) (ps : List (Param N V)) (hf : ∀ p ∈ ps, Fits p (f p)) :
    kwItems false (ps.map fun p => (p, f p)) = (ps.dropWhile (skip f)).flatMap fun p => pairs p.name (f p) := by
  induction ps with
  | nil => rfl
  | cons p ps ih =>
    rw [List.map_cons, kwItems_cons p (f p) _ (hf p (by simp)), ih fun q hq => hf q (List.mem_cons_of_mem _ hq), List.dropWhile_cons, kwItems_true]
    change (if skip f p = true then _ else _) = _
    cases skip f p <;> simp

/-- The arguments as `Signature.bind` rearranges them. -/
structure Rearranged (ps : List (Param N V)) (args : List V) (kwargs : Dict N V) (args' : List V) (kwargs' : Dict N V) : Prop where
  nodup : kwargs'.keys.Nodup
  keys : ∀ n v, (n, v) ∈ kwargs' → (n, v) ∈ kwargs
  front : args <+: args'
  first : ∀ p v, ps[0]? = some p → p.kind = .posOrKw → (p.name, v) ∈ kwargs → args' ≠ []
  same : ∀ b, Enters ps args kwargs b → Enters ps args' kwargs' b

theorem bound_ok {ps : List (Param N V)} (hv : Valid ps) (args : List V) {kwargs : Dict N V} (hk : kwargs.keys.Nodup) (b : List (N × Held N V))
    (h : bind ps args kwargs = .ok b) : ∃ args' kwargs', bound ps args kwargs = .ok (args', kwargs') ∧ Rearranged ps args kwargs args' kwargs' := by
  have he := (bind_iff hv args hk b).1 h
  simp only [bound, sigBind_ok ps args hk b h, Bind.bind, Except.bind]
  generalize hloc' : (((ps.filter Param.pos).map (·.name)).zip args ++ kwargs.filter (fun e => (keywords ps).contains e.1) : Dict N V) = loc
  generalize hextra : (kwargs.filter (fun e => !(keywords ps).contains e.1) : Dict N V) = extra
  generalize hfront : (ps.filter Param.pos).length = F
  generalize hf : item loc (args.drop F) extra = f
  have hloc : ∀ (i : Nat) (p : Param N V), ps[i]? = some p → Dict.get? loc p.name =
      (if p.kind = .posOnly ∨ p.kind = .posOrKw then args[i]? else none).or
        (if p.kind = .posOrKw ∨ p.kind = .kwOnly then kwargs.get? p.name else none) := by
    intro i p hi; rw [← hloc']; exact loc_get hv args kwargs hi
  have hfits : ∀ p, Fits p (f p) := by
    intro p
    unfold Fits
    rw [← hf]
    unfold item
    cases p.kind <;> simp only <;> intro h hh
    all_goals first
      | (simp only [Option.map_eq_some_iff] at hh; obtain ⟨v, _, rfl⟩ := hh; exact ⟨v, rfl⟩)
      | (split at hh <;> cases hh; exact ⟨_, rfl⟩)
  -- what the parameters hold
  have fpos : ∀ (i : Nat) (p : Param N V), ps[i]? = some p → p.kind = .posOnly → f p = (args[i]?).map .one := by
    intro i p hi hpk
    rw [← hf]; simp only [item, hpk, hloc i p hi]; simp
  have fpk : ∀ (i : Nat) (p : Param N V), ps[i]? = some p → p.kind = .posOrKw → f p = ((args[i]?).or (kwargs.get? p.name)).map .one := by
    intro i p hi hpk
    rw [← hf]; simp only [item, hpk, hloc i p hi]; simp
  have fkw : ∀ (i : Nat) (p : Param N V), ps[i]? = some p → p.kind = .kwOnly → f p = (kwargs.get? p.name).map .one := by
    intro i p hi hpk
    rw [← hf]; simp only [item, hpk, hloc i p hi]; simp
  have fvp : ∀ p, p.kind = .varPos → f p = if (args.drop F).isEmpty then none else some (.tuple (args.drop F)) := by
    intro p hpk; rw [← hf]; simp only [item, hpk]
  have fvk : ∀ p, p.kind = .varKw → f p = if extra.isEmpty then none else some (.dict extra) := by
    intro p hpk; rw [← hf]; simp only [item, hpk]
  have hfr : ∀ (i : Nat) (p : Param N V), ps[i]? = some p → (p.pos = true → i < F) ∧ (p.pos = false → F ≤ i) ∧ (p.kind = .varPos → F = i) := by
    intro i p hi
    have := front_get hv.order hi
    rw [hfront] at this
    refine ⟨fun h => ?_, this.2⟩
    rw [← hfront]
    exact (List.getElem?_eq_some_iff.1 (this.1 h)).1
  have hF : F ≤ ps.length := by rw [← hfront]; exact List.length_filter_le _ _
  have hposlt : ∀ (i : Nat) (p : Param N V), ps[i]? = some p → i < F → p.pos = true := by
    intro i p hi hlt
    cases hp : p.pos with
    | true => rfl
    | false => have := (hfr i p hi).2.1 hp; omega
  rw [boundArgs_eq f ps fun p _ => hfits p, kwItems_false f ps fun p _ => hfits p]
  generalize hT : (ps.takeWhile (skip f)).length = t
  have hsplit := List.takeWhile_append_dropWhile (p := skip f) (l := ps)
  have htake : ps.takeWhile (skip f) = ps.take t := by
    have := congrArg (List.take t) hsplit
    rw [List.take_left' hT] at this; exact this
  have hdrop : ps.dropWhile (skip f) = ps.drop t := by
    have := congrArg (List.drop t) hsplit
    rw [List.drop_left' hT] at this; exact this
  have htlen : t ≤ ps.length := by
    have := congrArg List.length htake
    rw [hT, List.length_take] at this; omega
  have hskip : ∀ (i : Nat) (p : Param N V), ps[i]? = some p → i < t → skip f p = true := by
    intro i p hi hlt
    have : p ∈ ps.takeWhile (skip f) := by
      rw [htake]
      exact List.mem_of_getElem? (i := i) (by rw [List.getElem?_take, if_pos hlt]; exact hi)
    exact List.mem_takeWhile_imp this
  have hstop : ∀ p : Param N V, ps[t]? = some p → skip f p = false := by
    intro p hp
    have h0 : (ps.dropWhile (skip f))[0]? = some p := by rw [hdrop, List.getElem?_drop]; simpa using hp
    have hne : 0 < (ps.dropWhile (skip f)).length := (List.getElem?_eq_some_iff.1 h0).1
    have := List.dropWhile_get_zero_not (skip f) ps hne
    have heq : (ps.dropWhile (skip f)).get ⟨0, hne⟩ = p := by simpa using (List.getElem?_eq_some_iff.1 h0).2
    rw [heq] at this
    simpa using this
  -- the keyword of an argument that was passed by position is not there
  have hno : ∀ (i : Nat) (p : Param N V), ps[i]? = some p → p.kind = .posOrKw → i < args.length → ∀ u, (p.name, u) ∉ kwargs := by
    intro i p hi hpk hlt
    obtain ⟨x, _, hg⟩ := he.gets i p hi
    cases hg with
    | position h _ => simpa [hpk] using h
    | keyword h _ => simp [hpk] at h; omega
    | default h _ => simp [hpk] at h; omega
    | rest h => simp [hpk] at h
    | others h => simp [hpk] at h
  -- all that is passed by position is in front
  have hgiven : ∀ (i : Nat) (p : Param N V), ps[i]? = some p → i < args.length → p.pos = true → ∃ v, args[i]? = some v ∧ f p = some (.one v) := by
    intro i p hi hlt hp
    refine ⟨args[i], List.getElem?_eq_getElem hlt, ?_⟩
    rcases (pos_iff p).1 hp with h | h
    · rw [fpos i p hi h, List.getElem?_eq_getElem hlt]; rfl
    · rw [fpk i p hi h, List.getElem?_eq_getElem hlt]; rfl
  have hnt : min args.length F ≤ t := by
    by_contra hlt
    have htF : t < F := by omega
    have hta : t < args.length := by omega
    have hp : ps[t]? = some ps[t] := List.getElem?_eq_getElem (by omega)
    have hpp := hposlt t _ hp htF
    obtain ⟨v, _, hfv⟩ := hgiven t _ hp hta hpp
    have := hstop _ hp
    simp [skip, hpp, hfv] at this
  -- the positional arguments
  have hvals : ∀ (m : Nat), m ≤ t → m ≤ F → ((ps.take m).flatMap fun p => vals (f p)).length = m ∧
      ∀ (i : Nat) (p : Param N V), ps[i]? = some p → i < m → ∃ v, f p = some (.one v) ∧ ((ps.take m).flatMap fun p => vals (f p))[i]? = some v := by
    intro m
    induction m with
    | zero => intro _ _; exact ⟨by simp, fun i p _ h => absurd h (by omega)⟩
    | succ m ih =>
      intro h1 h2
      obtain ⟨ih1, ih2⟩ := ih (by omega) (by omega)
      have hm : ps[m]? = some ps[m] := List.getElem?_eq_getElem (by omega)
      have hmp := hposlt m _ hm (by omega)
      have hms := hskip m _ hm (by omega)
      simp only [skip, Bool.and_eq_true] at hms
      obtain ⟨x, hx⟩ := Option.isSome_iff_exists.1 hms.2
      obtain ⟨v, rfl⟩ : ∃ v, x = .one v := by
        have := hfits ps[m]
        unfold Fits at this
        rcases (pos_iff _).1 hmp with hh | hh <;> rw [hh] at this <;> exact this x hx
      have htk : ps.take (m + 1) = ps.take m ++ [ps[m]] := by rw [List.take_succ_eq_append_getElem (by omega)]
      rw [htk, List.flatMap_append]
      simp only [List.flatMap_cons, List.flatMap_nil, List.append_nil, hx, vals_one]
      refine ⟨by simp [ih1], ?_⟩
      intro i p hi hlt
      by_cases him : i = m
      · subst him
        rw [hm] at hi; cases hi
        refine ⟨v, hx, ?_⟩
        rw [List.getElem?_append_right (by omega), ih1]; simp
      · obtain ⟨u, hu1, hu2⟩ := ih2 i p hi (by omega)
        refine ⟨u, hu1, ?_⟩
        rw [List.getElem?_append_left (by omega)]; exact hu2
  generalize hargs' : ((ps.takeWhile (skip f)).flatMap fun p => vals (f p)) = args'
  rw [htake] at hargs'
  -- two cases
  have hcases : (F < args.length ∧ args' = args ∧ F < t) ∨ (args.length ≤ F ∧ t ≤ F ∧ args'.length = t ∧ args <+: args' ∧
      ∀ (i : Nat) (p : Param N V), ps[i]? = some p → i < t → ∃ v, f p = some (.one v) ∧ args'[i]? = some v) := by
    by_cases hlt : F < args.length
    · left
      -- there is a `*args`
      obtain ⟨q, hq, hqk⟩ : ∃ p ∈ ps, p.kind = .varPos := by
        rcases he.few with h | h
        · rw [countP_front, hfront] at h; omega
        · exact h
      obtain ⟨m, hm⟩ := List.mem_iff_getElem?.1 hq
      have hmF := (hfr m q hm).2.2 hqk
      subst hmF
      have hrest : (args.drop F).isEmpty = false := by
        cases hd : args.drop F with
        | nil => have := congrArg List.length hd; simp at this; omega
        | cons _ _ => rfl
      have hfq : f q = some (.tuple (args.drop F)) := by rw [fvp q hqk, hrest]; rfl
      have hFt : F ≤ t := by omega
      have hFt' : F < t := by
        by_contra hn
        have : t = F := by omega
        have := hstop q (by rw [this]; exact hm)
        simp [skip, hqk, hfq] at this
      have htF1 : t = F + 1 := by
        by_contra hn
        have hlt' : F + 1 < ps.length := by omega
        have hp1 : ps[F + 1]? = some ps[F + 1] := List.getElem?_eq_getElem hlt'
        have hs := hskip (F + 1) _ hp1 (by omega)
        have hnp : ps[F + 1].pos = false := by
          cases hpp : ps[F + 1].pos with
          | false => rfl
          | true => have := (hfr _ _ hp1).1 hpp; omega
        have hnv : ps[F + 1].kind ≠ .varPos := by
          intro hkk; have := (hfr _ _ hp1).2.2 hkk; omega
        simp [skip, hnp, hnv] at hs
      refine ⟨hlt, ?_, hFt'⟩
      have htk : ps.take (F + 1) = ps.take F ++ [q] := by
        have hFl : F < ps.length := (List.getElem?_eq_some_iff.1 hm).1
        rw [List.take_succ_eq_append_getElem hFl]
        congr 2
        have := List.getElem?_eq_getElem hFl
        rw [hm] at this
        exact (Option.some.inj this).symm
      rw [← hargs', htF1, htk, List.flatMap_append]
      simp only [List.flatMap_cons, List.flatMap_nil, List.append_nil, hfq, vals_tuple]
      obtain ⟨h1, h2⟩ := hvals F hFt (Nat.le_refl _)
      have hpre : ((ps.take F).flatMap fun p => vals (f p)) = args.take F := by
        apply List.ext_getElem?
        intro i
        by_cases hi : i < F
        · have hip : ps[i]? = some ps[i] := List.getElem?_eq_getElem (by omega)
          obtain ⟨v, hv1, hv2⟩ := h2 i _ hip hi
          obtain ⟨u, hu1, hu2⟩ := hgiven i _ hip (by omega) (hposlt i _ hip hi)
          rw [hv1] at hu2; cases hu2
          rw [hv2, List.getElem?_take, if_pos hi, hu1]
        · rw [List.getElem?_eq_none (by omega), List.getElem?_eq_none (by simp; omega)]
      rw [hpre, List.take_append_drop]
    · right
      have hle : args.length ≤ F := by omega
      have hrest : (args.drop F).isEmpty = true := by simp [hle]
      have htF : t ≤ F := by
        by_contra hn
        have hp1 : ps[F]? = some ps[F] := List.getElem?_eq_getElem (by omega)
        have hs := hskip F _ hp1 (by omega)
        have hnp : ps[F].pos = false := by
          cases hpp : ps[F].pos with
          | false => rfl
          | true => have := (hfr _ _ hp1).1 hpp; omega
        simp only [skip, hnp, Bool.false_or, Bool.and_eq_true, beq_iff_eq] at hs
        rw [fvp _ hs.1, hrest] at hs
        simp at hs
      obtain ⟨h1, h2⟩ := hvals t (Nat.le_refl _) htF
      rw [hargs'] at h1 h2
      refine ⟨hle, htF, h1, ?_, h2⟩
      rw [List.prefix_iff_eq_take]
      apply List.ext_getElem?
      intro i
      rw [List.getElem?_take]
      by_cases hi : i < args.length
      · rw [if_pos hi]
        have hip : ps[i]? = some ps[i] := List.getElem?_eq_getElem (by omega)
        obtain ⟨v, hv1, hv2⟩ := h2 i _ hip (by omega)
        obtain ⟨u, hu1, hu2⟩ := hgiven i _ hip hi (hposlt i _ hip (by omega))
        rw [hv1] at hu2; cases hu2
        rw [hv2, hu1]
      · rw [if_neg hi, List.getElem?_eq_none (by omega)]
  -- positional parameters behind the positional arguments
  have hbehind : ∀ (i : Nat) (p : Param N V), ps[i]? = some p → p.pos = true → (t ≤ i ↔ args'.length ≤ i) := by
    intro i p hi hp
    have := (hfr i p hi).1 hp
    rcases hcases with ⟨h1, h2, h3⟩ | ⟨_, _, h3, _, _⟩
    · rw [h2]; omega
    · rw [h3]
  have hinfront : ∀ (i : Nat) (p : Param N V), ps[i]? = some p → p.pos = true → i < t → ∃ v, f p = some (.one v) ∧ args'[i]? = some v := by
    intro i p hi hp hlt
    rcases hcases with ⟨h1, h2, _⟩ | ⟨_, _, _, _, h5⟩
    · have := (hfr i p hi).1 hp
      obtain ⟨v, hv1, hv2⟩ := hgiven i p hi (by omega) hp
      exact ⟨v, hv2, by rw [h2]; exact hv1⟩
    · exact h5 i p hi hlt
  have hpre : args <+: args' := by
    rcases hcases with ⟨_, h2, _⟩ | ⟨_, _, _, h4, _⟩
    · rw [h2]; exact List.prefix_refl _
    · exact h4
  have hnp : ∀ (i : Nat) (p : Param N V), ps[i]? = some p → p.kind = .kwOnly ∨ p.kind = .varKw → t ≤ i := by
    intro i p hi hpk
    by_contra hn
    have := hskip i p hi (by omega)
    unfold skip Param.pos at this
    rcases hpk with h | h <;> simp [h] at this
  have hlen' : args.length ≤ args'.length := hpre.length_le
  -- posOnly parameters behind are missing
  have hpo : ∀ (i : Nat) (p : Param N V), ps[i]? = some p → p.kind = .posOnly → t ≤ i → f p = none := by
    intro i p hi hpk hle
    have := (hbehind i p hi ((pos_iff p).2 (.inl hpk))).1 hle
    rw [fpos i p hi hpk, List.getElem?_eq_none (by omega)]; rfl
  have hvp : ∀ (i : Nat) (p : Param N V), ps[i]? = some p → p.kind = .varPos → t ≤ i → f p = none := by
    intro i p hi hpk hle
    have hiF := (hfr i p hi).2.2 hpk
    rcases hcases with ⟨_, _, h3⟩ | ⟨h1, _⟩
    · omega
    · rw [fvp p hpk]; simp [h1]
  generalize hitems : ((ps.dropWhile (skip f)).flatMap fun p => pairs p.name (f p)) = items
  rw [hdrop] at hitems
  -- the keyword arguments
  have hmem : ∀ (n : N) (v : V), (n, v) ∈ items ↔
      (∃ (i : Nat) (p : Param N V), ps[i]? = some p ∧ t ≤ i ∧ p.name = n ∧ (p.kind = .posOrKw ∨ p.kind = .kwOnly) ∧ f p = some (.one v)) ∨
      ((n, v) ∈ extra ∧ ∃ p ∈ ps, p.kind = .varKw) := by
    intro n v
    rw [← hitems, List.mem_flatMap]
    constructor
    · rintro ⟨p, hp, hm⟩
      obtain ⟨j, hj⟩ := List.mem_iff_getElem?.1 hp
      rw [List.getElem?_drop] at hj
      cases hpk : p.kind with
      | posOnly => rw [hpo _ p hj hpk (by omega)] at hm; simp [pairs] at hm
      | varPos => rw [hvp _ p hj hpk (by omega)] at hm; simp [pairs] at hm
      | varKw =>
        rw [fvk p hpk] at hm
        right
        refine ⟨?_, p, List.mem_of_getElem? hj, hpk⟩
        split at hm
        · simp [pairs] at hm
        · exact hm
      | posOrKw =>
        left
        cases ho : f p with
        | none => rw [ho] at hm; simp [pairs] at hm
        | some x =>
          have hx := hfits p
          unfold Fits at hx
          rw [hpk] at hx
          obtain ⟨u, rfl⟩ := hx x ho
          rw [ho] at hm
          simp [pairs] at hm
          exact ⟨t + j, p, hj, by omega, hm.1.symm, .inl hpk, by rw [ho, hm.2]⟩
      | kwOnly =>
        left
        cases ho : f p with
        | none => rw [ho] at hm; simp [pairs] at hm
        | some x =>
          have hx := hfits p
          unfold Fits at hx
          rw [hpk] at hx
          obtain ⟨u, rfl⟩ := hx x ho
          rw [ho] at hm
          simp [pairs] at hm
          exact ⟨t + j, p, hj, by omega, hm.1.symm, .inr hpk, by rw [ho, hm.2]⟩
    · rintro (⟨i, p, hi, hle, hn, _, ho⟩ | ⟨hm, p, hp, hpk⟩)
      · refine ⟨p, List.mem_of_getElem? (i := i - t) ?_, ?_⟩
        · rw [List.getElem?_drop]; rw [Nat.add_sub_cancel' hle]; exact hi
        · rw [ho]; simp [pairs, hn]
      · obtain ⟨i, hi⟩ := List.mem_iff_getElem?.1 hp
        have hle := hnp i p hi (.inr hpk)
        refine ⟨p, List.mem_of_getElem? (i := i - t) ?_, ?_⟩
        · rw [List.getElem?_drop]; rw [Nat.add_sub_cancel' hle]; exact hi
        · rw [fvk p hpk]
          have : extra.isEmpty = false := by
            cases hx : extra with
            | nil => rw [hx] at hm; cases hm
            | cons _ _ => rfl
          rw [this]; exact hm
  have hexk : ∀ (n : N) (v : V), (n, v) ∈ extra → (n, v) ∈ kwargs ∧ n ∉ keywords ps := by
    intro n v hm
    rw [← hextra, List.mem_filter] at hm
    exact ⟨hm.1, by simpa using hm.2⟩
  have hval : ∀ (i : Nat) (p : Param N V) (v : V), ps[i]? = some p → t ≤ i → p.kind = .posOrKw ∨ p.kind = .kwOnly → f p = some (.one v) → (p.name, v) ∈ kwargs := by
    intro i p v hi hle hpk ho
    apply Dict.mem_of_get?
    rcases hpk with hpk | hpk
    · have := (hbehind i p hi ((pos_iff p).2 (.inr hpk))).1 hle
      rw [fpk i p hi hpk, List.getElem?_eq_none (by omega)] at ho
      simpa using ho
    · rw [fkw i p hi hpk] at ho
      simpa using ho
  have hsub : ∀ (n : N) (v : V), (n, v) ∈ items → (n, v) ∈ kwargs := by
    intro n v hm
    rcases (hmem n v).1 hm with ⟨i, p, hi, hle, hn, hpk, ho⟩ | ⟨hm, _⟩
    · rw [← hn]; exact hval i p v hi hle hpk ho
    · exact (hexk n v hm).1
  have hexnd : (Dict.keys extra).Nodup := by
    rw [← hextra]; exact hk.sublist (List.filter_sublist.map _)
  have hnodup : (Dict.keys items).Nodup := by
    have hps : ps.Nodup := List.Nodup.of_map _ hv.names
    rw [← hitems]
    unfold Dict.keys
    rw [List.map_flatMap, List.nodup_flatMap]
    constructor
    · intro p hp
      cases ho : f p with
      | none => simp [pairs]
      | some x =>
        cases x with
        | one v => simp [pairs]
        | tuple _ => simp [pairs]
        | dict d =>
          have hpk : p.kind = .varKw := by
            have := hfits p
            unfold Fits at this
            cases hkk : p.kind <;> rw [hkk] at this <;> simp only at this <;> try rfl
            all_goals (obtain ⟨y, hy⟩ := this _ ho; cases hy)
          rw [fvk p hpk] at ho
          split at ho
          · cases ho
          · cases ho; exact hexnd
    · have hdn : (ps.drop t).Nodup := hps.sublist (List.drop_sublist _ _)
      refine List.Pairwise.imp_of_mem ?_ hdn
      intro p q hp hq hne n hn1 hn2
      -- where a key comes from
      have key : ∀ r ∈ ps.drop t, n ∈ (pairs r.name (f r)).map (·.1) →
          (r.name = n ∧ (r.kind = .posOrKw ∨ r.kind = .kwOnly)) ∨ (r.kind = .varKw ∧ n ∉ keywords ps) := by
        intro r hr hn
        obtain ⟨j, hj⟩ := List.mem_iff_getElem?.1 hr
        rw [List.getElem?_drop] at hj
        have hone : ∀ y, f r = some y → (∃ v, y = .one v) → r.name = n := by
          rintro y hy ⟨v, rfl⟩
          rw [hy] at hn
          simpa [pairs, eq_comm] using hn
        have hfr' := hfits r
        unfold Fits at hfr'
        cases hrk : r.kind with
        | posOnly => rw [hpo _ r hj hrk (by omega)] at hn; simp [pairs] at hn
        | varPos => rw [hvp _ r hj hrk (by omega)] at hn; simp [pairs] at hn
        | posOrKw =>
          rw [hrk] at hfr'
          left
          cases ho : f r with
          | none => rw [ho] at hn; simp [pairs] at hn
          | some y => exact ⟨hone y ho (hfr' y ho), .inl rfl⟩
        | kwOnly =>
          rw [hrk] at hfr'
          left
          cases ho : f r with
          | none => rw [ho] at hn; simp [pairs] at hn
          | some y => exact ⟨hone y ho (hfr' y ho), .inr rfl⟩
        | varKw =>
          right
          refine ⟨rfl, ?_⟩
          rw [fvk r hrk] at hn
          split at hn
          · simp [pairs] at hn
          · obtain ⟨⟨m, u⟩, hm, rfl⟩ := List.mem_map.1 hn
            exact (hexk _ _ hm).2
      have hp' : p ∈ ps := List.mem_of_mem_drop hp
      have hq' : q ∈ ps := List.mem_of_mem_drop hq
      rcases key p hp hn1 with ⟨h1, h1'⟩ | ⟨h1, h1'⟩ <;> rcases key q hq hn2 with ⟨h2, h2'⟩ | ⟨h2, h2'⟩
      · exact hne (same_param hv.names hp' hq' (h1.trans h2.symm))
      · exact h2' (by rw [← h1]; exact (keywords_iff hv hp').2 h1')
      · exact h1' (by rw [← h2]; exact (keywords_iff hv hq').2 h2')
      · -- two `**kwargs`
        obtain ⟨i, hi⟩ := List.mem_iff_getElem?.1 hp'
        obtain ⟨j, hj⟩ := List.mem_iff_getElem?.1 hq'
        obtain ⟨hil, hie⟩ := List.getElem?_eq_some_iff.1 hi
        obtain ⟨hjl, hje⟩ := List.getElem?_eq_some_iff.1 hj
        rcases Nat.lt_trichotomy i j with hlt | heq | hlt
        · have := (List.pairwise_iff_getElem.1 hv.order i j hil hjl hlt).2
          rw [hie, hje, h1, h2] at this
          exact (this rfl).2 rfl
        · subst heq; exact hne (hie.symm.trans hje)
        · have := (List.pairwise_iff_getElem.1 hv.order j i hjl hil hlt).2
          rw [hie, hje, h1, h2] at this
          exact (this rfl).2 rfl
  refine ⟨args', items, by rw [Dict.ofList_of_nodup _ hnodup], hnodup, hsub, hpre, ?_, ?_⟩
  · rintro p v hp hpk hm rfl
    have hpp : p.pos = true := (pos_iff p).2 (.inr hpk)
    have ht0 : t = 0 := by
      have := (hbehind 0 p hp hpp).2 (Nat.le_refl _)
      omega
    have hs := hstop p (by rw [ht0]; exact hp)
    have hget := Dict.get?_of_mem _ hk hm
    have hsome : (f p).isSome = true := by
      rw [fpk 0 p hp hpk, hget]
      cases args[0]? <;> rfl
    simp [skip, hpp, hsome] at hs
  intro b' he'
  refine ⟨?_, ?_, he'.length, ?_⟩
  · -- not too many
    rcases hcases with ⟨_, h2, _⟩ | ⟨_, h2, h3, _, _⟩
    · rw [h2]; exact he.few
    · left; rw [countP_front, hfront, h3]; exact h2
  · intro n v hm
    exact he.known n v (hsub n v hm)
  · intro i p hi
    obtain ⟨x, hb, hg⟩ := he'.gets i p hi
    refine ⟨x, hb, ?_⟩
    have hp : p ∈ ps := List.mem_of_getElem? hi
    -- the name of a named parameter in front is not a keyword any more
    have hgone : p.kind = .posOrKw → i < t → ∀ u, (p.name, u) ∉ items := by
      intro hpk hlt u hu
      rcases (hmem _ _).1 hu with ⟨j, q, hj, hle, hn, _, _⟩ | ⟨hm, _⟩
      · have := same_param hv.names (List.mem_of_getElem? hj) hp hn
        subst this
        have hnd := List.Nodup.of_map _ hv.names
        have := (List.getElem?_inj (List.getElem?_eq_some_iff.1 hj).1 hnd).1 (hj.trans hi.symm)
        omega
      · exact (hexk _ _ hm).2 ((keywords_iff hv hp).2 (.inl hpk))
    have hstays : ∀ u, p.kind = .posOrKw ∨ p.kind = .kwOnly → t ≤ i → ((p.name, u) ∈ items ↔ (p.name, u) ∈ kwargs) := by
      intro u hpk hle
      constructor
      · exact hsub _ _
      · intro hm
        refine (hmem _ _).2 (.inl ⟨i, p, hi, hle, rfl, hpk, ?_⟩)
        have hget := Dict.get?_of_mem _ hk hm
        rcases hpk with hpk | hpk
        · have := (hbehind i p hi ((pos_iff p).2 (.inr hpk))).1 hle
          rw [fpk i p hi hpk, List.getElem?_eq_none (by omega), hget]; rfl
        · rw [fkw i p hi hpk, hget]; rfl
    cases hg with
    | @position v h ha =>
      have hlt : i < args.length := (List.getElem?_eq_some_iff.1 ha).1
      have hpp : p.pos = true := (pos_iff p).2 (h.imp id And.left)
      have hit : i < t := by
        have := (hfr i p hi).1 hpp
        omega
      obtain ⟨u, hu1, hu2⟩ := hinfront i p hi hpp hit
      obtain ⟨w, hw1, hw2⟩ := hgiven i p hi hlt hpp
      rw [hu1] at hw2; cases hw2
      rw [ha] at hw1; cases hw1
      refine .position ?_ hu2
      rcases h with h | ⟨h, _⟩
      · exact .inl h
      · exact .inr ⟨h, hgone h hit⟩
    | @keyword v h hm =>
      have hget := Dict.get?_of_mem _ hk hm
      rcases h with ⟨hpk, hle⟩ | hpk
      · have hpp : p.pos = true := (pos_iff p).2 (.inr hpk)
        by_cases hit : i < t
        · obtain ⟨u, hu1, hu2⟩ := hinfront i p hi hpp hit
          rw [fpk i p hi hpk, List.getElem?_eq_none hle, hget] at hu1
          simp at hu1
          subst hu1
          exact .position (.inr ⟨hpk, hgone hpk hit⟩) hu2
        · exact .keyword (.inl ⟨hpk, (hbehind i p hi hpp).1 (by omega)⟩) ((hstays v (.inl hpk) (by omega)).2 hm)
      · exact .keyword (.inr hpk) ((hstays v (.inr hpk) (hnp i p hi (.inl hpk))).2 hm)
    | @default v h hd =>
      refine .default ?_ hd
      rcases h with ⟨hpk, hle⟩ | ⟨hpk, hle, hn⟩ | ⟨hpk, hn⟩
      · have hpp : p.pos = true := (pos_iff p).2 (.inl hpk)
        left
        refine ⟨hpk, (hbehind i p hi hpp).1 ?_⟩
        by_contra hlt
        obtain ⟨u, hu1, _⟩ := hinfront i p hi hpp (by omega)
        rw [fpos i p hi hpk, List.getElem?_eq_none hle] at hu1
        cases hu1
      · have hpp : p.pos = true := (pos_iff p).2 (.inr hpk)
        right; left
        refine ⟨hpk, (hbehind i p hi hpp).1 ?_, fun u hu => hn u (hsub _ _ hu)⟩
        by_contra hlt
        obtain ⟨u, hu1, _⟩ := hinfront i p hi hpp (by omega)
        rw [fpk i p hi hpk, List.getElem?_eq_none hle, (get?_none_iff _ _).2 hn] at hu1
        cases hu1
      · right; right
        exact ⟨hpk, fun u hu => hn u (hsub _ _ hu)⟩
    | rest hpk =>
      have hiF := (hfr i p hi).2.2 hpk
      have : args.drop i = args'.drop i := by
        rcases hcases with ⟨_, h2, _⟩ | ⟨h1, h2, h3, _, _⟩
        · rw [h2]
        · rw [List.drop_eq_nil_of_le (by omega), List.drop_eq_nil_of_le (by omega)]
      rw [this]
      exact .rest hpk
    | others hpk kw hs hm =>
      -- `kw` is `extra`
      have hmem' : ∀ e, e ∈ kw ↔ e ∈ extra := by
        intro e
        rw [hm e, ← hextra, List.mem_filter]
        simp only [Bool.not_eq_true', List.contains_eq_mem, decide_eq_false_iff_not, mem_keywords, not_exists, not_and, not_or]
      have hkwe : kw = extra := by
        have hnd : kwargs.Nodup := List.Nodup.of_map _ hk
        have hfil : kw.filter (fun e => !(keywords ps).contains e.1) = kw := by
          rw [List.filter_eq_self]
          intro e he
          have := (hmem' e).1 he
          rw [← hextra, List.mem_filter] at this
          exact this.2
        have hs' : kw.Sublist extra := by
          rw [← hfil, ← hextra]; exact hs.filter _
        refine hs'.eq_of_length_le ?_
        refine (List.subperm_of_subset ?_ fun e he => (hmem' e).2 he).length_le
        rw [← hextra]; exact hnd.sublist List.filter_sublist
      refine .others hpk kw ?_ ?_
      · -- the dictionary is one of the pieces
        rw [hkwe, ← hitems]
        have hle := hnp i p hi (.inr hpk)
        have hpd : p ∈ ps.drop t := List.mem_of_getElem? (i := i - t) (by rw [List.getElem?_drop, Nat.add_sub_cancel' hle]; exact hi)
        obtain ⟨l1, l2, hl⟩ := List.append_of_mem hpd
        rw [hl, List.flatMap_append, List.flatMap_cons]
        have : pairs p.name (f p) = extra := by
          rw [fvk p hpk]
          cases hx : extra with
          | nil => rfl
          | cons _ _ => rfl
        rw [this]
        exact (List.sublist_append_left _ _).trans (List.sublist_append_right _ _)
      · intro e
        constructor
        · intro hek
          refine ⟨(hmem e.1 e.2).2 (.inr ⟨(hmem' e).1 hek, p, hp, hpk⟩), ((hm e).1 hek).2⟩
        · rintro ⟨h1, h2⟩
          exact (hm e).2 ⟨hsub e.1 e.2 h1, h2⟩

/-- **C108**: what `filter_jit` does with arguments (`Signature.bind`, then calling with `args` and `kwargs` of the result) binds the parameters
of the function as calling it directly does, for all parameters and arguments, and raises the same if the arguments do not fit. Arguments passed
by position stay where they are, no keywords are added, and the first parameter is passed by position if it was passed by keyword. -/
theorem bound_same {ps : List (Param N V)} (hv : Valid ps) (args : List V) {kwargs : Dict N V} (hk : kwargs.keys.Nodup) :
    (∀ b, bind ps args kwargs = .ok b → ∃ args' kwargs', bound ps args kwargs = .ok (args', kwargs') ∧ bind ps args' kwargs' = .ok b ∧
      args <+: args' ∧ (∀ n v, (n, v) ∈ kwargs' → (n, v) ∈ kwargs) ∧ kwargs'.keys.Nodup ∧
      ∀ p v, ps[0]? = some p → p.kind = .posOrKw → (p.name, v) ∈ kwargs → args' ≠ []) ∧
    (∀ e, bind ps args kwargs = .error e → e = .typeError ∧ bound ps args kwargs = .error .typeError) := by
  constructor
  · intro b h
    obtain ⟨a, k, h1, h2⟩ := bound_ok hv args hk b h
    exact ⟨a, k, h1, (bind_iff hv a h2.nodup b).2 (h2.same b ((bind_iff hv args hk b).1 h)), h2.front, h2.keys, h2.nodup, h2.first⟩
  · intro e h
    have := bind_error ps args hk e h
    subst this
    refine ⟨rfl, ?_⟩
    simp only [bound, sigBind_error ps args kwargs _ h, Bind.bind, Except.bind]

/-- **C108**: so for every body, calling the function with what `_bind` returns is calling it with the arguments, errors included (this is
`World.LawfulBind`, a hypothesis of C27). -/
theorem lawful_bind {R : Type} (body : List (N × Held N V) → Except Err R) {ps : List (Param N V)} (hv : Valid ps) (args : List V)
    {kwargs : Dict N V} (hk : kwargs.keys.Nodup) :
    (∀ b, bound ps args kwargs = .ok b → (bind ps b.1 b.2).bind body = (bind ps args kwargs).bind body) ∧
    (∀ e, bound ps args kwargs = .error e → (bind ps args kwargs).bind body = .error e) := by
  obtain ⟨h1, h2⟩ := bound_same hv args hk
  cases hb : bind ps args kwargs with
  | ok b =>
    obtain ⟨a, k, h3, h4, _⟩ := h1 b hb
    rw [h3]
    exact ⟨(by rintro _ ⟨⟩; rw [h4]), (by rintro e ⟨⟩)⟩
  | error e =>
    obtain ⟨rfl, h3⟩ := h2 e hb
    rw [h3]
    exact ⟨(by rintro _ ⟨⟩), (by rintro e ⟨⟩; rfl)⟩

end

/-! ### Functions that pass their arguments on -/

variable {V : Type}

theorem passKw_free (names : List String) (loc : Dict String V) {kwargs : Dict String V} (hk : kwargs.keys.Nodup)
    (h : ∀ n ∈ names, n ∉ kwargs.keys) : passKw names true loc [] kwargs = .ok (loc, kwargs) := by
  have hmem : ∀ e ∈ kwargs, e.1 ∉ names := fun e he hn => h e.1 hn (List.mem_map.2 ⟨e, he, rfl⟩)
  rcases passKw_eq names true loc [] kwargs hk with ⟨_, h2⟩ | ⟨h1, _⟩
  · rw [h2]
    have h3 : kwargs.filter (fun e => names.contains e.1) = [] := by
      rw [List.filter_eq_nil_iff]; intro e he; simpa using hmem e he
    have h4 : kwargs.filter (fun e => !names.contains e.1) = kwargs := by
      rw [List.filter_eq_self]; intro e he; simpa using hmem e he
    rw [h3, h4]; simp
  · exact absurd (fun n v hm => .inr ⟨hmem _ hm, rfl⟩) h1

theorem passKw_taken (names : List String) (loc : Dict String V) {kwargs : Dict String V} (hk : kwargs.keys.Nodup) (n : String)
    (h : n ∈ names) (hl : loc.get? n ≠ none) (hn : n ∈ kwargs.keys) : passKw names true loc [] kwargs = .error .typeError := by
  rcases passKw_eq names true loc [] kwargs hk with ⟨h1, _⟩ | ⟨_, h2⟩
  · obtain ⟨⟨m, v⟩, hm, rfl⟩ := List.mem_map.1 hn
    rcases h1 m v hm with h' | h'
    · exact absurd h'.2 hl
    · exact absurd h h'.1
  · exact h2

theorem forward_one (n : String) (slash : Bool) (x : V) (args : List V) {kwargs : Dict String V} (hk : kwargs.keys.Nodup) :
    forward [n] slash (x :: args) kwargs =
      if slash = false ∧ n ∈ kwargs.keys then .error .typeError else .ok ([x], args, kwargs) := by
  cases slash
  · by_cases hn : n ∈ kwargs.keys
    · have := passKw_taken [n] [(n, x)] hk n (by simp) (by simp [Dict.get?]) hn
      simp [forward, Signature.bind, fwdParams, keywords, hasVarKw, List.filter_cons, Param.named, Param.pos, this, hn, Bind.bind, Except.bind]
    · have := passKw_free [n] [(n, x)] hk (by simpa using hn)
      simp [forward, Signature.bind, fwdParams, keywords, hasVarKw, hasVarPos, List.filter_cons, Param.named, Param.pos, this, hn, Bind.bind, Except.bind,
        fill, heldBy, Dict.get?, ones]
  · have := passKw_free [] [(n, x)] hk (by simp)
    simp [forward, Signature.bind, fwdParams, keywords, hasVarKw, hasVarPos, List.filter_cons, Param.named, Param.pos, this, Bind.bind, Except.bind,
      fill, heldBy, Dict.get?, ones]

theorem forward_two (n m : String) (hne : n ≠ m) (slash : Bool) (x y : V) (args : List V) {kwargs : Dict String V} (hk : kwargs.keys.Nodup) :
    forward [n, m] slash (x :: y :: args) kwargs =
      if slash = false ∧ (n ∈ kwargs.keys ∨ m ∈ kwargs.keys) then .error .typeError else .ok ([x, y], args, kwargs) := by
  cases slash
  · by_cases hn : n ∈ kwargs.keys
    · have := passKw_taken [n, m] [(n, x), (m, y)] hk n (by simp) (by simp [Dict.get?]) hn
      simp [forward, Signature.bind, fwdParams, keywords, hasVarKw, List.filter_cons, Param.named, Param.pos, this, hn, Bind.bind, Except.bind]
    · by_cases hm : m ∈ kwargs.keys
      · have := passKw_taken [n, m] [(n, x), (m, y)] hk m (by simp) (by simp [Dict.get?, hne]) hm
        simp [forward, Signature.bind, fwdParams, keywords, hasVarKw, List.filter_cons, Param.named, Param.pos, this, hm, Bind.bind, Except.bind]
      · have := passKw_free [n, m] [(n, x), (m, y)] hk (by simp [hn, hm])
        simp [forward, Signature.bind, fwdParams, keywords, hasVarKw, hasVarPos, List.filter_cons, Param.named, Param.pos, this, hn, hm, Bind.bind, Except.bind,
          fill, heldBy, Dict.get?, ones, hne]
  · have := passKw_free [] [(n, x), (m, y)] hk (by simp)
    simp [forward, Signature.bind, fwdParams, keywords, hasVarKw, hasVarPos, List.filter_cons, Param.named, Param.pos, this, Bind.bind, Except.bind,
      fill, heldBy, Dict.get?, ones, hne]

/-- A positional-only parameter is missing. -/
theorem forward_missing (n m : String) (hne : n ≠ m) (x : V) {kwargs : Dict String V} (hk : kwargs.keys.Nodup) :
    forward [n, m] true [x] kwargs = .error .typeError := by
  have := passKw_free [] [(n, x)] hk (by simp)
  simp [forward, Signature.bind, fwdParams, keywords, hasVarKw, hasVarPos, List.filter_cons, Param.named, Param.pos, this, Bind.bind, Except.bind,
    fill, heldBy, Dict.get?, hne]

/-- `Signature.bind` of `(*args, **kwargs)`. -/
theorem bound_zero (slash : Bool) (args : List V) {kwargs : Dict String V} (hk : kwargs.keys.Nodup) :
    bound (fwdParams [] slash) args kwargs = .ok (args, kwargs) := by
  have := passKw_free [] ([] : Dict String V) hk (by simp)
  cases args <;> cases kwargs <;>
  simp_all [bound, sigBind, fwdParams, keywords, hasVarKw, hasVarPos, List.filter_cons, Param.named, Param.pos, Bind.bind, Except.bind,
    collect, given, boundArgs, kwItems, Dict.ofList_of_nodup]

/-- `Signature.bind` of `(n, *args, **kwargs)`, or with a `/`. -/
theorem bound_one (n : String) (slash : Bool) (x : V) (args : List V) {kwargs : Dict String V} (hk : kwargs.keys.Nodup)
    (hn : slash = false → n ∉ kwargs.keys) : bound (fwdParams [n] slash) (x :: args) kwargs = .ok (x :: args, kwargs) := by
  have h1 : slash = true → passKw [] true [(n, x)] [] kwargs = .ok ([(n, x)], kwargs) := fun _ => passKw_free [] [(n, x)] hk (by simp)
  have h2 : slash = false → passKw [n] true [(n, x)] [] kwargs = .ok ([(n, x)], kwargs) :=
    fun h => passKw_free [n] [(n, x)] hk (by simpa using hn h)
  cases slash <;> cases args <;> cases kwargs <;>
  simp_all [bound, sigBind, fwdParams, keywords, hasVarKw, hasVarPos, List.filter_cons, Param.named, Param.pos, Bind.bind, Except.bind,
    collect, given, boundArgs, kwItems, Dict.get?, Dict.ofList_of_nodup]

/-! ### Specification -/

/-- Names that a wrapper keeps for itself: keyword arguments cannot have them. -/
def reserved : Wrapper → List String
  | .jit => []
  | .jac => []
  | .customVjp => []
  | .valueAndGrad => ["self", "_diff_x", "_nondiff_x"]
  | .grad => ["self", "_diff_x", "_nondiff_x"]
  | .noinline => ["self", "__dynamic_fn"]
  | .customJvp => ["self"]
  | .checkpoint => ["self"]
  | .makeJaxpr => ["self"]
  | .maxTraces => ["self"]
  | .closure => ["self"]

/-- Wrappers that take the first argument by position only. -/
def firstByPosition (w : Wrapper) : Prop := w = .valueAndGrad ∨ w = .grad ∨ w = .jac ∨ w = .customVjp

/-- Wrappers that ask for the signature of their function. -/
def asksSignature (w : Wrapper) : Prop := w = .jit ∨ w = .maxTraces

/-- Wrappers (the outermost first) that want an argument by position: one of those that take the first argument by position, or a noinlined
function somewhere inside of `filter_jit` or `assert_max_traces`. -/
def WantsFirst : List Wrapper → Prop
  | [] => False
  | w :: ws => firstByPosition w ∨ (asksSignature w ∧ .noinline ∈ ws) ∨ WantsFirst ws

/-- No keyword has a reserved name. -/
def Free (ws : List Wrapper) (kwargs : Dict String V) : Prop := ∀ w ∈ ws, ∀ n ∈ reserved w, n ∉ kwargs.keys

/-! ### Stacks of wrappers -/

theorem sig_cases (ps : List (Param String V)) (ws : List Wrapper) :
    sigOf ps ws = ps ∨ sigOf ps ws = fwdParams [] false ∨
    ((∃ n, sigOf ps ws = fwdParams [n] true) ∧ WantsFirst ws) ∨
    (sigOf ps ws = fwdParams ["__dynamic_fn"] false ∧ .noinline ∈ ws) := by
  induction ws with
  | nil => exact .inl rfl
  | cons w ws ih =>
    have hrec : (sigOf ps (w :: ws) = sigOf ps ws) → _ := fun (h : sigOf ps (w :: ws) = sigOf ps ws) =>
      (show sigOf ps (w :: ws) = ps ∨ sigOf ps (w :: ws) = fwdParams [] false ∨
        ((∃ n, sigOf ps (w :: ws) = fwdParams [n] true) ∧ WantsFirst (w :: ws)) ∨
        (sigOf ps (w :: ws) = fwdParams ["__dynamic_fn"] false ∧ .noinline ∈ w :: ws) by
        rw [h]
        rcases ih with h | h | ⟨h, h'⟩ | ⟨h, h'⟩
        · exact .inl h
        · exact .inr (.inl h)
        · exact .inr (.inr (.inl ⟨h, .inr (.inr h')⟩))
        · exact .inr (.inr (.inr ⟨h, List.mem_cons_of_mem _ h'⟩)))
    cases w with
    | jac => exact .inr (.inr (.inl ⟨⟨_, rfl⟩, .inl (.inr (.inr (.inl rfl)))⟩))
    | customVjp => exact .inr (.inr (.inl ⟨⟨_, rfl⟩, .inl (.inr (.inr (.inr rfl)))⟩))
    | customJvp => exact .inr (.inl rfl)
    | closure => exact .inr (.inl rfl)
    | noinline => exact .inr (.inr (.inr ⟨rfl, by simp⟩))
    | jit => exact hrec rfl
    | valueAndGrad => exact hrec rfl
    | grad => exact hrec rfl
    | checkpoint => exact hrec rfl
    | makeJaxpr => exact hrec rfl
    | maxTraces => exact hrec rfl

theorem sigBind_of_bound {ps : List (Param String V)} {args : List V} {kwargs : Dict String V} {r : List V × Dict String V}
    (h : bound ps args kwargs = .ok r) : ∃ l, sigBind ps args kwargs = .ok l := by
  cases hs : sigBind ps args kwargs with
  | ok l => exact ⟨l, rfl⟩
  | error e => simp only [bound, hs, Bind.bind, Except.bind] at h; cases h

/-- What asking for the signature does, in front of wrappers. -/
theorem sig_same {ps : List (Param String V)} (hv : Valid ps) (w : Wrapper) (hw : asksSignature w) (ws : List Wrapper) (args : List V)
    {kwargs : Dict String V} (hk : kwargs.keys.Nodup) (hfree : Free ws kwargs) (hf : args ≠ [] ∨ ¬ WantsFirst (w :: ws)) :
    (∃ l args' kwargs', sigBind (sigOf ps ws) args kwargs = .ok l ∧ bound (sigOf ps ws) args kwargs = .ok (args', kwargs') ∧
      bind ps args' kwargs' = bind ps args kwargs ∧ args <+: args' ∧ (∀ n v, (n, v) ∈ kwargs' → (n, v) ∈ kwargs) ∧ kwargs'.keys.Nodup) ∨
    (bind ps args kwargs = .error .typeError ∧ sigBind (sigOf ps ws) args kwargs = .error .typeError ∧
      bound (sigOf ps ws) args kwargs = .error .typeError) := by
  have whole : bound (sigOf ps ws) args kwargs = .ok (args, kwargs) → (∃ l args' kwargs', sigBind (sigOf ps ws) args kwargs = .ok l ∧ bound (sigOf ps ws) args kwargs = .ok (args', kwargs') ∧
        bind ps args' kwargs' = bind ps args kwargs ∧ args <+: args' ∧ (∀ n v, (n, v) ∈ kwargs' → (n, v) ∈ kwargs) ∧ kwargs'.keys.Nodup) ∨
      (bind ps args kwargs = .error .typeError ∧ sigBind (sigOf ps ws) args kwargs = .error .typeError ∧
        bound (sigOf ps ws) args kwargs = .error .typeError) := by
    intro h
    obtain ⟨l, hl⟩ := sigBind_of_bound h
    exact .inl ⟨l, args, kwargs, hl, h, rfl, List.prefix_refl _, fun _ _ h => h, hk⟩
  rcases sig_cases ps ws with h | h | ⟨⟨n, h⟩, h'⟩ | ⟨h, h'⟩
  · rw [h]
    obtain ⟨h1, h2⟩ := bound_same hv args hk
    cases hb : bind ps args kwargs with
    | ok b =>
      obtain ⟨a, k, h3, h4, h5, h6, h7, _⟩ := h1 b hb
      obtain ⟨l, hl⟩ := sigBind_of_bound h3
      exact .inl ⟨l, a, k, hl, h3, h4, h5, h6, h7⟩
    | error e =>
      obtain ⟨rfl, h3⟩ := h2 e hb
      exact .inr ⟨rfl, sigBind_error ps args kwargs _ hb, h3⟩
  · exact whole (by rw [h]; exact bound_zero _ _ hk)
  · cases args with
    | nil => exact absurd (.inr (.inr h')) (hf.resolve_left (by simp))
    | cons x args => exact whole (by rw [h]; exact bound_one _ _ _ _ hk (by simp))
  · cases args with
    | nil => exact absurd (.inr (.inl ⟨hw, h'⟩)) (hf.resolve_left (by simp))
    | cons x args =>
      exact whole (by rw [h]; exact bound_one _ _ _ _ hk fun _ => hfree _ h' _ (by simp [reserved]))

theorem valueAndGradStep_eq (self x : V) (args : List V) {kwargs : Dict String V} (hk : kwargs.keys.Nodup)
    (h : ∀ n ∈ reserved .valueAndGrad, n ∉ kwargs.keys) : valueAndGradStep self (x :: args) kwargs = .ok (x :: args, kwargs) := by
  have h1 := h "self" (by simp [reserved])
  have h2 := h "_diff_x" (by simp [reserved])
  have h3 := h "_nondiff_x" (by simp [reserved])
  simp [valueAndGradStep, forward_one _ _ _ _ hk, forward_two "_diff_x" "_nondiff_x" (by decide) _ _ _ _ hk, h1, h2, h3, Bind.bind, Except.bind]

/-- **C108**: a function in any number of wrappers, in any order (`filter_jit`, `filter_value_and_grad`, `filter_grad`, `filter_jacfwd` or
`filter_jacrev`, `filter_custom_jvp`, `filter_custom_vjp`, `filter_checkpoint`, `filter_make_jaxpr`, `assert_max_traces`, `noinline`,
`closure_to_pytree`) finds its parameters bound as in a direct call, with the same defaults, `*args` and `**kwargs`; and what the function refuses
is refused with `TypeError`. This is for keywords that do not have the names that the wrappers keep for themselves, and for calls with an argument
by position if a wrapper wants one. -/
theorem passes_partial (self : V) {ps : List (Param String V)} (hv : Valid ps) (ws : List Wrapper) (args : List V) {kwargs : Dict String V}
    (hk : kwargs.keys.Nodup) (hfree : Free ws kwargs) (hf : args ≠ [] ∨ ¬ WantsFirst ws) :
    enter self ps ws args kwargs = bind ps args kwargs := by
  induction ws generalizing args kwargs with
  | nil => rfl
  | cons w ws ih =>
    have hfree' : Free ws kwargs := fun u hu => hfree u (List.mem_cons_of_mem _ hu)
    have hw : ∀ n ∈ reserved w, n ∉ kwargs.keys := hfree w (by simp)
    have hf' : args ≠ [] ∨ ¬ WantsFirst ws := hf.imp id fun h h' => h (.inr (.inr h'))
    have plain : step self (sigOf ps ws) w args kwargs = .ok (args, kwargs) → enter self ps (w :: ws) args kwargs = bind ps args kwargs := by
      intro h
      simp only [enter, h, Bind.bind, Except.bind]
      exact ih args hk hfree' hf'
    have first : firstByPosition w → ∃ x rest, args = x :: rest := by
      intro h
      cases args with
      | nil => exact absurd (.inl h) (hf.resolve_left (by simp))
      | cons x rest => exact ⟨x, rest, rfl⟩
    cases w with
    | jit =>
      simp only [enter, step, forward_one _ _ _ _ hk, Bool.true_eq_false, false_and, if_false, Bind.bind, Except.bind]
      rcases sig_same hv .jit (.inl rfl) ws args hk hfree' hf with ⟨l, a, k, _, h1, h2, h3, h4, h5⟩ | ⟨h1, _, h2⟩
      · rw [h1]
        simp only
        rw [← h2]
        refine ih a h5 ?_ ?_
        · intro u hu n hn hm
          obtain ⟨⟨n', v⟩, hm', rfl⟩ := List.mem_map.1 hm
          exact hfree' u hu _ hn (List.mem_map.2 ⟨_, h4 _ _ hm', rfl⟩)
        · refine hf'.imp ?_ id
          rintro hne rfl
          exact hne (List.prefix_nil.1 h3)
      · rw [h2, h1]
    | maxTraces =>
      have hs := hw "self" (by simp [reserved])
      rcases sig_same hv .maxTraces (.inr rfl) ws args hk hfree' hf with ⟨l, _, _, h1, _⟩ | ⟨h1, h2, _⟩
      · exact plain (by simp [step, forward_one _ _ _ _ hk, hs, h1, Bind.bind, Except.bind])
      · rw [h1]
        simp [enter, step, forward_one _ _ _ _ hk, hs, h2, Bind.bind, Except.bind]
    | valueAndGrad =>
      obtain ⟨x, rest, rfl⟩ := first (.inl rfl)
      exact plain (valueAndGradStep_eq self x rest hk hw)
    | grad =>
      obtain ⟨x, rest, rfl⟩ := first (.inr (.inl rfl))
      exact plain (by
        simp only [step, forward_one _ _ _ _ hk, Bool.true_eq_false, false_and, if_false, Bind.bind, Except.bind]
        exact valueAndGradStep_eq self x rest hk hw)
    | jac =>
      obtain ⟨x, rest, rfl⟩ := first (.inr (.inr (.inl rfl)))
      exact plain (by simp [step, forward_two "self" "x" (by decide) _ _ _ _ hk, Bind.bind, Except.bind])
    | customVjp =>
      obtain ⟨x, rest, rfl⟩ := first (.inr (.inr (.inr rfl)))
      exact plain (by simp [step, forward_two "self" "vjp_arg" (by decide) _ _ _ _ hk, Bind.bind, Except.bind])
    | noinline =>
      have h1 := hw "self" (by simp [reserved])
      have h2 := hw "__dynamic_fn" (by simp [reserved])
      exact plain (by simp [step, forward_one _ _ _ _ hk, h1, h2, Bind.bind, Except.bind])
    | customJvp => exact plain (by simp [step, forward_one _ _ _ _ hk, hw "self" (by simp [reserved]), Bind.bind, Except.bind])
    | checkpoint => exact plain (by simp [step, forward_one _ _ _ _ hk, hw "self" (by simp [reserved]), Bind.bind, Except.bind])
    | makeJaxpr => exact plain (by simp [step, forward_one _ _ _ _ hk, hw "self" (by simp [reserved]), Bind.bind, Except.bind])
    | closure => exact plain (by simp [step, forward_one _ _ _ _ hk, hw "self" (by simp [reserved]), Bind.bind, Except.bind])

/-- **C108**: `filter_jit` alone passes on all arguments, whatever their names. -/
theorem jit_passes (self : V) {ps : List (Param String V)} (hv : Valid ps) (args : List V) {kwargs : Dict String V} (hk : kwargs.keys.Nodup) :
    enter self ps [.jit] args kwargs = bind ps args kwargs := by
  refine passes_partial self hv [.jit] args hk ?_ (.inr ?_)
  · intro w hw n hn
    simp only [List.mem_singleton] at hw
    subst hw
    simp [reserved] at hn
  · simp [WantsFirst, firstByPosition]

/-- **C108**: a keyword with a name that the wrapper keeps for itself is refused with `TypeError`, whatever the wrapped function is. -/
theorem reserved_refused (self : V) (ps : List (Param String V)) (w : Wrapper) (ws : List Wrapper) (args : List V) {kwargs : Dict String V}
    (hk : kwargs.keys.Nodup) (n : String) (hn : n ∈ reserved w) (hm : n ∈ kwargs.keys) :
    enter self ps (w :: ws) args kwargs = .error .typeError := by
  have hvg : n ∈ reserved .valueAndGrad → valueAndGradStep self args kwargs = .error .typeError := by
    intro hn
    by_cases hs : "self" ∈ kwargs.keys
    · simp [valueAndGradStep, forward_one _ _ _ _ hk, hs, Bind.bind, Except.bind]
    · cases args with
      | nil => simp [valueAndGradStep, forward_one _ _ _ _ hk, hs, Bind.bind, Except.bind]
      | cons x args =>
        have : "_diff_x" ∈ kwargs.keys ∨ "_nondiff_x" ∈ kwargs.keys := by
          simp only [reserved, List.mem_cons, List.not_mem_nil, or_false] at hn
          rcases hn with rfl | rfl | rfl
          · exact absurd hm hs
          · exact .inl hm
          · exact .inr hm
        simp [valueAndGradStep, forward_one _ _ _ _ hk, forward_two "_diff_x" "_nondiff_x" (by decide) _ _ _ _ hk, hs, this, Bind.bind, Except.bind]
  have hstep : step self (sigOf ps ws) w args kwargs = .error .typeError := by
    cases w with
    | jit => simp [reserved] at hn
    | jac => simp [reserved] at hn
    | customVjp => simp [reserved] at hn
    | valueAndGrad => exact hvg hn
    | grad =>
      simp only [step, forward_one _ _ _ _ hk, Bool.true_eq_false, false_and, if_false, Bind.bind, Except.bind]
      exact hvg hn
    | noinline =>
      by_cases hs : "self" ∈ kwargs.keys
      · simp [step, forward_one _ _ _ _ hk, hs, Bind.bind, Except.bind]
      · have : "__dynamic_fn" ∈ kwargs.keys := by
          simp only [reserved, List.mem_cons, List.not_mem_nil, or_false] at hn
          rcases hn with rfl | rfl
          · exact absurd hm hs
          · exact hm
        simp [step, forward_one _ _ _ _ hk, hs, this, Bind.bind, Except.bind]
    | _ =>
      simp only [reserved, List.mem_singleton] at hn
      subst hn
      simp [step, forward_one _ _ _ _ hk, hm, Bind.bind, Except.bind]
  simp only [enter, hstep, Bind.bind, Except.bind]

/-- **C108**: wrappers that take the first argument by position refuse calls with keywords only, whatever the wrapped function is. -/
theorem first_refused (self : V) (ps : List (Param String V)) (w : Wrapper) (hw : firstByPosition w) (ws : List Wrapper) {kwargs : Dict String V}
    (hk : kwargs.keys.Nodup) : enter self ps (w :: ws) [] kwargs = .error .typeError := by
  have hvg : valueAndGradStep self [] kwargs = .error .typeError := by
    by_cases hs : "self" ∈ kwargs.keys <;> simp [valueAndGradStep, forward_one _ _ _ _ hk, hs, Bind.bind, Except.bind]
  have hstep : step self (sigOf ps ws) w [] kwargs = .error .typeError := by
    rcases hw with rfl | rfl | rfl | rfl
    · exact hvg
    · simp only [step, forward_one _ _ _ _ hk, Bool.true_eq_false, false_and, if_false, Bind.bind, Except.bind]
      exact hvg
    · simp [step, forward_missing "self" "x" (by decide) _ hk, Bind.bind, Except.bind]
    · simp [step, forward_missing "self" "vjp_arg" (by decide) _ hk, Bind.bind, Except.bind]
  simp only [enter, hstep, Bind.bind, Except.bind]

/-- The wrappers whose `__wrapped__` is their function. -/
def transparent (w : Wrapper) : Prop :=
  w = .jit ∨ w = .valueAndGrad ∨ w = .grad ∨ w = .checkpoint ∨ w = .makeJaxpr ∨ w = .maxTraces

/-- **C108**: but `filter_jit` around them passes the first argument by position, if the function has a name for it: such calls then do what a
direct call does. -/
theorem jit_moves_first (self : V) {p : Param String V} {ps : List (Param String V)} (hv : Valid (p :: ps)) (hp : p.kind = .posOrKw)
    (ws : List Wrapper) (hws : ∀ w ∈ ws, transparent w) {kwargs : Dict String V} (hk : kwargs.keys.Nodup) (hfree : Free ws kwargs)
    (hm : p.name ∈ kwargs.keys) : enter self (p :: ps) (.jit :: ws) [] kwargs = bind (p :: ps) [] kwargs := by
  have hsig : sigOf (p :: ps) ws = p :: ps := by
    clear hfree
    induction ws with
    | nil => rfl
    | cons w ws ih =>
      have := ih fun u hu => hws u (List.mem_cons_of_mem _ hu)
      rcases hws w (by simp) with rfl | rfl | rfl | rfl | rfl | rfl <;> exact this
  simp only [enter, step, forward_one _ _ _ _ hk, Bool.true_eq_false, false_and, if_false, Bind.bind, Except.bind, hsig]
  obtain ⟨h1, h2⟩ := bound_same hv [] hk
  cases hb : bind (p :: ps) [] kwargs with
  | error e =>
    obtain ⟨rfl, h3⟩ := h2 e hb
    rw [h3]
  | ok b =>
    obtain ⟨a, k, h3, h4, _, h6, h7, h8⟩ := h1 b hb
    rw [h3]
    simp only
    rw [← h4]
    obtain ⟨⟨m, v⟩, hmem, hname⟩ := List.mem_map.1 hm
    refine passes_partial self hv ws a h7 ?_ (.inl (h8 p v rfl hp (by simpa [← hname] using hmem)))
    intro u hu n hn hnk
    obtain ⟨⟨n', v'⟩, hm', rfl⟩ := List.mem_map.1 hnk
    exact hfree u hu _ hn (List.mem_map.2 ⟨_, h6 _ _ hm', rfl⟩)

/-- **C108**: a noinlined function directly in `filter_jit` (or `assert_max_traces`) cannot be called without arguments by position, though the
noinlined function itself can. -/
theorem jit_noinline (self : V) {ps : List (Param String V)} (hv : Valid ps) (w : Wrapper) (hw : asksSignature w) (ws : List Wrapper)
    {kwargs : Dict String V} (hk : kwargs.keys.Nodup) (h1 : "self" ∉ kwargs.keys) (h2 : "__dynamic_fn" ∉ kwargs.keys) :
    enter self ps (w :: .noinline :: ws) [] kwargs = .error .typeError ∧ enter self ps [.noinline] [] kwargs = bind ps [] kwargs := by
  constructor
  · have hs : sigBind (fwdParams ["__dynamic_fn"] false) [] kwargs = .error .typeError := by
      have := passKw_free ["__dynamic_fn"] ([] : Dict String V) hk (by simpa using h2)
      simp [sigBind, fwdParams, keywords, hasVarKw, hasVarPos, List.filter_cons, Param.named, Param.pos, this, collect, given, Dict.get?, Bind.bind, Except.bind]
    rcases hw with rfl | rfl
    · simp [enter, step, forward_one _ _ _ _ hk, sigOf, bound, hs, Bind.bind, Except.bind]
    · simp [enter, step, forward_one _ _ _ _ hk, h1, sigOf, hs, Bind.bind, Except.bind]
  · refine passes_partial self hv [.noinline] [] hk ?_ (.inr ?_)
    · intro w hw n hn
      simp only [List.mem_singleton] at hw
      subst hw
      simp only [reserved, List.mem_cons, List.not_mem_nil, or_false] at hn
      rcases hn with rfl | rfl
      · exact h1
      · exact h2
    · simp [WantsFirst, firstByPosition, asksSignature]

/-- **C108**: methods of modules get the module in front of the arguments, unless there is a keyword `self`. -/
theorem method_iff (self : V) (ps : List (Param String V)) (obj : V) (args : List V) {kwargs : Dict String V} (hk : kwargs.keys.Nodup) :
    ("self" ∉ kwargs.keys → method self ps obj args kwargs = bind ps (obj :: args) kwargs) ∧
    ("self" ∈ kwargs.keys → method self ps obj args kwargs = .error .typeError) := by
  constructor <;> intro h <;> simp [method, forward_one _ _ _ _ hk, h, Bind.bind, Except.bind]

/-- **C108**: `filter_jit(f).lower` takes the arguments of `f`, unless there is a keyword `self`. -/
theorem lower_iff (self : V) {ps : List (Param String V)} (hv : Valid ps) (args : List V) {kwargs : Dict String V} (hk : kwargs.keys.Nodup) :
    ("self" ∉ kwargs.keys → lower self ps args kwargs = bind ps args kwargs) ∧
    ("self" ∈ kwargs.keys → lower self ps args kwargs = .error .typeError) := by
  constructor
  · intro h
    simp only [lower, forward_one _ _ _ _ hk, h, Bool.true_eq_false, and_false, if_false, Bind.bind, Except.bind]
    obtain ⟨h1, h2⟩ := bound_same hv args hk
    cases hb : bind ps args kwargs with
    | error e =>
      obtain ⟨rfl, h3⟩ := h2 e hb
      rw [h3]
    | ok b =>
      obtain ⟨a, k, h3, h4, _⟩ := h1 b hb
      rw [h3]
      exact h4
  · intro h
    simp [lower, forward_one _ _ _ _ hk, h, Bind.bind, Except.bind]

/-! ### Concrete cases -/

/-- `def f(x, y=7, *rest, z, **more)`. -/
def exParams : List (Param String Nat) :=
  [⟨"x", .posOrKw, none⟩, ⟨"y", .posOrKw, some 7⟩, ⟨"rest", .varPos, none⟩, ⟨"z", .kwOnly, none⟩, ⟨"more", .varKw, none⟩]

theorem exParams_valid : Valid exParams := by
  refine ⟨?_, by decide, ?_⟩ <;> simp [exParams, place]

/-- `f(z=3, w=4, x=1)` becomes `f(1, z=3, w=4)`. -/
example : bound exParams [] [("z", 3), ("w", 4), ("x", 1)] = .ok ([1], [("z", 3), ("w", 4)]) := rfl

example : bound exParams [1, 2, 5] [("z", 3)] = .ok ([1, 2, 5], [("z", 3)]) := rfl

/-- `def g(x=1, y=2)`: `g(y=5)` stays, as `x` is missing. -/
example : bound [⟨"x", .posOrKw, some 1⟩, ⟨"y", .posOrKw, some 2⟩] [] [("y", 5)] = .ok ([], [("y", 5)]) := rfl

/-- All the wrappers at once. -/
def exStack : List Wrapper :=
  [.jit, .valueAndGrad, .maxTraces, .grad, .jac, .customJvp, .customVjp, .checkpoint, .makeJaxpr, .noinline, .closure]

example : Free exStack [("z", 3), ("w", 4)] ∧ enter 0 exParams exStack [1, 2, 5] [("z", 3), ("w", 4)] =
    .ok [("x", .one 1), ("y", .one 2), ("rest", .tuple [5]), ("z", .one 3), ("more", .dict [("w", 4)])] :=
  ⟨by simp [Free, exStack, reserved, Dict.keys], rfl⟩

example : enter 0 exParams exStack [1, 2, 5] [] = .error .typeError := rfl

example : ¬ WantsFirst [.checkpoint, .noinline, .jit, .customJvp] := by simp [WantsFirst, firstByPosition, asksSignature]

/-- `filter_grad(f)(x=1, z=3)` is refused, `filter_jit(filter_grad(f))(x=1, z=3)` is not. -/
example : enter 0 exParams [.grad] [] [("x", 1), ("z", 3)] = .error .typeError ∧
    enter 0 exParams [.jit, .grad] [] [("x", 1), ("z", 3)] =
      .ok [("x", .one 1), ("y", .one 7), ("rest", .tuple []), ("z", .one 3), ("more", .dict [])] := ⟨rfl, rfl⟩

/-- **C108**: the keyword `self`, for `def f(x, **kwargs)`: `f` and `filter_jit(f)` take it, but the wrappers that keep the name for themselves
and `filter_jit(f).lower` raise `TypeError`. -/
theorem keyword_self : ∃ (ps : List (Param String Nat)) (args : List Nat) (kwargs : Dict String Nat) (b : List (String × Held String Nat)),
    Valid ps ∧ bind ps args kwargs = .ok b ∧ enter 0 ps [.jit] args kwargs = .ok b ∧ lower 0 ps args kwargs = .error .typeError ∧
      ∀ w, "self" ∈ reserved w → enter 0 ps [w] args kwargs = .error .typeError := by
  refine ⟨[⟨"x", .posOrKw, none⟩, ⟨"kwargs", .varKw, none⟩], [1], [("self", 2)], [("x", .one 1), ("kwargs", .dict [("self", 2)])], ?_, rfl, rfl,
    rfl, ?_⟩
  · refine ⟨?_, by decide, ?_⟩ <;> simp [place]
  · intro w hw
    exact reserved_refused 0 _ w [] _ (by decide) "self" hw (by decide)

/-- **C108**: `def f(x, *, _diff_x)`: `filter_grad(f)` cannot be called. -/
theorem keyword_diff_x : ∃ (ps : List (Param String Nat)) (args : List Nat) (kwargs : Dict String Nat) (b : List (String × Held String Nat)),
    Valid ps ∧ bind ps args kwargs = .ok b ∧ enter 0 ps [.jit] args kwargs = .ok b ∧ enter 0 ps [.grad] args kwargs = .error .typeError := by
  refine ⟨[⟨"x", .posOrKw, none⟩, ⟨"_diff_x", .kwOnly, none⟩], [1], [("_diff_x", 2)], [("x", .one 1), ("_diff_x", .one 2)], ?_, rfl, rfl, rfl⟩
  refine ⟨?_, by decide, ?_⟩ <;> simp [place]

/-- **C108**: `def f(x)`, called as `f(x=1)`: fine noinlined, but not noinlined in `filter_jit`. -/
theorem noinline_keyword : ∃ (ps : List (Param String Nat)) (kwargs : Dict String Nat) (b : List (String × Held String Nat)),
    Valid ps ∧ bind ps [] kwargs = .ok b ∧ enter 0 ps [.noinline] [] kwargs = .ok b ∧ enter 0 ps [.jit] [] kwargs = .ok b ∧
      enter 0 ps [.jit, .noinline] [] kwargs = .error .typeError := by
  refine ⟨[⟨"x", .posOrKw, none⟩], [("x", 1)], [("x", .one 1)], ?_, rfl, rfl, rfl, rfl⟩
  refine ⟨?_, by decide, ?_⟩ <;> simp

/-- A method `def m(self, /, **kwargs)` of a module. -/
example : method 0 [⟨"self", .posOnly, none⟩, ⟨"kwargs", .varKw, none⟩] 9 [] [("self", 1)] = .error .typeError ∧
    bind [⟨"self", .posOnly, none⟩, ⟨"kwargs", .varKw, none⟩] [9] [("self", 1)] = .ok [("self", .one 9), ("kwargs", .dict [("self", 1)])] :=
  ⟨rfl, rfl⟩

end Verif.Module.Forward
