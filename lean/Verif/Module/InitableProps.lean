import Verif.Module.Initable
import Mathlib.Logic.Basic
import Mathlib.Data.List.Nodup
import Mathlib.Data.List.Induction

/-!
# What is proved about the class a module has while it is being made (C105)
-/

namespace Verif.Module.Initable

variable {N F V : Type}

/-! ### Specification -/

/-- An attribute is found along a method resolution order: in the first class that has it. -/
def Resolves (mro : List Nat) (own : Nat → Option F) (r : Option F) : Prop :=
  (∃ pre c post f, mro = pre ++ c :: post ∧ own c = some f ∧ r = some f ∧ ∀ d ∈ pre, own d = none) ∨
  (r = none ∧ ∀ d ∈ mro, own d = none)

/-- After these events the `__init__` in the `__dict__` of class `c` is `f`: it was last assigned or deleted so, or was always so. -/
def InitNow (init : Nat → Option F) (h : List (Event N F V)) (c : Nat) (f : Option F) : Prop :=
  (∃ pre post, h = pre ++ .setInit c f :: post ∧ ∀ g, Event.setInit c g ∉ post) ∨ (f = init c ∧ ∀ g, Event.setInit c g ∉ h)

/-- The same for `__post_init__`. -/
def PostNow (post : Nat → Option F) (h : List (Event N F V)) (c : Nat) (f : Option F) : Prop :=
  (∃ pre h', h = pre ++ .setPost c f :: h' ∧ ∀ g, Event.setPost c g ∉ h') ∨ (f = post c ∧ ∀ g, Event.setPost c g ∉ h)

/-- What can happen while an `__init__` runs: anything, where the calls of classes that begin also end. -/
inductive Body : List (Event N F V) → Prop where
  | nil : Body []
  | atom {e b} : (∀ c, e ≠ .start c) → e ≠ .finish → e ≠ .fail → e ≠ .failCheck → Body b → Body (e :: b)
  | call {c b e b'} : Body b → (e = .finish ∨ e = .fail ∨ e = .failCheck) → Body b' → Body (.start c :: (b ++ e :: b'))

variable [DecidableEq N] [DecidableEq F]

/-! ### Lemmas -/

omit [DecidableEq F] in
theorem lookup_resolves (own : Nat → Option F) (mro : List Nat) : Resolves mro own (lookup own mro) := by
  induction mro with
  | nil => right; simp [lookup]
  | cons c cs ih =>
    unfold lookup
    cases hc : own c with
    | some f => exact .inl ⟨[], c, cs, f, rfl, hc, rfl, by simp⟩
    | none =>
      rcases ih with ⟨pre, d, post, f, rfl, hd, hr, hpre⟩ | ⟨hr, hn⟩
      · refine .inl ⟨c :: pre, d, post, f, rfl, hd, hr, ?_⟩
        intro x hx
        rcases List.mem_cons.1 hx with rfl | hx
        · exact hc
        · exact hpre x hx
      · refine .inr ⟨hr, ?_⟩
        intro x hx
        rcases List.mem_cons.1 hx with rfl | hx
        · exact hc
        · exact hn x hx

omit [DecidableEq F] in
theorem resolves_lookup {own : Nat → Option F} {mro : List Nat} {r : Option F} (h : Resolves mro own r) : lookup own mro = r := by
  rcases h with ⟨pre, c, post, f, rfl, hc, rfl, hpre⟩ | ⟨rfl, hn⟩
  · induction pre with
    | nil => simp [lookup, hc]
    | cons d pre ih =>
      rw [List.cons_append, lookup, hpre d (by simp)]
      exact ih fun x hx => hpre x (by simp [hx])
  · induction mro with
    | nil => rfl
    | cons d mro ih =>
      rw [lookup, hn d (by simp)]
      exact ih fun x hx => hn x (by simp [hx])

omit [DecidableEq F] in
theorem lookup_congr {own own' : Nat → Option F} {mro : List Nat} (h : ∀ d ∈ mro, own d = own' d) : lookup own mro = lookup own' mro := by
  induction mro with
  | nil => rfl
  | cons d mro ih =>
    rw [lookup, lookup, h d (by simp), ih fun x hx => h x (by simp [hx])]

theorem run_append (H : Hier N F) (s : State N F V) (h h' : List (Event N F V)) : run H s (h ++ h') = run H (run H s h) h' := by
  induction h generalizing s with
  | nil => rfl
  | cons e h ih => simp only [List.cons_append, run]; exact ih _

theorem makeInitable_rest (H : Hier N F) (s : State N F V) (k : Key F) :
    (makeInitable H s k).2.init = s.init ∧ (makeInitable H s k).2.post = s.post ∧ (makeInitable H s k).2.objs = s.objs ∧
    (makeInitable H s k).2.stack = s.stack := by
  unfold makeInitable; split <;> simp

theorem makeInitable_temps (H : Hier N F) (s : State N F V) (k : Key F) :
    ∃ l, (makeInitable H s k).2.temps = s.temps ++ l := by
  unfold makeInitable; split
  · exact ⟨[], by simp⟩
  · exact ⟨_, rfl⟩

theorem setattr_rest (s : State N F V) (o : Nat) (n : N) (v : V) :
    (setattr s o n v).1.init = s.init ∧ (setattr s o n v).1.post = s.post ∧ (setattr s o n v).1.temps = s.temps ∧
    (setattr s o n v).1.cache = s.cache ∧ (setattr s o n v).1.stack = s.stack := by
  unfold setattr modify
  repeat' split
  all_goals simp

theorem callPost_state (H : Hier N F) (s : State N F V) (o : Nat) : (callPost H s o).1 = s := by
  unfold callPost; repeat' split
  all_goals rfl

/-- Only `setInit` changes the `__init__`s, and so on. -/
theorem step_init (H : Hier N F) (s : State N F V) (e : Event N F V) (d : Nat) :
    (step H s e).1.init d = match e with | .setInit c f => if d = c then f else s.init d | _ => s.init d := by
  cases e <;> simp only [step]
  case start c =>
    unfold start; simp only; split
    · rfl
    · simp [(makeInitable_rest H s (keyOf H s c)).1]
  case finish => split <;> simp [modify]
  case fail => split <;> simp
  case failCheck => split <;> simp [modify]
  case setattr o n v => rw [(setattr_rest s o n v).1]
  case callPost o => rw [callPost_state]
  case copy o => unfold copy; split <;> rfl
  case updateWrapper o look =>
    unfold updateWrapper; simp only; repeat' split
    all_goals first | rfl | simp [modify, (makeInitable_rest H s _).1]

theorem step_post (H : Hier N F) (s : State N F V) (e : Event N F V) (d : Nat) :
    (step H s e).1.post d = match e with | .setPost c f => if d = c then f else s.post d | _ => s.post d := by
  cases e <;> simp only [step]
  case start c =>
    unfold start; simp only; split
    · rfl
    · simp [(makeInitable_rest H s (keyOf H s c)).2.1]
  case finish => split <;> simp [modify]
  case fail => split <;> simp
  case failCheck => split <;> simp [modify]
  case setattr o n v => rw [(setattr_rest s o n v).2.1]
  case callPost o => rw [callPost_state]
  case copy o => unfold copy; split <;> rfl
  case updateWrapper o look =>
    unfold updateWrapper; simp only; repeat' split
    all_goals first | rfl | simp [modify, (makeInitable_rest H s _).2.1]

theorem initNow (H : Hier N F) (s : State N F V) (h : List (Event N F V)) (c : Nat) (f : Option F)
    (hf : InitNow s.init h c f) : (run H s h).init c = f := by
  induction h generalizing s with
  | nil =>
    rcases hf with ⟨pre, post, hp, -⟩ | ⟨rfl, -⟩
    · simp at hp
    · rfl
  | cons e h ih =>
    simp only [run]
    apply ih
    rcases hf with ⟨pre, post, hp, hn⟩ | ⟨rfl, hn⟩
    · cases pre with
      | nil =>
        simp only [List.nil_append, List.cons.injEq] at hp
        obtain ⟨rfl, rfl⟩ := hp
        exact .inr ⟨by simp [step], hn⟩
      | cons e' pre =>
        simp only [List.cons_append, List.cons.injEq] at hp
        exact .inl ⟨pre, post, hp.2, hn⟩
    · refine .inr ⟨?_, fun g hg => hn g (by simp [hg])⟩
      rw [step_init]
      cases e <;> try rfl
      case setInit d g =>
        by_cases hd : c = d
        · subst hd; exact absurd (by simp) (hn g)
        · simp [hd]

theorem postNow (H : Hier N F) (s : State N F V) (h : List (Event N F V)) (c : Nat) (f : Option F)
    (hf : PostNow s.post h c f) : (run H s h).post c = f := by
  induction h generalizing s with
  | nil =>
    rcases hf with ⟨pre, post, hp, -⟩ | ⟨rfl, -⟩
    · simp at hp
    · rfl
  | cons e h ih =>
    simp only [run]
    apply ih
    rcases hf with ⟨pre, post, hp, hn⟩ | ⟨rfl, hn⟩
    · cases pre with
      | nil =>
        simp only [List.nil_append, List.cons.injEq] at hp
        obtain ⟨rfl, rfl⟩ := hp
        exact .inr ⟨by simp [step], hn⟩
      | cons e' pre =>
        simp only [List.cons_append, List.cons.injEq] at hp
        exact .inl ⟨pre, post, hp.2, hn⟩
    · refine .inr ⟨?_, fun g hg => hn g (by simp [hg])⟩
      rw [step_post]
      cases e <;> try rfl
      case setPost d g =>
        by_cases hd : c = d
        · subst hd; exact absurd (by simp) (hn g)
        · simp [hd]

/-! ### The invariant -/

/-- The temporary class with number `i` is as a key of the cache says. -/
def Fits (H : Hier N F) (temps : List (Temp N F)) (k : Key F) (i : Nat) : Prop :=
  ∃ t, temps[i]? = some t ∧ t.base = k.cls ∧ t.allowed = (if k.wraps then H.wrapperNames else H.fields k.cls) ∧
    (k.wraps = false → k.init = some t.init)

structure Inv (H : Hier N F) (s : State N F V) : Prop where
  cache : ∀ e ∈ s.cache, Fits H s.temps e.1 e.2
  nodup : (s.stack.map Prod.fst).Nodup
  stack : ∀ p ∈ s.stack, ∃ x k t, s.objs[p.1]? = some x ∧ x.cls = .temp k ∧ s.temps[k]? = some t ∧ t.base = p.2 ∧
    t.allowed = H.fields p.2
  objs : ∀ (o : Nat) (x : Obj N V) (k : Nat), s.objs[o]? = some x → x.cls = .temp k → ∃ t, s.temps[k]? = some t

omit [DecidableEq N] [DecidableEq F] in
theorem Fits.append {H : Hier N F} {temps l : List (Temp N F)} {k : Key F} {i : Nat} (h : Fits H temps k i) : Fits H (temps ++ l) k i := by
  obtain ⟨t, ht, h⟩ := h
  exact ⟨t, by rw [List.getElem?_append_left (List.getElem?_eq_some_iff.1 ht).1]; exact ht, h⟩

theorem find_mem {k : Key F} {l : List (Key F × Nat)} {t : Nat} (h : find k l = some t) : (k, t) ∈ l := by
  induction l with
  | nil => simp [find] at h
  | cons e l ih =>
    unfold find at h
    split at h
    · rename_i he
      simp only [Option.some.injEq] at h
      rw [← he, ← h]; simp
    · exact List.mem_cons_of_mem _ (ih h)

theorem find_none {k : Key F} {l : List (Key F × Nat)} : find k l = none ↔ ∀ e ∈ l, e.1 ≠ k := by
  induction l with
  | nil => simp [find]
  | cons e l ih =>
    unfold find
    split
    · rename_i he; simp [he]
    · rename_i he; simp [he, ih]

/-- A key as the code uses them. -/
def Good (H : Hier N F) (s : State N F V) (k : Key F) : Prop := k.wraps = false → k.init = some (initOf H s k.cls)

theorem makeInitable_spec {H : Hier N F} {s : State N F V} (hc : ∀ e ∈ s.cache, Fits H s.temps e.1 e.2) {k : Key F} (hk : Good H s k) :
    Fits H (makeInitable H s k).2.temps k (makeInitable H s k).1 ∧
    ∀ e ∈ (makeInitable H s k).2.cache, Fits H (makeInitable H s k).2.temps e.1 e.2 := by
  unfold makeInitable
  split
  · rename_i t ht
    have hm := hc _ (find_mem ht)
    refine ⟨hm, ?_⟩
    intro e he
    simp only [List.mem_cons, List.mem_filter] at he
    rcases he with rfl | he
    · exact hm
    · exact hc e he.1
  · have hnew : Fits H (s.temps ++ [make H s k]) k s.temps.length :=
      ⟨make H s k, by simp, rfl, rfl, fun hw => by rw [hk hw]; rfl⟩
    refine ⟨hnew, ?_⟩
    intro e he
    have he := List.mem_of_mem_take he
    rcases List.mem_cons.1 he with rfl | he
    · exact hnew
    · exact (hc e he).append

omit [DecidableEq N] in
theorem keyOf_good (H : Hier N F) (s : State N F V) (c : Nat) : Good H s (keyOf H s c) := fun _ => rfl

omit [DecidableEq N] in
theorem wrapKey_good (H : Hier N F) (s : State N F V) (c : Nat) : Good H s (wrapKey c) := fun h => by simp [wrapKey] at h

/-- What `start` does, once the cache is known to be right. -/
theorem start_eq {H : Hier N F} {s : State N F V} (hc : ∀ e ∈ s.cache, Fits H s.temps e.1 e.2) (c : Nat) :
    ∃ s' k t, makeInitable H s (keyOf H s c) = (k, s') ∧ s'.temps[k]? = some t ∧ t.base = c ∧ t.allowed = H.fields c ∧
      t.init = initOf H s c ∧ (∀ e ∈ s'.cache, Fits H s'.temps e.1 e.2) ∧
      start H s c = ({ s' with objs := s.objs ++ [⟨.temp k, fun _ => none⟩], stack := (s.objs.length, c) :: s.stack },
        .init s.objs.length (initOf H s c)) := by
  obtain ⟨⟨t, ht, hb, ha, hi⟩, hc'⟩ := makeInitable_spec hc (keyOf_good H s c)
  have hi : t.init = initOf H s c := by
    have := hi rfl
    simp only [keyOf, Option.some.injEq] at this
    exact this.symm
  refine ⟨(makeInitable H s (keyOf H s c)).2, (makeInitable H s (keyOf H s c)).1, t, rfl, ht, hb, ha, hi, hc', ?_⟩
  obtain ⟨-, -, ho, hs⟩ := makeInitable_rest H s (keyOf H s c)
  unfold start
  simp only [ht, ho, hs, hi]

theorem updateWrapper_eq {H : Hier N F} {s : State N F V} (hc : ∀ e ∈ s.cache, Fits H s.temps e.1 e.2) {o : Nat} {x : Obj N V} {c : Nat}
    (hx : s.objs[o]? = some x) (hxc : x.cls = .user c) (look : N → Option V) :
    ∃ s' k, makeInitable H s (wrapKey c) = (k, s') ∧ (∀ e ∈ s'.cache, Fits H s'.temps e.1 e.2) ∧
      updateWrapper H s o look =
        (modify s' o fun x => { cls := .user c, dict := assignAll look H.wrapperNames x.dict }, .done) := by
  obtain ⟨⟨t, ht, hb, ha, hi⟩, hc'⟩ := makeInitable_spec hc (wrapKey_good H s c)
  refine ⟨(makeInitable H s (wrapKey c)).2, (makeInitable H s (wrapKey c)).1, rfl, hc', ?_⟩
  have ha : t.allowed = H.wrapperNames := ha
  have hf : H.wrapperNames.filter (fun n => decide (n ∈ t.allowed)) = H.wrapperNames := by
    rw [List.filter_eq_self]; intro n hn; simp [ha, hn]
  unfold updateWrapper
  simp only [hx, hxc, ht, hf]

omit [DecidableEq N] in
theorem updateWrapper_cases {motive : Prop} {s : State N F V} {o : Nat}
    (h1 : (∀ x c, s.objs[o]? = some x → x.cls ≠ .user c) → motive)
    (h2 : ∀ x c, s.objs[o]? = some x → x.cls = .user c → motive) : motive := by
  by_cases h : ∃ x c, s.objs[o]? = some x ∧ x.cls = .user c
  · obtain ⟨x, c, hx, hc⟩ := h; exact h2 x c hx hc
  · exact h1 fun x c hx hc => h ⟨x, c, hx, hc⟩

theorem updateWrapper_stuck {H : Hier N F} {s : State N F V} {o : Nat} (h : ∀ x c, s.objs[o]? = some x → x.cls ≠ .user c)
    (look : N → Option V) : updateWrapper H s o look = (s, .stuck) := by
  unfold updateWrapper
  split
  · rfl
  · rename_i x hx
    split
    · rfl
    · rename_i c hc; exact absurd hc (h x c hx)

omit [DecidableEq N] [DecidableEq F] in
theorem modify_objs (s : State N F V) (o : Nat) (g : Obj N V → Obj N V) (p : Nat) :
    (modify s o g).objs[p]? = if o = p then s.objs[p]?.map g else s.objs[p]? := by
  simp only [modify, List.getElem?_modify]
  by_cases h : o = p
  · simp [h]
  · cases s.objs[p]? <;> simp [h]

theorem setattr_objs (s : State N F V) (o : Nat) (n : N) (v : V) (p : Nat) (x : Obj N V) (h : (setattr s o n v).1.objs[p]? = some x) :
    ∃ y, s.objs[p]? = some y ∧ x.cls = y.cls := by
  unfold setattr at h
  split at h
  · exact ⟨x, h, rfl⟩
  · split at h
    · exact ⟨x, h, rfl⟩
    · split at h
      · exact ⟨x, h, rfl⟩
      · split at h
        · simp only [modify_objs] at h
          split at h
          · cases hp : s.objs[p]? with
            | none => simp [hp] at h
            | some y =>
              simp only [hp, Option.map_some, Option.some.injEq] at h
              exact ⟨y, rfl, by rw [← h]⟩
          · exact ⟨x, h, rfl⟩
        · exact ⟨x, h, rfl⟩

theorem setattr_objs' (s : State N F V) (o : Nat) (n : N) (v : V) (p : Nat) (y : Obj N V) (h : s.objs[p]? = some y) :
    ∃ x, (setattr s o n v).1.objs[p]? = some x ∧ x.cls = y.cls ∧ (∀ c, y.cls = .user c → x = y) := by
  unfold setattr
  split
  · exact ⟨y, h, rfl, fun _ _ => rfl⟩
  · rename_i z hz
    split
    · exact ⟨y, h, rfl, fun _ _ => rfl⟩
    · rename_i k hk
      split
      · exact ⟨y, h, rfl, fun _ _ => rfl⟩
      · split
        · simp only [modify_objs]
          split
          · rename_i hop
            subst hop
            rw [hz] at h; cases h
            refine ⟨{ y with dict := fun m => if m = n then some v else y.dict m }, by rw [hz]; rfl, rfl, fun c hc => ?_⟩
            rw [hk] at hc; cases hc
          · exact ⟨y, h, rfl, fun _ _ => rfl⟩
        · exact ⟨y, h, rfl, fun _ _ => rfl⟩

omit [DecidableEq N] [DecidableEq F] in
theorem Inv.freeze {H : Hier N F} {s : State N F V} (h : Inv H s) {o c : Nat} {rest : List (Nat × Nat)} (hs : s.stack = (o, c) :: rest) :
    Inv H (modify { s with stack := rest } o fun x => { x with cls := .user c }) := by
  have hn := h.nodup
  rw [hs] at hn
  simp only [List.map_cons, List.nodup_cons] at hn
  refine ⟨h.cache, hn.2, ?_, ?_⟩
  · intro p hp
    have hp : p ∈ rest := hp
    obtain ⟨x, k, t, hx, hr⟩ := h.stack p (by rw [hs]; simp [hp])
    refine ⟨x, k, t, ?_, hr⟩
    rw [modify_objs]
    have : o ≠ p.1 := fun heq => hn.1 (List.mem_map.2 ⟨p, hp, heq.symm⟩)
    simp [this, hx]
  · intro p x k hx hk
    rw [modify_objs] at hx
    split at hx
    · cases hp : s.objs[p]? with
      | none => simp [hp] at hx
      | some y =>
        simp only [hp, Option.map_some, Option.some.injEq] at hx
        rw [← hx] at hk; cases hk
    · exact h.objs p x k hx hk

omit [DecidableEq N] [DecidableEq F] in
/-- More temporary classes and a changed cache keep the rest of the invariant. -/
theorem Inv.temps {H : Hier N F} {s s' : State N F V} (h : Inv H s) (ho : s'.objs = s.objs) (hs : s'.stack = s.stack)
    (ht : ∃ l, s'.temps = s.temps ++ l) (hc : ∀ e ∈ s'.cache, Fits H s'.temps e.1 e.2) : Inv H s' := by
  obtain ⟨l, hl⟩ := ht
  have mono : ∀ {k : Nat} {t : Temp N F}, s.temps[k]? = some t → s'.temps[k]? = some t := by
    intro k t hk
    rw [hl, List.getElem?_append_left (List.getElem?_eq_some_iff.1 hk).1]; exact hk
  refine ⟨hc, by rw [hs]; exact h.nodup, ?_, ?_⟩
  · intro p hp
    rw [hs] at hp
    obtain ⟨x, k, t, hx, hk, ht, hr⟩ := h.stack p hp
    exact ⟨x, k, t, by rw [ho]; exact hx, hk, mono ht, hr⟩
  · intro o x k hx hk
    rw [ho] at hx
    obtain ⟨t, ht⟩ := h.objs o x k hx hk
    exact ⟨t, mono ht⟩

theorem Inv.step {H : Hier N F} {s : State N F V} (h : Inv H s) (e : Event N F V) : Inv H (step H s e).1 := by
  cases e <;> simp only [Initable.step]
  case setInit => exact ⟨h.cache, h.nodup, h.stack, h.objs⟩
  case setPost => exact ⟨h.cache, h.nodup, h.stack, h.objs⟩
  case clear => exact ⟨by simp, h.nodup, h.stack, h.objs⟩
  case start c =>
    obtain ⟨s', k, t, hm, ht, hb, ha, -, hc', heq⟩ := start_eq h.cache c
    have hr := makeInitable_rest H s (keyOf H s c)
    have htm := makeInitable_temps H s (keyOf H s c)
    rw [hm] at hr htm
    have h' : Inv H s' := h.temps hr.2.2.1 hr.2.2.2 htm hc'
    rw [heq]
    refine ⟨h'.cache, ?_, ?_, ?_⟩
    · simp only [List.map_cons, List.nodup_cons]
      refine ⟨?_, h.nodup⟩
      intro hmem
      obtain ⟨p, hp, hpe⟩ := List.mem_map.1 hmem
      obtain ⟨x, -, -, hx, -⟩ := h.stack p hp
      have := (List.getElem?_eq_some_iff.1 hx).1
      omega
    · intro p hp
      rcases List.mem_cons.1 hp with rfl | hp
      · exact ⟨⟨.temp k, fun _ => none⟩, k, t, by simp, rfl, ht, hb, ha⟩
      · obtain ⟨x, k, t, hx, hr'⟩ := h'.stack p (by rw [hr.2.2.2]; exact hp)
        rw [hr.2.2.1] at hx
        refine ⟨x, k, t, ?_, hr'⟩
        simp only
        rw [List.getElem?_append_left (List.getElem?_eq_some_iff.1 hx).1]; exact hx
    · intro o x j hx hj
      simp only at hx
      by_cases hlt : o < s.objs.length
      · rw [List.getElem?_append_left hlt] at hx
        exact h'.objs o x j (by rw [hr.2.2.1]; exact hx) hj
      · rw [List.getElem?_append_right (by omega)] at hx
        cases hd : o - s.objs.length with
        | zero =>
          rw [hd] at hx
          simp only [List.getElem?_cons_zero, Option.some.injEq] at hx
          rw [← hx] at hj
          simp only [ClassRef.temp.injEq] at hj
          exact ⟨t, by rw [← hj]; exact ht⟩
        | succ d => rw [hd] at hx; simp at hx
  case finish =>
    split
    · exact h
    · rename_i o c rest hs; exact h.freeze hs
  case fail =>
    split
    · exact h
    · rename_i p rest hs
      have hn := h.nodup
      rw [hs] at hn
      exact ⟨h.cache, (List.nodup_cons.1 hn).2, fun q hq => h.stack q (by rw [hs]; exact List.mem_cons_of_mem _ hq), h.objs⟩
  case failCheck =>
    split
    · exact h
    · rename_i o c rest hs; exact h.freeze hs
  case setattr o n v =>
    obtain ⟨-, -, ht, hc, hs⟩ := setattr_rest s o n v
    refine ⟨by rw [ht, hc]; exact h.cache, by rw [hs]; exact h.nodup, ?_, ?_⟩
    · intro p hp
      rw [hs] at hp
      obtain ⟨x, k, t, hx, hk, hr⟩ := h.stack p hp
      obtain ⟨y, hy, hyc, -⟩ := setattr_objs' s o n v p.1 x hx
      exact ⟨y, k, t, hy, by rw [hyc, hk], by rw [ht]; exact hr⟩
    · intro p x k hx hk
      obtain ⟨y, hy, hyc⟩ := setattr_objs s o n v p x hx
      rw [ht]
      exact h.objs p y k hy (by rw [← hyc, hk])
  case callPost o => rw [callPost_state]; exact h
  case copy o =>
    unfold copy
    split
    · exact h
    · rename_i x hx
      refine ⟨h.cache, h.nodup, ?_, ?_⟩
      · intro p hp
        obtain ⟨y, k, t, hy, hr⟩ := h.stack p hp
        refine ⟨y, k, t, ?_, hr⟩
        simp only
        rw [List.getElem?_append_left (List.getElem?_eq_some_iff.1 hy).1]; exact hy
      · intro p y k hy hk
        simp only at hy
        by_cases hlt : p < s.objs.length
        · rw [List.getElem?_append_left hlt] at hy
          exact h.objs p y k hy hk
        · rw [List.getElem?_append_right (by omega)] at hy
          cases hd : p - s.objs.length with
          | zero =>
            rw [hd] at hy
            simp only [List.getElem?_cons_zero, Option.some.injEq] at hy
            subst hy
            exact h.objs o x k hx hk
          | succ d => rw [hd] at hy; simp at hy
  case updateWrapper o look =>
    refine updateWrapper_cases (s := s) (o := o) ?_ ?_
    · intro hn; rw [updateWrapper_stuck hn]; exact h
    · intro x c hx hxc
      obtain ⟨s', k, hm, hc', heq⟩ := updateWrapper_eq h.cache hx hxc look
      have hr := makeInitable_rest H s (wrapKey c)
      have htm := makeInitable_temps H s (wrapKey c)
      rw [hm] at hr htm
      have h' : Inv H s' := h.temps hr.2.2.1 hr.2.2.2 htm hc'
      rw [heq]
      refine ⟨h'.cache, h'.nodup, ?_, ?_⟩
      · intro p hp
        obtain ⟨y, j, t, hy, hj, hr'⟩ := h'.stack p hp
        refine ⟨y, j, t, ?_, hj, hr'⟩
        rw [modify_objs]
        split
        · rename_i hop
          subst hop
          rw [hr.2.2.1, hx] at hy
          cases hy
          rw [hxc] at hj; cases hj
        · exact hy
      · intro p y j hy hj
        rw [modify_objs] at hy
        split at hy
        · cases hp : s'.objs[p]? with
          | none => simp [hp] at hy
          | some z =>
            simp only [hp, Option.map_some, Option.some.injEq] at hy
            rw [← hy] at hj; cases hj
        · exact h'.objs p y j hy hj

theorem Inv.run {H : Hier N F} {s : State N F V} (h : Inv H s) (es : List (Event N F V)) : Inv H (run H s es) := by
  induction es generalizing s with
  | nil => exact h
  | cons e es ih => exact ih (h.step e)

omit [DecidableEq N] [DecidableEq F] in
theorem inv_initial (H : Hier N F) (init post : Nat → Option F) : Inv H (initial (V := V) init post) :=
  ⟨by simp [initial], by simp [initial], by simp [initial], by simp [initial]⟩

/-! ### Which `__init__` runs -/

/-- **The `__init__` that runs is the current one** (`_module.py:512-514, 755-763, 824`): whatever has happened before — assigning or
deleting `__init__` or `__post_init__` of this class or of the classes it inherits from, making modules, clearing the caches — calling
class `c` calls the `__init__` that is now found along the method resolution order of `c`, with a new instance. -/
theorem init_current (H : Hier N F) (init post : Nat → Option F) (h : List (Event N F V)) (own : Nat → Option F)
    (hown : ∀ d, InitNow init h d (own d)) (c : Nat) (r : Option F) (hr : Resolves (H.mro c) own r) :
    let s := run H (initial init post) h
    (step H s (.start c)).2 = .init s.objs.length (r.getD H.objectInit) := by
  intro s
  obtain ⟨s', k, t, -, -, -, -, -, -, heq⟩ := start_eq ((inv_initial H init post).run h).cache c
  have : s.init = own := funext fun d => initNow H _ h d _ (hown d)
  have hi : initOf H s c = r.getD H.objectInit := by
    unfold initOf
    rw [this, resolves_lookup hr]
  simp only [step]
  rw [heq]
  simp only
  rw [hi]

/-- The class an instance inherits from stays the same, whatever happens. -/
theorem base_step {H : Hier N F} {s : State N F V} (h : Inv H s) {o c : Nat} (hb : s.objs[o]?.bind (fun x => baseOf s x.cls) = some c)
    (e : Event N F V) : (step H s e).1.objs[o]?.bind (fun x => baseOf (step H s e).1 x.cls) = some c := by
  obtain ⟨x, hx, hxb⟩ := Option.bind_eq_some_iff.1 hb
  have mono : ∀ {s' : State N F V} {r : ClassRef}, (∃ l, s'.temps = s.temps ++ l) → baseOf s r = some c → baseOf s' r = some c := by
    intro s' r ⟨l, hl⟩ hr
    cases r with
    | user d => exact hr
    | temp k =>
      simp only [baseOf, Option.map_eq_some_iff] at hr ⊢
      obtain ⟨t, ht, hr⟩ := hr
      exact ⟨t, by rw [hl, List.getElem?_append_left (List.getElem?_eq_some_iff.1 ht).1]; exact ht, hr⟩
  have frz : ∀ {p d rest}, s.stack = (p, d) :: rest →
      (modify { s with stack := rest } p fun x => { x with cls := .user d }).objs[o]?.bind
        (fun x => baseOf (modify { s with stack := rest } p fun x => { x with cls := .user d }) x.cls) = some c := by
    intro p d rest hs
    rw [modify_objs]
    split
    · rename_i hpo
      subst hpo
      simp only [hx, Option.map_some, Option.bind_some, baseOf]
      obtain ⟨y, k, t, hy, hk, ht, hbase, -⟩ := h.stack (p, d) (by rw [hs]; simp)
      rw [hx] at hy; cases hy
      rw [hk] at hxb
      simp only [baseOf, ht, Option.map_some, Option.some.injEq] at hxb
      rw [← hxb, hbase]
    · simp only [hx, Option.bind_some]
      exact mono ⟨[], by simp [modify]⟩ hxb
  cases e <;> simp only [step]
  case setInit => simp only [hx, Option.bind_some]; exact mono ⟨[], by simp⟩ hxb
  case setPost => simp only [hx, Option.bind_some]; exact mono ⟨[], by simp⟩ hxb
  case clear => simp only [hx, Option.bind_some]; exact mono ⟨[], by simp⟩ hxb
  case start d =>
    obtain ⟨s', k, t, hm, -, -, -, -, -, heq⟩ := start_eq h.cache d
    have htm := makeInitable_temps H s (keyOf H s d)
    rw [hm] at htm
    rw [heq]
    simp only
    rw [List.getElem?_append_left (List.getElem?_eq_some_iff.1 hx).1, hx]
    exact mono htm hxb
  case finish =>
    split
    · exact hb
    · rename_i p d rest hs; exact frz hs
  case fail =>
    split
    · exact hb
    · simp only [hx, Option.bind_some]; exact mono ⟨[], by simp⟩ hxb
  case failCheck =>
    split
    · exact hb
    · rename_i p d rest hs; exact frz hs
  case setattr p n v =>
    obtain ⟨y, hy, hyc, -⟩ := setattr_objs' s p n v o x hx
    rw [hy]
    simp only [Option.bind_some, hyc]
    exact mono ⟨[], by rw [(setattr_rest s p n v).2.2.1]; simp⟩ hxb
  case callPost p => rw [callPost_state]; exact hb
  case copy p =>
    unfold copy
    split
    · exact hb
    · simp only
      rw [List.getElem?_append_left (List.getElem?_eq_some_iff.1 hx).1, hx]
      exact mono ⟨[], by simp⟩ hxb
  case updateWrapper p look =>
    refine updateWrapper_cases (s := s) (o := p) ?_ ?_
    · intro hn; rw [updateWrapper_stuck hn]; exact hb
    · intro y d hy hyd
      obtain ⟨s', k, hm, -, heq⟩ := updateWrapper_eq h.cache hy hyd look
      have hr := makeInitable_rest H s (wrapKey d)
      have htm := makeInitable_temps H s (wrapKey d)
      rw [hm] at hr htm
      rw [heq, modify_objs]
      split
      · rename_i hpo
        subst hpo
        rw [hx] at hy; cases hy
        rw [hr.2.2.1, hx]
        rw [hyd] at hxb
        simpa [baseOf] using hxb
      · rw [hr.2.2.1, hx]
        exact mono htm hxb

theorem base_run {H : Hier N F} {s : State N F V} (h : Inv H s) {o c : Nat} (hb : s.objs[o]?.bind (fun x => baseOf s x.cls) = some c)
    (es : List (Event N F V)) : (run H s es).objs[o]?.bind (fun x => baseOf (run H s es) x.cls) = some c := by
  induction es generalizing s with
  | nil => exact hb
  | cons e es ih => exact ih (h.step e) (base_step h hb e)

/-- **The `__post_init__` that runs is the current one** (the generated `__init__` looks it up on the instance): at any time from the
call of class `c` on, `self.__post_init__()` calls what is then found along the method resolution order of `c`. -/
theorem post_current (H : Hier N F) (init post : Nat → Option F) (h h' : List (Event N F V)) (own : Nat → Option F) (c o : Nat) (f : F)
    (hstart : (step H (run H (initial init post) h) (.start c)).2 = .init o f)
    (hown : ∀ d, PostNow post (h ++ .start c :: h') d (own d)) (r : Option F) (hr : Resolves (H.mro c) own r) :
    let s := run H (initial init post) (h ++ .start c :: h')
    (step H s (.callPost o)).2 = match r with | none => .attributeError | some g => .post g := by
  intro s
  have hI := (inv_initial (V := V) H init post).run h
  obtain ⟨s', k, t, -, ht, hb, -, -, -, heq⟩ := start_eq hI.cache c
  have h1 : ((step H (run H (initial init post) h) (.start c)).1).objs[o]?.bind
      (fun x => baseOf (step H (run H (initial init post) h) (.start c)).1 x.cls) = some c := by
    simp only [step] at hstart ⊢
    rw [heq] at hstart ⊢
    simp only [Out.init.injEq] at hstart
    rw [← hstart.1]
    simp only [List.getElem?_concat_length, Option.bind_some, baseOf, ht, Option.map_some, hb]
  have h2 := base_run (hI.step (.start c)) h1 h'
  have hs : s = run H (step H (run H (initial init post) h) (.start c)).1 h' := by
    show run H _ (h ++ .start c :: h') = _
    rw [run_append]; rfl
  rw [← hs] at h2
  have hp : s.post = own := funext fun d => postNow H _ _ d _ (hown d)
  simp only [step, callPost, h2]
  unfold postOf
  rw [hp, resolves_lookup hr]
  cases r <;> rfl

/-! ### When instances can be changed -/

omit [DecidableEq N] in
theorem dropStack_finish (H : Hier N F) [DecidableEq N] (s : State N F V) {e : Event N F V} (he : e = .finish ∨ e = .fail ∨ e = .failCheck) {p : Nat × Nat}
    {rest : List (Nat × Nat)} (hs : s.stack = p :: rest) : (step H s e).1.stack = rest := by
  rcases he with rfl | rfl | rfl <;> simp [step, hs, modify]

theorem atom_stack {H : Hier N F} {s : State N F V} {e : Event N F V} (h1 : ∀ c, e ≠ .start c) (h2 : e ≠ .finish) (h3 : e ≠ .fail)
    (h4 : e ≠ .failCheck) : (step H s e).1.stack = s.stack := by
  cases e <;> simp only [step]
  case start c => exact absurd rfl (h1 c)
  case finish => exact absurd rfl h2
  case fail => exact absurd rfl h3
  case failCheck => exact absurd rfl h4
  case setattr o n v => exact (setattr_rest s o n v).2.2.2.2
  case callPost o => rw [callPost_state]
  case copy o => unfold copy; split <;> rfl
  case updateWrapper o look =>
    unfold updateWrapper; simp only; repeat' split
    all_goals first | rfl | simp [modify, (makeInitable_rest H s _).2.2.2]

theorem start_stack {H : Hier N F} {s : State N F V} (h : Inv H s) (c : Nat) :
    (step H s (.start c)).1.stack = (s.objs.length, c) :: s.stack := by
  obtain ⟨s', k, t, -, -, -, -, -, -, heq⟩ := start_eq h.cache c
  simp only [step]; rw [heq]

theorem body_stack {H : Hier N F} {b : List (Event N F V)} (hb : Body b) {s : State N F V} (h : Inv H s) : (run H s b).stack = s.stack := by
  induction hb generalizing s with
  | nil => rfl
  | @atom e b h1 h2 h3 h4 _ ih =>
    rw [run, ih (h.step e), atom_stack h1 h2 h3 h4]
  | @call c b e b' _ he _ ih1 ih2 =>
    rw [run, run_append, run]
    have i1 := (h.step (.start c)).run b
    rw [ih2 (i1.step e)]
    exact dropStack_finish H _ he (by rw [ih1 (h.step (.start c)), start_stack h c])

/-- **While its `__init__` runs, exactly the fields of an instance can be assigned** (771-774, 779-818), whatever else has happened in
the meantime; other assignments raise `AttributeError` and do nothing. -/
theorem during_init (H : Hier N F) (init post : Nat → Option F) (h b : List (Event N F V)) (hb : Body b) (c o : Nat) (f : F)
    (hstart : (step H (run H (initial init post) h) (.start c)).2 = .init o f) (n : N) (v : V) :
    let s := run H (initial init post) (h ++ .start c :: b)
    (n ∈ H.fields c → (step H s (.setattr o n v)).2 = .done ∧
      ∃ x y, s.objs[o]? = some x ∧ (step H s (.setattr o n v)).1.objs[o]? = some y ∧ y.dict n = some v ∧
        ∀ m, m ≠ n → y.dict m = x.dict m) ∧
    (n ∉ H.fields c → step H s (.setattr o n v) = (s, .attributeError)) := by
  intro s
  have hI := (inv_initial (V := V) H init post).run h
  have hs : s = run H (step H (run H (initial init post) h) (.start c)).1 b := by
    show run H _ (h ++ .start c :: b) = _
    rw [run_append]; rfl
  have hIs : Inv H s := by rw [hs]; exact (hI.step _).run b
  have ho : o = (run H (initial init post) h).objs.length := by
    obtain ⟨s', k, t, -, -, -, -, -, -, heq⟩ := start_eq hI.cache c
    simp only [step] at hstart
    rw [heq] at hstart
    simp only [Out.init.injEq] at hstart
    exact hstart.1.symm
  have hst : (o, c) ∈ s.stack := by
    rw [hs, body_stack hb (hI.step _), start_stack hI, ho]; simp
  obtain ⟨x, k, t, hx, hk, ht, -, ha⟩ := hIs.stack _ hst
  simp only at ha hx
  constructor
  · intro hn
    simp only [step, setattr, hx, hk, ht, ha, hn, if_true, true_and]
    refine ⟨x, _, rfl, by rw [modify_objs, hx]; simp; rfl, by simp, ?_⟩
    intro m hm
    simp [hm]
  · intro hn
    simp only [step, setattr, hx, hk, ht, ha, hn, if_false]

theorem assignAll_other (look : N → Option V) (ns : List N) (d : N → Option V) (n : N) (hn : n ∉ ns) : assignAll look ns d n = d n := by
  induction ns generalizing d with
  | nil => rfl
  | cons m ns ih =>
    simp only [List.mem_cons, not_or] at hn
    unfold assignAll
    cases look m with
    | none => exact ih d hn.2
    | some v => simp only; rw [ih _ hn.2]; simp [hn.1]

/-- An instance whose class is one the user wrote keeps its class and its attributes, apart from those of `module_update_wrapper`. -/
theorem frozen_step {H : Hier N F} {s : State N F V} (h : Inv H s) {o c : Nat} {x : Obj N V} (hx : s.objs[o]? = some x)
    (hc : x.cls = .user c) (e : Event N F V) :
    ∃ y, (step H s e).1.objs[o]? = some y ∧ y.cls = .user c ∧ ∀ n, n ∉ H.wrapperNames → y.dict n = x.dict n := by
  have same : ∀ {l : List (Obj N V)}, l[o]? = some x → ∃ y, l[o]? = some y ∧ y.cls = .user c ∧ ∀ n, n ∉ H.wrapperNames → y.dict n = x.dict n :=
    fun hl => ⟨x, hl, hc, fun _ _ => rfl⟩
  have frz : ∀ {p d rest}, s.stack = (p, d) :: rest →
      ∃ y, (modify { s with stack := rest } p fun x => { x with cls := .user d }).objs[o]? = some y ∧ y.cls = .user c ∧
        ∀ n, n ∉ H.wrapperNames → y.dict n = x.dict n := by
    intro p d rest hs
    obtain ⟨y, k, t, hy, hk, -⟩ := h.stack (p, d) (by rw [hs]; simp)
    have hpo : p ≠ o := by
      rintro rfl
      rw [hx] at hy; cases hy
      rw [hc] at hk; cases hk
    rw [modify_objs, if_neg hpo]
    exact same hx
  cases e <;> simp only [step]
  case setInit => exact same hx
  case setPost => exact same hx
  case clear => exact same hx
  case start d =>
    obtain ⟨s', k, t, hm, -, -, -, -, -, heq⟩ := start_eq h.cache d
    rw [heq]
    simp only
    rw [List.getElem?_append_left (List.getElem?_eq_some_iff.1 hx).1]
    exact same hx
  case finish =>
    split
    · exact same hx
    · rename_i p d rest hs; exact frz hs
  case fail => split <;> exact same hx
  case failCheck =>
    split
    · exact same hx
    · rename_i p d rest hs; exact frz hs
  case setattr p n v =>
    obtain ⟨y, hy, -, hyx⟩ := setattr_objs' s p n v o x hx
    rw [hyx c hc] at hy
    exact same hy
  case callPost p => rw [callPost_state]; exact same hx
  case copy p =>
    unfold copy
    split
    · exact same hx
    · simp only
      rw [List.getElem?_append_left (List.getElem?_eq_some_iff.1 hx).1]
      exact same hx
  case updateWrapper p look =>
    refine updateWrapper_cases (s := s) (o := p) ?_ ?_
    · intro hn; rw [updateWrapper_stuck hn]; exact same hx
    · intro y d hy hyd
      obtain ⟨s', k, hm, -, heq⟩ := updateWrapper_eq h.cache hy hyd look
      have hr := makeInitable_rest H s (wrapKey d)
      rw [hm] at hr
      rw [heq, modify_objs]
      split
      · rename_i hpo
        subst hpo
        rw [hx] at hy; cases hy
        rw [hc] at hyd; cases hyd
        rw [hr.2.2.1, hx]
        exact ⟨_, rfl, rfl, fun n hn => assignAll_other look _ _ n hn⟩
      · rw [hr.2.2.1]; exact same hx

theorem frozen_run {H : Hier N F} {s : State N F V} (h : Inv H s) {o c : Nat} {x : Obj N V} (hx : s.objs[o]? = some x)
    (hc : x.cls = .user c) (es : List (Event N F V)) :
    ∃ y, (run H s es).objs[o]? = some y ∧ y.cls = .user c ∧ ∀ n, n ∉ H.wrapperNames → y.dict n = x.dict n := by
  induction es generalizing s x with
  | nil => exact ⟨x, hx, hc, fun _ _ => rfl⟩
  | cons e es ih =>
    obtain ⟨y, hy, hyc, hyd⟩ := frozen_step h hx hc e
    obtain ⟨z, hz, hzc, hzd⟩ := ih (h.step e) hy hyc
    exact ⟨z, hz, hzc, fun n hn => by rw [hzd n hn, hyd n hn]⟩

/-- **Modules are immutable** (558-559): once the call of class `c` has returned an instance, that instance is of class `c` and keeps
the values of its fields, whatever happens afterwards; assigning any attribute raises `FrozenInstanceError` and does nothing. The body
of `__init__` may do anything, including making other modules and replacing `__init__`. -/
theorem finished_frozen (H : Hier N F) (init post : Nat → Option F) (h b h' : List (Event N F V)) (hb : Body b) (c o : Nat) (f : F)
    (hstart : (step H (run H (initial init post) h) (.start c)).2 = .init o f) :
    let s := run H (initial init post) (h ++ .start c :: (b ++ .finish :: h'))
    ∃ x y, (run H (initial init post) (h ++ .start c :: b)).objs[o]? = some x ∧ s.objs[o]? = some y ∧ y.cls = .user c ∧
      (∀ n, n ∉ H.wrapperNames → y.dict n = x.dict n) ∧
      ∀ n v, step H s (.setattr o n v) = (s, .frozenInstanceError) := by
  intro s
  have hI := (inv_initial (V := V) H init post).run h
  let s₁ := run H (initial init post) (h ++ .start c :: b)
  have hs1 : s₁ = run H (step H (run H (initial init post) h) (.start c)).1 b := by
    show run H _ (h ++ .start c :: b) = _
    rw [run_append]; rfl
  have hI1 : Inv H s₁ := by rw [hs1]; exact (hI.step _).run b
  have ho : o = (run H (initial init post) h).objs.length := by
    obtain ⟨s', k, t, -, -, -, -, -, -, heq⟩ := start_eq hI.cache c
    simp only [step] at hstart
    rw [heq] at hstart
    simp only [Out.init.injEq] at hstart
    exact hstart.1.symm
  have hst : s₁.stack = (o, c) :: (run H (initial init post) h).stack := by
    rw [hs1, body_stack hb (hI.step _), start_stack hI, ho]
  obtain ⟨x, k, t, hx, hk, ht, -, ha⟩ := hI1.stack (o, c) (by rw [hst]; simp)
  have hs : s = run H (step H s₁ .finish).1 h' := by
    show run H _ (h ++ .start c :: (b ++ .finish :: h')) = _
    have : h ++ Event.start c :: (b ++ Event.finish :: h') = (h ++ Event.start c :: b) ++ (Event.finish :: h') := by simp
    rw [this, run_append]; rfl
  have h2 : (step H s₁ .finish).1.objs[o]? = some { x with cls := .user c } := by
    simp only [step, hst]
    rw [modify_objs]
    simp [hx]
  obtain ⟨y, hy, hyc, hyd⟩ := frozen_run (hI1.step .finish) h2 rfl h'
  rw [← hs] at hy
  refine ⟨x, y, hx, hy, hyc, hyd, ?_⟩
  intro n v
  simp only [step, setattr, hy, hyc]

/-- A copy of an instance that is not being made is like it: of the same class, with the same attributes, and as frozen. -/
theorem copy_frozen (H : Hier N F) (init post : Nat → Option F) (h h' : List (Event N F V)) (o c : Nat) (x : Obj N V)
    (hx : (run H (initial init post) h).objs[o]? = some x) (hc : x.cls = .user c) :
    let p := (run H (initial init post) h).objs.length
    let s := run H (initial init post) (h ++ .copy o :: h')
    ∃ y, s.objs[p]? = some y ∧ y.cls = .user c ∧ (∀ n, n ∉ H.wrapperNames → y.dict n = x.dict n) ∧
      ∀ n v, step H s (.setattr p n v) = (s, .frozenInstanceError) := by
  intro p s
  have hI := (inv_initial (V := V) H init post).run h
  have hs : s = run H (step H (run H (initial init post) h) (.copy o)).1 h' := by
    show run H _ (h ++ .copy o :: h') = _
    rw [run_append]; rfl
  have h2 : (step H (run H (initial init post) h) (.copy o)).1.objs[p]? = some x := by
    simp [step, copy, hx, p]
  obtain ⟨y, hy, hyc, hyd⟩ := frozen_run (hI.step (.copy o)) h2 hc h'
  rw [← hs] at hy
  refine ⟨y, hy, hyc, hyd, ?_⟩
  intro n v
  simp only [step, setattr, hy, hyc]

/-- Nothing gets out of an `__init__` before its end: no `__init__` raises an exception, and no instance is copied while it is being
made. -/
def NoLeak (H : Hier N F) (init post : Nat → Option F) (h : List (Event N F V)) : Prop :=
  Event.fail ∉ h ∧ ∀ pre o post', h = pre ++ .copy o :: post' → ∀ c, (o, c) ∉ (run H (initial init post) pre).stack

theorem frozen_inv_step {H : Hier N F} {s : State N F V} (h : Inv H s)
    (hf : ∀ o x, s.objs[o]? = some x → (∃ c, x.cls = .user c) ∨ ∃ c, (o, c) ∈ s.stack) (e : Event N F V) (hne : e ≠ .fail)
    (hcp : ∀ o c, e = .copy o → (o, c) ∉ s.stack) :
    ∀ o x, (step H s e).1.objs[o]? = some x → (∃ c, x.cls = .user c) ∨ ∃ c, (o, c) ∈ (step H s e).1.stack := by
  have frz : ∀ {p d rest}, s.stack = (p, d) :: rest → ∀ o x,
      (modify { s with stack := rest } p fun x => { x with cls := .user d }).objs[o]? = some x → (∃ c, x.cls = .user c) ∨ ∃ c, (o, c) ∈ rest := by
    intro p d rest hs o x hx
    rw [modify_objs] at hx
    split at hx
    · cases hp : s.objs[o]? with
      | none => simp [hp] at hx
      | some y =>
        simp only [hp, Option.map_some, Option.some.injEq] at hx
        exact .inl ⟨d, by rw [← hx]⟩
    · rename_i hpo
      rcases hf o x hx with hu | ⟨c, hc⟩
      · exact .inl hu
      · rw [hs] at hc
        rcases List.mem_cons.1 hc with heq | hc
        · simp only [Prod.mk.injEq] at heq; exact absurd heq.1.symm hpo
        · exact .inr ⟨c, hc⟩
  cases e
  case setInit => exact hf
  case setPost => exact hf
  case clear => exact hf
  case start d =>
    obtain ⟨s', k, t, hm, -, -, -, -, -, heq⟩ := start_eq h.cache d
    simp only [step]
    rw [heq]
    simp only
    intro o x hx
    by_cases hlt : o < s.objs.length
    · rw [List.getElem?_append_left hlt] at hx
      rcases hf o x hx with hu | ⟨c, hc⟩
      · exact .inl hu
      · exact .inr ⟨c, List.mem_cons_of_mem _ hc⟩
    · have hle : o < (s.objs ++ [(⟨.temp k, fun _ => none⟩ : Obj N V)]).length := (List.getElem?_eq_some_iff.1 hx).1
      simp only [List.length_append, List.length_cons, List.length_nil] at hle
      have : o = s.objs.length := by omega
      exact .inr ⟨d, by rw [this]; simp⟩
  case finish =>
    simp only [step]
    split
    · exact hf
    · rename_i p d rest hs; exact frz hs
  case fail => exact absurd rfl hne
  case failCheck =>
    simp only [step]
    split
    · exact hf
    · rename_i p d rest hs; exact frz hs
  case setattr p n v =>
    simp only [step]
    intro o x hx
    obtain ⟨y, hy, hyc⟩ := setattr_objs s p n v o x hx
    rw [(setattr_rest s p n v).2.2.2.2, hyc]
    exact hf o y hy
  case callPost p => simp only [step]; rw [callPost_state]; exact hf
  case copy p =>
    simp only [step, copy]
    split
    · exact hf
    · rename_i z hz
      simp only
      intro o x hx
      by_cases hlt : o < s.objs.length
      · rw [List.getElem?_append_left hlt] at hx
        exact hf o x hx
      · have hle : o < (s.objs ++ [z]).length := (List.getElem?_eq_some_iff.1 hx).1
        simp only [List.length_append, List.length_cons, List.length_nil] at hle
        have : o = s.objs.length := by omega
        subst this
        simp only [List.getElem?_concat_length, Option.some.injEq] at hx
        subst hx
        rcases hf p z hz with hu | ⟨c, hc⟩
        · exact .inl hu
        · exact absurd hc (hcp p c rfl)
  case updateWrapper p look =>
    simp only [step]
    refine updateWrapper_cases (s := s) (o := p) ?_ ?_
    · intro hn; rw [updateWrapper_stuck hn]; exact hf
    · intro y d hy hyd
      obtain ⟨s', k, hm, -, heq⟩ := updateWrapper_eq h.cache hy hyd look
      have hr := makeInitable_rest H s (wrapKey d)
      rw [hm] at hr
      rw [heq]
      intro o x hx
      have hstk : (modify s' p fun x => { cls := .user d, dict := assignAll look H.wrapperNames x.dict }).stack = s.stack := hr.2.2.2
      simp only [hstk]
      rw [modify_objs, hr.2.2.1] at hx
      split at hx
      · cases hp : s.objs[o]? with
        | none => simp [hp] at hx
        | some y =>
          simp only [hp, Option.map_some, Option.some.injEq] at hx
          exact .inl ⟨d, by rw [← hx]⟩
      · exact hf o x hx

/-- **Outside of `__init__` every module is immutable — partial**: if nothing got out of an `__init__` before its end, every instance
is frozen except those whose `__init__` is running. Without the hypothesis this is false: `leaked_copy`, `leaked_failure`. -/
theorem all_frozen_partial (H : Hier N F) (init post : Nat → Option F) (h : List (Event N F V)) (hl : NoLeak H init post h) (o : Nat)
    (x : Obj N V) : let s := run H (initial init post) h
    s.objs[o]? = some x → (∀ c, (o, c) ∉ s.stack) → ∀ n v, step H s (.setattr o n v) = (s, .frozenInstanceError) := by
  intro s hx hns n v
  have key : ∀ h' : List (Event N F V), h' <+: h → ∀ o x, (run H (initial init post) h').objs[o]? = some x →
      (∃ c, x.cls = .user c) ∨ ∃ c, (o, c) ∈ (run H (initial init post) h').stack := by
    intro h'
    induction h' using List.reverseRecOn with
    | nil => intro _ o x hx; simp [run, initial] at hx
    | append_singleton h' e ih =>
      intro hp
      have hp' : h' <+: h := (List.prefix_append h' [e]).trans hp
      have he : e ∈ h := hp.subset (by simp)
      rw [run_append]
      refine frozen_inv_step ((inv_initial (V := V) H init post).run h') (ih hp') e ?_ ?_
      · rintro rfl; exact hl.1 he
      · rintro o c rfl
        obtain ⟨t, ht⟩ := hp
        exact hl.2 h' o t (by rw [← ht]; simp) c
  rcases key h (List.prefix_refl h) o x hx with ⟨c, hc⟩ | ⟨c, hc⟩
  · show setattr s o n v = _
    have hx' : s.objs[o]? = some x := hx
    simp only [setattr, hx', hc]
  · exact absurd hc (hns c)

/-! ### How many classes are made -/

/-- Events that ask for a temporary class. -/
def asks : Event N F V → Bool
  | .start _ => true
  | .updateWrapper _ _ => true
  | _ => false

/-- `k` is in the cache and has at most `j` entries before it. -/
def Recent (k : Key F) (j : Nat) (l : List (Key F × Nat)) : Prop := ∃ l₁ t l₂, l = l₁ ++ (k, t) :: l₂ ∧ l₁.length ≤ j

omit [DecidableEq N] in
theorem recent_make {H : Hier N F} {s : State N F V} {k : Key F} {j : Nat} (hj : j + 1 < cap) (h : Recent k j s.cache) (k' : Key F) :
    Recent k (j + 1) (makeInitable H s k').2.cache := by
  obtain ⟨l₁, t, l₂, hl, hlen⟩ := h
  unfold makeInitable
  split
  · rename_i t' ht'
    by_cases hk : k' = k
    · subst hk
      exact ⟨[], t', _, rfl, by simp⟩
    · refine ⟨(k', t') :: l₁.filter (fun e => e.1 ≠ k'), t, l₂.filter (fun e => e.1 ≠ k'), ?_, ?_⟩
      · simp only [hl, List.filter_append, List.filter_cons, List.cons_append]
        simp [Ne.symm hk]
      · have := List.length_filter_le (fun e : Key F × Nat => decide (e.1 ≠ k')) l₁
        simp only [List.length_cons]; omega
  · refine ⟨(k', s.temps.length) :: l₁, t, l₂.take (cap - (l₁.length + 2)), ?_, by simp; omega⟩
    simp only [hl]
    have hc : cap = l₁.length + 2 + (cap - (l₁.length + 2)) := by omega
    rw [← List.cons_append, List.take_append]
    rw [List.take_of_length_le (by simp; omega)]
    congr 1
    have : cap - ((k', s.temps.length) :: l₁).length = (cap - (l₁.length + 2)) + 1 := by simp; omega
    rw [this, List.take_succ_cons]

omit [DecidableEq N] in
theorem recent_self (H : Hier N F) (s : State N F V) (k : Key F) : Recent k 0 (makeInitable H s k).2.cache := by
  unfold makeInitable
  split
  · rename_i t _; exact ⟨[], t, _, rfl, by simp⟩
  · refine ⟨[], s.temps.length, s.cache.take 127, ?_, by simp⟩
    simp [cap]

omit [DecidableEq F] in
theorem recent_mono {k : Key F} {i j : Nat} {l : List (Key F × Nat)} (hij : i ≤ j) (h : Recent k i l) : Recent k j l := by
  obtain ⟨l₁, t, l₂, hl, hlen⟩ := h
  exact ⟨l₁, t, l₂, hl, by omega⟩

theorem recent_step {H : Hier N F} {s : State N F V} (hI : Inv H s) {k : Key F} {j : Nat} (hj : j + 1 < cap) (h : Recent k j s.cache)
    {e : Event N F V} (he : e ≠ .clear) : Recent k (j + if asks e then 1 else 0) (step H s e).1.cache := by
  cases e <;> simp only [step, asks, Bool.false_eq_true, if_false, if_true, Nat.add_zero]
  case setInit => exact h
  case setPost => exact h
  case clear => exact absurd rfl he
  case start c =>
    obtain ⟨s', i, t, hm, -, -, -, -, -, heq⟩ := start_eq hI.cache c
    have := recent_make (H := H) hj h (keyOf H s c)
    rw [hm] at this
    rw [heq]; exact this
  case finish => split <;> exact h
  case fail => split <;> exact h
  case failCheck => split <;> exact h
  case setattr o n v => rw [(setattr_rest s o n v).2.2.2.1]; exact h
  case callPost o => rw [callPost_state]; exact h
  case copy o => unfold copy; split <;> exact h
  case updateWrapper p look =>
    refine updateWrapper_cases (s := s) (o := p) ?_ ?_
    · intro hn; rw [updateWrapper_stuck hn]; exact recent_mono (by omega) h
    · intro y d hy hyd
      obtain ⟨s', i, hm, -, heq⟩ := updateWrapper_eq hI.cache hy hyd look
      have := recent_make (H := H) hj h (wrapKey d)
      rw [hm] at this
      rw [heq]; exact this

theorem recent_run {H : Hier N F} {k : Key F} (es : List (Event N F V)) {s : State N F V} (hI : Inv H s) {j : Nat}
    (h : Recent k j s.cache) (hc : Event.clear ∉ es) (hj : j + (es.filter asks).length < cap) :
    Recent k (j + (es.filter asks).length) (run H s es).cache := by
  induction es generalizing s j with
  | nil => simpa [run] using h
  | cons e es ih =>
    simp only [List.mem_cons, not_or] at hc
    rw [run]
    by_cases ha : asks e = true
    · simp only [List.filter_cons, ha, if_true, List.length_cons] at hj ⊢
      have h1 := recent_step hI (by omega) h (Ne.symm hc.1)
      simp only [ha, if_true] at h1
      have h2 := ih (hI.step e) h1 hc.2 (by omega)
      exact recent_mono (by omega) h2
    · simp only [Bool.not_eq_true] at ha
      simp only [List.filter_cons, ha, Bool.false_eq_true, if_false] at hj ⊢
      have h1 : Recent k j (step H s e).1.cache := by
        by_cases hj1 : j + 1 < cap
        · have h1 := recent_step hI hj1 h (Ne.symm hc.1)
          simpa [ha] using h1
        · cases e <;> simp only [step]
          case setInit => exact h
          case setPost => exact h
          case clear => exact absurd rfl hc.1
          case start c => simp [asks] at ha
          case finish => split <;> exact h
          case fail => split <;> exact h
          case failCheck => split <;> exact h
          case setattr o n v => rw [(setattr_rest s o n v).2.2.2.1]; exact h
          case callPost o => rw [callPost_state]; exact h
          case copy o => unfold copy; split <;> exact h
          case updateWrapper => simp [asks] at ha
      exact ih (hI.step e) h1 hc.2 hj

/-- **A class that was called recently is not made again**: if class `c` has been called, the caches have not been cleared since, fewer
than 128 other modules were made or wrapped, and the `__init__`s and `__post_init__`s of the classes `c` inherits from are what they
were, calling `c` again uses the temporary class there is. -/
theorem reused (H : Hier N F) (init post : Nat → Option F) (h es : List (Event N F V)) (c : Nat) (hc : Event.clear ∉ es)
    (hn : (es.filter asks).length < 128)
    (hsame : ∀ d ∈ H.mro c, (run H (initial init post) (h ++ .start c :: es)).init d = (run H (initial init post) h).init d ∧
      (run H (initial init post) (h ++ .start c :: es)).post d = (run H (initial init post) h).post d) :
    let s := run H (initial init post) (h ++ .start c :: es)
    (step H s (.start c)).1.temps = s.temps := by
  intro s
  have hI := (inv_initial (V := V) H init post).run h
  have hs : s = run H (step H (run H (initial init post) h) (.start c)).1 es := by
    show run H _ (h ++ .start c :: es) = _
    rw [run_append]; rfl
  have hkey : keyOf H s c = keyOf H (run H (initial init post) h) c := by
    unfold keyOf initOf postOf
    rw [lookup_congr fun d hd => (hsame d hd).1, lookup_congr fun d hd => (hsame d hd).2]
  have h1 : Recent (keyOf H s c) 0 (step H (run H (initial init post) h) (.start c)).1.cache := by
    obtain ⟨s', i, t, hm, -, -, -, -, -, heq⟩ := start_eq hI.cache c
    have := recent_self H (run H (initial init post) h) (keyOf H (run H (initial init post) h) c)
    rw [hm] at this
    simp only [step]
    rw [heq, hkey]; exact this
  have h2 := recent_run es (hI.step (.start c)) h1 hc (by simpa [cap] using hn)
  rw [← hs] at h2
  obtain ⟨l₁, t, l₂, hl, -⟩ := h2
  have hI' : Inv H s := by rw [hs]; exact (hI.step _).run es
  obtain ⟨s', i, t', hm, -, -, -, -, -, heq⟩ := start_eq hI'.cache c
  have hfind : ∃ t, find (keyOf H s c) s.cache = some t := by
    cases hf : find (keyOf H s c) s.cache with
    | some t => exact ⟨t, rfl⟩
    | none => exact absurd rfl (find_none.1 hf (keyOf H s c, t) (by rw [hl]; simp))
  obtain ⟨t'', ht''⟩ := hfind
  simp only [step]
  rw [heq]
  unfold makeInitable at hm
  rw [ht''] at hm
  simp only [Prod.mk.injEq] at hm
  rw [← hm.2]

/-- The entries at the front of the cache are of these classes. -/
def Front (cs : List Nat) (l : List (Key F × Nat)) : Prop := ∃ l₁ l₂, l = l₁ ++ l₂ ∧ l₁.map (fun e => e.1.cls) = cs

omit [DecidableEq N] in
theorem front_make {H : Hier N F} {s : State N F V} {cs : List Nat} (hl : s.cache.length ≤ cap) (hcs : cs.length < cap)
    (h : Front cs s.cache) (k : Key F) (hk : k.cls ∉ cs) :
    Front (k.cls :: cs) (makeInitable H s k).2.cache ∧ (makeInitable H s k).2.cache.length ≤ cap := by
  obtain ⟨l₁, l₂, hc, hm⟩ := h
  have hlen : l₁.length = cs.length := by rw [← hm]; simp
  unfold makeInitable
  split
  · rename_i t ht
    have hf : l₁.filter (fun e => decide (e.1 ≠ k)) = l₁ := by
      rw [List.filter_eq_self]
      intro e he
      have : e.1.cls ∈ cs := by rw [← hm]; exact List.mem_map.2 ⟨e, he, rfl⟩
      simp only [ne_eq, decide_eq_true_eq]
      rintro rfl
      exact hk this
    constructor
    · refine ⟨(k, t) :: l₁, l₂.filter (fun e => decide (e.1 ≠ k)), ?_, by simp [hm]⟩
      simp only [hc, List.filter_append, hf, List.cons_append]
    · have : (s.cache.filter (fun e => decide (e.1 ≠ k))).length < s.cache.length := by
        rw [List.length_filter_lt_length_iff_exists]
        exact ⟨(k, t), find_mem ht, by simp⟩
      simp only [List.length_cons]; omega
  · constructor
    · refine ⟨(k, s.temps.length) :: l₁, l₂.take (cap - (l₁.length + 1)), ?_, by simp [hm]⟩
      simp only [hc]
      rw [← List.cons_append, List.take_append, List.take_of_length_le (by simp; omega)]
      simp
    · simp only [List.length_take]; omega

theorem front_run {H : Hier N F} (cs : List Nat) {s : State N F V} (hI : Inv H s) (hnd : cs.Nodup) (hlen : s.cache.length ≤ cap)
    (past : List Nat) (hd : ∀ c ∈ cs, c ∉ past) (hsum : cs.length + past.length ≤ cap) (hf : Front past s.cache) :
    Front (cs.reverse ++ past) (run H s (cs.map Event.start)).cache ∧ (run H s (cs.map Event.start)).cache.length ≤ cap := by
  induction cs generalizing s past with
  | nil => exact ⟨hf, hlen⟩
  | cons c cs ih =>
    simp only [List.length_cons] at hsum
    have h1 := front_make (H := H) hlen (by omega) hf (keyOf H s c) (hd c (by simp))
    obtain ⟨s', i, t, hm, -, -, -, -, -, heq⟩ := start_eq hI.cache c
    rw [hm] at h1
    have hcache : (step H s (.start c)).1.cache = s'.cache := by simp only [step]; rw [heq]
    rw [← hcache] at h1
    rw [List.nodup_cons] at hnd
    have h2 := ih (hI.step (.start c)) hnd.2 h1.2 (c :: past)
      (by
        intro d hdm
        simp only [List.mem_cons, not_or]
        exact ⟨fun heq => hnd.1 (heq ▸ hdm), hd d (by simp [hdm])⟩)
      (by simp only [List.length_cons]; omega) h1.1
    simpa [run] using h2

/-- There are never more than 128 entries. -/
theorem cache_bound {H : Hier N F} {s : State N F V} (hI : Inv H s) (h : s.cache.length ≤ cap) (e : Event N F V) :
    (step H s e).1.cache.length ≤ cap := by
  have mk : ∀ k, (makeInitable H s k).2.cache.length ≤ cap := by
    intro k
    unfold makeInitable
    split
    · rename_i t ht
      have : (s.cache.filter (fun e => decide (e.1 ≠ k))).length < s.cache.length := by
        rw [List.length_filter_lt_length_iff_exists]
        exact ⟨(k, t), find_mem ht, by simp⟩
      simp only [List.length_cons]; omega
    · simp only [List.length_take]; omega
  cases e <;> simp only [step]
  case setInit => exact h
  case setPost => exact h
  case clear => simp
  case start c =>
    obtain ⟨s', i, t, hm, -, -, -, -, -, heq⟩ := start_eq hI.cache c
    have := mk (keyOf H s c)
    rw [hm] at this
    rw [heq]; exact this
  case finish => split <;> exact h
  case fail => split <;> exact h
  case failCheck => split <;> exact h
  case setattr o n v => rw [(setattr_rest s o n v).2.2.2.1]; exact h
  case callPost o => rw [callPost_state]; exact h
  case copy o => unfold copy; split <;> exact h
  case updateWrapper p look =>
    refine updateWrapper_cases (s := s) (o := p) ?_ ?_
    · intro hn; rw [updateWrapper_stuck hn]; exact h
    · intro y d hy hyd
      obtain ⟨s', i, hm, -, heq⟩ := updateWrapper_eq hI.cache hy hyd look
      have := mk (wrapKey d)
      rw [hm] at this
      rw [heq]; exact this

theorem cache_bound_run {H : Hier N F} (es : List (Event N F V)) {s : State N F V} (hI : Inv H s) (h : s.cache.length ≤ cap) :
    (run H s es).cache.length ≤ cap := by
  induction es generalizing s with
  | nil => exact h
  | cons e es ih => exact ih (hI.step e) (cache_bound hI h e)

/-- **The bound in `reused` is exact**: after 128 other classes have been called, calling `c` makes a temporary class again, as does
calling it after the caches have been cleared. -/
theorem remade (H : Hier N F) (init post : Nat → Option F) (h : List (Event N F V)) (cs : List Nat) (c : Nat) (hnd : cs.Nodup)
    (hc : c ∉ cs) (hlen : cs.length = 128) :
    let s := run H (initial (V := V) init post) (h ++ cs.map .start)
    (step H s (.start c)).1.temps.length = s.temps.length + 1 := by
  intro s
  have hI := (inv_initial (V := V) H init post).run h
  have hb := cache_bound_run h (inv_initial (V := V) H init post) (by simp [initial])
  have hfr := front_run (H := H) cs hI hnd hb [] (by simp) (by simp [hlen, cap]) ⟨[], _, rfl, rfl⟩
  rw [← run_append] at hfr
  obtain ⟨⟨l₁, l₂, hl, hm⟩, hle⟩ := hfr
  have hl : s.cache = l₁ ++ l₂ := hl
  have hle : s.cache.length ≤ cap := hle
  have h1 : l₁.length = 128 := by
    have := congrArg List.length hm
    simpa [hlen] using this
  have h2 : l₂ = [] := by
    rw [hl, List.length_append, h1] at hle
    simp only [cap] at hle
    exact List.eq_nil_of_length_eq_zero (by omega)
  subst h2
  have hnone : find (keyOf H s c) s.cache = none := by
    rw [find_none]
    intro e he heq
    rw [hl, List.append_nil] at he
    have : e.1.cls ∈ cs.reverse ++ [] := by rw [← hm]; exact List.mem_map.2 ⟨e, he, rfl⟩
    rw [heq] at this
    simp only [keyOf, List.append_nil, List.mem_reverse] at this
    exact hc this
  have hI' : Inv H s := (inv_initial (V := V) H init post).run _
  obtain ⟨s', i, t', hmk, -, -, -, -, -, heq⟩ := start_eq hI'.cache c
  simp only [step]
  rw [heq]
  unfold makeInitable at hmk
  rw [hnone] at hmk
  simp only [Prod.mk.injEq] at hmk
  rw [← hmk.2]
  simp

/-- After the caches have been cleared, the temporary class is made again. -/
theorem cleared (H : Hier N F) (init post : Nat → Option F) (h : List (Event N F V)) (c : Nat) :
    let s := run H (initial (V := V) init post) (h ++ [.clear])
    (step H s (.start c)).1.temps.length = s.temps.length + 1 := by
  intro s
  have hI' : Inv H s := (inv_initial (V := V) H init post).run _
  have hs : s.cache = [] := by
    show (run H _ (h ++ [.clear])).cache = []
    rw [run_append]; rfl
  obtain ⟨s', i, t', hmk, -, -, -, -, -, heq⟩ := start_eq hI'.cache c
  simp only [step]
  rw [heq]
  unfold makeInitable at hmk
  rw [hs] at hmk
  simp only [find, Prod.mk.injEq] at hmk
  rw [← hmk.2]
  simp

/-! ### Concrete cases -/

/-- Class 1 inherits from class 0; both have field 10. Names 0 and 1 are those of `module_update_wrapper`. -/
def exH : Hier Nat Nat where
  mro c := if c = 1 then [1, 0] else [c]
  fields _ := [10]
  wrapperNames := [0, 1]
  objectInit := 99

/-- Class 0 has `__init__` number 5 and `__post_init__` number 6; class 1 inherits them. -/
def exInit : Nat → Option Nat := fun c => if c = 0 then some 5 else none
def exPost : Nat → Option Nat := fun c => if c = 0 then some 6 else none

/-- Class 1 is called, then `__init__` of its superclass is replaced, then class 1 is called again: the new one runs. -/
example : (step exH (run exH (initial (V := Nat) exInit exPost) [.start 1, .setattr 0 10 3, .finish, .setInit 0 (some 7)]) (.start 1)).2 =
    .init 1 7 :=
  init_current exH exInit exPost [.start 1, .setattr 0 10 3, .finish, .setInit 0 (some 7)] (fun c => if c = 0 then some 7 else none)
    (by
      intro d
      by_cases hd : d = 0
      · subst hd; exact .inl ⟨[.start 1, .setattr 0 10 3, .finish], [], rfl, by simp⟩
      · refine .inr ⟨by simp [exInit, hd], ?_⟩
        intro g; simp; omega)
    1 (some 7) (.inl ⟨[1], 0, [], 7, by simp [exH], rfl, rfl, by simp⟩)

/-- `__post_init__` of the superclass is replaced while `__init__` runs. -/
example : (step exH (run exH (initial (V := Nat) exInit exPost) ([] ++ .start 1 :: [.setPost 0 (some 8)])) (.callPost 0)).2 = .post 8 :=
  post_current exH exInit exPost [] [.setPost 0 (some 8)] (fun c => if c = 0 then some 8 else none) 1 0 5 (by decide)
    (by
      intro d
      by_cases hd : d = 0
      · subst hd; exact .inl ⟨[.start 1], [], rfl, by simp⟩
      · refine .inr ⟨by simp [exPost, hd], ?_⟩
        intro g; simp; omega)
    (some 8) (.inl ⟨[1], 0, [], 8, by simp [exH], rfl, rfl, by simp⟩)

/-- An `__init__` that makes another module. -/
def exBody : List (Event Nat Nat Nat) := [.setattr 0 10 3, .start 0, .setattr 1 10 4, .finish, .setattr 0 10 5]

theorem exBody_body : Body exBody :=
  .atom (by simp) (by simp) (by simp) (by simp)
    (.call (b := [.setattr 1 10 4]) (b' := [.setattr 0 10 5]) (.atom (by simp) (by simp) (by simp) (by simp) .nil) (.inl rfl)
      (.atom (by simp) (by simp) (by simp) (by simp) .nil))

example : step exH (run exH (initial exInit exPost) ([] ++ .start 1 :: (exBody ++ .finish :: [.setInit 0 none]))) (.setattr 0 10 7) =
    (run exH (initial exInit exPost) ([] ++ .start 1 :: (exBody ++ .finish :: [.setInit 0 none])), .frozenInstanceError) := by
  obtain ⟨x, y, -, -, -, -, h⟩ := finished_frozen exH exInit exPost [] exBody [.setInit 0 none] exBody_body 1 0 5 (by decide)
  exact h 10 7

example : (step exH (run exH (initial exInit exPost) ([] ++ .start 1 :: exBody)) (.setattr 0 10 7)).2 = .done :=
  ((during_init exH exInit exPost [] exBody exBody_body 1 0 5 (by decide) 10 7).1 (by simp [exH])).1

example : (step exH (run exH (initial exInit exPost) ([] ++ .start 1 :: exBody)) (.setattr 0 11 7)).2 = .attributeError := by
  rw [(during_init exH exInit exPost [] exBody exBody_body 1 0 5 (by decide) 11 7).2 (by simp [exH])]

/-- Calling class 1, then 127 others, then class 1 again makes no class at the end. -/
example : let h := [] ++ .start 1 :: (List.range' 2 127).map (Event.start (N := Nat) (F := Nat) (V := Nat))
    (step exH (run exH (initial exInit exPost) h) (.start 1)).1.temps = (run exH (initial exInit exPost) h).temps := by
  apply reused exH exInit exPost [] _ 1
  · simp
  · refine Nat.lt_of_le_of_lt (List.length_filter_le _ _) (by simp)
  · intro d _
    have hi : InitNow exInit ([] ++ .start 1 :: (List.range' 2 127).map (Event.start (N := Nat) (F := Nat) (V := Nat))) d (exInit d) :=
      .inr ⟨rfl, by simp⟩
    have hp : PostNow exPost ([] ++ .start 1 :: (List.range' 2 127).map (Event.start (N := Nat) (F := Nat) (V := Nat))) d (exPost d) :=
      .inr ⟨rfl, by simp⟩
    exact ⟨initNow exH _ _ d _ hi, postNow exH _ _ d _ hp⟩

example : let s := run exH (initial (V := Nat) exInit exPost) ([.start 1] ++ (List.range' 2 128).map .start)
    (step exH s (.start 1)).1.temps.length = s.temps.length + 1 :=
  remade exH exInit exPost [.start 1] (List.range' 2 128) 1 (List.nodup_range' (step := 1)) (by simp) (by simp)

example : NoLeak exH exInit exPost ([.start 1] ++ exBody ++ [.finish, .copy 0] : List (Event Nat Nat Nat)) := by
  refine ⟨by simp [exBody], ?_⟩
  intro pre o post' heq c
  have hlen := congrArg List.length heq
  simp only [exBody, List.cons_append, List.nil_append, List.length_cons, List.length_nil, List.length_append] at hlen
  have hpre : pre.length ≤ 7 := by omega
  have hget := congrArg (fun l => l[pre.length]?) heq
  simp only [List.getElem?_append_right (Nat.le_refl _), Nat.sub_self, List.getElem?_cons_zero] at hget
  have h7 : pre.length = 7 := by
    rcases Nat.lt_or_ge pre.length 7 with hlt | hge
    · exfalso
      generalize pre.length = k at hget hlt
      have : k = 0 ∨ k = 1 ∨ k = 2 ∨ k = 3 ∨ k = 4 ∨ k = 5 ∨ k = 6 := by omega
      rcases this with rfl | rfl | rfl | rfl | rfl | rfl | rfl <;> simp [exBody] at hget
    · omega
  have hp : List.take 7 ([.start 1] ++ exBody ++ [.finish, .copy 0] : List (Event Nat Nat Nat)) = pre := by
    rw [heq, ← h7, List.take_left]
  rw [← hp]
  have hst : (run exH (initial exInit exPost) (List.take 7 ([.start 1] ++ exBody ++ [.finish, .copy 0] : List (Event Nat Nat Nat)))).stack = [] := by
    decide
  rw [hst]; simp

/-- **A copy made in `__init__` stays mutable for ever**: class 0 copies `self` in its `__init__` (with `tree_map`, say, or `tree_at`)
and keeps the copy. After `__init__` has ended nothing is being made, and the fields of the copy can still be assigned. -/
theorem leaked_copy : ∃ h : List (Event Nat Nat Nat), let s := run exH (initial exInit exPost) h
    s.stack = [] ∧ Event.fail ∉ h ∧ (step exH s (.setattr 1 10 7)).2 = .done ∧
    ((step exH s (.setattr 1 10 7)).1.objs[1]?.bind (fun x => x.dict 10)) = some 7 ∧ (s.objs[1]?.bind (fun x => x.dict 10)) = some 3 :=
  ⟨[.start 0, .setattr 0 10 3, .copy 0, .finish], by decide, by simp, by decide, by decide, by decide⟩

/-- **So does an instance whose `__init__` raised**, if it was kept. If `__check_init__` raised, the instance is frozen. -/
theorem leaked_failure : (∃ h : List (Event Nat Nat Nat), let s := run exH (initial exInit exPost) h
    s.stack = [] ∧ (step exH s (.setattr 0 10 7)).2 = .done) ∧
    (step exH (run exH (initial (V := Nat) exInit exPost) [.start 0, .failCheck]) (.setattr 0 10 7)).2 = .frozenInstanceError :=
  ⟨⟨[.start 0, .fail], by decide, by decide⟩, by decide⟩

end Verif.Module.Initable
