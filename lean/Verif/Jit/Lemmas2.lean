import Verif.Jit.Lemmas
/-! # Lemmas about `filter_jit`, continued: calls and histories -/

namespace Verif.Jit

open PT

variable {V A O C Q R J : Type} {α β γ : Type}

theorem argsEqUpTo_iff {w : World V A O C Q R} {args args' : List (Val V O C)} :
    ArgsEqUpTo w args args' ↔
      args.map (classes w.ccls (eqLeaf w)) = args'.map (classes w.ccls (eqLeaf w)) := by
  constructor
  · rintro ⟨h1, h2⟩
    apply List.ext_getElem?
    intro i
    simp only [List.getElem?_map]
    cases ha : args[i]? with
    | none => rw [List.getElem?_eq_none_iff] at ha; rw [List.getElem?_eq_none (by omega)]
    | some a =>
      cases ha' : args'[i]? with
      | none =>
        rw [List.getElem?_eq_none_iff] at ha'
        rw [List.getElem?_eq_none (by omega)] at ha; simp at ha
      | some a' => exact congrArg some (h2 i a a' ha ha')
  · intro h
    refine ⟨by simpa using congrArg List.length h, ?_⟩
    intro i a a' ha ha'
    have := congrArg (fun l => l[i]?) h
    rw [EqUpTo]
    simpa [List.getElem?_map, ha, ha'] using this

theorem classes_tuple {w : World V A O C Q R} {t : Val V O C} {cs : List (Val V O C)}
    (h : EqUpTo w t (.node .tuple cs)) : ∃ cs', t = .node .tuple cs' ∧ ArgsEqUpTo w cs' cs := by
  rcases t with b | _ | ⟨k, cs'⟩
  · simp [EqUpTo, classes] at h
  · simp [EqUpTo, classes] at h
  · cases k <;> simp only [EqUpTo, classes, classesL_eq, PT.node.injEq, reduceCtorEq, false_and, true_and] at h
    exact ⟨cs', rfl, argsEqUpTo_iff.2 h⟩

theorem classes_dict {w : World V A O C Q R} {t : Val V O C} {ks : List String} {cs : List (Val V O C)}
    (h : EqUpTo w t (.node (.dict ks) cs)) : ∃ cs', t = .node (.dict ks) cs' ∧ ArgsEqUpTo w cs' cs := by
  rcases t with b | _ | ⟨k, cs'⟩
  · simp [EqUpTo, classes] at h
  · simp [EqUpTo, classes] at h
  · cases k <;> simp only [EqUpTo, classes, classesL_eq, PT.node.injEq, reduceCtorEq, false_and,
      JK.dict.injEq] at h
    exact ⟨cs', by rw [h.1], argsEqUpTo_iff.2 h.2⟩

theorem classes_none {w : World V A O C Q R} {t : Val V O C}
    (h : EqUpTo w t .none) : t = .none := by
  rcases t with b | _ | ⟨k, cs'⟩
  · simp [EqUpTo, classes] at h
  · rfl
  · cases k <;> simp [EqUpTo, classes] at h

theorem unpackRest_related {w : World V A O C Q R} {t : Val V O C} {rest kw}
    (h : EqUpTo w t (packRest rest kw)) :
    ∃ r, unpackRest t = .ok r ∧ ArgsEqUpTo w r.1 rest ∧ KwEqUpTo w r.2 kw := by
  obtain ⟨cs, rfl, hl, hcs⟩ := classes_tuple h
  match cs, hl with
  | [a, b], _ =>
    obtain ⟨rest', rfl, h1⟩ := classes_tuple (hcs 0 a _ rfl rfl)
    obtain ⟨vs, rfl, h2⟩ := classes_dict (hcs 1 b _ rfl rfl)
    have hlen : (kw.map Prod.fst).length = vs.length := by rw [h2.1]; simp
    refine ⟨(rest', (kw.map Prod.fst).zip vs), rfl, h1, ?_, ?_⟩
    · rw [List.map_fst_zip (by omega)]
    · rw [List.map_snd_zip (by omega)]; exact h2

theorem splitDummy_related {w : World V A O C Q R} {first first' : Val V O C} {rest rest' args}
    (h : EqUpTo w first' first) (h' : ArgsEqUpTo w rest' rest) (e : first :: rest = args ++ [.none]) :
    ∃ args', splitDummy first' rest' = .ok args' ∧ ArgsEqUpTo w args' args := by
  have hm : ArgsEqUpTo w (first' :: rest') (args ++ [.none]) := by
    rw [argsEqUpTo_iff, ← e]
    rw [argsEqUpTo_iff] at h'
    rw [List.map_cons, List.map_cons, h', h]
  have hl := hm.1
  simp only [List.length_cons, List.length_append, List.length_nil] at hl
  have hn : (first' :: rest').getLast? = some .none := by
    rw [List.getLast?_eq_getElem?]
    have hs : ((first' :: rest')[args.length]?).isSome := by simp; omega
    obtain ⟨x, hx⟩ := Option.isSome_iff_exists.1 hs
    have := classes_none (hm.2 args.length x .none hx (by simp))
    rw [List.length_cons, hl, Nat.add_sub_cancel, hx, this]
  refine ⟨(first' :: rest').dropLast, by simp [splitDummy, hn], ?_⟩
  rw [argsEqUpTo_iff] at hm ⊢
  have := congrArg List.dropLast hm
  simpa [List.map_dropLast] using this

/-- Running a program on the arguments of a call. -/
theorem funWrapped_related [DecidableEq C] {w : World V A O C Q R} {dd dn : DynDict V} {s : Statics O C}
    {fn first : Val V O C} {rest kw args}
    (hs1 : staticKey w s.fn = staticKey w (hashablePartition fn).2)
    (hs2 : staticKey w s.first = staticKey w (hashablePartition first).2)
    (hs3 : staticKey w s.rest = staticKey w (hashablePartition (packRest rest kw)).2)
    (hp1 : popDyn dd dn "fun" = .ok (hashablePartition fn).1)
    (hp2 : popDyn dd dn "first" = .ok (hashablePartition first).1)
    (hp3 : popDyn dd dn "rest" = .ok (hashablePartition (packRest rest kw)).1)
    (e : first :: rest = args ++ [.none]) :
    ∃ fn1 args1 kw1, EqUpTo w fn1 fn ∧ ArgsEqUpTo w args1 args ∧ KwEqUpTo w kw1 kw ∧
      funWrapped w dd dn s = (w.apply fn1 args1 kw1).bind partitionOut := by
  obtain ⟨fn1, a1, a2⟩ := combine_related w fn s.fn hs1
  obtain ⟨first1, b1, b2⟩ := combine_related w first s.first hs2
  obtain ⟨rk, c1, c2⟩ := combine_related w _ s.rest hs3
  obtain ⟨r, d1, d2, d3⟩ := unpackRest_related c2
  obtain ⟨args1, e1, e2⟩ := splitDummy_related b2 d2 e
  refine ⟨fn1, args1, r.2, a2, e2, d3, ?_⟩
  simp only [funWrapped, hp1, hp2, hp3, a1, b1, c1, d1, e1, bind, Except.bind]

theorem funWrapped_ok [DecidableEq C] {w : World V A O C Q R} {dd dn : DynDict V} {s : Statics O C} {o}
    (h : funWrapped w dd dn s = .ok o) :
    ∃ df d1 dr fn first rk r args out, popDyn dd dn "fun" = .ok df ∧ popDyn dd dn "first" = .ok d1 ∧
      popDyn dd dn "rest" = .ok dr ∧ hashableCombine df s.fn = .ok fn ∧
      hashableCombine d1 s.first = .ok first ∧ hashableCombine dr s.rest = .ok rk ∧
      unpackRest rk = .ok r ∧ splitDummy first r.1 = .ok args ∧ w.apply fn args r.2 = .ok out ∧
      partitionOut out = .ok o := by
  simp only [funWrapped, bind, Except.bind] at h
  split at h; · contradiction
  rename_i df h1
  split at h; · contradiction
  rename_i d1 h2
  split at h; · contradiction
  rename_i dr h3
  split at h; · contradiction
  rename_i fn h4
  split at h; · contradiction
  rename_i first h5
  split at h; · contradiction
  rename_i rk h6
  split at h; · contradiction
  rename_i r h7
  split at h; · contradiction
  rename_i args h8
  split at h; · contradiction
  rename_i out h9
  exact ⟨df, d1, dr, fn, first, rk, r, args, out, h1, h2, h3, h4, h5, h6, h7, h8, h9, h⟩

theorem keepObj_abs {w : World V A O C Q R} {t t' : Val V O C} (h : abs w t = abs w t') :
    (t.map (keepObj (C := C))).join = (t'.map (keepObj (C := C))).join := by
  have e : ∀ t : Val V O C, t.map (keepObj (C := C)) = (abs w t).map (fun l => match l with
      | .arr _ => .none
      | .obj o => .leaf (.obj o)) := by
    intro t
    rw [abs, map_map]
    congr 1
    funext l
    cases l <;> rfl
  rw [e, e, h]

/-- The static output of a program does not depend on the values of the arrays. -/
theorem funWrapped_static [DecidableEq C] {w : World V A O C Q R} (hT : w.Traceable)
    {dd dn dd' dn' : DynDict V} {s : Statics O C} {o o'} (hd : dynKey w dd = dynKey w dd')
    (hn : dynKey w dn = dynKey w dn') (h : funWrapped w dd dn s = .ok o)
    (h' : funWrapped w dd' dn' s = .ok o') : o.2 = o'.2 := by
  obtain ⟨df, d1, dr, fn, first, rk, r, args, out, h1, h2, h3, h4, h5, h6, h7, h8, h9, h10⟩ := funWrapped_ok h
  obtain ⟨df', d1', dr', fn', first', rk', r', args', out', h1', h2', h3', h4', h5', h6', h7', h8', h9', h10'⟩ :=
    funWrapped_ok h'
  have e1 := abs_combine h4 h4' (popDyn_abs hd hn h1 h1')
  have e2 := abs_combine h5 h5' (popDyn_abs hd hn h2 h2')
  have e3 := abs_combine h6 h6' (popDyn_abs hd hn h3 h3')
  have e4 := unpackRest_abs h7 h7' e3
  have e5 : args.map (abs w) = args'.map (abs w) := by
    rw [splitDummy_ok h8, splitDummy_ok h8', List.map_dropLast, List.map_dropLast, List.map_cons,
      List.map_cons, e2, e4.1]
  have e6 := hT _ _ _ _ _ _ _ _ e1 e5 e4.2 h9 h9'
  rw [partitionOut_eq] at h10 h10'
  simp only [Except.ok.injEq] at h10 h10'
  subst h10; subst h10'
  exact keepObj_abs e6

theorem post_partition [DecidableEq C] (t : Val V O C) : (partitionOut t).bind postprocess = .ok t := by
  cases h : partitionOut t with
  | error e => rw [partitionOut_eq] at h; simp at h
  | ok o => exact (Filters.combine_partition h).1

/-- What `_preprocess` hands to a jitted function. -/
theorem preprocess_ok {w : World V A O C Q R} {wr : Wrapper V O C} {args kwargs b}
    (hb : w.bind wr.signatureOf args kwargs = .ok b) :
    ∃ dd dn first rest, first :: rest = b.1 ++ [.none] ∧
      preprocess w wr args kwargs = .ok (dd, dn, ⟨wr.staticFun, (hashablePartition first).2,
        (hashablePartition (packRest rest b.2)).2⟩) ∧
      popDyn dd dn "fun" = .ok wr.dynFun ∧ popDyn dd dn "first" = .ok (hashablePartition first).1 ∧
      popDyn dd dn "rest" = .ok (hashablePartition (packRest rest b.2)).1 ∧
      dd = (if wr.donateFirst then [("first", (hashablePartition first).1)] else []) ++
        (if wr.donateRest then
          [("fun", wr.dynFun), ("rest", (hashablePartition (packRest rest b.2)).1)] else []) ∧
      dn = (if wr.donateFirst then [] else [("first", (hashablePartition first).1)]) ++
        (if wr.donateRest then [] else
          [("fun", wr.dynFun), ("rest", (hashablePartition (packRest rest b.2)).1)]) := by
  refine ⟨_, _, (b.1 ++ [PT.none]).headD .none, (b.1 ++ [PT.none]).tail, ?_, ?_, ?_, ?_, ?_, rfl, rfl⟩
  · cases b.1 <;> simp
  · simp only [preprocess, hb, bind, Except.bind, pure, Except.pure]
  all_goals
    cases wr.donateFirst <;> cases wr.donateRest <;> simp [popDyn]

/-! ## Hashing -/

theorem hashable_leaf {w : World V A O C Q R} {l : Leaf V O} :
    Hashable w (.leaf l : Val V O C) ↔ ∀ o, l = .obj o → w.hashable o = true := by
  constructor
  · rintro ⟨h, _⟩ o rfl
    exact h [] o rfl
  · intro h
    refine ⟨fun π o ho => ?_, fun π c n hc => ?_⟩
    · cases π with
      | nil => simp only [leafAt?_leaf_nil, Option.some.injEq] at ho; exact h o ho
      | cons i π => simp at ho
    · cases π <;> simp [head] at hc

theorem hashable_none {w : World V A O C Q R} : Hashable w (.none : Val V O C) := by
  refine ⟨fun π o ho => ?_, fun π c n hc => ?_⟩
  · simp at ho
  · cases π <;> simp [head] at hc

theorem hashable_node {w : World V A O C Q R} {k : JK C} {cs : List (Val V O C)} :
    Hashable w (.node k cs) ↔ (∀ c, k = .other c → w.chashable c = true) ∧ ∀ t ∈ cs, Hashable w t := by
  constructor
  · rintro ⟨h1, h2⟩
    refine ⟨fun c hc => h2 [] c cs.length (by simp [head, hc]), fun t ht => ?_⟩
    obtain ⟨i, hi⟩ := List.mem_iff_getElem?.1 ht
    refine ⟨fun π o ho => h1 (i :: π) o ?_, fun π c n hc => h2 (i :: π) c n ?_⟩
    · simp [leafAt?_node, hi, ho]
    · simp [headAt?_node_cons, hi, hc]
  · rintro ⟨h1, h2⟩
    refine ⟨fun π o ho => ?_, fun π c n hc => ?_⟩
    · cases π with
      | nil => simp at ho
      | cons i π =>
        simp only [leafAt?_node] at ho
        cases hi : cs[i]? with
        | none => simp [hi] at ho
        | some t =>
          simp only [hi, Option.bind_some] at ho
          exact (h2 t (List.mem_of_getElem? hi)).1 π o ho
    · cases π with
      | nil => simp [head] at hc; exact h1 c hc.1
      | cons i π =>
        simp only [headAt?_node_cons] at hc
        cases hi : cs[i]? with
        | none => simp [hi] at hc
        | some t =>
          simp only [hi, Option.bind_some] at hc
          exact (h2 t (List.mem_of_getElem? hi)).2 π c n hc

theorem defHashableL_eq {w : World V A O C Q R} {cs : List (PT (JK C) α)} :
    defHashableL w cs = cs.all (defHashable w) := by
  induction cs with
  | nil => rfl
  | cons c cs ih => simp [defHashableL, ih]

/-- Hashing one static leaf. -/
def leafHashable (w : World V A O C Q R) (l : Leaf V O) : Bool :=
  match l.static with
  | some o => w.hashable o
  | Option.none => true

theorem hashable_iff' {w : World V A O C Q R} (t : Val V O C) :
    (t.leaves.all (leafHashable w) && defHashable w t.shape) = true ↔ Hashable w t := by
  induction t using ind with
  | leaf l =>
    rw [hashable_leaf]
    cases l <;> simp [leaves, leafHashable, Leaf.static, defHashable]
  | none => simp [leaves, defHashable, hashable_none]
  | node k cs ih =>
    rw [hashable_node]
    have e : (leavesL cs).all (leafHashable w) = true ∧ defHashableL w (cs.map shape) = true ↔
        ∀ t ∈ cs, Hashable w t := by
      rw [defHashableL_eq, leavesL_eq]
      simp only [List.all_flatMap, List.all_map, List.all_eq_true, Function.comp_apply]
      constructor
      · rintro ⟨h1, h2⟩ t ht
        rw [← ih t ht, Bool.and_eq_true, List.all_eq_true]
        exact ⟨h1 t ht, h2 t ht⟩
      · intro h
        have : ∀ t ∈ cs, _ := fun t ht => (ih t ht).2 (h t ht)
        simp only [Bool.and_eq_true, List.all_eq_true] at this
        exact ⟨fun t ht => (this t ht).1, fun t ht => (this t ht).2⟩
    rw [← e]
    cases k <;> simp [leaves, defHashable, and_left_comm]

theorem hashable_iff {w : World V A O C Q R} (t : Val V O C) :
    (hashablePartition t).2.hashable w = true ↔ Hashable w t := by
  rw [← hashable_iff']
  simp only [Static.hashable, hashablePartition, List.all_map]
  rfl

theorem callHashable_iff {w : World V A O C Q R} {fn first : Val V O C} {rest kw args}
    (e : first :: rest = args ++ [.none]) :
    ((hashablePartition fn).2.hashable w && (hashablePartition first).2.hashable w &&
      (hashablePartition (packRest rest kw)).2.hashable w) = true ↔ CallHashable w fn args kw := by
  simp only [Bool.and_eq_true, hashable_iff, packRest, hashable_node, List.mem_cons, List.not_mem_nil, or_false,
    forall_eq_or_imp, forall_eq, reduceCtorEq, false_implies, implies_true, true_and, CallHashable]
  have h1 : (∀ a ∈ args, Hashable w a) ↔ ∀ a ∈ first :: rest, Hashable w a := by
    rw [e]
    simp only [List.mem_append, List.mem_cons, List.not_mem_nil, or_false]
    exact ⟨fun h a ha => ha.elim (h a) (fun h' => h' ▸ hashable_none), fun h a ha => h a (.inl ha)⟩
  have h2 : (∀ p ∈ kw, Hashable w p.2) ↔ ∀ t ∈ kw.map Prod.snd, Hashable w t := by
    simp only [List.mem_map, Prod.exists, exists_eq_right, Prod.forall, forall_exists_index]
    exact ⟨fun h t x => h x t, fun h x t => h t x⟩
  rw [h1, h2]
  simp only [List.mem_cons, forall_eq_or_imp]
  simp only [and_assoc]

end Verif.Jit
