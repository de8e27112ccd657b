import Verif.Serialise.Spec

/-!
# An environment in which the assumptions hold

A toy `.npy` format, and scalars which are integers, booleans, and numbers with one decimal digit ("floats").
Used to show that the assumptions can be met and to exhibit behaviour of the code.
-/

namespace Verif
namespace Ser
namespace Ex

def encNat (n : Nat) : Bytes := List.replicate n 1 ++ [0]

def decNat : Bytes → Except Err (Nat × Bytes)
  | [] => .error .eof
  | b :: s => if b = 0 then .ok (0, s) else (decNat s).map (fun r => (r.1 + 1, r.2))

def decNats : Nat → Bytes → Except Err (List Nat × Bytes)
  | 0, s => .ok ([], s)
  | n + 1, s => match decNat s with
    | .error e => .error e
    | .ok (k, s) => (decNats n s).map (fun r => (k :: r.1, r.2))

def decRaw (n : Nat) (s : Bytes) : Except Err (Bytes × Bytes) :=
  if n ≤ s.length then .ok (s.take n, s.drop n) else .error .eof

/-- dtype number, shape, data, each preceded by its length. -/
def body (d : Nat) (a : Arr) : Bytes :=
  encNat d ++ (encNat a.shape.length ++ (a.shape.flatMap encNat ++ (encNat a.raw.length ++ a.raw)))

def decBody (mk : Nat → DType) (s : Bytes) : Except Err (Arr × Bytes) := do
  let (d, s) ← decNat s
  let (r, s) ← decNat s
  let (sh, s) ← decNats r s
  let (l, s) ← decNat s
  let (raw, s) ← decRaw l s
  pure (⟨mk d, sh, raw⟩, s)

def enc (a : Arr) : Bytes :=
  match a.dtype with
  | .std n => 0 :: body n a
  | .void n => 1 :: body n a
  | _ => [2]

def dec : Bytes → Except Err (Arr × Bytes)
  | [] => .error .eof
  | b :: s => if b = 0 then decBody .std s else if b = 1 then decBody .void s else .error .valueError

theorem decNat_enc (n : Nat) (rest : Bytes) : decNat (encNat n ++ rest) = .ok (n, rest) := by
  induction n with
  | zero => simp [encNat, decNat]
  | succ n ih =>
    have : encNat (n + 1) ++ rest = 1 :: (encNat n ++ rest) := by simp [encNat, List.replicate_succ]
    rw [this, decNat, ih]
    rfl

theorem decNats_enc (l : List Nat) (rest : Bytes) : decNats l.length (l.flatMap encNat ++ rest) = .ok (l, rest) := by
  induction l with
  | nil => simp [decNats]
  | cons x l ih => simp [decNats, decNat_enc, ih, Except.map]

theorem decRaw_enc (b rest : Bytes) : decRaw b.length (b ++ rest) = .ok (b, rest) := by
  simp [decRaw]

theorem decBody_enc (mk : Nat → DType) (d : Nat) (a : Arr) (h : a.dtype = mk d) (rest : Bytes) :
    decBody mk (body d a ++ rest) = .ok (a, rest) := by
  simp only [decBody, body, List.append_assoc, decNat_enc, decNats_enc, decRaw_enc, bind, Except.bind, pure, Except.pure, ← h]

/-- More data after what is read changes nothing. -/
def Mono {X : Type} (f : Bytes → Except Err (X × Bytes)) : Prop :=
  ∀ p q x r, f p = .ok (x, r) → f (p ++ q) = .ok (x, r ++ q)

theorem mono_decNat : Mono decNat := by
  intro p
  induction p with
  | nil => intro q x r h; simp [decNat] at h
  | cons b p ih =>
    intro q x r h
    simp only [decNat, List.cons_append] at h ⊢
    split
    · rename_i hb
      simp only [hb, if_true, Except.ok.injEq, Prod.mk.injEq] at h
      simp [h.1, h.2]
    · rename_i hb
      simp only [hb, if_false] at h
      cases hd : decNat p with
      | error e => simp [hd, Except.map] at h
      | ok v =>
        obtain ⟨n, s⟩ := v
        simp [hd, Except.map] at h
        rw [ih q n s hd]
        simp [Except.map, h.1, ← h.2]

theorem mono_decNats (n : Nat) : Mono (decNats n) := by
  induction n with
  | zero => intro p q x r h; simp [decNats] at h; simp [decNats, h.1, h.2]
  | succ n ih =>
    intro p q x r h
    simp only [decNats] at h ⊢
    cases hd : decNat p with
    | error e => simp [hd] at h
    | ok v =>
      obtain ⟨k, s⟩ := v
      rw [mono_decNat p q k s hd]
      simp only [hd] at h ⊢
      cases hs : decNats n s with
      | error e => simp [hs, Except.map] at h
      | ok w =>
        obtain ⟨l, t⟩ := w
        simp [hs, Except.map] at h
        rw [ih s q l t hs]
        simp [Except.map, h.1, ← h.2]

theorem mono_decRaw (n : Nat) : Mono (decRaw n) := by
  intro p q x r h
  simp only [decRaw] at h ⊢
  split at h
  · rename_i hn
    simp at h
    have h1 : n ≤ (p ++ q).length := by simp; omega
    rw [if_pos h1, List.take_append_of_le_length hn, List.drop_append_of_le_length hn, h.1, h.2]
  · contradiction

theorem mono_decBody (mk : Nat → DType) : Mono (decBody mk) := by
  intro p q x r h
  simp only [decBody, bind, Except.bind] at h ⊢
  cases h1 : decNat p with
  | error e => simp [h1] at h
  | ok v1 =>
    simp only [h1] at h
    rw [mono_decNat p q v1.1 v1.2 h1]
    simp only
    cases h2 : decNat v1.2 with
    | error e => simp [h2] at h
    | ok v2 =>
      simp only [h2] at h
      rw [mono_decNat _ q v2.1 v2.2 h2]
      simp only
      cases h3 : decNats v2.1 v2.2 with
      | error e => simp [h3] at h
      | ok v3 =>
        simp only [h3] at h
        rw [mono_decNats _ _ q v3.1 v3.2 h3]
        simp only
        cases h4 : decNat v3.2 with
        | error e => simp [h4] at h
        | ok v4 =>
          simp only [h4] at h
          rw [mono_decNat _ q v4.1 v4.2 h4]
          simp only
          cases h5 : decRaw v4.1 v4.2 with
          | error e => simp [h5] at h
          | ok v5 =>
            simp only [h5] at h
            rw [mono_decRaw _ _ q v5.1 v5.2 h5]
            simp only [pure, Except.pure, Except.ok.injEq, Prod.mk.injEq] at h ⊢
            exact ⟨h.1, by rw [h.2]⟩

theorem mono_dec : Mono dec := by
  intro p q x r h
  cases p with
  | nil => simp [dec] at h
  | cons b p =>
    simp only [dec, List.cons_append] at h ⊢
    split at h
    · rename_i hb; simp only [hb, if_true]; exact mono_decBody _ p q x r h
    · split at h
      · rename_i hb hb'; simp only [hb, hb', if_true, if_false]; exact mono_decBody _ p q x r h
      · contradiction

theorem dec_enc (a : Arr) (rest : Bytes) (h : a.dtype.Plain) : dec (enc a ++ rest) = .ok (a, rest) := by
  simp only [enc]
  split
  · rename_i n hn; simp [dec, decBody_enc .std n a hn]
  · rename_i n hn; simp [dec, decBody_enc .void n a hn]
  · exfalso
    cases hd : a.dtype <;> simp_all [DType.Plain]

/-- Numbers. -/
inductive Num where
  | int (i : Int)
  | bool (b : Bool)
  | float (tenths : Int)
deriving DecidableEq

def encInt (i : Int) : Bytes := (if 0 ≤ i then 0 else 1) :: List.replicate i.natAbs 1

def decInt : Bytes → Int
  | [] => 0
  | b :: s => if b = 0 then s.length else -(s.length : Int)

theorem decInt_enc (i : Int) : decInt (encInt i) = i := by
  by_cases h : 0 ≤ i
  · simp [encInt, decInt, h, Int.natAbs_of_nonneg h]
  · simp [encInt, decInt, h]; omega

/-- Integers which are too large become object arrays. -/
def asArray : Num → Arr
  | .int i => if -128 ≤ i ∧ i < 128 then ⟨.std 0, [], encInt i⟩ else ⟨.object, [], []⟩
  | .bool b => ⟨.std 1, [], if b then [1] else [0]⟩
  | .float t => ⟨.std 2, [], encInt t⟩

/-- The number held by an array, in tenths. -/
def tenths (a : Arr) : Int :=
  if a.dtype = .std 0 then decInt a.raw * 10
  else if a.dtype = .std 1 then (if a.raw = [1] then 10 else 0)
  else decInt a.raw

/-- `int(out.item())` and so on; types are `0` for `int`, `1` for `bool`, `2` for `float`. Only arrays of one element have an
`item`. -/
def fromItem (t : Nat) (a : Arr) : Except Err Num :=
  if a.shape = [] then
    if t = 0 then .ok (.int (tenths a / 10)) else if t = 1 then .ok (.bool (tenths a ≠ 0)) else if t = 2 then .ok (.float (tenths a))
    else .error .typeError
  else .error .valueError

def tyOf : Num → Nat
  | .int _ => 0
  | .bool _ => 1
  | .float _ => 2

theorem tyOf_fromItem (t : Nat) (a : Arr) (s : Num) (h : fromItem t a = .ok s) : tyOf s = t := by
  simp only [fromItem] at h
  split at h
  · split at h
    · rename_i ht; simp at h; subst h; simp [tyOf, ht]
    · split at h
      · rename_i ht; simp at h; subst h; simp [tyOf, ht]
      · split at h
        · rename_i ht; simp at h; subst h; simp [tyOf, ht]
        · contradiction
  · contradiction

theorem fromItem_int (i : Int) : fromItem 0 ⟨.std 0, [], encInt i⟩ = .ok (.int i) := by
  simp [fromItem, tenths, decInt_enc]

theorem fromItem_float (i : Int) : fromItem 2 ⟨.std 2, [], encInt i⟩ = .ok (.float i) := by
  simp [fromItem, tenths, decInt_enc]

/-- The example environment. -/
def env : Env where
  Scal := Num
  STy := Nat
  decSTy := inferInstance
  tyOf := tyOf
  isBf16 := fun _ => false
  enc := enc
  dec := dec
  asArray := asArray
  fromItem := fromItem
  jaxable := fun d => match d with | .std _ => true | .bf16 => true | _ => false
  canon := id

/-- The assumptions hold. -/
theorem env_lawful : env.Lawful where
  dec_enc := dec_enc
  dec_prefix := by
    rintro a p ⟨q, hq⟩ hne
    cases hd : dec p with
    | error e => exact ⟨e, hd⟩
    | ok v =>
      exfalso
      have hm := mono_dec p q v.1 v.2 hd
      change p ++ q = enc a at hq
      rw [hq] at hm
      by_cases hpl : a.dtype.Plain
      · have := dec_enc a [] hpl
        rw [List.append_nil] at this
        rw [this] at hm
        simp only [Except.ok.injEq, Prod.mk.injEq] at hm
        have : q = [] := (List.append_eq_nil_iff.1 hm.2.symm).2
        subst this
        exact hne (show p = enc a by simpa using hq)
      · have he : enc a = [2] := by
          simp only [enc]; split <;> simp_all [DType.Plain]
        rw [he] at hm
        simp [dec] at hm
  dec_object := by
    intro a rest h
    refine ⟨.valueError, ?_⟩
    change dec (enc a ++ rest) = _
    simp [enc, h, dec]
  fromItem_type := by
    intro t a s h
    exact tyOf_fromItem t a s h

/-- Every scalar except integers which are too large can be stored. -/
theorem storable (s : Num) (h : ∀ i, s = .int i → -128 ≤ i ∧ i < 128) : Storable (.scal s : Leaf env Unit) := by
  cases s with
  | int i =>
    have := h i rfl
    refine ⟨?_, ?_⟩
    · change ((asArray (.int i)).dtype.onDisk).Plain
      simp [asArray, this, DType.onDisk, DType.Plain]
    · change fromItem 0 (scalarOnDisk env (Num.int i)) = _
      have e : scalarOnDisk env (Num.int i) = ⟨.std 0, [], encInt i⟩ := by
        simp [scalarOnDisk, env, asArray, this, Arr.view, DType.onDisk]
      rw [e]
      exact fromItem_int i
  | bool b =>
    refine ⟨by change ((asArray (.bool b)).dtype.onDisk).Plain; simp [asArray, DType.onDisk, DType.Plain], ?_⟩
    change fromItem 1 (scalarOnDisk env (Num.bool b)) = _
    cases b <;> rfl
  | float t =>
    refine ⟨by change ((asArray (.float t)).dtype.onDisk).Plain; simp [asArray, DType.onDisk, DType.Plain], ?_⟩
    change fromItem 2 (scalarOnDisk env (Num.float t)) = _
    have e : scalarOnDisk env (Num.float t) = ⟨.std 2, [], encInt t⟩ := by
      simp [scalarOnDisk, env, asArray, Arr.view, DType.onDisk]
    rw [e]
    exact fromItem_float t

end Ex
end Ser
end Verif
