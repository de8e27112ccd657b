import Verif.Serialise.Props

/-!
# C88: saving to and loading from a path (`equinox/_serialisation.py`, 143-162)

Outside of the repository, after the documentation of Python: `open(path, "wb")` makes an empty file, or empties it; it raises `FileNotFoundError` if
the directory does not exist, and so does `open(path, "rb")` if the file does not exist. `path.suffix` is the part of the name from the last dot on,
unless this dot is the first or the last character (Python up to 3.13); `path.with_suffix` raises `ValueError` if the name is empty. A path is
a directory and a name.
-/

namespace Verif
namespace Ser

variable {K O C T : Type} [DecidableEq K] {env : Env}

/-! ### Model -/

structure Path where
  dir : List String
  name : List Char
deriving DecidableEq

/-- What is on the disk, which files opened by the code are open, and the user's file object. -/
structure Disk where
  dirs : List String → Bool
  files : Path → Option Bytes
  opened : List Path
  user : Bytes
  userClosed : Bool

/-- The argument `path_or_file`. -/
inductive Target
  | path (p : Path)
  | file

inductive FErr
  | tree (e : TErr)
  | value
  | notFound
deriving DecidableEq

/-- `PurePath.suffix`: `i = name.rfind("."); name[i:] if 0 < i < len(name) - 1 else ""` -/
def suffix (name : List Char) : List Char :=
  let tail := (name.reverse.takeWhile (· ≠ '.')).reverse
  if tail.length + 1 < name.length ∧ tail ≠ [] then '.' :: tail else []

/-- `path.with_suffix(".eqx")` for a path without a suffix. -/
def addEqx (p : Path) : Except FErr Path :=
  if p.name = [] then .error .value else .ok { p with name := p.name ++ ['.', 'e', 'q', 'x'] }

/-- `_with_suffix` (143-148) -/
def withSuffix (p : Path) : Except FErr Path := if suffix p.name = [] then addEqx p else .ok p

/-- `open(path, mode)`: what is read from it. -/
def openFile (write : Bool) (p : Path) (d : Disk) : Except FErr Bytes × Disk :=
  if d.dirs p.dir then
    if write then (.ok [], { d with files := fun q => if q = p then some [] else d.files q, opened := p :: d.opened })
    else match d.files p with
      | some b => (.ok b, { d with opened := p :: d.opened })
      | none => (.error .notFound, d)
  else (.error .notFound, d)

/-- Leaving the `try` block with what has been written: `file.close()` in `finally`. -/
def closeFile (write : Bool) (p : Path) (b : Bytes) (d : Disk) : Disk :=
  { d with
    files := fun q => if q = p ∧ write then some b else d.files q
    opened := d.opened.erase p }

def liftTree {X : Type} : Except TErr X → Except FErr X
  | .ok x => .ok x
  | .error e => .error (.tree e)

/-- The body of the `with` statement, inside of `_maybe_open` (151-162). -/
def maybeOpen {X : Type} (write : Bool) (body : Act X) : Target → Disk → Except FErr X × Disk
  | .file, d => (liftTree (body d.user).1, { d with user := (body d.user).2 })
  | .path p, d =>
    match withSuffix p with
    | .error e => (.error e, d)
    | .ok q =>
      match openFile write q d with
      | (.error e, d) => (.error e, d)
      | (.ok b, d) => (liftTree (body b).1, closeFile write q (body b).2 d)

/-- `tree_serialise_leaves` (191-245) -/
def saveTo (tree : PT K (Leaf env O)) : Target → Disk → Except FErr (PT K (Leaf env O)) × Disk := maybeOpen true (save tree)

variable [DecidableEq C] [DecidableEq T] (cls : K → C) (oty : O → T)

/-- `tree_deserialise_leaves` (248-334); the checks of 326-333 come after the file is closed, but do not use it. -/
def loadFrom (like : PT K (Leaf env O)) : Target → Disk → Except FErr (PT K (Leaf env O)) × Disk := maybeOpen false (load cls oty like)

/-! ### Specification -/

/-- The name has a suffix: a dot with something before it, and something without dots after it. -/
def HasSuffix (name : List Char) : Prop := ∃ a b, name = a ++ '.' :: b ∧ a ≠ [] ∧ b ≠ [] ∧ '.' ∉ b

/-- The file a path stands for. -/
def FileOf (p q : Path) : Prop :=
  q.dir = p.dir ∧ ((HasSuffix p.name ∧ q.name = p.name) ∨ (¬ HasSuffix p.name ∧ p.name ≠ [] ∧ q.name = p.name ++ ".eqx".toList))

/-! ### Lemmas -/

theorem takeWhile_last (a b : List Char) (hb : '.' ∉ b) :
    ((a ++ '.' :: b).reverse.takeWhile (· ≠ '.')).reverse = b := by
  have : (a ++ '.' :: b).reverse = b.reverse ++ '.' :: a.reverse := by simp
  rw [this, List.takeWhile_append_of_pos (by intro c hc; simp only [List.mem_reverse] at hc; simp only [ne_eq, decide_eq_true_eq]; rintro rfl; exact hb hc)]
  simp

theorem split_last_dot (l : List Char) : '.' ∉ l ∨ ∃ a b, l = a ++ '.' :: b ∧ '.' ∉ b := by
  induction l with
  | nil => left; simp
  | cons c l ih =>
    rcases ih with h | ⟨a, b, rfl, hb⟩
    · by_cases hc : c = '.'
      · exact .inr ⟨[], l, by simp [hc], h⟩
      · left; simp [h, Ne.symm hc]
    · exact .inr ⟨c :: a, b, rfl, hb⟩

theorem suffix_iff (name : List Char) : suffix name ≠ [] ↔ HasSuffix name := by
  rcases split_last_dot name with h | ⟨a, b, rfl, hb⟩
  · have : (name.reverse.takeWhile (· ≠ '.')).reverse = name := by
      have hall : ∀ c ∈ name.reverse, (decide (c ≠ '.')) = true := by
        intro c hc
        simp only [List.mem_reverse] at hc
        simp only [ne_eq, decide_eq_true_eq]
        rintro rfl
        exact h hc
      have := List.takeWhile_append_of_pos (l₂ := []) hall
      rw [List.append_nil] at this
      rw [this]
      simp
    simp only [suffix, this]
    rw [if_neg (by omega)]
    constructor
    · intro h'; exact absurd rfl h'
    · rintro ⟨a, b, rfl, -, -, -⟩
      simp at h
  · simp only [suffix, takeWhile_last a b hb]
    constructor
    · intro h'
      split at h'
      · rename_i hc
        refine ⟨a, b, rfl, ?_, hc.2, hb⟩
        rintro rfl
        simp at hc
      · exact absurd rfl h'
    · rintro ⟨a', b', he, ha, hb1, hb2⟩
      have h1 := takeWhile_last a b hb
      rw [he, takeWhile_last a' b' hb2] at h1
      subst h1
      have ha' : a = a' := by
        have := List.append_cancel_right (he : a ++ '.' :: b' = a' ++ '.' :: b')
        exact this
      subst ha'
      have hlen : 0 < a.length := List.length_pos_iff.2 ha
      rw [if_pos ⟨by simp only [List.length_append, List.length_cons]; omega, hb1⟩]
      simp

theorem withSuffix_ok {p q : Path} : withSuffix p = .ok q ↔ FileOf p q := by
  obtain ⟨pd, pn⟩ := p
  obtain ⟨qd, qn⟩ := q
  simp only [withSuffix, FileOf]
  by_cases h : suffix pn = []
  · have hs : ¬ HasSuffix pn := fun h' => (suffix_iff pn).2 h' h
    rw [if_pos h]
    simp only [addEqx, hs, false_and, not_false_eq_true, true_and, false_or]
    split
    · rename_i h'
      simp [h']
    · rename_i h'
      constructor
      · intro he
        cases he
        exact ⟨rfl, h', rfl⟩
      · rintro ⟨h1, -, h2⟩
        subst h1; subst h2; rfl
  · rw [if_neg h]
    have hs : HasSuffix pn := (suffix_iff pn).1 h
    simp only [hs, not_true_eq_false, true_and, false_and, or_false, Except.ok.injEq, Path.mk.injEq]
    constructor
    · rintro ⟨rfl, rfl⟩; exact ⟨rfl, rfl⟩
    · rintro ⟨rfl, rfl⟩; exact ⟨rfl, rfl⟩

/-! ### Theorems -/

/-- **C88**: every path with a name stands for exactly one file; a name and the same with `.eqx` stand for the same one. -/
theorem file_of_path (p : Path) :
    (p.name ≠ [] → ∃ q, FileOf p q ∧ ∀ q', FileOf p q' → q' = q) ∧
    (p.name ≠ [] → ¬ HasSuffix p.name → ∀ q, FileOf p q ↔ FileOf { p with name := p.name ++ ".eqx".toList } q) := by
  constructor
  · intro hn
    by_cases h : HasSuffix p.name
    · refine ⟨p, ⟨rfl, .inl ⟨h, rfl⟩⟩, ?_⟩
      rintro ⟨qd, qn⟩ ⟨h1, (⟨-, h2⟩ | ⟨h2, -⟩)⟩
      · obtain ⟨pd, pn⟩ := p; simp only at h1 h2; subst h1; subst h2; rfl
      · exact absurd h h2
    · refine ⟨{ p with name := p.name ++ ".eqx".toList }, ⟨rfl, .inr ⟨h, hn, rfl⟩⟩, ?_⟩
      rintro ⟨qd, qn⟩ ⟨h1, (⟨h2, -⟩ | ⟨-, -, h2⟩)⟩
      · exact absurd h2 h
      · simp only at h1 h2; subst h1; subst h2; rfl
  · intro hn h q
    have hs : HasSuffix (p.name ++ ".eqx".toList) := ⟨p.name, ['e', 'q', 'x'], rfl, hn, by simp, by decide⟩
    simp only [FileOf, h, hs, false_and, not_false_eq_true, true_and, false_or, not_true_eq_false, or_false, hn, ne_eq]

omit [DecidableEq K] in
theorem maybeOpen_path {X : Type} (write : Bool) (body : Act X) (p q : Path) (d : Disk) (h : FileOf p q) (hd : d.dirs q.dir)
    (hw : write = false → (d.files q).isSome) :
    maybeOpen write body (.path p) d =
      (liftTree (body (if write then [] else (d.files q).getD [])).1,
       { d with files := fun r => if r = q ∧ write then some (body []).2 else d.files r }) := by
  simp only [maybeOpen, withSuffix_ok.2 h, openFile, hd, if_true]
  cases write with
  | true =>
    simp only [if_true, closeFile, List.erase_cons_head, and_true]
    congr 2
    funext r
    split <;> rfl
  | false =>
    obtain ⟨b, hb⟩ := Option.isSome_iff_exists.1 (hw rfl)
    simp [hb, closeFile]

/-- **C88**: what is saved under one path is loaded under any path that stands for the same file, whatever was there before; other files do not
change. -/
theorem save_load_path (hl : env.Lawful) (tree like : PT K (Leaf env O)) (hs : PT.SameStructure tree like)
    (H : ∀ π x y, tree.leafAt? π = some x → like.leafAt? π = some y → Storable x ∧ Matches x y)
    (p p' q : Path) (hp : FileOf p q) (hp' : FileOf p' q) (d : Disk) (hd : d.dirs q.dir) :
    ∃ r d' out, saveTo tree (.path p) d = (.ok r, d') ∧ (∀ q' ≠ q, d'.files q' = d.files q') ∧
      loadFrom cls oty like (.path p') d' = (.ok out, d') ∧ PT.SameStructure out like ∧
      ∀ π x y, tree.leafAt? π = some x → like.leafAt? π = some y → out.leafAt? π = some (loaded x y) := by
  obtain ⟨b, out, h1, h2, h3, h4⟩ := round_trip cls oty hl tree like hs H
  obtain ⟨r, hr⟩ := h1 []
  have h2' := h2 []
  rw [List.nil_append] at hr
  rw [List.append_nil] at h2'
  refine ⟨r, { d with files := fun r => if r = q then some b else d.files r }, out, ?_, ?_, ?_, h3, h4⟩
  · rw [saveTo, maybeOpen_path true _ p q d hp hd (by simp)]
    simp [hr, liftTree]
  · intro q' hq'
    simp [hq']
  · rw [loadFrom, maybeOpen_path false _ p' q { d with files := fun r => if r = q then some b else d.files r } hp' hd (by simp)]
    simp [h2', liftTree]

/-- **C88**: however saving or loading ends, the files that were opened are closed again, directories stay, and loading changes no file; the user's
file object is not closed, and is not touched if a path is given. -/
theorem files_closed {X : Type} (write : Bool) (body : Act X) (t : Target) (d : Disk) :
    (maybeOpen write body t d).2.opened = d.opened ∧ (maybeOpen write body t d).2.userClosed = d.userClosed ∧
    (maybeOpen write body t d).2.dirs = d.dirs ∧ (write = false → (maybeOpen write body t d).2.files = d.files) ∧
    (∀ p, t = .path p → (maybeOpen write body t d).2.user = d.user) ∧ (t = .file → (maybeOpen write body t d).2.files = d.files) := by
  cases t with
  | file => simp [maybeOpen]
  | path p =>
    simp only [maybeOpen]
    cases withSuffix p with
    | error e => simp
    | ok q =>
      simp only [openFile]
      split
      · rename_i h
        split at h <;> (try split at h) <;> (try split at h) <;> simp_all
      · rename_i h
        split at h
        · split at h
          · simp only [Prod.mk.injEq, Except.ok.injEq] at h
            obtain ⟨rfl, rfl⟩ := h
            rename_i hw
            simp [closeFile, hw]
          · split at h
            · simp only [Prod.mk.injEq, Except.ok.injEq] at h
              obtain ⟨rfl, rfl⟩ := h
              rename_i hw _ _ _
              simp [closeFile, hw]
            · simp at h
        · simp at h

/-- **C88**: what goes wrong: no name, no directory, no file. -/
theorem path_errors {X : Type} (write : Bool) (body : Act X) (p q : Path) (d : Disk) :
    (p.name = [] → maybeOpen write body (.path p) d = (.error .value, d)) ∧
    (FileOf p q → (d.dirs q.dir = false ∨ (write = false ∧ d.files q = none)) → maybeOpen write body (.path p) d = (.error .notFound, d)) := by
  constructor
  · intro h
    have : suffix [] = [] := rfl
    simp only [maybeOpen, withSuffix, addEqx, h, this, if_true]
  · intro h hd
    simp only [maybeOpen, withSuffix_ok.2 h, openFile]
    rcases hd with hd | ⟨rfl, hd⟩
    · simp [hd]
    · cases d.dirs q.dir <;> simp [hd]

/-- **C88**: a file object is written to at the end and read from where it stands, so that trees can be saved one after the other. -/
theorem save_load_file (hl : env.Lawful) (tree : PT K (Leaf env O)) (H : ∀ π x, tree.leafAt? π = some x → Storable x) (d : Disk) :
    ∃ b r, saveTo tree .file d = (.ok r, { d with user := d.user ++ b }) ∧
      ∀ (d' : Disk) after, d'.user = b ++ after → loadFrom cls oty tree .file d' = (.ok tree, { d' with user := after }) := by
  obtain ⟨b, h1, h2⟩ := round_trip_self cls oty hl tree H
  obtain ⟨r, hr⟩ := h1 d.user
  refine ⟨b, r, by simp [saveTo, maybeOpen, hr, liftTree], ?_⟩
  intro d' after hu
  simp [loadFrom, maybeOpen, hu, h2, liftTree]

/-- A save that fails has already destroyed what the file contained: a tree with a PRNG key in it. -/
theorem failed_save_truncates (tree : PT K (Leaf env O)) (π : List Nat) (a : Arr) (ha : a.dtype = .key)
    (hx : tree.leafAt? π = some (.jax a) ∨ tree.leafAt? π = some (.np a)) (p q : Path) (hp : FileOf p q) (d : Disk) (hd : d.dirs q.dir) :
    ∃ e b, saveTo tree (.path p) d = (.error e, { d with files := fun r => if r = q then some b else d.files r }) ∧
      b = (save tree []).2 := by
  obtain ⟨e, s, h⟩ := save_key_raises tree π a ha hx []
  refine ⟨.tree e, s, ?_, by rw [h]⟩
  rw [saveTo, maybeOpen_path true _ p q d hp hd (by simp)]
  simp [h, liftTree]

example : FileOf ⟨["a.b"], "model".toList⟩ ⟨["a.b"], "model.eqx".toList⟩ ∧ FileOf ⟨[], "model.v1".toList⟩ ⟨[], "model.v1".toList⟩ ∧
    FileOf ⟨[], ".hidden".toList⟩ ⟨[], ".hidden.eqx".toList⟩ :=
  ⟨withSuffix_ok.1 (by decide), withSuffix_ok.1 (by decide), withSuffix_ok.1 (by decide)⟩

end Ser
end Verif
