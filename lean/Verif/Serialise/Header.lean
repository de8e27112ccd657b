import Verif.Serialise.Files

/-!
# C114: hyperparameters and weights in one file (`examples/serialisation.ipynb`, cells 1-3)

The recipe of the example for models whose structure depends on hyperparameters: the first line of the file has the hyperparameters, what
follows has the leaves of the model. The functions used are the models of `_serialisation.py` (`Serialise/Model.lean`).

Outside of the repository: `json` (a component `Json`), `open` (`Serialise/Files.lean`); `f.readline()` reads up to and including the first
newline, or to the end of the file if there is none; leaving the `with` statement closes the file.
-/

namespace Verif
namespace Ser
namespace Header

variable {K O C T H : Type} [DecidableEq K] {env : Env}

/-! ### Model -/

/-- `json.dumps(h).encode()` and `json.loads(line.decode())`. -/
structure Json (H : Type) where
  dumps : H → Except Err Bytes
  loads : Bytes → Except Err H

/-- The body of `with` in `save` (`examples/serialisation.ipynb`, cell 2), on what has been written so far. -/
def writeModel (J : Json H) (h : H) (model : PT K (Leaf env O)) (b : Bytes) : Except FErr Unit × Bytes :=
  match J.dumps h with
  | .error e => (.error (.tree (.raw e)), b)
  | .ok line => match save model (b ++ (line ++ [10])) with
    | (.error e, b) => (.error (.tree e), b)
    | (.ok _, b) => (.ok (), b)

/-- `save` (`examples/serialisation.ipynb`, cell 2). The file name is taken as it is: no suffix is added. -/
def saveModel (J : Json H) (p : Path) (h : H) (model : PT K (Leaf env O)) (d : Disk) : Except FErr Unit × Disk :=
  match openFile true p d with
  | (.error e, d) => (.error e, d)
  | (.ok b, d) => ((writeModel J h model b).1, closeFile true p (writeModel J h model b).2 d)

/-- `f.readline()`: the line, and what is left to be read. -/
def readline : Bytes → Bytes × Bytes
  | [] => ([], [])
  | c :: s => if c = 10 then ([c], s) else (c :: (readline s).1, (readline s).2)

variable [DecidableEq C] [DecidableEq T] (cls : K → C) (oty : O → T)

/-- The body of `with` in `load` (`examples/serialisation.ipynb`, cell 3). `make h` is `make(key=jr.PRNGKey(0), **h)`. -/
def readModel (J : Json H) (make : H → Except Err (PT K (Leaf env O))) (b : Bytes) : Except FErr (PT K (Leaf env O)) :=
  match J.loads (readline b).1 with
  | .error e => .error (.tree (.raw e))
  | .ok h => match make h with
    | .error e => .error (.tree (.raw e))
    | .ok like => liftTree (load cls oty like (readline b).2).1

/-- `load` (`examples/serialisation.ipynb`, cell 3). -/
def loadModel (J : Json H) (make : H → Except Err (PT K (Leaf env O))) (p : Path) (d : Disk) : Except FErr (PT K (Leaf env O)) × Disk :=
  match openFile false p d with
  | (.error e, d) => (.error e, d)
  | (.ok b, d) => (readModel cls oty J make b, closeFile false p b d)

/-! ### Specification -/

/-- The hyperparameters survive: they can be written, on one line, and what is read back is `h'` (`h` itself unless there are tuples, keys which are
not strings, ...). -/
def Json.Survives (J : Json H) (h h' : H) : Prop := ∃ line, J.dumps h = .ok line ∧ 10 ∉ line ∧ J.loads (line ++ [10]) = .ok h'

/-- `line` is the first line of `b`, with its newline if it has one. -/
def FirstLine (b line : Bytes) : Prop := (∃ l rest, line = l ++ [10] ∧ 10 ∉ l ∧ b = line ++ rest) ∨ (10 ∉ b ∧ line = b)

/-! ### Proofs -/

theorem readline_first (b : Bytes) : FirstLine b (readline b).1 := by
  induction b with
  | nil => exact .inr ⟨by simp, rfl⟩
  | cons c b ih =>
    by_cases hc : c = 10
    · subst hc
      exact .inl ⟨[], b, by simp [readline], by simp, by simp [readline]⟩
    · simp only [readline, hc, if_false]
      rcases ih with ⟨l, rest, h1, h2, h3⟩ | ⟨h1, h2⟩
      · exact .inl ⟨c :: l, rest, by simp [h1], by simp [h2, Ne.symm hc], by simpa using h3⟩
      · exact .inr ⟨by simp [h1, Ne.symm hc], by simp [h2]⟩

theorem readline_append (line rest : Bytes) (h : 10 ∉ line) : readline (line ++ 10 :: rest) = (line ++ [10], rest) := by
  induction line with
  | nil => simp [readline]
  | cons c line ih =>
    simp only [List.mem_cons, not_or] at h
    simp [readline, Ne.symm h.1, ih h.2]

/-- **C114**: what was saved is what is loaded, if making a model of the hyperparameters that are read back gives a model of the same structure whose
arrays and scalars have the same types, shapes and dtypes: arrays and scalars come from the file, all other leaves from the model that was made.
Whatever the file contained before is replaced, other files stay as they are, and no file stays open. -/
theorem save_load_model (hl : env.Lawful) (J : Json H) (h h' : H) (hh : J.Survives h h') (make : H → Except Err (PT K (Leaf env O)))
    (model like : PT K (Leaf env O)) (hm : make h' = .ok like) (hs : PT.SameStructure model like)
    (hx : ∀ π x y, model.leafAt? π = some x → like.leafAt? π = some y → Storable x ∧ Matches x y) (p : Path) (d : Disk) (hd : d.dirs p.dir) :
    ∃ d' out, saveModel J p h model d = (.ok (), d') ∧ (∀ q ≠ p, d'.files q = d.files q) ∧ d'.opened = d.opened ∧
      loadModel cls oty J make p d' = (.ok out, d') ∧ PT.SameStructure out model ∧
      ∀ π x y, model.leafAt? π = some x → like.leafAt? π = some y → out.leafAt? π = some (loaded x y) := by
  obtain ⟨line, h1, h2, h3⟩ := hh
  obtain ⟨b, out, b1, b2, b3, b4⟩ := round_trip cls oty hl model like hs hx
  obtain ⟨r, hr⟩ := b1 (line ++ [10])
  have e : writeModel J h model [] = (.ok (), line ++ [10] ++ b) := by
    simp only [writeModel, h1, List.nil_append, hr]
  refine ⟨{ d with files := fun q => if q = p then some (line ++ [10] ++ b) else d.files q }, out, ?_, ?_, rfl, ?_, ?_, b4⟩
  · simp only [saveModel, openFile, hd, if_true, e, closeFile, List.erase_cons_head, and_true]
    congr 2
    funext q
    by_cases hq : q = p <;> simp [hq]
  · intro q hq
    simp [hq]
  · have e' : line ++ [10] ++ b = line ++ 10 :: b := by simp
    have b2' := b2 []
    rw [List.append_nil] at b2'
    simp only [loadModel, openFile, hd, if_true, Bool.false_eq_true, if_false, e', readModel, readline_append line b h2, h3, hm, b2', liftTree,
      closeFile, List.erase_cons_head, and_false]
  · rw [PT.sameStructure_iff] at *
    rw [b3, hs]

/-- **C114**: if the other leaves (activation functions, ...) are those that `make` gives, then the model itself is loaded. -/
theorem save_load_same (hl : env.Lawful) (J : Json H) (h h' : H) (hh : J.Survives h h') (make : H → Except Err (PT K (Leaf env O)))
    (model like : PT K (Leaf env O)) (hm : make h' = .ok like) (hs : PT.SameStructure model like)
    (hx : ∀ π x y, model.leafAt? π = some x → like.leafAt? π = some y → Storable x ∧ Matches x y ∧ (IsOther x → x = y))
    (p : Path) (d : Disk) (hd : d.dirs p.dir) :
    ∃ d', saveModel J p h model d = (.ok (), d') ∧ loadModel cls oty J make p d' = (.ok model, d') := by
  obtain ⟨d', out, h1, -, -, h2, h3, h4⟩ := save_load_model cls oty hl J h h' hh make model like hm hs
    (fun π x y hx' hy => ⟨(hx π x y hx' hy).1, (hx π x y hx' hy).2.1⟩) p d hd
  refine ⟨d', h1, ?_⟩
  have : out = model := by
    refine PT.eq_of_shape_leafAt? (PT.sameStructure_iff.1 h3) ?_
    intro π z x hz hx'
    have hsome := PT.leafAt?_isSome_of_shape (PT.sameStructure_iff.1 hs) π
    rw [hx'] at hsome
    obtain ⟨y, hy⟩ := Option.isSome_iff_exists.1 hsome.symm
    have h5 := h4 π x y hx' hy
    rw [hz] at h5
    cases h5
    obtain ⟨-, -, h6⟩ := hx π x y hx' hy
    cases x <;> simp_all [loaded, IsOther]
  rw [h2, this]

/-- **C114**: hyperparameters which cannot be written make `save` raise, after the file has been emptied. -/
theorem save_bad_hyperparameters (J : Json H) (h : H) (e : Err) (he : J.dumps h = .error e) (model : PT K (Leaf env O)) (p : Path) (d : Disk)
    (hd : d.dirs p.dir) :
    ∃ d', saveModel J p h model d = (.error (.tree (.raw e)), d') ∧ d'.files p = some [] ∧ d'.opened = d.opened := by
  exact ⟨_, by simp only [saveModel, openFile, hd, if_true, writeModel, he]; rfl, by simp [closeFile], by simp [closeFile]⟩

/-- **C114**: loading changes nothing on the disk, and raises if there is no such file, the first line cannot be read, or no model can be made of
it. -/
theorem load_model_errors (J : Json H) (make : H → Except Err (PT K (Leaf env O))) (p : Path) (d : Disk) :
    (loadModel cls oty J make p d).2 = d ∧
    (d.dirs p.dir = false ∨ d.files p = none → (loadModel cls oty J make p d).1 = .error .notFound) ∧
    (∀ line rest e, d.dirs p.dir → d.files p = some (line ++ 10 :: rest) → 10 ∉ line →
      (J.loads (line ++ [10]) = .error e ∨ ∃ h, J.loads (line ++ [10]) = .ok h ∧ make h = .error e) →
      (loadModel cls oty J make p d).1 = .error (.tree (.raw e))) := by
  refine ⟨?_, ?_, ?_⟩
  · cases hd : d.dirs p.dir <;> cases hf : d.files p <;> simp [loadModel, openFile, hd, hf, closeFile]
  · rintro (h | h)
    · simp [loadModel, openFile, h]
    · cases hd : d.dirs p.dir <;> simp [loadModel, openFile, h, hd]
  · intro line rest e hd hf hn h
    simp only [loadModel, openFile, hd, if_true, Bool.false_eq_true, if_false, hf, readModel, readline_append line rest hn]
    rcases h with h | ⟨h', h1, h2⟩
    · simp [h]
    · simp [h1, h2]

/-- **C114**: whatever the file contains, a model that is loaded has the structure of the model made of the hyperparameters in the first line, and its
leaves have the types, shapes and dtypes of the leaves of that model. -/
theorem load_model_conforms (J : Json H) (make : H → Except Err (PT K (Leaf env O))) (p : Path) (d d' : Disk) (out : PT K (Leaf env O))
    (h : loadModel cls oty J make p d = (.ok out, d')) :
    ∃ b line h like, d.files p = some b ∧ FirstLine b line ∧ J.loads line = .ok h ∧ make h = .ok like ∧ PT.SameStructure out like ∧
      ∀ π n o, out.leafAt? π = some n → like.leafAt? π = some o → Conforms oty n o := by
  simp only [loadModel] at h
  split at h
  · simp at h
  · rename_i b d1 ho
    have hf : d.files p = some b := by
      cases hd : d.dirs p.dir <;> cases hf : d.files p <;> simp [openFile, hd, hf] at ho
      rw [ho.1]
    simp only [Prod.mk.injEq, readModel] at h
    obtain ⟨h, -⟩ := h
    split at h
    · contradiction
    · rename_i hp hj
      split at h
      · contradiction
      · rename_i like hm
        refine ⟨b, _, hp, like, hf, readline_first b, hj, hm, ?_⟩
        cases hr : load cls oty like (readline b).2 with
        | mk r s =>
          rw [hr] at h
          cases r with
          | error e => simp [liftTree] at h
          | ok o =>
            simp only [liftTree, Except.ok.injEq] at h
            subst h
            exact load_conforms cls oty _ like o _ s hr

/-! ### An example -/

def exDisk : Disk := { dirs := fun _ => true, files := fun _ => some [1, 2, 3], opened := [], user := [], userClosed := false }

/-- One hyperparameter, a number below 10, written as a digit. -/
def exJson : Json Nat where
  dumps n := if n < 10 then .ok [48 + n.toUInt8] else .error .typeError
  loads s := match s with
    | [c, 10] => .ok (c - 48).toNat
    | _ => .error .valueError

example : ∃ d', saveModel exJson ⟨[], "model.eqx".toList⟩ 3 (.leaf (.np ⟨.std 0, [], [7]⟩) : PT Unit (Leaf Ex.env Unit)) exDisk = (.ok (), d') ∧
    loadModel (fun _ => ()) (fun _ : Unit => ()) exJson
      (fun _ => .ok (.leaf (.np ⟨.std 0, [], [1]⟩ : Leaf Ex.env Unit) : PT Unit (Leaf Ex.env Unit))) ⟨[], "model.eqx".toList⟩ d' =
      (.ok (.leaf (.np ⟨.std 0, [], [7]⟩)), d') := by
  refine save_load_same _ _ Ex.env_lawful exJson 3 3 ⟨[51], rfl, by decide, rfl⟩ _ (.leaf (.np ⟨.std 0, [], [7]⟩)) (.leaf (.np ⟨.std 0, [], [1]⟩)) rfl (PT.sameStructure_iff.2 rfl) ?_ _ _ rfl
  intro π x y hx hy
  cases π with
  | nil =>
    simp at hx hy
    subst hx hy
    exact ⟨trivial, ⟨rfl, rfl⟩, fun h => absurd h (by simp [IsOther])⟩
  | cons i π => simp at hx

example : exJson.dumps 12 = .error .typeError := rfl

end Header
end Ser
end Verif
