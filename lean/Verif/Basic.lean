/-!
# Exceptions as values

Python exceptions become values of `Except Err`. We keep the exception class and drop the
message text.
-/

namespace Verif

/-- Python exception classes raised in the modelled code. `treeError` stands for the
`ValueError`/`TypeError` JAX raises when tree structures do not match, `user` for an exception
raised by a user-supplied callable. -/
inductive Err where
  | valueError
  | typeError
  | runtimeError
  | attributeError
  | keyError
  | indexError
  | frozenInstance
  | treeError
  | eof
  | assertionError
  | zeroDivision
  | notImplemented
  | nameError
  | user (n : Nat)
deriving DecidableEq, Repr

deriving instance DecidableEq for Except

/-- The computation returned normally. -/
def Except.Ok {ε α} (e : Except ε α) : Prop := ∃ a, e = .ok a

/-- The computation raised. -/
def Except.Raises {ε α} (e : Except ε α) : Prop := ∃ x, e = .error x

theorem ok_or_raises {ε α} (e : Except ε α) : Except.Ok e ∨ Except.Raises e := by
  cases e with
  | ok a => exact .inl ⟨a, rfl⟩
  | error x => exact .inr ⟨x, rfl⟩

end Verif
