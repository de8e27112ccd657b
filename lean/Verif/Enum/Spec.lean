import Verif.Enum.Model

/-!
# Vocabulary for the enumeration properties

Only class statements are mentioned here, not what the metaclass makes of them.
-/

namespace Verif
namespace Enum

variable {N M : Type} [DecidableEq N]

/-- `d` is `c` or a base of a base of ... of `c`. -/
inductive Ancestor (decls : List (Decl N M)) : Nat → Nat → Prop
  | refl (c) : Ancestor decls c c
  | step {c b d : Nat} {bases own} : decls[c]? = some (bases, own) → b ∈ bases → Ancestor decls b d → Ancestor decls c d

/-- The message given to `name` in the body of class `c`, if there is one: of several assignments the last one
counts, and names like `__doc__` are not items. -/
def declared (magic : N → Bool) (decls : List (Decl N M)) (c : Nat) (name : N) : Option M :=
  if magic name then none
  else (decls[c]?).bind (fun d => (d.2.reverse.find? (fun p => decide (p.1 = name))).map (·.2))

/-- The values of a list without repetitions, in the order of their first occurrences. -/
def firsts : List Nat → List Nat
  | [] => []
  | x :: l => x :: (firsts l).filter (· ≠ x)

end Enum
end Verif
