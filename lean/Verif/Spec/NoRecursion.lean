import Mathlib.Logic.Relation
import Verif.Spec.RustTypes
import Verif.Spec.Schema
/-! # Interfaces in which no type contains itself -/

namespace Xdr.Rpcgen

/-- `d` is a declaration in the definition of the type `x`: what the typedef is for, a member, an arm, the default arm or
the discriminant. -/
def DeclOf (ds : List Definition) (x : Str) (d : Declaration) : Prop :=
  (.type (.declaration d) ∈ ds ∧ d.name = some x) ∨
  (∃ ms, .type (.struct x ms) ∈ ds ∧ d ∈ ms) ∨
  ∃ b, .type (.union x b) ∈ ds ∧ (d = b.cond ∨ (∃ v, (v, d) ∈ b.labels) ∨ b.default = some d)

/-- The definition of one type names the other, as its type, or as the type of the elements of an array or of optional
data. Names that the tool makes one are one. -/
def TypeUses (ds : List Definition) (a b : Str) : Prop :=
  ∃ x d y, DeclOf ds x d ∧ d.element = some (.identifier y) ∧ upper_camel_case x = a ∧ upper_camel_case y = b

/-- No type contains itself, not even as optional data or in an array. -/
def NoRecursion (ds : List Definition) : Prop := ∀ a, ¬ Relation.TransGen (TypeUses ds) a a

end Xdr.Rpcgen
