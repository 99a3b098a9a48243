import Mathlib.Logic.Relation
import Verif.Spec.Classes
/-! # Types a value is made of -/

namespace Xdr

/-- The types of the parts of a value of type `t`. -/
def Ty.parts (env : Env) : Ty → List Ty
  | .option t => [t]
  | .vec t => [t]
  | .array _ t => [t]
  | .tuple ts => ts
  | .map k v => [k, v]
  | .named name => match env name with
    | none => []
    | some d => d.types
  | _ => []

/-- `u` is `t`, or the type of a part of a `t`, or of a part of a part, and so on. -/
def Reaches (env : Env) : Ty → Ty → Prop := Relation.ReflTransGen fun t u => u ∈ t.parts env

/-- In memory the elements of lists inside a `t` take at most `S` bytes each, and those that take
any take at least four on the wire (`size` is `size_of`). -/
def ListsWithin (env : Env) (size : Ty → Nat) (S : Nat) (t : Ty) : Prop :=
  ∀ e, Reaches env t (.vec e) → size e ≤ S ∧ (size e = 0 ∨ Sized env e)

/-- Opaque data inside a `t` are of fixed length, at most `F`. -/
def OpaquesFixed (env : Env) (F : Nat) (t : Ty) : Prop :=
  (∀ len, Reaches env t (.opaqueFixed len) → len ≤ F) ∧ ¬ Reaches env t .opaqueVar

end Xdr
