import Verif.Spec.Reaches
/-! # Types that do not contain themselves -/

namespace Xdr

/-- The definition of `x` mentions `y`, anywhere in the types of its fields. -/
def Mentions (env : Env) (x y : String) : Prop :=
  ∃ d, env x = some d ∧ ∃ t ∈ d.types, Reaches (fun _ => none) t (.named y)

/-- No type of a program contains itself, not even in an `Option`, a `Vec` or a variant. -/
def NotRecursive (env : Env) : Prop := ∀ x, ¬ Relation.TransGen (Mentions env) x x

end Xdr
