import Verif.Rpcgen.Ast
/-!
# Structures that have themselves as members
-/

namespace Xdr.Rpcgen

/-- No structure has itself, or an array of fixed length of itself, as a member. Such a structure has no finite
values. -/
def NoSelfMembers (ds : List Definition) : Prop :=
  ∀ s ms, .type (.struct s ms) ∈ ds → ∀ d ∈ ms, ∀ nm len,
    d ≠ .variable (.identifier s) nm ∧ d ≠ .fixedArray (.identifier s) nm len

end Xdr.Rpcgen
