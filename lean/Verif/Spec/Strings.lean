import Verif.Spec.Fragment
/-!
# Interfaces without strings
-/

namespace Xdr.Rpcgen

/-- No typedef, structure member or union arm of the file is declared `string`. -/
def NoStrings (ds : List Definition) : Prop :=
  ∀ d, TypedefIn ds d ∨ MemberIn ds d ∨ ArmIn ds d ∨ DefaultIn ds d → ∀ name max, d ≠ .string name max

end Xdr.Rpcgen
