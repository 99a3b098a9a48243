import Verif.Spec.Fragment
import Verif.Spec.Resolve
/-!
# Arrays that have elements
-/

namespace Xdr.Rpcgen

/-- No array of fixed length and no opaque data of fixed length of the file is of length 0. -/
def NoEmptyArrays (ds : List Definition) : Prop :=
  ∀ d, TypedefIn ds d ∨ MemberIn ds d ∨ ArmIn ds d ∨ DefaultIn ds d → ∀ ts nm len,
    d = .fixedArray ts nm len ∨ d = .opaqueFixedArray nm len → ¬ Stands ds len 0

end Xdr.Rpcgen
