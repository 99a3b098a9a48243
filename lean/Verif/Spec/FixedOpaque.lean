import Verif.Spec.Fragment
/-!
# Interfaces whose opaque data have fixed lengths
-/

namespace Xdr.Rpcgen

/-- No opaque data of variable length in the file, and opaque data of fixed length only as members of structures and as
default arms: in other arms of unions they become opaque data of variable length with `--use-indexer` or
`--use-union`, and typedef names may be used there. -/
structure FixedOpaques (ds : List Definition) : Prop where
  noVariable : ∀ d, TypedefIn ds d ∨ MemberIn ds d ∨ ArmIn ds d ∨ DefaultIn ds d →
    ∀ nm max, d ≠ .opaqueVariableArray nm max
  noFixed : ∀ d, TypedefIn ds d ∨ ArmIn ds d → ∀ nm len, d ≠ .opaqueFixedArray nm len

end Xdr.Rpcgen
