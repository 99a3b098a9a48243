import Verif.Rpcgen.Ast
/-!
# Other bounds

The same file with other maximum lengths (`<m>`), wherever arrays, opaque data and strings are declared.
-/

namespace Xdr.Rpcgen

/-- The declaration with its maximum `m` replaced by `f m`. -/
def Declaration.rebound (f : Option Value → Option Value) : Declaration → Declaration
  | .variableArray ts nm m => .variableArray ts nm (f m)
  | .opaqueVariableArray nm m => .opaqueVariableArray nm (f m)
  | .string nm m => .string nm (f m)
  | d => d

/-- The arms of a case. -/
def CaseSpec.rebound (f : Option Value → Option Value) (s : CaseSpec) : CaseSpec :=
  .mk s.values (s.declaration.rebound f)

/-- The arms of a union, and its default arm. -/
def UnionBody.rebound (f : Option Value → Option Value) (b : UnionBody) : UnionBody :=
  .mk b.cond (b.specs.map (CaseSpec.rebound f)) (b.default.map (Declaration.rebound f))

/-- Typedefs, members of structures and arms of unions. -/
def TypeDef.rebound (f : Option Value → Option Value) : TypeDef → TypeDef
  | .declaration d => .declaration (d.rebound f)
  | .enum name body => .enum name body
  | .struct name body => .struct name (body.map (Declaration.rebound f))
  | .union name body => .union name (body.rebound f)

/-- A definition with other maximum lengths. -/
def Definition.rebound (f : Option Value → Option Value) : Definition → Definition
  | .type t => .type (t.rebound f)
  | d => d

end Xdr.Rpcgen
