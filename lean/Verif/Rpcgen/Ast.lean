import Verif.Rpcgen.Text
/-!
# The syntax tree of `rpcgen/src/parser.rs`
-/

namespace Xdr.Rpcgen

/-- `parser.rs` 56-61: the digits of a literal, without the `0x` or `0` prefix. -/
inductive Constant where
  | decimal (digits : Str)
  | hex (digits : Str)
  | octal (digits : Str)
deriving DecidableEq, Repr, Inhabited

/-- `parser.rs` 340-344. -/
inductive Value where
  | constant (c : Constant)
  | identifier (name : Str)
deriving DecidableEq, Repr, Inhabited

/-- `parser.rs` 26-30. -/
structure Assign where
  identifier : Str
  value : Value
deriving DecidableEq, Repr, Inhabited

mutual
/-- `parser.rs` 273-292. `EnumTypeSpec`, `StructTypeSpec` and `UnionTypeSpec` (225-245, 329-338) are
their only field. -/
inductive TypeSpecifier where
  | int (signed : Bool)
  | hyper (signed : Bool)
  | float
  | double
  | quadruple
  | bool
  | enum (body : List Assign)
  | struct (body : List Declaration)
  | union (body : UnionBody)
  | identifier (name : Str)
  | char (signed : Bool)
  | short (signed : Bool)
  | void

/-- `parser.rs` 121-131. -/
inductive Declaration where
  | variable (ty : TypeSpecifier) (name : Str)
  | fixedArray (ty : TypeSpecifier) (name : Str) (len : Value)
  | variableArray (ty : TypeSpecifier) (name : Str) (max : Option Value)
  | opaqueFixedArray (name : Str) (len : Value)
  | opaqueVariableArray (name : Str) (max : Option Value)
  | string (name : Str) (max : Option Value)
  | optionVariable (ty : TypeSpecifier) (name : Str)
  | void

/-- `parser.rs` 41-45. -/
inductive CaseSpec where
  | mk (values : List Value) (declaration : Declaration)

/-- `parser.rs` 312-317. -/
inductive UnionBody where
  | mk (cond : Declaration) (specs : List CaseSpec) (default : Option Declaration)
end

/-- Plumbing. -/
instance : Inhabited TypeSpecifier := ⟨.void⟩
/-- Plumbing. -/
instance : Inhabited Declaration := ⟨.void⟩

/-- Field `values` of a case, `parser.rs` 43. -/
def CaseSpec.values : CaseSpec → List Value
  | .mk vs _ => vs

/-- Field `declaration` of a case, `parser.rs` 44. -/
def CaseSpec.declaration : CaseSpec → Declaration
  | .mk _ d => d

/-- Field `cond` of a union body, `parser.rs` 314. -/
def UnionBody.cond : UnionBody → Declaration
  | .mk c _ _ => c

/-- Field `specs` of a union body, `parser.rs` 315. -/
def UnionBody.specs : UnionBody → List CaseSpec
  | .mk _ s _ => s

/-- Field `default` of a union body, `parser.rs` 316. -/
def UnionBody.default : UnionBody → Option Declaration
  | .mk _ _ d => d

/-- `parser.rs` 247-253. -/
inductive TypeDef where
  | declaration (d : Declaration)
  | enum (name : Str) (body : List Assign)
  | struct (name : Str) (body : List Declaration)
  | union (name : Str) (body : UnionBody)

/-- `parser.rs` 416-422. -/
structure Procedure where
  res_ty : TypeSpecifier
  method : Str
  req_ty : TypeSpecifier
  value : Value

/-- `parser.rs` 399-404. -/
structure Version where
  name : Str
  procedures : List Procedure
  value : Value

/-- `parser.rs` 382-387. -/
structure Program where
  name : Str
  versions : List Version
  value : Value

/-- `parser.rs` 197-205. -/
inductive Definition where
  | type (d : TypeDef)
  | constant (a : Assign)
  | lineComment
  | program (p : Program)

/-- `Declaration::name`, `parser.rs` 170-181. -/
def Declaration.name : Declaration → Option Str
  | .variable _ name => some name
  | .fixedArray _ name _ => some name
  | .variableArray _ name _ => some name
  | .opaqueFixedArray name _ => some name
  | .opaqueVariableArray name _ => some name
  | .string name _ => some name
  | .optionVariable _ name => some name
  | .void => none

/-- `Declaration::type_specifier`, `parser.rs` 183-194. -/
def Declaration.type_specifier : Declaration → Option TypeSpecifier
  | .variable ty _ => some ty
  | .fixedArray ty _ _ => some ty
  | .variableArray ty _ _ => some ty
  | .opaqueFixedArray _ _ => some (.identifier c!"u8")
  | .opaqueVariableArray _ _ => some (.identifier c!"u8")
  | .string _ _ => some (.identifier c!"String")
  | .optionVariable ty _ => some ty
  | .void => none

/-- `Value::is_false`, `parser.rs` 365-371. -/
def Value.is_false : Value → Bool
  | .identifier name => name == c!"FALSE"
  | .constant _ => false

/-- `Value::is_true`, `parser.rs` 373-379. -/
def Value.is_true : Value → Bool
  | .identifier name => name == c!"TRUE"
  | .constant _ => false

end Xdr.Rpcgen
