import Verif.Rpcgen.Ast
/-!
# Which names a definition defines and which it uses

For the independence of definitions (C79). The tool looks names up for two purposes: the numbers of enum
members and case labels, and the types of declarations. (The lengths of arrays are copied into the
source by name, and bounds are dropped, so they are not looked up; types defined inside a declaration
are refused.)
-/

namespace Xdr.Rpcgen

/-- The names a definition defines: a constant, a type, and for an enum its members. -/
def Definition.defines : Definition → List Str
  | .constant a => [a.identifier]
  | .type (.declaration d) => d.name.toList
  | .type (.enum name members) => name :: members.map (·.identifier)
  | .type (.struct name _) => [name]
  | .type (.union name _) => [name]
  | .lineComment => []
  | .program _ => []

/-- The name a value is given by. -/
def Value.uses : Value → List Str
  | .constant _ => []
  | .identifier name => [name]

/-- The name a type is given by. -/
def TypeSpecifier.uses : TypeSpecifier → List Str
  | .identifier name => [name]
  | _ => []

/-- The name of the type of a declaration. Strings and opaque data have the types `String` and `u8` for
the tool, and these are looked up. -/
def Declaration.uses (d : Declaration) : List Str :=
  match d.type_specifier with
  | some ts => ts.uses
  | none => []

/-- The names a definition uses. -/
def Definition.uses : Definition → List Str
  | .constant a => a.value.uses
  | .type (.declaration d) => d.uses
  | .type (.enum _ members) => members.flatMap fun m => m.value.uses
  | .type (.struct _ ds) => ds.flatMap Declaration.uses
  | .type (.union _ body) =>
    body.cond.uses ++
    (body.specs.flatMap fun s => s.values.flatMap Value.uses ++ s.declaration.uses) ++
    body.default.toList.flatMap Declaration.uses
  | .lineComment => []
  | .program _ => []

/-- The name of a constant definition. -/
def Definition.constName : Definition → List Str
  | .constant a => [a.identifier]
  | _ => []

/-- The name of a type definition. -/
def Definition.typeName : Definition → List Str
  | .type (.declaration d) => d.name.toList
  | .type (.enum name _) => [name]
  | .type (.struct name _) => [name]
  | .type (.union name _) => [name]
  | _ => []

/-- The names of the members of an enum. -/
def Definition.memberNames : Definition → List Str
  | .type (.enum _ members) => members.map (·.identifier)
  | _ => []

/-- No name is given twice: no two constants have the same name, no two types, and no two members of
enums. -/
structure NamedOnce (ds : List Definition) : Prop where
  consts : (ds.flatMap Definition.constName).Nodup
  types : (ds.flatMap Definition.typeName).Nodup
  members : (ds.flatMap Definition.memberNames).Nodup

end Xdr.Rpcgen
