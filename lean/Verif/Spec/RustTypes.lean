import Verif.Spec.Schema
import Verif.Rpcgen.Rust
import Verif.Rpcgen.Names
import Verif.Rpcgen.Number
/-!
# Which Rust type a declaration becomes

The table of the README as a relation, without bounds on typedef chains. `OpaqueType` says which of the
two `#[serde(with = "serde_xdr::opaque::..")]` attributes goes with the type.
-/

namespace Xdr.Rpcgen

/-- The length in `[T; N]`: a literal with suffix `usize`, or the name of a constant as it is. -/
inductive LenTok : Value → Tok → Prop
  | literal {c : Constant} {k : Int} : c.value .usize = .ok k → LenTok (.constant c) (.lit .usize k)
  | name {i : Str} {id : RIdent} : mkIdent i = .ok id → LenTok (.identifier i) (.ident id)

mutual
/-- The Rust type of a type specifier. `drop`: typedef names are replaced by what they stand for. -/
inductive SpecType (ds : List Definition) (drop : Bool) : TypeSpecifier → RTy → OpaqueType → Prop
  | int : SpecType ds drop (.int true) .i32 .none
  | uint : SpecType ds drop (.int false) .u32 .none
  | hyper : SpecType ds drop (.hyper true) .i64 .none
  | uhyper : SpecType ds drop (.hyper false) .u64 .none
  | float : SpecType ds drop .float .f32 .none
  | double : SpecType ds drop .double .f64 .none
  | bool : SpecType ds drop .bool .bool .none
  | char : SpecType ds drop (.char true) .i8 .none
  | uchar : SpecType ds drop (.char false) .u8 .none
  | short : SpecType ds drop (.short true) .i16 .none
  | ushort : SpecType ds drop (.short false) .u16 .none
  | typedef {name : Str} {d : Declaration} {ty : RTy} {op : OpaqueType} : drop = true →
      typeOf ds name = some (.declaration d) → DeclType ds drop d ty op →
      SpecType ds drop (.identifier name) ty op
  | name {name : Str} {id : RIdent} : (drop = true → ∀ d, typeOf ds name ≠ some (.declaration d)) →
      upper_camel_case_ident name = .ok id → SpecType ds drop (.identifier name) (.path id) .none

/-- The Rust type of a declaration; `void` has none. -/
inductive DeclType (ds : List Definition) (drop : Bool) : Declaration → RTy → OpaqueType → Prop
  | variable {ts : TypeSpecifier} {nm : Str} {ty : RTy} {op : OpaqueType} : SpecType ds drop ts ty op →
      DeclType ds drop (.variable ts nm) ty op
  | fixedArray {ts : TypeSpecifier} {nm : Str} {v : Value} {ty : RTy} {op : OpaqueType} {len : Tok} :
      SpecType ds drop ts ty op → LenTok v len →
      DeclType ds drop (.fixedArray ts nm v) (.array ty len false) op
  | variableArray {ts : TypeSpecifier} {nm : Str} {m : Option Value} {ty : RTy} {op : OpaqueType} :
      SpecType ds drop ts ty op → op ≠ .variable → DeclType ds drop (.variableArray ts nm m) (.vec ty) op
  /-- `Vec` of `serde_xdr::opaque::VariableArray`. -/
  | opaqueArray {ts : TypeSpecifier} {nm : Str} {m : Option Value} {ty : RTy} :
      SpecType ds drop ts ty .variable →
      DeclType ds drop (.variableArray ts nm m) (.vec .variableArray) .none
  | opaqueFixed {nm : Str} {v : Value} {len : Tok} : LenTok v len →
      DeclType ds drop (.opaqueFixedArray nm v) (.array .u8 len true) .fixed
  | opaqueVar {nm : Str} {m : Option Value} :
      DeclType ds drop (.opaqueVariableArray nm m) (.vec .u8) .variable
  | string {nm : Str} {m : Option Value} : DeclType ds drop (.string nm m) .string .none
  | option {ts : TypeSpecifier} {nm : Str} {ty : RTy} {op : OpaqueType} : SpecType ds drop ts ty op →
      DeclType ds drop (.optionVariable ts nm) (.option ty) op
end

/-- The type a declaration is made of, apart from opaque data and strings. -/
def Declaration.element : Declaration → Option TypeSpecifier
  | .variable ts _ => some ts
  | .fixedArray ts _ _ => some ts
  | .variableArray ts _ _ => some ts
  | .optionVariable ts _ => some ts
  | _ => none

/-- Typedef `a` leads to the name `b`: it is another name for it, or for arrays of or pointers to it. -/
inductive LeadsTo (ds : List Definition) : Str → Str → Prop
  | step {a b : Str} {d : Declaration} : typeOf ds a = some (.declaration d) →
      d.element = some (.identifier b) → LeadsTo ds a b
  | more {a b c : Str} {d : Declaration} : typeOf ds a = some (.declaration d) →
      d.element = some (.identifier b) → LeadsTo ds b c → LeadsTo ds a c

end Xdr.Rpcgen
