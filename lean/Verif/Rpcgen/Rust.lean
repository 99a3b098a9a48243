import Verif.Rpcgen.Names
import Verif.Rpcgen.Number
/-!
# The Rust code the generator writes

The `quote!` templates of `gen_code.rs`, as trees. Only what varies is kept here; the fixed parts are
added when the tree is written as tokens (`Rpcgen/Tokens.lean`).
-/

namespace Xdr.Rpcgen

/-- What `convert_value_token` returns: a literal with its type (`8usize`, `1u32`) or a name.
`gen_code.rs` 701-719. -/
inductive Tok where
  | lit (t : IntTy) (v : Int)
  | ident (i : RIdent)
deriving DecidableEq, Repr, Inhabited

/-- Rust types, `gen_code.rs` 721-801. -/
inductive RTy where
  | i8 | i16 | i32 | i64 | u8 | u16 | u32 | u64
  | f32 | f64
  | bool
  | string
  /-- A type of the generated file. -/
  | path (i : RIdent)
  /-- `[t; len]`, or `[t; len as usize]` if `cast`. -/
  | array (t : RTy) (len : Tok) (cast : Bool)
  | vec (t : RTy)
  | option (t : RTy)
  | box (t : RTy)
  /-- `serde_xdr::opaque::VariableArray`. -/
  | variableArray
deriving DecidableEq, Repr, Inhabited

/-- `OpaqueType`, `gen_code.rs` 107-111. -/
inductive OpaqueType where
  | none | fixed | variable
deriving DecidableEq, Repr, Inhabited

/-- The `#[serde(with = "..")]` attribute of a field or variant. -/
inductive Attr where
  | none | fixed | variable | signed32
deriving DecidableEq, Repr, Inhabited

/-- `pub const NAME: ty = value;` `gen_code.rs` 195-197. -/
structure ConstItem where
  name : RIdent
  ty : IntTy
  value : Tok
deriving DecidableEq, Repr

/-- `impl XdrIndexer` of an enum without fields. `gen_code.rs` 324-347. -/
structure EnumIndexer where
  /-- arms of `name_by_index` -/
  byIndex : List (Int × RIdent)
  /-- its last arm `_ => Ok(..)` -/
  otherwise : RIdent
  /-- arms of `index` -/
  index : List (RIdent × Int)
deriving DecidableEq, Repr

/-- An enum without fields, `gen_code.rs` 357-375. -/
structure EnumItem where
  name : RIdent
  /-- `derive(XdrIndexer)` instead of `derive(Deserialize, Serialize)` -/
  deriveIndexer : Bool
  /-- variants with their discriminants -/
  variants : List (RIdent × Int)
  default : RIdent
  /-- arms of `impl AsRef<i32>` -/
  asRef : Option (List (RIdent × Int))
  /-- arms of `impl TryFrom<i32>`; any other number is `Error::Convert` -/
  tryFrom : Option (List (Int × RIdent))
  indexer : Option EnumIndexer
deriving DecidableEq, Repr

/-- A struct, `gen_code.rs` 420-427. -/
structure StructItem where
  name : RIdent
  fields : List (Attr × RIdent × RTy)
deriving DecidableEq, Repr

/-- A variant of an enum with fields; no fields: a unit variant. `gen_code.rs` 845-878. -/
structure Variant where
  attr : Attr
  name : Tok
  fields : List RTy
deriving DecidableEq, Repr, Inhabited

/-- `impl XdrIndexer` of a union. `gen_code.rs` 612-644. -/
structure UnionIndexer where
  /-- arms of `name_by_index` -/
  byIndex : List (Int × Tok)
  /-- its last arm: `_ => Ok("Default")`, or else `_ => Err(Convert)` -/
  otherwise : Bool
  /-- arms of `index`, with whether the pattern has a field (`Name(_)`) -/
  index : List (Tok × Bool × Int)
  /-- its last arm `_ => unimplemented!()`, if any -/
  indexOtherwise : Bool
deriving DecidableEq, Repr

/-- A pattern of `name_by_value`. `gen_code.rs` 484-498, 530 and 566. -/
inductive Pat where
  /-- `Cond::Value` -/
  | path (cond value : RIdent)
  | lit (v : Int)
  | bool (b : Bool)
deriving DecidableEq, Repr

/-- The last arm of `name_by_value`. `gen_code.rs` 650-656. -/
inductive Otherwise where
  | none | default | err
deriving DecidableEq, Repr

/-- `impl XdrUnion<cond>`. `gen_code.rs` 658-669. -/
structure UnionUnion where
  cond : Option RTy
  byValue : List (Pat × Tok)
  otherwise : Otherwise
deriving DecidableEq, Repr

/-- Which derive a union gets, `gen_code.rs` 674-680. -/
inductive UnionDerive where
  | indexer | union | serde
deriving DecidableEq, Repr

/-- A union, `gen_code.rs` 683-698. -/
structure UnionItem where
  name : RIdent
  derive : UnionDerive
  variants : List Variant
  /-- the value of `Default::default()`: variant and number of (default) fields -/
  default : Tok × Nat
  indexer : Option UnionIndexer
  union : Option UnionUnion
deriving DecidableEq, Repr

/-- An item of the file, `gen_code.rs` 203-235. -/
inductive Item where
  /-- `type Name = ty;` -/
  | alias (name : RIdent) (ty : RTy)
  | enum (e : EnumItem)
  | struct (s : StructItem)
  | union (u : UnionItem)
deriving DecidableEq, Repr

/-- The generated file, `gen_code.rs` 121-149. -/
structure RustFile where
  useTuple : Bool
  useIndexer : Bool
  useUnion : Bool
  constants : List ConstItem
  types : List Item
deriving DecidableEq, Repr

end Xdr.Rpcgen
