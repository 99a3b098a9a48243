import Verif.Spec.RustSyntax
import Verif.Model.Types
/-!
# What a Rust file defines

The data types of a file, as rustc, serde's derives and the two derives of serde-xdr-derive see them: from the
items of the file alone, by their names and paths, whatever wrote them. `none` if one of the types is not one
these derives accept, or is outside of what is described here.
-/

namespace Xdr.Rpcgen

/-- A name. -/
def nameOf (s : Str) : RIdent := ⟨false, s⟩

/-- The type with that name. -/
def tyNamed (i : RIdent) : RType := .path ⟨false, [i]⟩

/-- The type with that path. -/
def tyPath (segs : List Str) : RType := .path ⟨false, segs.map nameOf⟩

/-- An identifier as text, with `r#`. -/
def identString (i : RIdent) : String := String.ofList ((if i.raw then c!"r#" else []) ++ i.name)

/-! ## Names in scope -/

/-- The paths a file imports. -/
def imports (items : List RItem) : List (List RIdent) :=
  items.flatMap fun
    | .use paths => paths
    | _ => []

/-- A path is imported. -/
def imported (items : List RItem) (path : List Str) : Bool := path.map nameOf ∈ imports items

/-- The names in the `derive` attributes. -/
def derives (attrs : List RAttr) : List RIdent :=
  attrs.flatMap fun
    | .derive names => names
    | _ => []

/-- `derive(Deserialize, Serialize)` of serde. -/
def derivesSerde (items : List RItem) (attrs : List RAttr) : Bool :=
  nameOf c!"Serialize" ∈ derives attrs ∧ nameOf c!"Deserialize" ∈ derives attrs ∧
    imported items [c!"serde", c!"Serialize"] ∧ imported items [c!"serde", c!"Deserialize"]

/-- A derive of serde-xdr-derive, with the trait of that name; its code calls `serialize_element`, a method of
`SerializeTuple`. -/
def derivesXdr (items : List RItem) (attrs : List RAttr) (name : Str) : Bool :=
  nameOf name ∈ derives attrs ∧ imported items [c!"serde_xdr_derive", name] ∧
    imported items [c!"serde_xdr", name] ∧ imported items [c!"serde", c!"ser", c!"SerializeTuple"]

/-- The variants of an enum of the file. -/
def findEnum (items : List RItem) (name : RIdent) : Option (List RVariant) :=
  items.findSome? fun
    | .enum _ _ n vs => if n = name then some vs else none
    | _ => none

/-- The members of `impl trait for ty`. -/
def findImpl (items : List RItem) (trait ty : RType) : Option (List RMember) :=
  items.findSome? fun
    | .impl tr t ms => if tr = trait ∧ t = ty then some ms else none
    | _ => none

/-- An associated type. -/
def findAssoc (ms : List RMember) (name : Str) : Option RType :=
  ms.findSome? fun
    | .assoc n t => if n = nameOf name then some t else none
    | _ => none

/-- A function with this parameter and result: the name of its parameter and its body. -/
def findFn (ms : List RMember) (name : Str) (param : Option RType) (result : RType) :
    Option (RIdent × RExpr) :=
  ms.findSome? fun
    | .fn n [.refSelf] r body =>
      if n = nameOf name ∧ param = none ∧ r = result then some (nameOf c!"self", body) else none
    | .fn n [.typed x t] r body => if n = nameOf name ∧ param = some t ∧ r = result then some (x, body) else none
    | _ => none

/-! ## Numbers -/

/-- The value of decimal digits. -/
def digitsValue (s : Str) : Nat := s.foldl (fun a c => 10 * a + (c.toNat - 48)) 0

/-- The value and the suffix of a literal. -/
def litValue (neg : Bool) (s : Str) : Int × Str :=
  let n : Int := digitsValue (s.takeWhile isDigit)
  (if neg then -n else n, s.dropWhile isDigit)

/-- A constant of the file: its type and value. -/
def findConst (items : List RItem) (name : RIdent) : Option (RType × RExpr) :=
  items.findSome? fun
    | .const _ n t e => if n = name then some (t, e) else none
    | _ => none

/-- The value of a constant expression of a type; constants stand for their values. -/
def constInt (items : List RItem) (ty : Str) : Nat → ROperand → Option Int
  | 0, _ => none
  | _ + 1, .int neg s => if (litValue neg s).2 = ty then some (litValue neg s).1 else none
  | n + 1, .path ⟨false, [i]⟩ =>
    match findConst items i with
    | some (t, .operand o) => if t = tyPath [ty] then constInt items ty n o else none
    | _ => none
  | _ + 1, _ => none

/-- The length of an array. -/
def lengthOf (items : List RItem) : ROperand → Option Nat
  | .cast o to =>
    if to = ⟨false, [nameOf c!"usize"]⟩ then
      ([c!"u8", c!"u16", c!"u32", c!"u64", c!"usize"].findSome? fun ty => constInt items ty (items.length + 1) o).map
        Int.toNat
    else none
  | o => (constInt items c!"usize" (items.length + 1) o).map Int.toNat

/-- An array serde can handle. -/
def arrayOf (len : Option Nat) (k : Nat → Ty) : Option Ty :=
  len.bind fun n => if n ≤ 32 then some (k n) else none

/-! ## Types -/

/-- The types with a name of their own. -/
def primitive (s : Str) : Option Ty :=
  [(c!"i8", Ty.i8), (c!"i16", .i16), (c!"i32", .i32), (c!"i64", .i64), (c!"u8", .u8), (c!"u16", .u16),
   (c!"u32", .u32), (c!"u64", .u64), (c!"f32", .f32), (c!"f64", .f64), (c!"bool", .bool),
   (c!"String", .string)].lookup s

/-- A type without attribute. -/
def rustType (items : List RItem) : RType → Option Ty
  | .path ⟨false, [i]⟩ =>
    if i.raw then some (.named (identString i))
    else
      match primitive i.name with
      | some t => some t
      | none => some (.named (identString i))
  | .path p =>
    if p = ⟨false, [nameOf c!"serde_xdr", nameOf c!"opaque", nameOf c!"VariableArray"]⟩ then
      some (.named "serde_xdr::opaque::VariableArray")
    else none
  | .app (.path p) t =>
    if p = ⟨false, [nameOf c!"Vec"]⟩ then (rustType items t).map .vec
    else if p = ⟨false, [nameOf c!"Option"]⟩ then (rustType items t).map .option
    else if p = ⟨false, [nameOf c!"Box"]⟩ then rustType items t
    else none
  | .array t len => (rustType items t).bind fun t => arrayOf (lengthOf items len) fun n => .array n t
  | _ => none

/-! ## Functions -/

/-- What a function is called with. -/
inductive Arg where
  | int (ty : Str) (v : Int)
  | bool (b : Bool)
  /-- a variant of an enum, with the number of its fields -/
  | variant (path : List RIdent) (fields : Nat)
  /-- a value of another type -/
  | other

/-- What an expression comes to. -/
inductive RVal where
  | int (ty : Str) (v : Int)
  | str (s : String)
  /-- a variant without fields, or with one -/
  | variant (path : RPath)
  | wrapped (path : RPath) (o : RVal)
  /-- `unimplemented!()` -/
  | panic
  /-- no value -/
  | stuck

/-- `_` -/
def RPattern.isWild : RPattern → Bool
  | .wild => true
  | _ => false

/-- A pattern takes a value. -/
def RPattern.takes : RPattern → Arg → Bool
  | .wild, _ => true
  | .int neg s, .int ty v => litValue neg s = (v, ty)
  | .bool b, .bool x => b = x
  | .path p, .variant q n => p = ⟨false, q⟩ ∧ n = 0
  | .tuple p args, .variant q n => p = ⟨false, q⟩ ∧ n = args.length ∧ args.all RPattern.isWild
  | _, _ => false

/-- The value of an expression without `match`. -/
def RExpr.value : RExpr → RVal
  | .operand (.int neg s) => .int (litValue neg s).2 (litValue neg s).1
  | .operand (.path p) => .variant p
  | .ref e => e.value
  | .call p [e] => .wrapped p e.value
  | .macroCall p body =>
    if p = ⟨false, [nameOf c!"unimplemented"]⟩ ∧ body = [] then .panic
    else if p = ⟨false, [nameOf c!"stringify"]⟩ then
      match body with
      | [.ident raw s] => .str (identString ⟨raw, s⟩)
      | _ => .stuck
    else .stuck
  | _ => .stuck

/-- The value of the body of a function: of the first arm whose pattern takes the parameter. -/
def bodyValue (param : RIdent) (a : Arg) : RExpr → RVal
  | .matchOn (.path p) arms =>
    if p = ⟨false, [param]⟩ then
      match arms.find? fun arm => arm.1.takes a with
      | some arm => arm.2.value
      | none => .stuck
    else .stuck
  | e => e.value

/-- `serde_xdr::error::Error`, with or without `::`. -/
def isError (t : RType) : Bool :=
  t = tyPath [c!"serde_xdr", c!"error", c!"Error"] ∨
    t = .path ⟨true, [c!"serde_xdr", c!"error", c!"Error"].map nameOf⟩

/-- `Ok(v)` and `Err(serde_xdr::error::Error::Convert)` with `v` read by `f`. -/
def RVal.result {α : Type} (f : RVal → Option α) : RVal → Res α
  | .wrapped p o =>
    if p = ⟨false, [nameOf c!"Ok"]⟩ then
      match f o with
      | some a => .ok a
      | none => .panic .illTyped
    else if p = ⟨false, [nameOf c!"Err"]⟩ then
      match o with
      | .variant q =>
        if q.segs = [c!"serde_xdr", c!"error", c!"Error", c!"Convert"].map nameOf then .err .convert
        else .panic .illTyped
      | _ => .panic .illTyped
    else .panic .illTyped
  | .panic => .panic .unimplemented
  | _ => .panic .illTyped

/-- A string. -/
def RVal.str? : RVal → Option String
  | .str s => some s
  | _ => none

/-- A variant of the enum, by position. -/
def RVal.variantOf (name : RIdent) (vs : List RVariant) : RVal → Option Val
  | .variant p => (vs.findIdx? fun v => p = ⟨false, [name, v.name]⟩).map fun i => .variant i []
  | _ => none

/-- The number of fields of a variant. -/
def RVariant.arity (v : RVariant) : Nat :=
  match v.fields with
  | some ts => ts.length
  | none => 0

/-- A variant of an enum, by position. -/
def variantArg (name : RIdent) (vs : List RVariant) (i : Nat) : Arg :=
  match vs[i]? with
  | some v => .variant [name, v.name] v.arity
  | none => .other

/-- `Result<&'static str, Self::Error>` -/
def nameResultTy : RType :=
  .app (.app (tyPath [c!"Result"]) (.ref (some c!"static") (tyPath [c!"str"]))) (tyPath [c!"Self", c!"Error"])

/-- `impl XdrIndexer` of an enum. -/
def indexerImplOf (items : List RItem) (name : RIdent) (vs : List RVariant) : Option IndexerImpl :=
  (findImpl items (tyPath [c!"XdrIndexer"]) (tyNamed name)).bind fun ms =>
  (findAssoc ms c!"Error").bind fun err =>
  (findFn ms c!"name_by_index" (some (tyPath [c!"i32"])) nameResultTy).bind fun byIndex =>
  (findFn ms c!"index" none (tyPath [c!"i32"])).bind fun index =>
  if isError err then some {
    index := fun i _ =>
      match bodyValue index.1 (variantArg name vs i) index.2 with
      | .int ty k => if ty = c!"i32" then .ok (Int32.ofInt k) else .panic .illTyped
      | .panic => .panic .unimplemented
      | _ => .panic .illTyped
    name_by_index := fun k => (bodyValue byIndex.1 (.int c!"i32" k.toInt) byIndex.2).result RVal.str? }
  else none

/-- A value of the type of a discriminant. -/
def condArg (items : List RItem) (cond : RType) : Val → Arg
  | .u32 x => .int c!"u32" x.toNat
  | .bool b => .bool b
  | .variant i _ =>
    match cond with
    | .path ⟨false, [c]⟩ =>
      match findEnum items c with
      | some vs => variantArg c vs i
      | none => .other
    | _ => .other
  | _ => .other

/-- `impl XdrUnion<cond>` of an enum. -/
def unionImplOf (items : List RItem) (name : RIdent) (cond : RType) : Option UnionImpl :=
  (findImpl items (.app (tyPath [c!"XdrUnion"]) cond) (tyNamed name)).bind fun ms =>
  (findAssoc ms c!"Error").bind fun err =>
  (findFn ms c!"name_by_value" (some (.ref none cond)) nameResultTy).bind fun byValue =>
  if isError err then some {
    name_by_value := fun v => (bodyValue byValue.1 (condArg items cond v) byValue.2).result RVal.str? }
  else none

/-- `impl AsRef<i32>` and `impl TryFrom<i32>` of an enum. -/
def signed32ImplOf (items : List RItem) (name : RIdent) : Option Signed32Impl :=
  (findEnum items name).bind fun vs =>
  (findImpl items (.app (tyPath [c!"AsRef"]) (tyPath [c!"i32"])) (tyNamed name)).bind fun ms =>
  (findFn ms c!"as_ref" none (.ref (some c!"static") (tyPath [c!"i32"]))).bind fun asRef =>
  (findImpl items (.app (tyPath [c!"TryFrom"]) (tyPath [c!"i32"])) (tyNamed name)).bind fun ms =>
  (findAssoc ms c!"Error").bind fun err =>
  (findFn ms c!"try_from" (some (tyPath [c!"i32"]))
    (.app (.app (tyPath [c!"Result"]) (tyPath [c!"Self"])) err)).bind fun tryFrom =>
  if isError err then some {
    as_ref := fun v =>
      match v with
      | .variant i _ =>
        match bodyValue asRef.1 (variantArg name vs i) asRef.2 with
        | .int ty k => if ty = c!"i32" then Int32.ofInt k else 0
        | _ => 0
      | _ => 0
    try_from := fun k => (bodyValue tryFrom.1 (.int c!"i32" k.toInt) tryFrom.2).result (RVal.variantOf name vs) }
  else none

/-! ## Items -/

/-- A field with its attributes. -/
def fieldOf (items : List RItem) (attrs : List RAttr) (t : RType) : Option Ty :=
  match attrs with
  | [] => rustType items t
  | [.serdeWith w] =>
    if w = c!"\"serde_xdr::opaque::fixed\"" then
      match t with
      | .array e len => if e = tyPath [c!"u8"] then arrayOf (lengthOf items len) .opaqueFixed else none
      | _ => none
    else if w = c!"\"serde_xdr::opaque::variable\"" then
      if t = .app (tyPath [c!"Vec"]) (tyPath [c!"u8"]) then some .opaqueVar else none
    else if w = c!"\"serde_xdr::primitive::signed32\"" then
      match t with
      | .path ⟨false, [i]⟩ => (signed32ImplOf items i).map fun s => .signed32 (identString i) s
      | _ => none
    else none
  | _ => none

/-- All of a list, or nothing. -/
def allSome {α β : Type} (f : α → Option β) : List α → Option (List β)
  | [] => some []
  | a :: as => (f a).bind fun b => (allSome f as).map (b :: ·)

/-- A variant for serde: without fields or with one. -/
def shapeOf (items : List RItem) (v : RVariant) : Option (String × Shape) :=
  match v.fields with
  | none => if v.attrs = [] then some (identString v.name, .unit) else none
  | some [t] => (fieldOf items v.attrs t).map fun t => (identString v.name, .newtype t)
  | some _ => none

/-- A variant for the derives of serde-xdr-derive, which know no attributes. -/
def fieldsOf (items : List RItem) (v : RVariant) : Option (String × Option (List Ty)) :=
  if v.attrs = [] then
    match v.fields with
    | none => some (identString v.name, none)
    | some ts => (allSome (rustType items) ts).map fun ts => (identString v.name, some ts)
  else none

/-- The discriminant of an `XdrUnion` enum: the first field of the first variant with fields. -/
def discriminantOf (vs : List RVariant) : Option RType :=
  vs.findSome? fun v => v.fields.bind fun ts => ts.head?

/-- An enum. -/
def enumDef (items : List RItem) (attrs : List RAttr) (name : RIdent) (vs : List RVariant) : Option Def :=
  if derivesSerde items attrs then (allSome (shapeOf items) vs).map .enum
  else if derivesXdr items attrs c!"XdrIndexer" then
    (allSome (fieldsOf items) vs).bind fun l => (indexerImplOf items name vs).map fun i => .indexer l i
  else if derivesXdr items attrs c!"XdrUnion" then
    (allSome (fieldsOf items) vs).bind fun l => (discriminantOf vs).bind fun cond => (rustType items cond).bind fun d =>
      (unionImplOf items name cond).map fun i => .union d l i
  else none

/-- A struct. -/
def structDef (items : List RItem) (attrs : List RAttr) (fields : List RField) : Option Def :=
  if derivesSerde items attrs then
    (allSome (fun f : RField => (fieldOf items f.attrs f.ty).map fun t => (identString f.name, t)) fields).map .struct
  else none

/-- The definitions of a file. -/
def defsOf (items : List RItem) : List RItem → Option (List (String × Def))
  | [] => some []
  | .enum attrs _ name vs :: r =>
    (enumDef items attrs name vs).bind fun d => (defsOf items r).map ((identString name, d) :: ·)
  | .struct attrs _ name fs :: r =>
    (structDef items attrs fs).bind fun d => (defsOf items r).map ((identString name, d) :: ·)
  | .alias _ _ _ :: _ => none
  | .use _ :: r => defsOf items r
  | .const _ _ _ _ :: r => defsOf items r
  | .impl _ _ _ :: r => defsOf items r

/-- The definitions a Rust text makes, with serde-xdr's own `VariableArray` (`opaque.rs` 6-10). -/
def rustDefs (s : Str) : Option (List (String × Def)) :=
  (parseRust s).bind fun items => (defsOf items items).map fun l =>
    l ++ [("serde_xdr::opaque::VariableArray", .struct [("data", .opaqueVar)])]

end Xdr.Rpcgen
