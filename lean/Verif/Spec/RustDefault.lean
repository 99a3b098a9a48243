import Verif.Spec.RustMeaning
/-!
# `Default::default()` of the types of a Rust file

As Rust has it: numbers are zero, texts and vectors empty, options `None`; arrays of up to 32 elements have as many
defaults, boxes one; `derive(Default)` of a struct takes the default of every field, and an enum the value of the
function in its `impl Default`. From the items of the file alone. `.panic .illTyped` stands for a program rustc
rejects, or one outside of what is described here. A bound on nested types stands for the stack.
-/

namespace Xdr.Rpcgen

/-- The defaults of the types with a name of their own. -/
def zeroOf (s : Str) : Option Val :=
  [(c!"i8", Val.i8 0), (c!"i16", .i16 0), (c!"i32", .i32 0), (c!"i64", .i64 0), (c!"u8", .u8 0), (c!"u16", .u16 0),
   (c!"u32", .u32 0), (c!"u64", .u64 0), (c!"f32", .f32 0), (c!"f64", .f64 0), (c!"bool", .bool false),
   (c!"String", .str [])].lookup s

/-- `impl Default for [T; N]` is there up to 32 elements; with none, `T` is not asked. -/
def arrayDefault (len : Option Nat) (element : Res Val) : Res Val :=
  match len with
  | none => .panic .illTyped
  | some 0 => .ok (.seq [])
  | some n => if n ≤ 32 then element.bind fun v => .ok (.seq (List.replicate n v)) else .panic .illTyped

/-- The default of a type; `item` is that of the types of the file. -/
def typeDefault (items : List RItem) (item : RIdent → Res Val) : RType → Res Val
  | .path ⟨false, [i]⟩ =>
    if i.raw then item i
    else
      match zeroOf i.name with
      | some v => .ok v
      | none => item i
  | .path p =>
    if p = ⟨false, [nameOf c!"serde_xdr", nameOf c!"opaque", nameOf c!"VariableArray"]⟩ then .ok (.seq [.bytes []])
    else .panic .illTyped
  | .app (.path p) t =>
    if p = ⟨false, [nameOf c!"Vec"]⟩ then .ok (.seq [])
    else if p = ⟨false, [nameOf c!"Option"]⟩ then .ok .none
    else if p = ⟨false, [nameOf c!"Box"]⟩ then typeDefault items item t
    else .panic .illTyped
  | .array t len => arrayDefault (lengthOf items len) (typeDefault items item t)
  | _ => .panic .illTyped

/-- The default of a field. The attributes of `serde_xdr::opaque` make it one value, of bytes. -/
def fieldDefaultOf (items : List RItem) (item : RIdent → Res Val) (attrs : List RAttr) (t : RType) : Res Val :=
  if attrs = [.serdeWith c!"\"serde_xdr::opaque::fixed\""] ∨
      attrs = [.serdeWith c!"\"serde_xdr::opaque::variable\""] then
    match t with
    | .array _ len =>
      match lengthOf items len with
      | some n => if n ≤ 32 then .ok (.bytes (List.replicate n 0)) else .panic .illTyped
      | none => .panic .illTyped
    | .app p _ => if p = tyPath [c!"Vec"] then .ok (.bytes []) else .panic .illTyped
    | _ => .panic .illTyped
  else typeDefault items item t

/-- Each in turn; the first that does not return ends it. -/
def eachDefault {α : Type} (f : α → Res Val) : List α → Res (List Val)
  | [] => .ok []
  | a :: as => (f a).bind fun b => (eachDefault f as).bind fun bs => .ok (b :: bs)

/-- The attributes and fields of a struct of the file. -/
def findStruct (items : List RItem) (name : RIdent) : Option (List RAttr × List RField) :=
  items.findSome? fun
    | .struct attrs _ n fs => if n = name then some (attrs, fs) else none
    | _ => none

/-- The body of `fn default() -> Self`. -/
def findDefault (ms : List RMember) : Option RExpr :=
  ms.findSome? fun
    | .fn n [] r body => if n = nameOf c!"default" ∧ r = tyPath [c!"Self"] then some body else none
    | _ => none

/-- `Default::default()` -/
def isDefaultCall : RExpr → Bool
  | .call p [] => p = ⟨false, [nameOf c!"Default", nameOf c!"default"]⟩
  | _ => false

/-- The variant with that path, and its position. -/
def variantAt (name : RIdent) (vs : List RVariant) (p : RPath) : Option (Nat × RVariant) :=
  (vs.findIdx? fun v => p = ⟨false, [name, v.name]⟩).bind fun i => vs[i]?.map fun v => (i, v)

/-- The value of the body of `default` of an enum: a variant without fields, or with `Default::default()` for each of
its fields. -/
def enumDefault (items : List RItem) (item : RIdent → Res Val) (name : RIdent) (vs : List RVariant) : RExpr → Res Val
  | .operand (.path p) =>
    match variantAt name vs p with
    | some (i, v) => if v.arity = 0 then .ok (.variant i []) else .panic .illTyped
    | none => .panic .illTyped
  | .call p args =>
    match variantAt name vs p with
    | some (i, v) =>
      match v.fields with
      | some ts =>
        if args.all isDefaultCall ∧ args.length = ts.length then
          (eachDefault (fieldDefaultOf items item v.attrs) ts).bind fun l => .ok (.variant i l)
        else .panic .illTyped
      | none => .panic .illTyped
    | none => .panic .illTyped
  | _ => .panic .illTyped

/-- `Default::default()` of the type of that name. -/
def defaultOf (items : List RItem) : Nat → RIdent → Res Val
  | 0, _ => .depth
  | n + 1, name =>
    match findStruct items name, findEnum items name with
    | some (attrs, fields), _ =>
      if nameOf c!"Default" ∈ derives attrs then
        (eachDefault (fun f : RField => fieldDefaultOf items (defaultOf items n) f.attrs f.ty) fields).bind fun l =>
          .ok (.seq l)
      else .panic .illTyped
    | none, some vs =>
      match (findImpl items (tyPath [c!"Default"]) (tyNamed name)).bind findDefault with
      | some body => enumDefault items (defaultOf items n) name vs body
      | none => .panic .illTyped
    | none, none => .panic .illTyped

/-- `Default::default()` of a type of a Rust text. -/
def rustDefault (s : Str) (n : Nat) (name : RIdent) : Res Val :=
  match parseRust s with
  | some items => defaultOf items n name
  | none => .panic .illTyped

end Xdr.Rpcgen
