import Verif.Rpcgen.Meaning
/-!
# `Default::default()` of the generated types

Structs derive `Default` (`gen_code.rs` 421), enums and unions get an `impl` (`gen_code.rs` 362-366 and
687-691). The derive and the impls for std types are those of Rust. `.panic .illTyped` stands for code
rustc would reject: the default of an enum names a variant that is not there, or has another number of
fields.

A bound on nested types stands for the stack.
-/

namespace Xdr.Rpcgen

/-- Each in turn; the first that does not return ends it. Plumbing: the fields of a derived `Default`. -/
def resMapM {α β : Type} (f : α → Res β) : List α → Res (List β)
  | [] => .ok []
  | a :: as => (f a).bind fun b => (resMapM f as).bind fun bs => .ok (b :: bs)

/-- `Default::default()` of the types of `gen_code.rs` 721-801; `item` is that of the types of the file.
Numbers are zero, texts and vectors empty, options `None`; arrays have as many defaults as elements (none
at all for length 0), boxes one. `VariableArray` derives `Default` (`opaque.rs` 6). -/
def RTy.defaultWith (cs : List ConstItem) (item : RIdent → Res Val) : RTy → Res Val
  | .i8 => .ok (.i8 0) | .i16 => .ok (.i16 0) | .i32 => .ok (.i32 0) | .i64 => .ok (.i64 0)
  | .u8 => .ok (.u8 0) | .u16 => .ok (.u16 0) | .u32 => .ok (.u32 0) | .u64 => .ok (.u64 0)
  | .f32 => .ok (.f32 0) | .f64 => .ok (.f64 0)
  | .bool => .ok (.bool false)
  | .string => .ok (.str [])
  | .path i => item i
  | .array t len cast =>
    match arrayLen cs len cast with
    | none => .panic .illTyped
    | some 0 => .ok (.seq [])
    | some (n + 1) => (t.defaultWith cs item).bind fun v => .ok (.seq (List.replicate (n + 1) v))
  | .vec _ => .ok (.seq [])
  | .option _ => .ok .none
  | .box t => t.defaultWith cs item
  | .variableArray => .ok (.seq [.bytes []])

/-- The default of a field. With the attributes of `opaque.rs` the field is a byte string. -/
def fieldDefault (cs : List ConstItem) (item : RIdent → Res Val) : Attr → RTy → Res Val
  | .fixed, .array _ len cast =>
    match arrayLen cs len cast with
    | none => .panic .illTyped
    | some n => .ok (.bytes (List.replicate n 0))
  | .variable, _ => .ok (.bytes [])
  | _, t => t.defaultWith cs item

/-- An enum: the variant named, `gen_code.rs` 362-366. -/
def EnumItem.defaultVal (e : EnumItem) : Res Val :=
  match variantPos e.default e.variants with
  | some i => .ok (.variant i [])
  | none => .panic .illTyped

/-- `derive(Default)` of a struct, `gen_code.rs` 421: the default of every field. -/
def StructItem.defaultVal (cs : List ConstItem) (item : RIdent → Res Val) (s : StructItem) : Res Val :=
  (resMapM (fun f => fieldDefault cs item f.1 f.2.2) s.fields).bind fun vs => .ok (.seq vs)

/-- A union: the variant named, with the defaults of as many fields as written, `gen_code.rs` 687-691. -/
def UnionItem.defaultVal (cs : List ConstItem) (item : RIdent → Res Val) (u : UnionItem) : Res Val :=
  match u.variants.findIdx? fun v => v.name = u.default.1 with
  | none => .panic .illTyped
  | some i =>
    match u.variants[i]? with
    | none => .panic .illTyped
    | some v =>
      if v.fields.length = u.default.2 then
        (resMapM (fieldDefault cs item v.attr) v.fields).bind fun vs => .ok (.variant i vs)
      else .panic .illTyped

/-- `Default::default()` of an item of the file. `gen_code.rs` 364-368, 423 and 689-693. -/
def Item.defaultVal (cs : List ConstItem) (item : RIdent → Res Val) : Item → Res Val
  | .alias _ t => t.defaultWith cs item
  | .enum e => e.defaultVal
  | .struct s => s.defaultVal cs item
  | .union u => u.defaultVal cs item

/-- `Default::default()` of the type of that name. As generated by `gen_code.rs`. -/
def RustFile.default (f : RustFile) : Nat → RIdent → Res Val
  | 0, _ => .depth
  | n + 1, i =>
    match f.types.find? fun t => t.name = i with
    | some t => t.defaultVal f.constants (f.default n)
    | none => .panic .illTyped

end Xdr.Rpcgen
