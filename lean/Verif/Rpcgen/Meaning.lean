import Verif.Rpcgen.Gen
import Verif.Model.Types
/-!
# What the generated source means

The items of a generated file as definitions of the codec model (`Model/Types.lean`). `none` wherever
rustc would not accept the source for one of these reasons:

* a name is a literal (`1u32`), a keyword, or `_`; two variants, two types, two constants or two
  discriminants are the same; a type has the name of a type the source itself uses (`Vec`, `Option`, ..); a
  type is missing; a constant is defined by a constant that is missing, or by itself;
* `[T; NAME]` without `as usize` (constants are `u32` or `u64`), a constant defined by a constant of the
  other type, an array with more than 32 elements (no `Serialize` and `Default`);
* a `#[serde(with = ..)]` attribute on a type its functions do not take;
* patterns of `name_by_value` of another type than the discriminant, or missing ones; a `match` without
  arms (the template then has a comma in front of the last arm); an `XdrUnion` enum without any field.

rustc rejects more than that (a type of infinite size, for instance); such sources have a meaning here.
-/

namespace Xdr.Rpcgen

/-- `text` as a string. `stringify!` (rustc), in templates of `gen_code.rs`. -/
def RIdent.str (i : RIdent) : String := String.ofList i.text

/-- An identifier rustc takes as the name of something. -/
def RIdent.usable (i : RIdent) : Bool := i.raw || (!rust_reserved i.name && i.name != c!"_")

/-- A variant's name is an identifier. Rustc; variants of `gen_code.rs` 845-878. -/
def Tok.name? : Tok → Option RIdent
  | .ident i => if i.usable then some i else none
  | .lit _ _ => none

/-- The value of a constant: chains of constants of the same type. Rustc; templates of `gen_code.rs` 188-198. -/
def constValue (cs : List ConstItem) (t : IntTy) : Nat → Tok → Option Int
  | 0, _ => none
  | _ + 1, .lit t' v => if t' = t then some v else none
  | n + 1, .ident i =>
    match cs.find? fun c => c.name = i with
    | some c => if c.ty = t then constValue cs t n c.value else none
    | none => none

/-- The length of an array type: `8usize`, or `NAME as usize`. Rustc; templates of `gen_code.rs` 733 and 749. -/
def arrayLen (cs : List ConstItem) : Tok → Bool → Option Nat
  | .lit t v, _ => if t = .usize then some v.toNat else none
  | .ident i, cast =>
    if cast then
      match cs.find? fun c => c.name = i with
      | some c => (constValue cs c.ty (cs.length + 1) c.value).map Int.toNat
      | none => none
    else none

/-- The largest array with `Serialize`, `Deserialize` and `Default`. Serde and std. -/
def maxArray : Nat := 32

/-- `array` types of a length that is allowed. Rustc, serde. -/
def arrayTy (len : Option Nat) (k : Nat → Ty) : Option Ty :=
  match len with
  | some n => if n ≤ maxArray then some (k n) else none
  | none => none

/-- `serde_xdr::opaque::VariableArray`, `opaque.rs` 6-10. -/
def variableArrayName : String := "serde_xdr::opaque::VariableArray"

/-- The definition of `VariableArray`, `opaque.rs` 6-10. -/
def variableArrayDef : Def := .struct [("data", .opaqueVar)]

/-- A type without attribute. Rustc; templates of `gen_code.rs` 721-815. -/
def RTy.meaning (cs : List ConstItem) : RTy → Option Ty
  | .i8 => some .i8 | .i16 => some .i16 | .i32 => some .i32 | .i64 => some .i64
  | .u8 => some .u8 | .u16 => some .u16 | .u32 => some .u32 | .u64 => some .u64
  | .f32 => some .f32 | .f64 => some .f64
  | .bool => some .bool
  | .string => some .string
  | .path i => some (.named i.str)
  | .array t len cast => (t.meaning cs).bind fun t => arrayTy (arrayLen cs len cast) fun n => .array n t
  | .vec t => (t.meaning cs).map .vec
  | .option t => (t.meaning cs).map .option
  | .box t => t.meaning cs
  | .variableArray => some (.named variableArrayName)

/-- The first arm for a key. Rustc's `match`. -/
def arm {α β : Type} [DecidableEq α] (k : α) (arms : List (α × β)) : Option β :=
  (arms.find? fun a => a.1 = k).map (·.2)

/-- The position of a variant. Rustc. -/
def variantPos {β : Type} (i : RIdent) (vs : List (RIdent × β)) : Option Nat :=
  vs.findIdx? fun v => v.1 = i

/-- `impl AsRef<i32>` and `impl TryFrom<i32>` of an enum: the matches of `gen_code.rs` 291-320. -/
def signed32Of (vs : List (RIdent × Int)) (asRef : List (RIdent × Int)) (tryFrom : List (Int × RIdent)) :
    Signed32Impl where
  as_ref
    | .variant i _ => Int32.ofInt (((vs[i]?).bind fun v => arm v.1 asRef).getD 0)
    | _ => 0
  try_from k :=
    match arm k.toInt tryFrom with
    | some id =>
      match variantPos id vs with
      | some i => .ok (.variant i [])
      | none => .panic .illTyped
    | none => .err .convert

/-- A field with its attribute. Serde's derive; templates of `gen_code.rs` 390-416. -/
def fieldMeaning (cs : List ConstItem) (enums : List EnumItem) : Attr → RTy → Option Ty
  | .none, t => t.meaning cs
  | .fixed, .array .u8 len cast => arrayTy (arrayLen cs len cast) .opaqueFixed
  | .variable, .vec .u8 => some .opaqueVar
  | .signed32, .path i =>
    match enums.find? fun e => e.name = i with
    | some e =>
      match e.asRef, e.tryFrom with
      | some a, some t => some (.signed32 i.str (signed32Of e.variants a t))
      | _, _ => none
    | none => none
  | _, _ => none

/-- `impl XdrIndexer` of an enum: the matches of `gen_code.rs` 332-345. -/
def enumIndexerImpl (vs : List (RIdent × Int)) (ix : EnumIndexer) : IndexerImpl where
  index i _ :=
    match (vs[i]?).bind fun v => arm v.1 ix.index with
    | some k => .ok (Int32.ofInt k)
    | none => .panic .illTyped
  name_by_index k :=
    match arm k.toInt ix.byIndex with
    | some id => .ok id.str
    | none => .ok ix.otherwise.str

/-- An enum, `gen_code.rs` 350-375. serde numbers the variants by position, whatever their
discriminants are. -/
def EnumItem.meaning (e : EnumItem) : Option Def :=
  if (e.variants.map (·.1.str)).Nodup ∧ (e.variants.map (·.2)).Nodup ∧ (∀ v ∈ e.variants, v.1.usable = true) then
    if e.deriveIndexer then
      e.indexer.map fun ix =>
        .indexer (e.variants.map fun v => (v.1.str, none)) (enumIndexerImpl e.variants ix)
    else some (.enum (e.variants.map fun v => (v.1.str, .unit)))
  else none

/-- Each field, with its meaning. Templates of `gen_code.rs` 413-416. -/
def fieldsMeaning (cs : List ConstItem) (enums : List EnumItem) :
    List (Attr × RIdent × RTy) → Option (List (String × Ty))
  | [] => some []
  | (a, i, t) :: fs =>
    if i.usable then
      match fieldMeaning cs enums a t, fieldsMeaning cs enums fs with
      | some t, some fs => some ((i.str, t) :: fs)
      | _, _ => none
    else none

/-- A struct, `gen_code.rs` 422-427. -/
def StructItem.meaning (cs : List ConstItem) (enums : List EnumItem) (s : StructItem) : Option Def :=
  if (s.fields.map (·.2.1.str)).Nodup then (fieldsMeaning cs enums s.fields).map .struct else none

/-- The types of a list of fields without attributes. Rustc. -/
def tysMeaning (cs : List ConstItem) : List RTy → Option (List Ty)
  | [] => some []
  | t :: ts =>
    match t.meaning cs, tysMeaning cs ts with
    | some t, some ts => some (t :: ts)
    | _, _ => none

/-- A variant of a union with serde's derives. `gen_code.rs` 845-878. -/
def Variant.shape (cs : List ConstItem) (enums : List EnumItem) (v : Variant) : Option Shape :=
  match v.fields with
  | [] => some .unit
  | [t] => (fieldMeaning cs enums v.attr t).map .newtype
  | _ :: _ :: _ => none

/-- The fields of a variant of an `XdrIndexer` or `XdrUnion` enum; there are no attributes then.
`gen_code.rs` 833-855. -/
def Variant.types (cs : List ConstItem) (v : Variant) : Option (Option (List Ty)) :=
  if v.attr = .none then
    match v.fields with
    | [] => some none
    | ts => (tysMeaning cs ts).map some
  else none

/-- Each variant's name with something computed from the variant. Rustc. -/
def variantsMeaning {α : Type} (f : Variant → Option α) : List Variant → Option (List (String × α))
  | [] => some []
  | v :: vs =>
    match v.name.name?, f v, variantsMeaning f vs with
    | some i, some a, some r => some ((i.str, a) :: r)
    | _, _, _ => none

/-- `stringify!` of a variant's name. Rustc; `gen_code.rs` 477. -/
def Tok.str : Tok → String
  | .ident i => i.str
  | .lit _ _ => ""

/-- `impl XdrIndexer` of a union: the matches of `gen_code.rs` 626-644. -/
def unionIndexerImpl (vs : List Variant) (ix : UnionIndexer) : IndexerImpl where
  index i _ :=
    match (vs[i]?).bind fun v => arm v.name ix.index with
    | some k => .ok (Int32.ofInt k.2)
    | none => if ix.indexOtherwise then .panic .unimplemented else .panic .illTyped
  name_by_index k :=
    match arm k.toInt ix.byIndex with
    | some t => .ok t.str
    | none => if ix.otherwise then .ok defaultTok.str else .err .convert

/-- Whether a value matches a pattern of `name_by_value`. Rustc; `gen_code.rs` 484-498, 530 and 566. -/
def Pat.matches (enums : List EnumItem) : Pat → Val → Bool
  | .path c v, .variant i _ =>
    match enums.find? fun e => e.name = c with
    | some e => (e.variants[i]?).map (·.1) = some v
    | none => false
  | .lit k, .u32 x => (x.toNat : Int) = k
  | .bool b, .bool x => b = x
  | _, _ => false

/-- Whether a pattern has the type of the discriminant. Rustc; `gen_code.rs` 484-498, 530 and 566. -/
def Pat.fits (enums : List EnumItem) (cond : RTy) : Pat → Bool
  | .path c v =>
    match enums.find? fun e => e.name = c with
    | some e => cond = .path c ∧ v ∈ e.variants.map (·.1)
    | none => false
  | .lit _ => cond = .u32
  | .bool _ => cond = .bool

/-- `impl XdrUnion` of a union: the match of `gen_code.rs` 659-664. -/
def unionUnionImpl (enums : List EnumItem) (un : UnionUnion) : UnionImpl where
  name_by_value v :=
    match un.byValue.find? fun p => p.1.matches enums v with
    | some (_, t) => .ok t.str
    | none =>
      match un.otherwise with
      | .default => .ok defaultTok.str
      | .err => .err .convert
      | .none => .panic .illTyped

/-- A union, `gen_code.rs` 674-698. The macros take the first field of the first variant that has fields
as the discriminant; rustc then requires it to be the type of the `impl`. -/
def UnionItem.meaning (cs : List ConstItem) (enums : List EnumItem) (u : UnionItem) : Option Def :=
  if (u.variants.map (·.name.str)).Nodup then
    match u.derive with
    | .serde => (variantsMeaning (·.shape cs enums) u.variants).map .enum
    | .indexer =>
      match u.indexer, variantsMeaning (·.types cs) u.variants with
      | some ix, some vs =>
        if (ix.indexOtherwise ∨ ∀ v ∈ u.variants, v.name ∈ ix.index.map (·.1)) ∧
            ix.byIndex ≠ [] ∧ ix.index ≠ [] then
          some (.indexer vs (unionIndexerImpl u.variants ix))
        else none
      | _, _ => none
    | .union =>
      match u.union, variantsMeaning (·.types cs) u.variants with
      | some un, some vs =>
        match un.cond with
        | some cond =>
          if (∀ p ∈ un.byValue, p.1.fits enums cond = true) ∧
              (∀ v ∈ u.variants, v.fields = [] ∨ v.fields.head? = some cond) ∧
              (un.otherwise = .none → Pat.bool true ∈ un.byValue.map (·.1) ∧
                Pat.bool false ∈ un.byValue.map (·.1)) ∧
              (∃ v ∈ u.variants, v.fields ≠ []) ∧ un.byValue ≠ [] then
            (cond.meaning cs).map fun d => .union d vs (unionUnionImpl enums un)
          else none
        | none => none
      | _, _ => none
  else none

/-- The name of an item. `gen_code.rs` 203-235. -/
def Item.name : Item → RIdent
  | .alias n _ => n
  | .enum e => e.name
  | .struct s => s.name
  | .union u => u.name

/-- An item; aliases are left out (the tool never writes them). `gen_code.rs` 203-235. -/
def Item.meaning (cs : List ConstItem) (enums : List EnumItem) : Item → Option Def
  | .alias _ _ => none
  | .enum e => e.meaning
  | .struct s => s.meaning cs enums
  | .union u => u.meaning cs enums

/-- The paths in a type. Rustc's name lookup. -/
def RTy.paths : RTy → List RIdent
  | .path i => [i]
  | .array t _ _ => t.paths
  | .vec t => t.paths
  | .option t => t.paths
  | .box t => t.paths
  | _ => []

/-- The paths in an item. Rustc's name lookup. -/
def Item.paths : Item → List RIdent
  | .alias _ t => t.paths
  | .enum _ => []
  | .struct s => s.fields.flatMap fun f => f.2.2.paths
  | .union u => u.variants.flatMap fun v => v.fields.flatMap RTy.paths

/-- The enums of a file. Rustc's name lookup. -/
def RustFile.enums (f : RustFile) : List EnumItem :=
  f.types.filterMap fun
    | .enum e => some e
    | _ => none

/-- Type names the generated source uses unqualified: `use` lines (`gen_code.rs` 120-146) and the
prelude. -/
def usedTypes : List Str :=
  [c!"Vec", c!"Option", c!"Box", c!"String", c!"Result", c!"AsRef", c!"TryFrom", c!"Default",
   c!"Deserialize", c!"Serialize", c!"SerializeTuple", c!"XdrIndexer", c!"XdrUnion"]

/-- Each item's name with its meaning. `gen_code.rs` 139-146. -/
def itemsMeaning (cs : List ConstItem) (enums : List EnumItem) : List Item → Option (List (String × Def))
  | [] => some []
  | i :: is =>
    match i.meaning cs enums, itemsMeaning cs enums is with
    | some d, some r => some ((i.name.str, d) :: r)
    | _, _ => none

/-- The constants of a file can stand: their names differ, and each has a value of its type.
Rustc; `gen_code.rs` 183-201. -/
def constantsOk (cs : List ConstItem) : Bool :=
  (cs.map (·.name.str)).Nodup ∧
  (∀ c ∈ cs, c.name.usable = true ∧ (constValue cs c.ty (cs.length + 1) c.value).isSome = true)

/-- The names of a file can stand. Rustc's name lookup. -/
def RustFile.namesOk (f : RustFile) : Bool :=
  (f.types.map (·.name.str)).Nodup ∧
  (∀ i ∈ f.types, i.name.usable = true ∧ i.name.name ∉ usedTypes) ∧
  (∀ i ∈ f.types, ∀ p ∈ i.paths, p ∈ f.types.map Item.name) ∧
  constantsOk f.constants = true

/-- The definitions a generated file makes, with serde-xdr's own `VariableArray`. -/
def RustFile.defs (f : RustFile) : Option (List (String × Def)) :=
  if f.namesOk then
    (itemsMeaning f.constants f.enums f.types).map fun l => l ++ [(variableArrayName, variableArrayDef)]
  else none

end Xdr.Rpcgen
