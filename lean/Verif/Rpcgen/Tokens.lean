import Verif.Rpcgen.Gen
import Verif.Rpcgen.Main
/-!
# The text of the generated source

The `quote!` templates of `gen_code.rs` with their fixed parts, and how a token stream is printed
(`TokenStream::to_string` of proc-macro2 outside a procedural macro).

quote writes `::`, `=>` and `->` as two `Punct` tokens of which the first is `Joint`, and `'static` as a
`Joint` quote and an identifier. Printing puts nothing after a `Joint` token, so each of them is one token
here. The literal of a negative number becomes `-` and the literal of the absolute value
(proc-macro2, `push_negative_literal`).
-/

namespace Xdr.Rpcgen

/-- `proc_macro2::Delimiter`, used by the templates of `gen_code.rs` 113-879. -/
inductive Delim where
  | paren | brace | bracket
deriving DecidableEq, Repr, Inhabited

/-- `proc_macro2::TokenTree`, used by the templates of `gen_code.rs` 113-879. -/
inductive Token where
  | ident (i : RIdent)
  /-- punctuation -/
  | op (s : Str)
  /-- `'name` -/
  | lifetime (s : Str)
  /-- a number or a string -/
  | lit (s : Str)
  | group (d : Delim) (ts : List Token)
deriving Repr, Inhabited

/-! ## Printing -/

/-- The opening delimiter in `Display for Group` (proc-macro2), called in `gen_code.rs` 149. -/
def Delim.opening : Delim → Str
  | .paren => c!"("
  | .brace => c!"{ "
  | .bracket => c!"["

/-- The closing delimiter in `Display for Group` (proc-macro2), called in `gen_code.rs` 149. -/
def Delim.closing : Delim → Str
  | .paren => c!")"
  | .brace => c!"}"
  | .bracket => c!"]"

mutual

/-- `Display for TokenTree` and `Display for Group` (proc-macro2), called in `gen_code.rs` 149. -/
def Token.text : Token → Str
  | .ident i => i.text
  | .op s => s
  | .lifetime s => '\'' :: s
  | .lit s => s
  | .group d ts =>
    d.opening ++ tokensText ts ++ (if d = .brace ∧ !ts.isEmpty then c!" " else []) ++ d.closing

/-- `Display for TokenStream` (proc-macro2), called in `gen_code.rs` 149: one space between tokens. -/
def tokensText : List Token → Str
  | [] => []
  | [t] => t.text
  | t :: u :: ts => t.text ++ ' ' :: tokensText (u :: ts)

end

/-! ## Pieces -/

/-- An identifier written in a template, `gen_code.rs` 113-879. -/
def kw (s : Str) : Token := .ident ⟨false, s⟩

/-- `#(#xs),*`, for instance `gen_code.rs` 360. -/
def commaSep : List (List Token) → List Token
  | [] => []
  | [x] => x
  | x :: y :: xs => x ++ .op c!"," :: commaSep (y :: xs)

/-- The suffix of a literal, `ToTokens` of the integer types (quote), `gen_code.rs` 708. -/
def IntTy.suffix : IntTy → Str
  | .i32 => c!"i32"
  | .u32 => c!"u32"
  | .u64 => c!"u64"
  | .usize => c!"usize"

/-- `#v` for an integer, `gen_code.rs` 708, and for instance 262. -/
def intTokens (t : IntTy) (v : Int) : List Token :=
  (if v < 0 then [.op c!"-"] else []) ++ [.lit (intToString (v.natAbs : Int) ++ t.suffix)]

/-- What `convert_value_token` returns, `gen_code.rs` 701-719. -/
def Tok.tokens : Tok → List Token
  | .lit t v => intTokens t v
  | .ident i => [.ident i]

/-- What `convert_type_token`, `convert_primitive_token` and `resolve_type_token` return, `gen_code.rs`
721-801 and 881-896; `Box<..>` is 412. -/
def RTy.tokens : RTy → List Token
  | .i8 => [kw c!"i8"]
  | .i16 => [kw c!"i16"]
  | .i32 => [kw c!"i32"]
  | .i64 => [kw c!"i64"]
  | .u8 => [kw c!"u8"]
  | .u16 => [kw c!"u16"]
  | .u32 => [kw c!"u32"]
  | .u64 => [kw c!"u64"]
  | .f32 => [kw c!"f32"]
  | .f64 => [kw c!"f64"]
  | .bool => [kw c!"bool"]
  | .string => [kw c!"String"]
  | .path i => [.ident i]
  | .array t len cast => [.group .bracket (t.tokens ++ .op c!";" :: len.tokens ++
      (if cast then [kw c!"as", kw c!"usize"] else []))]
  | .vec t => kw c!"Vec" :: .op c!"<" :: t.tokens ++ [.op c!">"]
  | .option t => kw c!"Option" :: .op c!"<" :: t.tokens ++ [.op c!">"]
  | .box t => kw c!"Box" :: .op c!"<" :: t.tokens ++ [.op c!">"]
  | .variableArray => [kw c!"serde_xdr", .op c!"::", kw c!"opaque", .op c!"::", kw c!"VariableArray"]

/-- `#[serde(with = "..")]`, `gen_code.rs` 390-392. -/
def serdeWith (function : Str) : List Token :=
  [.op c!"#", .group .bracket [kw c!"serde", .group .paren
    [kw c!"with", .op c!"=", .lit ('"' :: function ++ c!"\"")]]]

/-- The attribute of a field, `gen_code.rs` 389-402 and 835-844. -/
def Attr.tokens : Attr → List Token
  | .none => []
  | .fixed => serdeWith c!"serde_xdr::opaque::fixed"
  | .variable => serdeWith c!"serde_xdr::opaque::variable"
  | .signed32 => serdeWith c!"serde_xdr::primitive::signed32"

/-- `#[derive(..)]`, `gen_code.rs` 351, 353, 422, 675, 677 and 679. -/
def deriveTokens (names : List Str) : List Token :=
  [.op c!"#", .group .bracket [kw c!"derive", .group .paren (commaSep (names.map fun n => [kw n]))]]

/-- `::serde_xdr::error::Error`, for instance `gen_code.rs` 333. -/
def globalError : List Token :=
  [.op c!"::", kw c!"serde_xdr", .op c!"::", kw c!"error", .op c!"::", kw c!"Error"]

/-- `serde_xdr::error::Error`, `gen_code.rs` 308 and 310. -/
def localError : List Token :=
  [kw c!"serde_xdr", .op c!"::", kw c!"error", .op c!"::", kw c!"Error"]

/-- `Ok(stringify!(#t))`, for instance `gen_code.rs` 278. -/
def okStringify (t : List Token) : List Token :=
  [kw c!"Ok", .group .paren [kw c!"stringify", .op c!"!", .group .paren t]]

/-- `_ => Err(::serde_xdr::error::Error::Convert)`, `gen_code.rs` 619 and 652. -/
def errArm (error : List Token) : List Token :=
  [kw c!"_", .op c!"=>", kw c!"Err", .group .paren (error ++ [.op c!"::", kw c!"Convert"])]

/-- `impl #header for #name { #body }`, for instance `gen_code.rs` 363. -/
def implTokens (header : List Token) (name : RIdent) (body : List Token) : List Token :=
  kw c!"impl" :: header ++ [kw c!"for", .ident name, .group .brace body]

/-- `fn #name(#params) -> #ret { #body }`, for instance `gen_code.rs` 364. -/
def fnTokens (name : Str) (params ret body : List Token) : List Token :=
  kw c!"fn" :: kw name :: .group .paren params :: .op c!"->" :: ret ++ [.group .brace body]

/-- `match #on { #arms }`, for instance `gen_code.rs` 296. -/
def matchTokens (on : Str) (arms : List Token) : List Token := [kw c!"match", kw on, .group .brace arms]

/-- `&self`, `gen_code.rs` 295, 341 and 638. -/
def refSelf : List Token := [.op c!"&", kw c!"self"]

/-- `Result<&'static str, Self::Error>`, `gen_code.rs` 334, 631 and 660. -/
def nameResult : List Token :=
  [kw c!"Result", .op c!"<", .op c!"&", .lifetime c!"static", kw c!"str", .op c!",", kw c!"Self", .op c!"::",
    kw c!"Error", .op c!">"]

/-- `type Error = #error;`, `gen_code.rs` 308, 332, 629 and 658. -/
def errorType (error : List Token) : List Token :=
  kw c!"type" :: kw c!"Error" :: .op c!"=" :: error ++ [.op c!";"]

/-- `index: i32`, `gen_code.rs` 334 and 631. -/
def indexParam : List Token := [kw c!"index", .op c!":", kw c!"i32"]

/-- `impl Default for #name`, `gen_code.rs` 363-367 and 688-692. -/
def implDefault (name : RIdent) (value : List Token) : List Token :=
  implTokens [kw c!"Default"] name
    (fnTokens c!"default" [] [kw c!"Self"] (.ident name :: .op c!"::" :: value))

/-! ## Items -/

/-- A constant, `gen_code.rs` 195-197. -/
def ConstItem.tokens (c : ConstItem) : List Token :=
  kw c!"pub" :: kw c!"const" :: .ident c.name :: .op c!":" :: kw c.ty.suffix :: .op c!"=" :: c.value.tokens ++
    [.op c!";"]

/-- `#name::#variant => #prefix #value`, an arm of `as_ref` or `index`, `gen_code.rs` 270-272 and 275-277. -/
def variantArm (name : RIdent) (before : List Token) (a : RIdent × Int) : List Token :=
  [.ident name, .op c!"::", .ident a.1, .op c!"=>"] ++ before ++ intTokens .i32 a.2

/-- `impl AsRef<i32>`, `gen_code.rs` 292-302. -/
def asRefTokens (name : RIdent) (arms : List (RIdent × Int)) : List Token :=
  implTokens [kw c!"AsRef", .op c!"<", kw c!"i32", .op c!">"] name
    (fnTokens c!"as_ref" refSelf [.op c!"&", .lifetime c!"static", kw c!"i32"]
      (matchTokens c!"self" (commaSep (arms.map (variantArm name [.op c!"&"])))))

/-- `impl TryFrom<i32>`, `gen_code.rs` 305-320. -/
def tryFromTokens (name : RIdent) (arms : List (Int × RIdent)) : List Token :=
  implTokens [kw c!"TryFrom", .op c!"<", kw c!"i32", .op c!">"] name
    (errorType localError ++
      fnTokens c!"try_from" [kw c!"v", .op c!":", kw c!"i32"]
        (kw c!"Result" :: .op c!"<" :: kw c!"Self" :: .op c!"," :: localError ++ [.op c!">"])
        (matchTokens c!"v"
          (commaSep (arms.map fun a =>
              intTokens .i32 a.1 ++ [.op c!"=>", kw c!"Ok", .group .paren [.ident name, .op c!"::", .ident a.2]]) ++
            .op c!"," :: errArm localError ++ [.op c!","])))

/-- `impl XdrIndexer` of an enum, `gen_code.rs` 322-347; its arms 278-283. -/
def EnumIndexer.tokens (name : RIdent) (ix : EnumIndexer) : List Token :=
  implTokens [kw c!"XdrIndexer"] name
    (errorType globalError ++
      fnTokens c!"name_by_index" indexParam nameResult
        (matchTokens c!"index"
          (commaSep (ix.byIndex.map fun a => intTokens .i32 a.1 ++ .op c!"=>" :: okStringify [.ident a.2]) ++
            .op c!"," :: kw c!"_" :: .op c!"=>" :: okStringify [.ident ix.otherwise] ++ [.op c!","])) ++
      fnTokens c!"index" refSelf [kw c!"i32"]
        (matchTokens c!"self" (commaSep (ix.index.map (variantArm name [])) ++ [.op c!","])))

/-- An enum, `gen_code.rs` 350-375; its variants 261-269. -/
def EnumItem.tokens (e : EnumItem) : List Token :=
  deriveTokens (if e.deriveIndexer then [c!"Clone", c!"Debug", c!"PartialEq", c!"XdrIndexer"]
    else [c!"Clone", c!"Debug", c!"Deserialize", c!"PartialEq", c!"Serialize"]) ++
  [.op c!"#", .group .bracket [kw c!"repr", .group .paren [kw c!"i32"]]] ++
  [kw c!"pub", kw c!"enum", .ident e.name,
    .group .brace (commaSep (e.variants.map fun v => .ident v.1 :: .op c!"=" :: intTokens .i32 v.2))] ++
  implDefault e.name [.ident e.default] ++
  (match e.asRef with
    | some arms => asRefTokens e.name arms
    | none => []) ++
  (match e.tryFrom with
    | some arms => tryFromTokens e.name arms
    | none => []) ++
  (match e.indexer with
    | some ix => ix.tokens e.name
    | none => [])

/-- A struct, `gen_code.rs` 420-427; its fields 414-417. -/
def StructItem.tokens (s : StructItem) : List Token :=
  deriveTokens [c!"Clone", c!"Debug", c!"Default", c!"Deserialize", c!"Serialize"] ++
  [kw c!"pub", kw c!"struct", .ident s.name,
    .group .brace (commaSep (s.fields.map fun f =>
      f.1.tokens ++ kw c!"pub" :: .ident f.2.1 :: .op c!":" :: f.2.2.tokens))]

/-- A variant of a union, `gen_code.rs` 463, 536, 584-611 and 846-878. -/
def Variant.tokens (v : Variant) : List Token :=
  v.attr.tokens ++ v.name.tokens ++
    (if v.fields.isEmpty then [] else [.group .paren (commaSep (v.fields.map RTy.tokens))])

/-- The value of `default()`, `gen_code.rs` 587-610 and 858-878. -/
def defaultTokens (d : Tok × Nat) : List Token :=
  d.1.tokens ++
    (if d.2 = 0 then []
     else [.group .paren (commaSep (List.replicate d.2 [kw c!"Default", .op c!"::", kw c!"default", .group .paren []]))])

/-- `_ => Ok(stringify!(Default))`, `gen_code.rs` 617 and 650. -/
def defaultArm : List Token := kw c!"_" :: .op c!"=>" :: okStringify [kw c!"Default"]

/-- `impl XdrIndexer` of a union, `gen_code.rs` 614-645; its arms 476-482. -/
def UnionIndexer.tokens (name : RIdent) (ix : UnionIndexer) : List Token :=
  implTokens [kw c!"XdrIndexer"] name
    (errorType globalError ++
      fnTokens c!"name_by_index" indexParam nameResult
        (matchTokens c!"index"
          (commaSep (ix.byIndex.map fun a => intTokens .i32 a.1 ++ .op c!"=>" :: okStringify a.2.tokens) ++
            .op c!"," :: (if ix.otherwise then defaultArm else errArm globalError) ++ [.op c!","])) ++
      fnTokens c!"index" refSelf [kw c!"i32"]
        (matchTokens c!"self"
          (commaSep (ix.index.map fun a =>
              .ident name :: .op c!"::" :: a.1.tokens ++ (if a.2.1 then [.group .paren [kw c!"_"]] else []) ++
                .op c!"=>" :: intTokens .i32 a.2.2) ++
            .op c!"," :: (if ix.indexOtherwise then
                [kw c!"_", .op c!"=>", kw c!"unimplemented", .op c!"!", .group .paren [], .op c!","]
              else []))))

/-- A pattern of `name_by_value`, `gen_code.rs` 489, 496, 531 and 567. -/
def Pat.tokens : Pat → List Token
  | .path cond value => [.ident cond, .op c!"::", .ident value]
  | .lit v => intTokens .u32 v
  | .bool b => [kw (if b then c!"true" else c!"false")]

/-- The type of the discriminant; nothing if there is none, `ToTokens` of `Option` (quote), `gen_code.rs` 657. -/
def condTokens : Option RTy → List Token
  | some t => t.tokens
  | none => []

/-- `impl XdrUnion<..>`, `gen_code.rs` 647-672. -/
def UnionUnion.tokens (name : RIdent) (un : UnionUnion) : List Token :=
  implTokens (kw c!"XdrUnion" :: .op c!"<" :: condTokens un.cond ++ [.op c!">"]) name
    (errorType globalError ++
      fnTokens c!"name_by_value" (kw c!"value" :: .op c!":" :: .op c!"&" :: condTokens un.cond) nameResult
        (matchTokens c!"value"
          (commaSep (un.byValue.map fun a => a.1.tokens ++ .op c!"=>" :: okStringify a.2.tokens) ++
            .op c!"," :: (match un.otherwise with
              | .none => []
              | .default => defaultArm ++ [.op c!","]
              | .err => errArm globalError ++ [.op c!","]))))

/-- A union, `gen_code.rs` 674-698. -/
def UnionItem.tokens (u : UnionItem) : List Token :=
  deriveTokens (match u.derive with
    | .indexer => [c!"Clone", c!"Debug", c!"XdrIndexer"]
    | .union => [c!"Clone", c!"Debug", c!"XdrUnion"]
    | .serde => [c!"Clone", c!"Debug", c!"Deserialize", c!"Serialize"]) ++
  [kw c!"pub", kw c!"enum", .ident u.name, .group .brace (commaSep (u.variants.map Variant.tokens))] ++
  implDefault u.name (defaultTokens u.default) ++
  (match u.indexer with
    | some ix => ix.tokens u.name
    | none => []) ++
  (match u.union with
    | some un => un.tokens u.name
    | none => [])

/-- An item; an alias is `gen_code.rs` 217-219. -/
def Item.tokens : Item → List Token
  | .alias name ty => kw c!"type" :: .ident name :: .op c!"=" :: ty.tokens ++ [.op c!";"]
  | .enum e => e.tokens
  | .struct s => s.tokens
  | .union u => u.tokens

/-- `use #path;`, `gen_code.rs` 122-140. -/
def useTokens : List Str → List Token
  | [] => [.op c!";"]
  | [s] => [kw s, .op c!";"]
  | s :: t :: ss => kw s :: .op c!"::" :: useTokens (t :: ss)

/-- The file, `gen_code.rs` 120-147. -/
def RustFile.tokens (f : RustFile) : List Token :=
  [kw c!"use", kw c!"serde", .op c!"::",
    .group .brace [kw c!"Deserialize", .op c!",", kw c!"Serialize"], .op c!";"] ++
  (if f.useTuple then kw c!"use" :: useTokens [c!"serde", c!"ser", c!"SerializeTuple"] else []) ++
  (if f.useIndexer then
    kw c!"use" :: useTokens [c!"serde_xdr", c!"XdrIndexer"] ++
      kw c!"use" :: useTokens [c!"serde_xdr_derive", c!"XdrIndexer"] else []) ++
  (if f.useUnion then
    kw c!"use" :: useTokens [c!"serde_xdr", c!"XdrUnion"] ++
      kw c!"use" :: useTokens [c!"serde_xdr_derive", c!"XdrUnion"] else []) ++
  f.constants.flatMap ConstItem.tokens ++ f.types.flatMap Item.tokens

/-- What `gen_code` returns, `gen_code.rs` 149. -/
def RustFile.text (f : RustFile) : Str := tokensText f.tokens

/-- What `main` prints if it succeeds, `main.rs` 47 (`println!`). -/
def output (n : Nat) (source : Str) (flags : Flags) : Option Str :=
  match run n source flags with
  | .printed f => some (f.text ++ c!"\n")
  | _ => none

end Xdr.Rpcgen
