import Verif.Model.Derive
import Verif.Rpcgen.Tokens
/-!
# The derive macros, as functions from tokens to tokens

`xdr_indexer` and `xdr_union` (`serde-xdr-derive/src/lib.rs`) with their `quote!` templates. What they get is what
`syn` makes of the enum (`syn::ItemEnum`): its name, and the name and the tokens of the types of every variant;
they do not look at the rest. What they return are tokens, which rustc reads (`Spec/RustCode.lean`).
-/

namespace Xdr.Derive

open Rpcgen (Str Token RIdent Delim kw commaSep)

/-- `syn::Fields`: the tokens of the types of unnamed fields. `lib.rs` 15 and 127. -/
inductive FieldTokens where
  | named
  | unnamed (types : List (List Token))
  | unit

/-- `syn::Variant`, `lib.rs` 13 and 125. -/
structure VariantTokens where
  ident : RIdent
  fields : FieldTokens

/-- `syn::ItemEnum`, `lib.rs` 8 and 119. -/
structure EnumTokens where
  ident : RIdent
  variants : List VariantTokens

/-- What `syn::parse` makes of the input: an enum, or an error. `lib.rs` 8 and 119. -/
inductive InputTokens where
  | enum (e : EnumTokens)
  | other

/-- `#(#xs);*`, `lib.rs` 41, 47, 166 and 172. -/
def semiSep : List (List Token) → List Token
  | [] => []
  | [x] => x
  | x :: y :: xs => x ++ .op c!";" :: semiSep (y :: xs)

/-- `a::b::c`, `lib.rs` 61-106. -/
def pathTokens : List RIdent → List Token
  | [] => []
  | [i] => [.ident i]
  | i :: j :: is => .ident i :: .op c!"::" :: pathTokens (j :: is)

/-- An identifier of a template, `lib.rs` 25-235. -/
def word (s : Str) : RIdent := ⟨false, s⟩

/-- `::a::b::c`, `lib.rs` 61-106. -/
def globalPath (segs : List Str) : List Token := .op c!"::" :: pathTokens (segs.map word)

/-- `format_ident!("a{}", i)`, `lib.rs` 26 and 139. -/
def argTokens (i : Nat) : RIdent := word ('a' :: (Nat.toDigits 10 i))

/-- `format_ident!("r{}", i)`, `lib.rs` 27 and 140. -/
def retTokens (i : Nat) : RIdent := word ('r' :: (Nat.toDigits 10 i))

/-- `ser.serialize_element(#arg)?`, `lib.rs` 30-32 and 144-146; with `&index` 69. -/
def serializeElement (arg : List Token) : List Token :=
  [kw c!"ser", .op c!".", kw c!"serialize_element", .group .paren arg, .op c!"?"]

/-- `let #ret = seq.next_element::<#ty>()?.unwrap()`, `lib.rs` 33-35, 95, 151-153 and 218. -/
def nextElement (ret : RIdent) (ty : List Token) : List Token :=
  [kw c!"let", .ident ret, .op c!"=", kw c!"seq", .op c!".", kw c!"next_element", .op c!"::", .op c!"<"] ++ ty ++
    [.op c!">", .group .paren [], .op c!"?", .op c!".", kw c!"unwrap", .group .paren []]

/-- `stringify!(#i)`, `lib.rs` 46, 55, 171 and 180. -/
def stringifyTokens (i : RIdent) : List Token := [kw c!"stringify", .op c!"!", .group .paren [.ident i]]

/-- `#ident::#variant_ident(#(#args),*) => { #(#stmts);*; }`, `lib.rs` 39-43 and 164-168. -/
def serArmTokens (ident variant : RIdent) (args stmts : List (List Token)) : List Token :=
  pathTokens [ident, variant] ++ [.group .paren (commaSep args), .op c!"=>",
    .group .brace (semiSep stmts ++ [.op c!";"])]

/-- `stringify!(#variant_ident) => { #(#stmts);*; Ok(#ident::#variant_ident(#(#rets),*)) }`, `lib.rs` 45-50 and
170-175. -/
def deArmTokens (ident variant : RIdent) (stmts rets : List (List Token)) : List Token :=
  stringifyTokens variant ++ [.op c!"=>", .group .brace (semiSep stmts ++
    [.op c!";", kw c!"Ok", .group .paren (pathTokens [ident, variant] ++ [.group .paren (commaSep rets)])])]

/-- `#ident::#variant_ident => { }`, `lib.rs` 53 and 178. -/
def serUnitTokens (ident variant : RIdent) : List Token :=
  pathTokens [ident, variant] ++ [.op c!"=>", .group .brace []]

/-- `stringify!(#variant_ident) => { Ok(#ident::#variant_ident) }`, `lib.rs` 55 and 180. -/
def deUnitTokens (ident variant : RIdent) : List Token :=
  stringifyTokens variant ++ [.op c!"=>",
    .group .brace [kw c!"Ok", .group .paren (pathTokens [ident, variant])]]

/-- The vectors the macros fill, `lib.rs` 11-12, 20-23, 123-124 and 132-135. -/
structure FieldVecs where
  serArgs : List (List Token) := []
  serStmts : List (List Token) := []
  deStmts : List (List Token) := []
  deRets : List (List Token) := []

/-- `for (i, field) in unnamed.unnamed.iter().enumerate()` in `xdr_indexer`, `lib.rs` 25-37. -/
def indexerFieldTokens (c : FieldVecs) : Nat → List (List Token) → FieldVecs
  | _, [] => c
  | i, ty :: ts => indexerFieldTokens {
      serArgs := c.serArgs ++ [[.ident (argTokens i)]]
      serStmts := c.serStmts ++ [serializeElement [.ident (argTokens i)]]
      deStmts := c.deStmts ++ [nextElement (retTokens i) ty]
      deRets := c.deRets ++ [[.ident (retTokens i)]] } (i + 1) ts

/-- `ser_match_arms` and `de_match_arms`, `lib.rs` 11-12 and 123-124. -/
structure ArmVecs where
  ser : List (List Token) := []
  de : List (List Token) := []

/-- `for variant in ast.variants.iter()` in `xdr_indexer`, `lib.rs` 13-58. -/
def indexerArms (ident : RIdent) (c : ArmVecs) : List VariantTokens → Res ArmVecs
  | [] => .ok c
  | v :: vs =>
    match v.fields with
    | .named => .panic .unimplemented
    | .unnamed ts =>
      let f := indexerFieldTokens {} 0 ts
      indexerArms ident {
        ser := c.ser ++ [serArmTokens ident v.ident f.serArgs f.serStmts]
        de := c.de ++ [deArmTokens ident v.ident f.deStmts f.deRets] } vs
    | .unit =>
      indexerArms ident {
        ser := c.ser ++ [serUnitTokens ident v.ident]
        de := c.de ++ [deUnitTokens ident v.ident] } vs

/-- `match #on { #(#arms),*, _ => unimplemented!(), }`, `lib.rs` 71-74, 101-104, 194-197 and 224-227. -/
def matchArms (on : Str) (arms : List (List Token)) : List Token :=
  [kw c!"match", kw on, .group .brace (commaSep arms ++
    [.op c!",", kw c!"_", .op c!"=>", kw c!"unimplemented", .op c!"!", .group .paren [], .op c!","])]

/-- `Result<#a::#b, #c::Error>`, `lib.rs` 62, 81, 91, 187, 204 and 214. -/
def resultTokens (ok : List RIdent) (of : Str) : List Token :=
  [kw c!"Result", .op c!"<"] ++ pathTokens ok ++ .op c!"," :: pathTokens [word of, word c!"Error"] ++ [.op c!">"]

/-- `<'de>`, `lib.rs` 80-93 and 203-216. -/
def lifetimeDe : List Token := [.op c!"<", .lifetime c!"de", .op c!">"]

/-- `impl ::serde::Serialize for #ident { fn serialize<S>(..) -> .. where .. { #body } }`, `lib.rs` 61-78 and
186-201. -/
def serializeImpl (ident : RIdent) (body : List Token) : List Token :=
  kw c!"impl" :: globalPath [c!"serde", c!"Serialize"] ++ [kw c!"for", .ident ident, .group .brace
    ([kw c!"fn", kw c!"serialize", .op c!"<", kw c!"S", .op c!">",
      .group .paren [.op c!"&", kw c!"self", .op c!",", kw c!"serializer", .op c!":", kw c!"S"], .op c!"->"] ++
      resultTokens [word c!"S", word c!"Ok"] c!"S" ++
      [kw c!"where", kw c!"S", .op c!":"] ++ globalPath [c!"serde", c!"ser", c!"Serializer"] ++
      [.op c!",", .group .brace body])]

/-- `fn expecting(..) -> .. { formatter.write_str(&format!("a {}", stringify!(#ident))) }`, `lib.rs` 88-90 and
211-213. -/
def expectingTokens (ident : RIdent) : List Token :=
  [kw c!"fn", kw c!"expecting", .group .paren ([.op c!"&", kw c!"self", .op c!",", kw c!"formatter", .op c!":",
      .op c!"&", kw c!"mut"] ++ globalPath [c!"std", c!"fmt", c!"Formatter"]), .op c!"->"] ++
    globalPath [c!"std", c!"fmt", c!"Result"] ++
    [.group .brace [kw c!"formatter", .op c!".", kw c!"write_str", .group .paren
      [.op c!"&", kw c!"format", .op c!"!", .group .paren
        ([.lit c!"\"a {}\"", .op c!","] ++ stringifyTokens ident)]]]

/-- `fn visit_seq<A>(..) -> .. where .. { #body }`, `lib.rs` 92-105 and 215-228. -/
def visitSeqTokens (body : List Token) : List Token :=
  [kw c!"fn", kw c!"visit_seq", .op c!"<", kw c!"A", .op c!">",
    .group .paren [kw c!"self", .op c!",", kw c!"mut", kw c!"seq", .op c!":", kw c!"A"], .op c!"->"] ++
    resultTokens [word c!"Self", word c!"Value"] c!"A" ++
    [kw c!"where", kw c!"A", .op c!":"] ++ globalPath [c!"serde", c!"de", c!"SeqAccess"] ++ lifetimeDe ++
    [.op c!",", .group .brace body]

/-- `impl<'de> ::serde::Deserialize<'de> for #ident { .. }`, `lib.rs` 80-110 and 203-233; `visitor` is
`XdrIndexerVisitor` or `XdrUnionVisitor`, and `body` that of `visit_seq`. -/
def deserializeImpl (ident : RIdent) (visitor : Str) (body : List Token) : List Token :=
  kw c!"impl" :: lifetimeDe ++ globalPath [c!"serde", c!"Deserialize"] ++ lifetimeDe ++
    [kw c!"for", .ident ident, .group .brace
      ([kw c!"fn", kw c!"deserialize", .op c!"<", kw c!"D", .op c!">",
        .group .paren [kw c!"deserializer", .op c!":", kw c!"D"], .op c!"->"] ++
        resultTokens [word c!"Self"] c!"D" ++
        [kw c!"where", kw c!"D", .op c!":"] ++ globalPath [c!"serde", c!"de", c!"Deserializer"] ++ lifetimeDe ++
        [.group .brace
          ([kw c!"struct", kw visitor, .op c!";"] ++
            kw c!"impl" :: lifetimeDe ++ globalPath [c!"serde", c!"de", c!"Visitor"] ++ lifetimeDe ++
            [kw c!"for", kw visitor, .group .brace
              ([kw c!"type", kw c!"Value", .op c!"=", .ident ident, .op c!";"] ++ expectingTokens ident ++
                visitSeqTokens body)] ++
            [kw c!"deserializer", .op c!".", kw c!"deserialize_tuple",
              .group .paren [.lit c!"10", .op c!",", kw visitor]])])]

/-- `let variant = Self::Value::#function(#arg).map_err(|_| ::serde::de::Error::custom(format!(#text, #shown)))?;`,
`lib.rs` 96-97 and 219-220. -/
def variantTokens (function : Str) (arg : List Token) (text : Str) (shown : List Token) : List Token :=
  [kw c!"let", kw c!"variant", .op c!"="] ++ pathTokens [word c!"Self", word c!"Value", word function] ++
    [.group .paren arg, .op c!".", kw c!"map_err", .group .paren
      ([.op c!"|", kw c!"_", .op c!"|"] ++ globalPath [c!"serde", c!"de", c!"Error", c!"custom"] ++
        [.group .paren [kw c!"format", .op c!"!", .group .paren ([.lit text, .op c!","] ++ shown)]]),
      .op c!"?", .op c!";"]

/-- The body of `serialize` in `xdr_indexer`, `lib.rs` 66-76. -/
def indexerSerBody (arms : List (List Token)) : List Token :=
  [kw c!"let", kw c!"index", .op c!"=", kw c!"self", .op c!".", kw c!"index", .group .paren [], .op c!";"] ++
  [kw c!"let", kw c!"mut", kw c!"ser", .op c!"=", kw c!"serializer", .op c!".", kw c!"serialize_tuple",
    .group .paren [kw c!"index", kw c!"as", kw c!"usize"], .op c!"?", .op c!";"] ++
  serializeElement [.op c!"&", kw c!"index"] ++ .op c!";" ::
  matchArms c!"self" arms ++ [kw c!"ser", .op c!".", kw c!"end", .group .paren []]

/-- The body of `visit_seq` in `xdr_indexer`, `lib.rs` 95-104. -/
def indexerDeBody (arms : List (List Token)) : List Token :=
  nextElement (word c!"index") [kw c!"i32"] ++ .op c!";" ::
  variantTokens c!"name_by_index" [kw c!"index"] c!"\"Can not convert from {}\"" [kw c!"index"] ++
  matchArms c!"variant" arms

/-- `xdr_indexer`, `lib.rs` 6-114. -/
def xdr_indexer_tokens : InputTokens → Res (List Token)
  | .other => .panic .unwrapErr
  | .enum e =>
    match indexerArms e.ident {} e.variants with
    | .ok arms => .ok (serializeImpl e.ident (indexerSerBody arms.ser) ++
        deserializeImpl e.ident c!"XdrIndexerVisitor" (indexerDeBody arms.de))
    | .err x => .err x
    | .panic p => .panic p
    | .depth => .depth

/-- `for (i, field) in unnamed.unnamed.iter().enumerate()` in `xdr_union`, `lib.rs` 138-162, with `first` and
`value_ty`. -/
def unionFieldTokens (c : FieldVecs) (first : Bool) (value_ty : Option (List Token)) :
    Nat → List (List Token) → FieldVecs × Option (List Token)
  | _, [] => (c, value_ty)
  | i, ty :: ts =>
    let c := { c with
      serArgs := c.serArgs ++ [[Token.ident (argTokens i)]]
      serStmts := c.serStmts ++ [serializeElement [Token.ident (argTokens i)]] }
    let c := if first then { c with deRets := c.deRets ++ [[kw c!"value"]] }
      else { c with
        deStmts := c.deStmts ++ [nextElement (retTokens i) ty]
        deRets := c.deRets ++ [[Token.ident (retTokens i)]] }
    let value_ty := if value_ty.isNone then some ty else value_ty
    unionFieldTokens c false value_ty (i + 1) ts

/-- `for variant in ast.variants.iter()` in `xdr_union`, `lib.rs` 125-183. -/
def unionArms (ident : RIdent) (c : ArmVecs) (value_ty : Option (List Token)) :
    List VariantTokens → Res (ArmVecs × Option (List Token))
  | [] => .ok (c, value_ty)
  | v :: vs =>
    match v.fields with
    | .named => .panic .unimplemented
    | .unnamed ts =>
      let (f, value_ty) := unionFieldTokens {} true value_ty 0 ts
      unionArms ident {
        ser := c.ser ++ [serArmTokens ident v.ident f.serArgs f.serStmts]
        de := c.de ++ [deArmTokens ident v.ident f.deStmts f.deRets] } value_ty vs
    | .unit =>
      unionArms ident {
        ser := c.ser ++ [serUnitTokens ident v.ident]
        de := c.de ++ [deUnitTokens ident v.ident] } value_ty vs

/-- The body of `serialize` in `xdr_union`, `lib.rs` 192-199. -/
def unionSerBody (arms : List (List Token)) : List Token :=
  [kw c!"let", kw c!"mut", kw c!"ser", .op c!"=", kw c!"serializer", .op c!".", kw c!"serialize_tuple",
    .group .paren [.lit c!"2usize"], .op c!"?", .op c!";"] ++
  matchArms c!"self" arms ++ [kw c!"ser", .op c!".", kw c!"end", .group .paren []]

/-- The body of `visit_seq` in `xdr_union`, `lib.rs` 218-227. -/
def unionDeBody (value_ty : List Token) (arms : List (List Token)) : List Token :=
  nextElement (word c!"value") value_ty ++ .op c!";" ::
  variantTokens c!"name_by_value" [.op c!"&", kw c!"value"] c!"\"Can not convert from {:?}\""
    [.op c!"&", kw c!"value"] ++
  matchArms c!"variant" arms

/-- `xdr_union`, `lib.rs` 117-237. -/
def xdr_union_tokens : InputTokens → Res (List Token)
  | .other => .panic .unwrapErr
  | .enum e =>
    match unionArms e.ident {} none e.variants with
    | .ok (arms, some ty) => .ok (serializeImpl e.ident (unionSerBody arms.ser) ++
        deserializeImpl e.ident c!"XdrUnionVisitor" (unionDeBody ty arms.de))
    | .ok (_, none) => .panic .unwrapNone
    | .err x => .err x
    | .panic p => .panic p
    | .depth => .depth

end Xdr.Derive
