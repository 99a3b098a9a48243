import Verif.Model.DeriveTokens
/-!
# The derive macros, from the tokens of the enum

`syn::parse` of a `syn::ItemEnum` (`serde-xdr-derive/src/lib.rs` 8 and 119), and the macros from the tokens rustc gives
them. Left out, as `none`: generics, visibility of fields (rustc does not take them in an enum), and discriminants of
variants with fields.
-/

namespace Xdr.Derive

open Rpcgen (Str Token RIdent Delim kw commaSep)

/-- Put a token before the first part; for the parts of `lib.rs` 8 and 119. -/
def onFirst (t : Token) : List (List Token) → List (List Token)
  | [] => [[t]]
  | p :: ps => (t :: p) :: ps

/-- The parts between commas. `syn`'s `Punctuated`, `lib.rs` 8 and 119. -/
def splitCommas : List Token → List (List Token)
  | [] => [[]]
  | .op x :: ts => if x = c!"," then [] :: splitCommas ts else onFirst (.op x) (splitCommas ts)
  | t :: ts => onFirst t (splitCommas ts)

/-- The parts between commas that are not in `<..>`; `depth` is the number of open `<`. `syn::Type`, `lib.rs` 8 and
119. -/
def splitTypes : Nat → List Token → List (List Token)
  | _, [] => [[]]
  | depth, .op x :: ts =>
    if x = c!"," ∧ depth = 0 then [] :: splitTypes depth ts
    else if x = c!"<" then onFirst (.op x) (splitTypes (depth + 1) ts)
    else if x = c!">" then onFirst (.op x) (splitTypes (depth - 1) ts)
    else onFirst (.op x) (splitTypes depth ts)
  | depth, t :: ts => onFirst t (splitTypes depth ts)

/-- A comma at the end is allowed. `syn`'s `Punctuated`, `lib.rs` 8 and 119. -/
def dropLastEmpty (ps : List (List Token)) : List (List Token) :=
  match ps.getLast? with
  | some [] => ps.dropLast
  | _ => ps

/-- `#[..]`, any number of them. `syn::Attribute`, `lib.rs` 8 and 119. -/
def skipAttrs : List Token → List Token
  | .op s :: .group .bracket b :: ts => if s = c!"#" then skipAttrs ts else .op s :: .group .bracket b :: ts
  | ts => ts

/-- `pub` or `pub(..)`. `syn::Visibility`, `lib.rs` 8 and 119. -/
def skipVis : List Token → List Token
  | .ident i :: .group .paren g :: ts =>
    if i = word c!"pub" then ts else .ident i :: .group .paren g :: ts
  | .ident i :: ts => if i = word c!"pub" then ts else .ident i :: ts
  | ts => ts

/-- `syn::Variant`, `lib.rs` 8 and 119. -/
def synVariant (ts : List Token) : Option VariantTokens :=
  match skipAttrs ts with
  | [.ident i] => some ⟨i, .unit⟩
  | [.ident i, .group .paren b] => some ⟨i, .unnamed ((dropLastEmpty (splitTypes 0 b)).map skipAttrs)⟩
  | [.ident i, .group .brace _] => some ⟨i, .named⟩
  | .ident i :: .op s :: _ => if s = c!"=" then some ⟨i, .unit⟩ else none
  | _ => none

/-- `syn::parse`, `lib.rs` 8 and 119: an enum, or else a struct or a union. -/
def syn_parse (ts : List Token) : Option InputTokens :=
  match skipVis (skipAttrs ts) with
  | [.ident k, .ident n, .group .brace b] =>
    if k = word c!"enum" then
      ((dropLastEmpty (splitCommas b)).mapM synVariant).map fun vs => .enum ⟨n, vs⟩
    else if k = word c!"struct" ∨ k = word c!"union" then some .other
    else none
  | .ident k :: _ => if k = word c!"struct" then some .other else none
  | _ => none

/-- `#[derive(XdrIndexer)]`, `lib.rs` 6-114. -/
def derive_indexer (ts : List Token) : Option (Res (List Token)) := (syn_parse ts).map xdr_indexer_tokens

/-- `#[derive(XdrUnion)]`, `lib.rs` 117-237. -/
def derive_union (ts : List Token) : Option (Res (List Token)) := (syn_parse ts).map xdr_union_tokens

end Xdr.Derive
