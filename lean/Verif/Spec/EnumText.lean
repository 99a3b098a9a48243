import Verif.Model.DeriveTokens
import Mathlib.Data.List.Forall2
/-!
# How an enum is written

The tokens of an enum without generics, as the Rust reference has them (Items, Enumerations): attributes, visibility,
`enum`, the name, and the variants in braces. Written without the reader of `Model/SynEnum.lean`.
-/

namespace Xdr.Derive.Written

open Rpcgen (Token RIdent kw)

/-- `#[..]`, any number of them. -/
inductive Attrs : List Token → Prop
  | nil : Attrs []
  | cons {b ts : List Token} : Attrs ts → Attrs (.op c!"#" :: .group .bracket b :: ts)

/-- Nothing, `pub`, or `pub(..)`. -/
inductive Visibility : List Token → Prop
  | inherited : Visibility []
  | pub : Visibility [kw c!"pub"]
  | restricted {g : List Token} : Visibility [kw c!"pub", .group .paren g]

/-- Tokens in which `<` and `>` match; with `commas` also commas that are in no `<..>`. -/
inductive Balanced : (commas : Bool) → List Token → Prop
  | nil {c : Bool} : Balanced c []
  | token {c : Bool} {t : Token} {ts : List Token} : t ≠ .op c!"," → t ≠ .op c!"<" → t ≠ .op c!">" → Balanced c ts →
      Balanced c (t :: ts)
  | comma {ts : List Token} : Balanced true ts → Balanced true (.op c!"," :: ts)
  | angles {c : Bool} {a ts : List Token} : Balanced true a → Balanced c ts →
      Balanced c (.op c!"<" :: (a ++ .op c!">" :: ts))

/-- A type: its commas are within `<..>` or in groups. -/
structure Type_ (ts : List Token) : Prop where
  balanced : Balanced false ts
  something : ts ≠ []
  no_attribute : ∀ b r, ts ≠ .op c!"#" :: .group .bracket b :: r

/-- Parts with commas between them, and perhaps one at the end. -/
inductive Listed : List (List Token) → List Token → Prop
  | nil : Listed [] []
  | one {x : List Token} : Listed [x] x
  | trailing {x : List Token} : Listed [x] (x ++ [.op c!","])
  | cons {x y : List Token} {xs : List (List Token)} {ts : List Token} : Listed (y :: xs) ts →
      Listed (x :: y :: xs) (x ++ .op c!"," :: ts)

/-- A field of a tuple variant, and its type. -/
inductive Field : List Token → List Token → Prop
  | mk {a t : List Token} : Attrs a → Type_ t → Field (a ++ t) t

/-- A variant. A number after `=` has no comma outside of groups. -/
inductive Variant_ : List Token → VariantTokens → Prop
  | unit {a : List Token} {i : RIdent} : Attrs a → Variant_ (a ++ [.ident i]) ⟨i, .unit⟩
  | number {a e : List Token} {i : RIdent} : Attrs a → .op c!"," ∉ e →
      Variant_ (a ++ .ident i :: .op c!"=" :: e) ⟨i, .unit⟩
  | tuple {a b : List Token} {i : RIdent} {fs ts : List (List Token)} : Attrs a → Listed fs b →
      List.Forall₂ Field fs ts → Variant_ (a ++ [.ident i, .group .paren b]) ⟨i, .unnamed ts⟩
  | named {a b : List Token} {i : RIdent} : Attrs a → Variant_ (a ++ [.ident i, .group .brace b]) ⟨i, .named⟩

/-- An enum. -/
inductive Enum_ : List Token → EnumTokens → Prop
  | mk {a v b : List Token} {n : RIdent} {ps : List (List Token)} {vs : List VariantTokens} : Attrs a → Visibility v →
      Listed ps b → List.Forall₂ Variant_ ps vs →
      Enum_ (a ++ (v ++ [kw c!"enum", .ident n, .group .brace b])) ⟨n, vs⟩

end Xdr.Derive.Written
