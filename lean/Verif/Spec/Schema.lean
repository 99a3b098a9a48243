import Verif.Spec.Resolve
import Verif.Spec.Rfc4506
import Verif.Model.Utf8
/-!
# The values of the types of an XDR file

Written from RFC 4506 sections 4 and 6, apart from the generator: which XDR values the types, declarations
and definitions of a file have.
-/

namespace Xdr.Rpcgen

open Rfc (XVal)

/-- The name a type definition defines. -/
def TypeDef.name : TypeDef → Option Str
  | .declaration d => d.name
  | .enum n _ => some n
  | .struct n _ => some n
  | .union n _ => some n

/-- The type of a name: the first type definition of that name. -/
def typeOf (ds : List Definition) (name : Str) : Option TypeDef :=
  ds.findSome? fun
    | .type t => if t.name = some name then some t else none
    | _ => none

/-- The names a file defines as types. -/
def typeNames (ds : List Definition) : List Str :=
  ds.flatMap fun
    | .type t => t.name.toList
    | _ => []

/-- Every name has one definition (RFC 4506 6.4, note 2). -/
structure Unambiguous (ds : List Definition) : Prop where
  values : (definedNames ds).Nodup
  types : (typeNames ds).Nodup

/-- The labels of a union with their arms, in the order of the file. -/
def UnionBody.labels (b : UnionBody) : List (Value × Declaration) :=
  b.specs.flatMap fun s => s.values.map fun v => (v, s.declaration)

/-- In a union whose discriminant has type `cond`, the label `v` is the number `k`. -/
inductive Selects (ds : List Definition) : TypeSpecifier → Value → Int → Prop
  | int {signed : Bool} {v : Value} {k : Int} : Stands ds v k → Selects ds (.int signed) v k
  | false : Selects ds .bool (.identifier c!"FALSE") 0
  | true : Selects ds .bool (.identifier c!"TRUE") 1
  | enum {name e : Str} {as : List Assign} {a : Assign} {k : Int} :
      typeOf ds name = some (.enum e as) → a ∈ as → Stands ds a.value k →
      Selects ds (.identifier name) (.identifier a.identifier) k
  | typedef {name nm : Str} {ts : TypeSpecifier} {v : Value} {k : Int} :
      typeOf ds name = some (.declaration (.variable ts nm)) → ts ≠ .bool → Selects ds ts v k →
      Selects ds (.identifier name) v k

/-- The labels `ls` are the numbers `ks`, which are different and fit an unsigned integer. -/
structure Labelled (ds : List Definition) (cond : TypeSpecifier) (ls : List (Value × Declaration))
    (ks : List Int) : Prop where
  selects : List.Forall₂ (fun (l : Value × Declaration) k => Selects ds cond l.1 k) ls ks
  distinct : ks.Nodup
  range : ∀ k ∈ ks, 0 ≤ k ∧ k ≤ 4294967295

/-- The number of a discriminant. -/
def discriminant : XVal → Option Int
  | .int k => some k
  | .uint k => some k
  | .enum k => some k
  | .bool b => some (if b then 1 else 0)
  | _ => none

mutual
/-- The values of a type. `dflt`: with or without those of unions that take the default arm. -/
inductive Typed (ds : List Definition) (dflt : Bool) : TypeSpecifier → XVal → Prop
  | int {k : Int} : -2147483648 ≤ k → k ≤ 2147483647 → Typed ds dflt (.int true) (.int k)
  | uint {k : Nat} : k < 2 ^ 32 → Typed ds dflt (.int false) (.uint k)
  | hyper {k : Int} : -9223372036854775808 ≤ k → k ≤ 9223372036854775807 →
      Typed ds dflt (.hyper true) (.hyper k)
  | uhyper {k : Nat} : k < 2 ^ 64 → Typed ds dflt (.hyper false) (.uhyper k)
  | float {b : Nat} : b < 2 ^ 32 → Typed ds dflt .float (.float b)
  | double {b : Nat} : b < 2 ^ 64 → Typed ds dflt .double (.double b)
  | bool {b : Bool} : Typed ds dflt .bool (.bool b)
  | char {k : Int} : -128 ≤ k → k ≤ 127 → Typed ds dflt (.char true) (.int k)
  | uchar {k : Nat} : k < 2 ^ 8 → Typed ds dflt (.char false) (.uint k)
  | short {k : Int} : -32768 ≤ k → k ≤ 32767 → Typed ds dflt (.short true) (.int k)
  | ushort {k : Nat} : k < 2 ^ 16 → Typed ds dflt (.short false) (.uint k)
  | name {name : Str} {t : TypeDef} {x : XVal} : typeOf ds name = some t → Defined ds dflt t x →
      Typed ds dflt (.identifier name) x

/-- The values of a type definition. -/
inductive Defined (ds : List Definition) (dflt : Bool) : TypeDef → XVal → Prop
  | typedef {d : Declaration} {x : XVal} : Declared ds dflt d x → Defined ds dflt (.declaration d) x
  | enum {e : Str} {as : List Assign} {a : Assign} {k : Int} : a ∈ as → Stands ds a.value k →
      Defined ds dflt (.enum e as) (.enum k)
  | struct {s : Str} {ms : List Declaration} {xs : List XVal} : Members ds dflt ms xs →
      Defined ds dflt (.struct s ms) (.struct xs)
  | arm {u nm : Str} {body : UnionBody} {cond : TypeSpecifier} {v : Value} {d : Declaration} {k : Int}
      {disc x : XVal} : body.cond = .variable cond nm → (v, d) ∈ body.labels → Selects ds cond v k →
      Typed ds dflt cond disc → discriminant disc = some k → Declared ds dflt d x →
      Defined ds dflt (.union u body) (.union disc x)
  | default {u nm : Str} {body : UnionBody} {cond : TypeSpecifier} {d : Declaration} {k : Int}
      {disc x : XVal} : dflt = true → body.cond = .variable cond nm → body.default = some d →
      Typed ds dflt cond disc → discriminant disc = some k →
      (∀ l ∈ body.labels, ¬ Selects ds cond l.1 k) → Declared ds dflt d x →
      Defined ds dflt (.union u body) (.union disc x)

/-- The values of a declaration. -/
inductive Declared (ds : List Definition) (dflt : Bool) : Declaration → XVal → Prop
  | variable {ts : TypeSpecifier} {nm : Str} {x : XVal} : Typed ds dflt ts x →
      Declared ds dflt (.variable ts nm) x
  | fixedArray {ts : TypeSpecifier} {nm : Str} {v : Value} {xs : List XVal} :
      Stands ds v xs.length → Each ds dflt ts xs → Declared ds dflt (.fixedArray ts nm v) (.arrayFixed xs)
  | variableArray {ts : TypeSpecifier} {nm : Str} {m : Option Value} {xs : List XVal} :
      xs.length < 2 ^ 32 → (∀ v k, m = some v → Stands ds v k → (xs.length : Int) ≤ k) →
      Each ds dflt ts xs → Declared ds dflt (.variableArray ts nm m) (.arrayVar xs)
  | opaqueFixed {nm : Str} {v : Value} {bs : Bytes} : Stands ds v bs.length →
      Declared ds dflt (.opaqueFixedArray nm v) (.opaqueFixed bs)
  | opaqueVar {nm : Str} {m : Option Value} {bs : Bytes} : bs.length < 2 ^ 32 →
      (∀ v k, m = some v → Stands ds v k → (bs.length : Int) ≤ k) →
      Declared ds dflt (.opaqueVariableArray nm m) (.opaqueVar bs)
  /-- Text in UTF-8; RFC 4506 speaks of ASCII, which is a part of it. -/
  | string {nm : Str} {m : Option Value} {s : List Char} : (utf8Bytes s).length < 2 ^ 32 →
      (∀ v k, m = some v → Stands ds v k → ((utf8Bytes s).length : Int) ≤ k) →
      Declared ds dflt (.string nm m) (.string (utf8Bytes s))
  | absent {ts : TypeSpecifier} {nm : Str} : Declared ds dflt (.optionVariable ts nm) .optNone
  | present {ts : TypeSpecifier} {nm : Str} {x : XVal} : Typed ds dflt ts x →
      Declared ds dflt (.optionVariable ts nm) (.optSome x)
  | void : Declared ds dflt .void .void

/-- Elements of an array. -/
inductive Each (ds : List Definition) (dflt : Bool) : TypeSpecifier → List XVal → Prop
  | nil {ts : TypeSpecifier} : Each ds dflt ts []
  | cons {ts : TypeSpecifier} {x : XVal} {xs : List XVal} : Typed ds dflt ts x → Each ds dflt ts xs →
      Each ds dflt ts (x :: xs)

/-- Members of a structure. -/
inductive Members (ds : List Definition) (dflt : Bool) : List Declaration → List XVal → Prop
  | nil : Members ds dflt [] []
  | cons {d : Declaration} {ds' : List Declaration} {x : XVal} {xs : List XVal} :
      Declared ds dflt d x → Members ds dflt ds' xs → Members ds dflt (d :: ds') (x :: xs)
end

/-- A declaration of variable-length opaque data, maybe through typedef names. -/
inductive PlainOpaque (ds : List Definition) : Declaration → Prop
  | direct {nm : Str} {m : Option Value} : PlainOpaque ds (.opaqueVariableArray nm m)
  | typedef {name nm : Str} {d : Declaration} : typeOf ds name = some (.declaration d) →
      PlainOpaque ds d → PlainOpaque ds (.variable (.identifier name) nm)

/-- A declaration of opaque data, or of arrays of or pointers to typedef names of it. -/
inductive HasOpaque (ds : List Definition) : Declaration → Prop
  | fixed {nm : Str} {v : Value} : HasOpaque ds (.opaqueFixedArray nm v)
  | variable {nm : Str} {m : Option Value} : HasOpaque ds (.opaqueVariableArray nm m)
  | typedef {d d' : Declaration} {name : Str} : d.type_specifier = some (.identifier name) →
      typeOf ds name = some (.declaration d') → HasOpaque ds d' → HasOpaque ds d

end Xdr.Rpcgen
