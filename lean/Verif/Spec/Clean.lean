import Verif.Spec.Fragment
import Verif.Spec.Consts
import Verif.Spec.Items
import Verif.Spec.Tame
import Verif.Rpcgen.Meaning
import Mathlib.Logic.Relation
/-!
# Interfaces whose generated source compiles

Conditions on the definitions of a file, apart from the generator. Each excludes something the generator
accepts although rustc does not accept what it writes.
-/

namespace Xdr.Rpcgen

/-- Any declaration of the file. -/
def DeclIn (ds : List Definition) (d : Declaration) : Prop :=
  TypedefIn ds d ∨ MemberIn ds d ∨ ArmIn ds d ∨ DefaultIn ds d ∨ CondIn ds d

/-- The name of an enum, structure or union. -/
def TypeDef.itemName : TypeDef → Option Str
  | .declaration _ => none
  | .enum n _ => some n
  | .struct n _ => some n
  | .union n _ => some n

/-- The names of the enums, structures and unions of a file. -/
def itemNames (ds : List Definition) : List Str :=
  ds.filterMap fun
    | .type t => t.itemName
    | _ => none

/-- Opaque data, maybe through typedef names. -/
inductive IsOpaque (ds : List Definition) : Declaration → Prop
  | fixed {nm : Str} {v : Value} : IsOpaque ds (.opaqueFixedArray nm v)
  | variable {nm : Str} {m : Option Value} : IsOpaque ds (.opaqueVariableArray nm m)
  | typedef {name nm : Str} {d : Declaration} : typeOf ds name = some (.declaration d) → IsOpaque ds d →
      IsOpaque ds (.variable (.identifier name) nm)

/-- `unsigned int`, maybe through typedef names. -/
inductive IsUnsigned (ds : List Definition) : TypeSpecifier → Prop
  | uint : IsUnsigned ds (.int false)
  | typedef {name nm : Str} {ts : TypeSpecifier} : typeOf ds name = some (.declaration (.variable ts nm)) →
      IsUnsigned ds ts → IsUnsigned ds (.identifier name)

/-- Discriminants whose values can be matched: an unsigned integer, an enum under its own name, or `bool`
with both cases. -/
inductive Matchable (ds : List Definition) : TypeSpecifier → List Str → Prop
  | unsigned {ts : TypeSpecifier} {labels : List Str} : IsUnsigned ds ts → Matchable ds ts labels
  | enum {name e : Str} {as : List Assign} {labels : List Str} : typeOf ds name = some (.enum e as) →
      Matchable ds (.identifier name) labels
  | bool {labels : List Str} : c!"TRUE" ∈ labels → c!"FALSE" ∈ labels → Matchable ds .bool labels

/-- The names of the labels can be the names of variants. -/
structure LabelNames (dflt : Bool) (names : List Str) : Prop where
  /-- they stay different in camel case -/
  distinct : (names.map upper_camel_case).Nodup
  /-- none is a keyword of Rust in camel case -/
  keyword : ∀ a ∈ names, upper_camel_case a ≠ c!"Self"
  /-- none is that of the default arm -/
  default : dflt = true → ∀ a ∈ names, upper_camel_case a ≠ c!"Default"

/-- The type of which a declaration has values in place; those of variable-length arrays are elsewhere. -/
def Declaration.inPlace : Declaration → Option TypeSpecifier
  | .variable ts _ => some ts
  | .fixedArray ts _ _ => some ts
  | .optionVariable ts _ => some ts
  | _ => none

/-- The declaration has values of an enum, structure or union in place, maybe through typedef names. -/
inductive Inside (ds : List Definition) : Declaration → Str → Prop
  | item {d : Declaration} {name : Str} {t : TypeDef} : d.inPlace = some (.identifier name) →
      typeOf ds name = some t → t.itemName = some name → Inside ds d name
  | typedef {d d' : Declaration} {name item : Str} : d.inPlace = some (.identifier name) →
      typeOf ds name = some (.declaration d') → Inside ds d' item → Inside ds d item

/-- The structure or union `a` has values of `b` in place. The generator takes a member of a structure's own type
out of line. -/
inductive Contains (ds : List Definition) : Str → Str → Prop
  | member {a b : Str} {ms : List Declaration} {d : Declaration} : .type (.struct a ms) ∈ ds → d ∈ ms →
      d.inPlace ≠ some (.identifier a) → Inside ds d b → Contains ds a b
  | cond {a b : Str} {body : UnionBody} : .type (.union a body) ∈ ds → Inside ds body.cond b → Contains ds a b
  | arm {a b : Str} {body : UnionBody} {l : Value × Declaration} : .type (.union a body) ∈ ds → l ∈ body.labels →
      Inside ds l.2 b → Contains ds a b
  | default {a b : Str} {body : UnionBody} {d : Declaration} : .type (.union a body) ∈ ds →
      body.default = some d → Inside ds d b → Contains ds a b

/-- Names of variables and functions in the generated source and in what is derived from it. -/
def localNames : List Str :=
  [c!"v", c!"index", c!"value", c!"serializer", c!"ser", c!"deserializer", c!"formatter", c!"seq", c!"variant",
   c!"a0", c!"a1", c!"r0", c!"r1", c!"Ok", c!"Err", c!"FIELDS", c!"VARIANTS"]

/-- Names of types in what is derived. -/
def genericNames : List Str := [c!"S", c!"D", c!"A", c!"XdrIndexerVisitor", c!"XdrUnionVisitor"]

/-- Types and traits the generated source names without a path: of Rust's prelude, and those it imports. -/
def importedNames : List Str :=
  [c!"Vec", c!"Option", c!"Box", c!"String", c!"Result", c!"AsRef", c!"TryFrom", c!"Default",
   c!"Deserialize", c!"Serialize", c!"SerializeTuple", c!"XdrIndexer", c!"XdrUnion"]

/-- Files whose generated source compiles. -/
structure Clean (ds : List Definition) (cfg : Config) : Prop where
  /-- every name is defined once -/
  unambiguous : Unambiguous ds
  /-- the names of types stay different in camel case -/
  types : ((itemNames ds).map upper_camel_case).Nodup
  /-- and are not those of Rust's types or traits in the generated source -/
  shadow : ∀ name ∈ itemNames ds, upper_camel_case name ≠ c!"Self" ∧ upper_camel_case name ∉ importedNames
  /-- the types in declarations are defined -/
  defined : ∀ d name, DeclIn ds d → d.element = some (.identifier name) → typeOf ds name ≠ none
  /-- constants are not keywords of Rust, have a number through constants and, if through a name, below 2^32 -/
  constants : ∀ a ∈ constants ds, rust_reserved a.identifier = false ∧ a.identifier ≠ c!"_" ∧
    ∃ k, ThroughConstants ds a.value k ∧ ((∃ name, a.value = .identifier name) → k < 2 ^ 32)
  /-- the length of a fixed-length array is a literal of at most 32 -/
  lengths : ∀ ts nm v, DeclIn ds (.fixedArray ts nm v) → ∃ c, v = .constant c ∧ c.number ≤ 32
  /-- that of fixed-length opaque data may also be a constant -/
  opaqueLengths : ∀ nm v, DeclIn ds (.opaqueFixedArray nm v) → ∃ k, ThroughConstants ds v k ∧ k ≤ 32
  /-- no fixed-length arrays of opaque data -/
  fixedArrays : ∀ ts nm v, DeclIn ds (.fixedArray ts nm v) → ¬ IsOpaque ds (.variable ts nm)
  /-- no variable-length arrays of fixed-length opaque data -/
  arrays : ∀ ts nm m, DeclIn ds (.variableArray ts nm m) → IsOpaque ds (.variable ts nm) →
    PlainOpaque ds (.variable ts nm)
  /-- no pointers to opaque data -/
  pointers : ∀ ts nm, DeclIn ds (.optionVariable ts nm) → ¬ IsOpaque ds (.variable ts nm)
  /-- with `--use-std-trait`: no arrays of or pointers to enums in structures -/
  enumMembers : cfg.enum_impl_std_trait = true → ∀ d name e as, MemberIn ds d →
    d.type_specifier = some (.identifier name) → typeOf ds name = some (.enum e as) →
    ∃ nm, d = .variable (.identifier name) nm
  /-- the members of a structure stay different in snake case; none becomes a keyword or `_` -/
  fields : ∀ s ms, .type (.struct s ms) ∈ ds → ((ms.filterMap Declaration.name).map snake_case).Nodup ∧
    ∀ f ∈ ms.filterMap Declaration.name, snake_case f ≠ c!"_" ∧
      (rust_reserved (snake_case f) = true → rust_reserved f = true)
  /-- no structure is called `u8`, the name the generator takes for the elements of opaque data -/
  u8 : ∀ ms, .type (.struct c!"u8" ms) ∉ ds
  /-- the members of an enum have different numbers and stay different in camel case -/
  enums : ∀ e as, .type (.enum e as) ∈ ds → (∃ ks, Numbered ds as ks) ∧
    LabelNames false (as.map (·.identifier))
  /-- so do the labels of a union, which are names -/
  unions : ∀ u b, .type (.union u b) ∈ ds → ∃ cond nm ks names, b.cond = .variable cond nm ∧
    Labelled ds cond b.labels ks ∧ b.labels.map (·.1) = names.map Value.identifier ∧
    LabelNames b.default.isSome names ∧ (cfg.union_impl_union = true → Matchable ds cond names)
  /-- no structure or union is inside itself -/
  sized : ∀ a, ¬ Relation.TransGen (Contains ds) a a
  /-- the names of constants are not taken -/
  locals : ∀ a ∈ Rpcgen.constants ds, a.identifier ∉ localNames ∧ ¬ c!"__" <+: a.identifier
  /-- nor are those of types, with `XdrIndexer` or `XdrUnion` -/
  generics : cfg.enum_impl_indexer = true ∨ cfg.union_impl_indexer = true ∨ cfg.union_impl_union = true →
    ∀ name ∈ itemNames ds, upper_camel_case name ∉ genericNames
  /-- with these, no member of an enum and no label of a union is called `Error` -/
  enumError : cfg.enum_impl_indexer = true → ∀ e as, .type (.enum e as) ∈ ds → ∀ a ∈ as,
    upper_camel_case a.identifier ≠ c!"Error"
  unionError : cfg.union_impl_indexer = true ∨ cfg.union_impl_union = true → ∀ u b, .type (.union u b) ∈ ds →
    ∀ a d, (.identifier a, d) ∈ b.labels → upper_camel_case a ≠ c!"Error"

end Xdr.Rpcgen
