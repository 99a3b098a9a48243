import Verif.Spec.Clean
import Verif.Spec.Variants
/-!
# What an interface needs for its source to compile

The other direction of `Clean` (`Spec/Clean.lean`): conditions on the definitions of a file, apart from the
generator, without which rustc refuses the source.
-/

namespace Xdr.Rpcgen

/-- Declarations whose type is in the source: members, arms of the labels that become variants, default arms, and
the typedefs those are made of. With `XdrIndexer` or `XdrUnion` an arm of opaque data is `VariableArray`, as are the
elements of an array of opaque data, whatever the declaration says. -/
inductive Shown (ds : List Definition) (cfg : Config) : Declaration → Prop
  | member {d : Declaration} : MemberIn ds d → Shown ds cfg d
  | arm {u : Str} {b : UnionBody} {l : Value × Declaration} : .type (.union u b) ∈ ds → l ∈ b.used → l.2 ≠ .void →
      cfg.union_complement_index = true ∨ ¬ HasOpaque ds l.2 → Shown ds cfg l.2
  | default {d : Declaration} : DefaultIn ds d → d ≠ .void → Shown ds cfg d
  | typedef {d d' : Declaration} {name : Str} : Shown ds cfg d → d.element = some (.identifier name) →
      typeOf ds name = some (.declaration d') → (d.inPlace = none → ¬ HasOpaque ds d') → Shown ds cfg d'

/-- Declarations that decide whether a field has a serde attribute: members, arms, and the typedefs of which those
have values in place. -/
inductive Marked (ds : List Definition) (cfg : Config) : Declaration → Prop
  | member {d : Declaration} : MemberIn ds d → Marked ds cfg d
  | arm {u : Str} {b : UnionBody} {l : Value × Declaration} : .type (.union u b) ∈ ds → l ∈ b.used → l.2 ≠ .void →
      cfg.union_complement_index = true → Marked ds cfg l.2
  | typedef {d d' : Declaration} {name : Str} : Marked ds cfg d → d.inPlace = some (.identifier name) →
      typeOf ds name = some (.declaration d') → Marked ds cfg d'

/-- `Contains` (`Spec/Clean.lean`) for the arms that become variants. -/
inductive Keeps (ds : List Definition) : Str → Str → Prop
  | member {a b : Str} {ms : List Declaration} {d : Declaration} : .type (.struct a ms) ∈ ds → d ∈ ms →
      d.inPlace ≠ some (.identifier a) → Inside ds d b → Keeps ds a b
  | arm {a b : Str} {body : UnionBody} {l : Value × Declaration} : .type (.union a body) ∈ ds → l ∈ body.used →
      Inside ds l.2 b → Keeps ds a b
  | default {a b : Str} {body : UnionBody} {d : Declaration} : .type (.union a body) ∈ ds →
      body.default = some d → Inside ds d b → Keeps ds a b

/-- Discriminants whose values can be matched, with the labels: an unsigned integer, an enum under its own name with
labels that are members of it, in camel case, or `bool` with both cases. -/
inductive Matched (ds : List Definition) : TypeSpecifier → List Str → Prop
  | unsigned {ts : TypeSpecifier} {labels : List Str} : IsUnsigned ds ts → Matched ds ts labels
  | enum {name : Str} {as : List Assign} {labels : List Str} : .type (.enum name as) ∈ ds →
      (∀ a ∈ labels, ∃ m ∈ as, upper_camel_case m.identifier = upper_camel_case a) →
      Matched ds (.identifier name) labels
  | bool {labels : List Str} : c!"TRUE" ∈ labels → c!"FALSE" ∈ labels → Matched ds .bool labels

/-- What rustc does not do without. -/
structure Needed (ds : List Definition) (cfg : Config) : Prop where
  /-- the names of constants are different -/
  distinct : ((constants ds).map (·.identifier)).Nodup
  /-- constants are not keywords of Rust, have a number through constants and, if through a name, below 2^32 -/
  constants : ∀ a ∈ constants ds, rust_reserved a.identifier = false ∧ a.identifier ≠ c!"_" ∧
    ∃ k, ThroughConstants ds a.value k ∧ ((∃ name, a.value = .identifier name) → k < 2 ^ 32)
  /-- the names of types stay different in camel case -/
  types : ((itemNames ds).map upper_camel_case).Nodup
  /-- and are not those of Rust's types or traits in the generated source -/
  shadow : ∀ name ∈ itemNames ds, upper_camel_case name ≠ c!"Self" ∧ upper_camel_case name ∉ importedNames
  /-- the types in declarations are defined, in camel case -/
  defined : ∀ d name, Shown ds cfg d → d.element = some (.identifier name) → typeOf ds name = none →
    ∃ other ∈ itemNames ds, upper_camel_case other = upper_camel_case name
  /-- the length of a fixed-length array is a literal of at most 32 -/
  lengths : ∀ ts nm v, Shown ds cfg (.fixedArray ts nm v) → ∃ c, v = .constant c ∧ c.number ≤ 32
  /-- that of fixed-length opaque data may also be a constant -/
  opaqueLengths : ∀ nm v, Shown ds cfg (.opaqueFixedArray nm v) → ∃ k, ThroughConstants ds v k ∧ k ≤ 32
  /-- no fixed-length arrays of opaque data -/
  fixedArrays : ∀ ts nm v, Marked ds cfg (.fixedArray ts nm v) → ¬ IsOpaque ds (.variable ts nm)
  /-- no variable-length arrays of fixed-length opaque data -/
  arrays : ∀ ts nm m, Marked ds cfg (.variableArray ts nm m) → IsOpaque ds (.variable ts nm) →
    PlainOpaque ds (.variable ts nm)
  /-- no pointers to opaque data -/
  pointers : ∀ ts nm, Marked ds cfg (.optionVariable ts nm) → ¬ IsOpaque ds (.variable ts nm)
  /-- with `--use-std-trait`: no arrays of or pointers to enums in structures -/
  enumMembers : cfg.enum_impl_std_trait = true → ∀ d name e as, MemberIn ds d →
    d.element = some (.identifier name) → typeOf ds name = some (.enum e as) →
    ∃ nm, d = .variable (.identifier name) nm
  /-- the members of a structure stay different in snake case; none becomes a keyword or `_` -/
  fields : ∀ s ms, .type (.struct s ms) ∈ ds → ((ms.filterMap Declaration.name).map snake_case).Nodup ∧
    ∀ f ∈ ms.filterMap Declaration.name, snake_case f ≠ c!"_" ∧
      (rust_reserved (snake_case f) = true → rust_reserved f = true)
  /-- the members of an enum have different numbers and stay different in camel case -/
  enums : ∀ e as, .type (.enum e as) ∈ ds →
    (∃ ks : List Int, List.Forall₂ (fun (a : Assign) k => Outcome ds (-2147483648) 2147483647 a.value (some k)) as ks ∧
      ks.Nodup) ∧
    LabelNames false (as.map (·.identifier))
  /-- so do the labels of a union, which are names -/
  unions : ∀ u b, .type (.union u b) ∈ ds → ∃ names : List Str, b.used.map (·.1) = names.map Value.identifier ∧
    LabelNames b.default.isSome names ∧
    (cfg.union_impl_union = true → cfg.union_impl_indexer = false →
      ∃ cond nm, b.cond = .variable cond nm ∧ Matched ds cond names)
  /-- no structure or union is inside itself -/
  sized : ∀ a, ¬ Relation.TransGen (Keeps ds) a a
  /-- with an item whose code is serde's, no constant begins with two underscores -/
  underscores : (∃ s ms, .type (.struct s ms) ∈ ds) ∨ ((∃ e as, .type (.enum e as) ∈ ds) ∧ cfg.enum_impl_indexer = false) →
    ∀ a ∈ Rpcgen.constants ds, ¬ c!"__" <+: a.identifier
  /-- with an enum, no constant has the name of a variable of its code -/
  enumLocals : ∀ e as, .type (.enum e as) ∈ ds → ∀ a ∈ Rpcgen.constants ds,
    (cfg.enum_impl_std_trait = true → a.identifier ∉ [c!"v", c!"Ok", c!"Err"]) ∧
    (cfg.enum_impl_indexer = true → a.identifier ∉ [c!"serializer", c!"index", c!"ser", c!"deserializer", c!"formatter",
      c!"seq", c!"variant", c!"Ok"])
  /-- with `XdrIndexer` or `XdrUnion`, no enum or union has the name of a type parameter, and no member or label is
  called `Error` -/
  enumIndexer : cfg.enum_impl_indexer = true → ∀ e as, .type (.enum e as) ∈ ds → upper_camel_case e ∉ genericNames ∧
    ∀ a ∈ as, upper_camel_case a.identifier ≠ c!"Error"
  unionIndexer : cfg.union_impl_indexer = true ∨ cfg.union_impl_union = true → ∀ u b, .type (.union u b) ∈ ds →
    upper_camel_case u ∉ genericNames ∧ ∀ a d, (.identifier a, d) ∈ b.used → upper_camel_case a ≠ c!"Error"

end Xdr.Rpcgen
