import Verif.Spec.Clean
/-!
# The values a reader may give

`Typed`, `Defined`, .. of `Spec/Schema.lean` again, without the maximum lengths of arrays, strings and opaque
data, which the generated types do not have, and with leeway where the flags leave some:

* `enumGaps`: an enum also has the numbers from 0 on that are below one of its own;
* `unionGaps`: a union also has the labels from 0 on that are below one of its own, without arm; its default arm
  has one number only, the first above its labels;
* `bareLabels`: for the discriminant of an arm, only its number counts.

In a file that leaves none (`NoLeeway`) these are, up to the type of discriminants, the values of
`Spec/Schema.lean` (`C74_same`).
-/

namespace Xdr.Rpcgen

open Rfc (XVal)

/-- What a reader may take beyond the values of the interface. -/
structure Leeway where
  enumGaps : Bool
  unionGaps : Bool
  bareLabels : Bool

/-- The leeway with given flags: unions without `--use-union` keep no discriminant, enums and unions without
flags are numbered by position. -/
def Config.leeway (c : Config) : Leeway where
  enumGaps := c.enum_complement_index
  unionGaps := c.union_complement_index
  bareLabels := !c.union_impl_union

/-- A number not above the labels of a union; a union on `bool` has two. -/
def UpToLabels (ds : List Definition) (body : UnionBody) (cond : TypeSpecifier) (k : Nat) : Prop :=
  (∃ l ∈ body.labels, ∃ j, Selects ds cond l.1 j ∧ (k : Int) ≤ j) ∨ cond = .bool ∧ k < 2

mutual
/-- The values of a type. -/
inductive TypedL (ds : List Definition) (L : Leeway) : TypeSpecifier → XVal → Prop
  | int {k : Int} : -2147483648 ≤ k → k ≤ 2147483647 → TypedL ds L (.int true) (.int k)
  | uint {k : Nat} : k < 2 ^ 32 → TypedL ds L (.int false) (.uint k)
  | hyper {k : Int} : -9223372036854775808 ≤ k → k ≤ 9223372036854775807 →
      TypedL ds L (.hyper true) (.hyper k)
  | uhyper {k : Nat} : k < 2 ^ 64 → TypedL ds L (.hyper false) (.uhyper k)
  | float {b : Nat} : b < 2 ^ 32 → TypedL ds L .float (.float b)
  | double {b : Nat} : b < 2 ^ 64 → TypedL ds L .double (.double b)
  | bool {b : Bool} : TypedL ds L .bool (.bool b)
  | char {k : Int} : -128 ≤ k → k ≤ 127 → TypedL ds L (.char true) (.int k)
  | uchar {k : Nat} : k < 2 ^ 8 → TypedL ds L (.char false) (.uint k)
  | short {k : Int} : -32768 ≤ k → k ≤ 32767 → TypedL ds L (.short true) (.int k)
  | ushort {k : Nat} : k < 2 ^ 16 → TypedL ds L (.short false) (.uint k)
  | name {name : Str} {t : TypeDef} {x : XVal} : typeOf ds name = some t → DefinedL ds L t x →
      TypedL ds L (.identifier name) x

/-- The values of a type definition. -/
inductive DefinedL (ds : List Definition) (L : Leeway) : TypeDef → XVal → Prop
  | typedef {d : Declaration} {x : XVal} : DeclaredL ds L d x → DefinedL ds L (.declaration d) x
  | enum {e : Str} {as : List Assign} {a : Assign} {k : Int} : a ∈ as → Stands ds a.value k →
      DefinedL ds L (.enum e as) (.enum k)
  | enumGap {e : Str} {as : List Assign} {a : Assign} {j k : Int} : L.enumGaps = true → a ∈ as →
      Stands ds a.value j → 0 ≤ k → k ≤ j → DefinedL ds L (.enum e as) (.enum k)
  | struct {s : Str} {ms : List Declaration} {xs : List XVal} : MembersL ds L ms xs →
      DefinedL ds L (.struct s ms) (.struct xs)
  | arm {u nm : Str} {body : UnionBody} {cond : TypeSpecifier} {v : Value} {d : Declaration} {k : Int}
      {disc x : XVal} : body.cond = .variable cond nm → (v, d) ∈ body.labels → Selects ds cond v k →
      TypedL ds L cond disc → discriminant disc = some k → DeclaredL ds L d x →
      DefinedL ds L (.union u body) (.union disc x)
  | bareArm {u nm : Str} {body : UnionBody} {cond : TypeSpecifier} {v : Value} {d : Declaration} {k : Nat}
      {x : XVal} : L.bareLabels = true → body.cond = .variable cond nm → (v, d) ∈ body.labels →
      Selects ds cond v k → DeclaredL ds L d x → DefinedL ds L (.union u body) (.union (.uint k) x)
  | gap {u nm : Str} {body : UnionBody} {cond : TypeSpecifier} {k : Nat} : L.unionGaps = true →
      body.cond = .variable cond nm → (∀ l ∈ body.labels, ¬ Selects ds cond l.1 k) →
      UpToLabels ds body cond k → DefinedL ds L (.union u body) (.union (.uint k) .void)
  | next {u nm : Str} {body : UnionBody} {cond : TypeSpecifier} {d : Declaration} {k : Nat} {x : XVal} :
      L.unionGaps = true → body.cond = .variable cond nm → body.default = some d → k < 2147483648 →
      (∀ i : Nat, UpToLabels ds body cond i ↔ i < k) → DeclaredL ds L d x →
      DefinedL ds L (.union u body) (.union (.uint k) x)
  | default {u nm : Str} {body : UnionBody} {cond : TypeSpecifier} {d : Declaration} {k : Int}
      {disc x : XVal} : body.cond = .variable cond nm → body.default = some d →
      TypedL ds L cond disc → discriminant disc = some k →
      (∀ l ∈ body.labels, ¬ Selects ds cond l.1 k) → DeclaredL ds L d x →
      DefinedL ds L (.union u body) (.union disc x)

/-- The values of a declaration. -/
inductive DeclaredL (ds : List Definition) (L : Leeway) : Declaration → XVal → Prop
  | variable {ts : TypeSpecifier} {nm : Str} {x : XVal} : TypedL ds L ts x →
      DeclaredL ds L (.variable ts nm) x
  | fixedArray {ts : TypeSpecifier} {nm : Str} {v : Value} {xs : List XVal} :
      Stands ds v xs.length → EachL ds L ts xs → DeclaredL ds L (.fixedArray ts nm v) (.arrayFixed xs)
  | variableArray {ts : TypeSpecifier} {nm : Str} {m : Option Value} {xs : List XVal} :
      xs.length < 2 ^ 32 → EachL ds L ts xs → DeclaredL ds L (.variableArray ts nm m) (.arrayVar xs)
  | opaqueFixed {nm : Str} {v : Value} {bs : Bytes} : Stands ds v bs.length →
      DeclaredL ds L (.opaqueFixedArray nm v) (.opaqueFixed bs)
  | opaqueVar {nm : Str} {m : Option Value} {bs : Bytes} : bs.length < 2 ^ 32 →
      DeclaredL ds L (.opaqueVariableArray nm m) (.opaqueVar bs)
  | string {nm : Str} {m : Option Value} {s : List Char} : (utf8Bytes s).length < 2 ^ 32 →
      DeclaredL ds L (.string nm m) (.string (utf8Bytes s))
  | absent {ts : TypeSpecifier} {nm : Str} : DeclaredL ds L (.optionVariable ts nm) .optNone
  | present {ts : TypeSpecifier} {nm : Str} {x : XVal} : TypedL ds L ts x →
      DeclaredL ds L (.optionVariable ts nm) (.optSome x)
  | void : DeclaredL ds L .void .void

/-- Elements of an array. -/
inductive EachL (ds : List Definition) (L : Leeway) : TypeSpecifier → List XVal → Prop
  | nil {ts : TypeSpecifier} : EachL ds L ts []
  | cons {ts : TypeSpecifier} {x : XVal} {xs : List XVal} : TypedL ds L ts x → EachL ds L ts xs →
      EachL ds L ts (x :: xs)

/-- Members of a structure. -/
inductive MembersL (ds : List Definition) (L : Leeway) : List Declaration → List XVal → Prop
  | nil : MembersL ds L [] []
  | cons {d : Declaration} {ds' : List Declaration} {x : XVal} {xs : List XVal} :
      DeclaredL ds L d x → MembersL ds L ds' xs → MembersL ds L (d :: ds') (x :: xs)
end

/-- The maximum length of a declaration. -/
def Declaration.maximum : Declaration → Option Value
  | .variableArray _ _ m => m
  | .opaqueVariableArray _ m => m
  | .string _ m => m
  | _ => none

/-- No declaration of the file has a maximum length. -/
def Unlimited (ds : List Definition) : Prop := ∀ d, DeclIn ds d → d.maximum = none

/-- The types in declarations are defined. -/
def NamesDefined (ds : List Definition) : Prop :=
  ∀ d name, DeclIn ds d → d.element = some (.identifier name) → typeOf ds name ≠ none

/-- Where default arms are read and written alike: with `--use-union`; or without flags for unions, where they
are the variant after those of the labels, of no opaque data. -/
def DefaultsRead (ds : List Definition) (cfg : Config) : Prop :=
  ∀ u b d, .type (.union u b) ∈ ds → b.default = some d → cfg.union_impl_union = true ∨
    cfg.union_complement_index = true ∧ ¬ HasOpaque ds d ∧
      ∀ cond nm, b.cond = .variable cond nm → ∀ l ∈ b.labels, ∀ k, Selects ds cond l.1 k → k < 2147483647

/-- Where default arms are written as they are read. With the flags for unions this is so of all that are written;
without, default arms are the variant after those of the labels, of no opaque data. -/
def DefaultsWritten (ds : List Definition) (cfg : Config) : Prop :=
  ∀ u b d, .type (.union u b) ∈ ds → b.default = some d → cfg.union_complement_index = true → ¬ HasOpaque ds d ∧
    ∀ cond nm, b.cond = .variable cond nm → ∀ l ∈ b.labels, ∀ k, Selects ds cond l.1 k → k < 2147483647

/-- The file leaves no leeway but for its maximum lengths. -/
structure Gapless (ds : List Definition) (L : Leeway) : Prop where
  /-- the numbers of an enum have no gaps, from 0 on -/
  enums : L.enumGaps = true → ∀ e as, .type (.enum e as) ∈ ds → ∀ a ∈ as, ∀ j k, Stands ds a.value j →
    0 ≤ k → k ≤ j → ∃ a ∈ as, Stands ds a.value k
  /-- the labels of a union have no gaps, from 0 on -/
  unions : L.unionGaps = true → ∀ u b cond nm, .type (.union u b) ∈ ds → b.cond = .variable cond nm → ∀ k : Nat,
    UpToLabels ds b cond k → ∃ l ∈ b.labels, Selects ds cond l.1 k
  /-- the first number above the labels of a union with a default arm is of the type of its discriminant -/
  defaults : L.unionGaps = true → ∀ u b d cond nm, .type (.union u b) ∈ ds → b.default = some d →
    b.cond = .variable cond nm → ∀ k : Nat, (∀ i : Nat, UpToLabels ds b cond i ↔ i < k) →
    ∃ disc, Typed ds true cond disc ∧ discriminant disc = some k
  /-- the labels of a union are of the type of its discriminant -/
  labels : L.bareLabels = true → ∀ u b cond nm, .type (.union u b) ∈ ds → b.cond = .variable cond nm →
    ∀ l ∈ b.labels, ∀ k, Selects ds cond l.1 k → ∃ disc, Typed ds true cond disc ∧ discriminant disc = some k

/-- The file leaves no leeway. -/
structure NoLeeway (ds : List Definition) (L : Leeway) : Prop extends Gapless ds L where
  /-- no maximum lengths -/
  limits : Unlimited ds

end Xdr.Rpcgen
