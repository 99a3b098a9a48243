import Verif.Spec.Accepted
import Verif.Spec.Form
/-!
# The bytes a generated reader takes for an XDR value

`TypedL`, `DefinedL`, .. of `Spec/Accepted.lean` with bytes: `TypedF ds L ts x bs` says that `bs` may be taken for
the value `x` of the type `ts`. Most of it is the encoding of RFC 4506 (`Rfc.encode`). Beyond that:

* of a `char` or `short` only the low bits of the word count;
* any word but zero is true, or a pointer that is there;
* padding may be anything;
* with `XdrIndexer`, a word that is the number of no member of an enum stands for its first member.
-/

namespace Xdr.Rpcgen

open Rfc (XVal)
open Wire (Padding)

mutual
/-- The bytes for a value of a type. -/
inductive TypedF (ds : List Definition) (cfg : Config) : TypeSpecifier → XVal → Bytes → Prop
  | int {k : Int} {bs : Bytes} : Rfc.encode (.int k) = some bs → TypedF ds cfg (.int true) (.int k) bs
  | uint {k : Nat} {bs : Bytes} : Rfc.encode (.uint k) = some bs → TypedF ds cfg (.int false) (.uint k) bs
  | hyper {k : Int} {bs : Bytes} : Rfc.encode (.hyper k) = some bs → TypedF ds cfg (.hyper true) (.hyper k) bs
  | uhyper {k : Nat} {bs : Bytes} : Rfc.encode (.uhyper k) = some bs → TypedF ds cfg (.hyper false) (.uhyper k) bs
  | float {k : Nat} {bs : Bytes} : Rfc.encode (.float k) = some bs → TypedF ds cfg .float (.float k) bs
  | double {k : Nat} {bs : Bytes} : Rfc.encode (.double k) = some bs → TypedF ds cfg .double (.double k) bs
  /-- Any word; all but zero are true. -/
  | bool {w : Nat} : w < 2 ^ 32 → TypedF ds cfg .bool (.bool (w != 0)) (Wire.word w)
  /-- Any word; its low eight bits count. -/
  | char {k : Int} {w : Nat} : w < 2 ^ 32 → -128 ≤ k → k ≤ 127 → (w : Int) % 256 = k % 256 →
      TypedF ds cfg (.char true) (.int k) (Wire.word w)
  | uchar {w : Nat} : w < 2 ^ 32 → TypedF ds cfg (.char false) (.uint (w % 2 ^ 8)) (Wire.word w)
  /-- Any word; its low sixteen bits count. -/
  | short {k : Int} {w : Nat} : w < 2 ^ 32 → -32768 ≤ k → k ≤ 32767 → (w : Int) % 65536 = k % 65536 →
      TypedF ds cfg (.short true) (.int k) (Wire.word w)
  | ushort {w : Nat} : w < 2 ^ 32 → TypedF ds cfg (.short false) (.uint (w % 2 ^ 16)) (Wire.word w)
  | name {name : Str} {t : TypeDef} {x : XVal} {bs : Bytes} : typeOf ds name = some t → DefinedF ds cfg t x bs →
      TypedF ds cfg (.identifier name) x bs

/-- The bytes for a value of a type definition. -/
inductive DefinedF (ds : List Definition) (cfg : Config) : TypeDef → XVal → Bytes → Prop
  | typedef {d : Declaration} {x : XVal} {bs : Bytes} : DeclaredF ds cfg d x bs →
      DefinedF ds cfg (.declaration d) x bs
  | enum {e : Str} {as : List Assign} {a : Assign} {k : Int} {bs : Bytes} : a ∈ as → Stands ds a.value k →
      Rfc.encode (.enum k) = some bs → DefinedF ds cfg (.enum e as) (.enum k) bs
  | enumGap {e : Str} {as : List Assign} {a : Assign} {j k : Int} {bs : Bytes} : cfg.leeway.enumGaps = true →
      a ∈ as → Stands ds a.value j → 0 ≤ k → k ≤ j → Rfc.encode (.enum k) = some bs →
      DefinedF ds cfg (.enum e as) (.enum k) bs
  /-- A number no member has, for the member with the least number. -/
  | enumOther {e : Str} {as : List Assign} {a : Assign} {k : Int} {bs : Bytes} : cfg.enum_impl_indexer = true →
      a ∈ as → Stands ds a.value k → (∀ a' ∈ as, ∀ j, Stands ds a'.value j → k ≤ j) → bs.length = 4 →
      (∀ a' ∈ as, ∀ j, Stands ds a'.value j → Rfc.encode (.enum j) ≠ some bs) →
      DefinedF ds cfg (.enum e as) (.enum k) bs
  | struct {s : Str} {ms : List Declaration} {xs : List XVal} {bs : Bytes} : MembersF ds cfg ms xs bs →
      DefinedF ds cfg (.struct s ms) (.struct xs) bs
  | arm {u nm : Str} {body : UnionBody} {cond : TypeSpecifier} {v : Value} {d : Declaration} {k : Int}
      {disc x : XVal} {bs cs : Bytes} : cfg.leeway.bareLabels = false → body.cond = .variable cond nm →
      (v, d) ∈ body.labels → Selects ds cond v k →
      TypedF ds cfg cond disc bs → discriminant disc = some k → DeclaredF ds cfg d x cs →
      DefinedF ds cfg (.union u body) (.union disc x) (bs ++ cs)
  | bareArm {u nm : Str} {body : UnionBody} {cond : TypeSpecifier} {v : Value} {d : Declaration} {k : Nat}
      {x : XVal} {cs : Bytes} : cfg.leeway.bareLabels = true → body.cond = .variable cond nm →
      (v, d) ∈ body.labels → Selects ds cond v k → DeclaredF ds cfg d x cs →
      DefinedF ds cfg (.union u body) (.union (.uint k) x) (Wire.word k ++ cs)
  | gap {u nm : Str} {body : UnionBody} {cond : TypeSpecifier} {k : Nat} : cfg.leeway.unionGaps = true →
      body.cond = .variable cond nm → (∀ l ∈ body.labels, ¬ Selects ds cond l.1 k) →
      UpToLabels ds body cond k → DefinedF ds cfg (.union u body) (.union (.uint k) .void) (Wire.word k)
  /-- The first number above the labels, for the default arm. -/
  | next {u nm : Str} {body : UnionBody} {cond : TypeSpecifier} {d : Declaration} {k : Nat} {x : XVal}
      {cs : Bytes} : cfg.leeway.unionGaps = true → body.cond = .variable cond nm → body.default = some d →
      k < 2147483648 → (∀ i : Nat, UpToLabels ds body cond i ↔ i < k) → DeclaredF ds cfg d x cs →
      DefinedF ds cfg (.union u body) (.union (.uint k) x) (Wire.word k ++ cs)
  | default {u nm : Str} {body : UnionBody} {cond : TypeSpecifier} {d : Declaration} {k : Int}
      {disc x : XVal} {bs cs : Bytes} : cfg.leeway.bareLabels = false → body.cond = .variable cond nm →
      body.default = some d →
      TypedF ds cfg cond disc bs → discriminant disc = some k →
      (∀ l ∈ body.labels, ¬ Selects ds cond l.1 k) → DeclaredF ds cfg d x cs →
      DefinedF ds cfg (.union u body) (.union disc x) (bs ++ cs)

/-- The bytes for a value of a declaration. -/
inductive DeclaredF (ds : List Definition) (cfg : Config) : Declaration → XVal → Bytes → Prop
  | variable {ts : TypeSpecifier} {nm : Str} {x : XVal} {bs : Bytes} : TypedF ds cfg ts x bs →
      DeclaredF ds cfg (.variable ts nm) x bs
  | fixedArray {ts : TypeSpecifier} {nm : Str} {v : Value} {xs : List XVal} {bs : Bytes} :
      Stands ds v xs.length → EachF ds cfg ts xs bs → DeclaredF ds cfg (.fixedArray ts nm v) (.arrayFixed xs) bs
  | variableArray {ts : TypeSpecifier} {nm : Str} {m : Option Value} {xs : List XVal} {bs : Bytes} :
      xs.length < 2 ^ 32 → EachF ds cfg ts xs bs →
      DeclaredF ds cfg (.variableArray ts nm m) (.arrayVar xs) (Wire.word xs.length ++ bs)
  | opaqueFixed {nm : Str} {v : Value} {bs p : Bytes} : Stands ds v bs.length → Padding bs.length p →
      DeclaredF ds cfg (.opaqueFixedArray nm v) (.opaqueFixed bs) (bs ++ p)
  | opaqueVar {nm : Str} {m : Option Value} {bs p : Bytes} : bs.length < 2 ^ 32 → Padding bs.length p →
      DeclaredF ds cfg (.opaqueVariableArray nm m) (.opaqueVar bs) (Wire.word bs.length ++ (bs ++ p))
  | string {nm : Str} {m : Option Value} {s : List Char} {p : Bytes} : (utf8Bytes s).length < 2 ^ 32 →
      Padding (utf8Bytes s).length p → DeclaredF ds cfg (.string nm m) (.string (utf8Bytes s))
        (Wire.word (utf8Bytes s).length ++ (utf8Bytes s ++ p))
  | absent {ts : TypeSpecifier} {nm : Str} : DeclaredF ds cfg (.optionVariable ts nm) .optNone (Wire.word 0)
  /-- Any word but zero, then the value. -/
  | present {ts : TypeSpecifier} {nm : Str} {x : XVal} {w : Nat} {bs : Bytes} : w < 2 ^ 32 → w ≠ 0 →
      TypedF ds cfg ts x bs → DeclaredF ds cfg (.optionVariable ts nm) (.optSome x) (Wire.word w ++ bs)
  | void : DeclaredF ds cfg .void .void []

/-- The bytes for the elements of an array. -/
inductive EachF (ds : List Definition) (cfg : Config) : TypeSpecifier → List XVal → Bytes → Prop
  | nil {ts : TypeSpecifier} : EachF ds cfg ts [] []
  | cons {ts : TypeSpecifier} {x : XVal} {xs : List XVal} {bs cs : Bytes} : TypedF ds cfg ts x bs →
      EachF ds cfg ts xs cs → EachF ds cfg ts (x :: xs) (bs ++ cs)

/-- The bytes for the members of a structure. -/
inductive MembersF (ds : List Definition) (cfg : Config) : List Declaration → List XVal → Bytes → Prop
  | nil : MembersF ds cfg [] [] []
  | cons {d : Declaration} {ds' : List Declaration} {x : XVal} {xs : List XVal} {bs cs : Bytes} :
      DeclaredF ds cfg d x bs → MembersF ds cfg ds' xs cs → MembersF ds cfg (d :: ds') (x :: xs) (bs ++ cs)
end

end Xdr.Rpcgen
