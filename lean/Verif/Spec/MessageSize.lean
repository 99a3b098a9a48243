import Verif.Spec.Schema
/-!
# How many bytes the values of a type take

By the tables of RFC 4506: `DefSize ds gaps t lo hi` says that they take `lo` bytes at least and, if `hi` is not `none`,
`hi` at most. There is no greatest size with data of variable length or recursion. With `gaps`, a union also has numbers
without arm (those of no label, `Leeway.unionGaps`).
-/

namespace Xdr.Rpcgen

/-- The greatest size of one thing and another after it. -/
def addMost : Option Nat → Option Nat → Option Nat
  | some a, some b => some (a + b)
  | _, _ => none

mutual
/-- Of a type. -/
inductive TypeSize (ds : List Definition) (gaps : Bool) : TypeSpecifier → Nat → Option Nat → Prop
  | int {signed : Bool} : TypeSize ds gaps (.int signed) 4 (some 4)
  | hyper {signed : Bool} : TypeSize ds gaps (.hyper signed) 8 (some 8)
  | float : TypeSize ds gaps .float 4 (some 4)
  | double : TypeSize ds gaps .double 8 (some 8)
  | bool : TypeSize ds gaps .bool 4 (some 4)
  | char {signed : Bool} : TypeSize ds gaps (.char signed) 4 (some 4)
  | short {signed : Bool} : TypeSize ds gaps (.short signed) 4 (some 4)
  | name {name : Str} {t : TypeDef} {lo : Nat} {hi : Option Nat} : typeOf ds name = some t → DefSize ds gaps t lo hi →
      TypeSize ds gaps (.identifier name) lo hi
  /-- Nothing is said of a type; for those that contain themselves. -/
  | any {ts : TypeSpecifier} : TypeSize ds gaps ts 0 none

/-- Of a type definition. -/
inductive DefSize (ds : List Definition) (gaps : Bool) : TypeDef → Nat → Option Nat → Prop
  | typedef {d : Declaration} {lo : Nat} {hi : Option Nat} : DeclSize ds gaps d lo hi → DefSize ds gaps (.declaration d) lo hi
  | enum {e : Str} {as : List Assign} : DefSize ds gaps (.enum e as) 4 (some 4)
  | struct {s : Str} {ms : List Declaration} {lo : Nat} {hi : Option Nat} : MemberSizes ds gaps ms lo hi →
      DefSize ds gaps (.struct s ms) lo hi
  /-- The discriminant and an arm: each arm takes `lo` bytes at least and `hi` at most. -/
  | union {u : Str} {body : UnionBody} {least : Declaration → Nat} {most : Declaration → Option Nat} {lo : Nat} {hi : Option Nat} :
      (∀ d, ((∃ v, (v, d) ∈ body.labels) ∨ body.default = some d) → DeclSize ds gaps d (least d) (most d)) →
      (∀ d, ((∃ v, (v, d) ∈ body.labels) ∨ body.default = some d) → lo ≤ least d ∧ ∀ h, hi = some h → ∃ m, most d = some m ∧ m ≤ h) →
      (gaps = true → lo = 0) → DefSize ds gaps (.union u body) (4 + lo) (addMost (some 4) hi)

/-- Of a declaration. -/
inductive DeclSize (ds : List Definition) (gaps : Bool) : Declaration → Nat → Option Nat → Prop
  | variable {ts : TypeSpecifier} {nm : Str} {lo : Nat} {hi : Option Nat} : TypeSize ds gaps ts lo hi →
      DeclSize ds gaps (.variable ts nm) lo hi
  | fixedArray {ts : TypeSpecifier} {nm : Str} {v : Value} {n lo : Nat} {hi : Option Nat} : Stands ds v n →
      TypeSize ds gaps ts lo hi → DeclSize ds gaps (.fixedArray ts nm v) (n * lo) (hi.map (n * ·))
  /-- Opaque data of fixed length with its padding. -/
  | opaqueFixed {nm : Str} {v : Value} {n : Nat} : Stands ds v n →
      DeclSize ds gaps (.opaqueFixedArray nm v) ((n + 3) / 4 * 4) (some ((n + 3) / 4 * 4))
  | optional {ts : TypeSpecifier} {nm : Str} {lo : Nat} {hi : Option Nat} : TypeSize ds gaps ts lo hi →
      DeclSize ds gaps (.optionVariable ts nm) 4 (addMost (some 4) hi)
  | variableArray {ts : TypeSpecifier} {nm : Str} {m : Option Value} : DeclSize ds gaps (.variableArray ts nm m) 4 none
  | opaqueVar {nm : Str} {m : Option Value} : DeclSize ds gaps (.opaqueVariableArray nm m) 4 none
  | string {nm : Str} {m : Option Value} : DeclSize ds gaps (.string nm m) 4 none
  | void : DeclSize ds gaps .void 0 (some 0)

/-- Of the members of a structure. -/
inductive MemberSizes (ds : List Definition) (gaps : Bool) : List Declaration → Nat → Option Nat → Prop
  | nil : MemberSizes ds gaps [] 0 (some 0)
  | cons {d : Declaration} {ms : List Declaration} {lo lo' : Nat} {hi hi' : Option Nat} : DeclSize ds gaps d lo hi →
      MemberSizes ds gaps ms lo' hi' → MemberSizes ds gaps (d :: ms) (lo + lo') (addMost hi hi')
end

end Xdr.Rpcgen
