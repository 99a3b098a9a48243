import Verif.Spec.Schema
/-!
# Later versions of an interface

`Versions dflt ds ds'`: the file `ds'` is a later version of `ds`. The names of constants, members, fields, arms and
labels may have changed and so may the order of definitions and members, as long as the numbers are the same;
maximum lengths may have grown or been dropped; enums may have further members, unions further labels; new
definitions may have been added. With `dflt`, for values that take default arms: unions with a default arm
have kept it and have no further labels.
-/

namespace Xdr.Rpcgen

/-- A maximum length has grown or been dropped. -/
def Wider (ds ds' : List Definition) (m m' : Option Value) : Prop :=
  ∀ v' k', m' = some v' → Stands ds' v' k' → ∃ v k, m = some v ∧ Stands ds v k ∧ k ≤ k'

/-- The same number, maybe under another name. -/
def SameNumber (ds ds' : List Definition) (v v' : Value) : Prop := ∀ k, Stands ds v k → Stands ds' v' k

/-- A later version of a declaration. -/
inductive DeclLater (ds ds' : List Definition) : Declaration → Declaration → Prop
  | variable {ts : TypeSpecifier} {nm nm' : Str} : DeclLater ds ds' (.variable ts nm) (.variable ts nm')
  | fixedArray {ts : TypeSpecifier} {nm nm' : Str} {v v' : Value} : SameNumber ds ds' v v' →
      DeclLater ds ds' (.fixedArray ts nm v) (.fixedArray ts nm' v')
  | variableArray {ts : TypeSpecifier} {nm nm' : Str} {m m' : Option Value} : Wider ds ds' m m' →
      DeclLater ds ds' (.variableArray ts nm m) (.variableArray ts nm' m')
  | opaqueFixed {nm nm' : Str} {v v' : Value} : SameNumber ds ds' v v' →
      DeclLater ds ds' (.opaqueFixedArray nm v) (.opaqueFixedArray nm' v')
  | opaqueVar {nm nm' : Str} {m m' : Option Value} : Wider ds ds' m m' →
      DeclLater ds ds' (.opaqueVariableArray nm m) (.opaqueVariableArray nm' m')
  | string {nm nm' : Str} {m m' : Option Value} : Wider ds ds' m m' →
      DeclLater ds ds' (.string nm m) (.string nm' m')
  | option {ts : TypeSpecifier} {nm nm' : Str} :
      DeclLater ds ds' (.optionVariable ts nm) (.optionVariable ts nm')
  | void : DeclLater ds ds' .void .void

/-- A later version of a type definition. -/
inductive DefLater (dflt : Bool) (ds ds' : List Definition) : TypeDef → TypeDef → Prop
  | typedef {d d' : Declaration} : DeclLater ds ds' d d' → DefLater dflt ds ds' (.declaration d) (.declaration d')
  | enum {e e' : Str} {as as' : List Assign} : (∀ a ∈ as, ∃ a' ∈ as', SameNumber ds ds' a.value a'.value) →
      DefLater dflt ds ds' (.enum e as) (.enum e' as')
  | struct {s s' : Str} {ms ms' : List Declaration} : List.Forall₂ (DeclLater ds ds') ms ms' →
      DefLater dflt ds ds' (.struct s ms) (.struct s' ms')
  | union {u u' nm nm' : Str} {b b' : UnionBody} {cond : TypeSpecifier} : b.cond = .variable cond nm →
      b'.cond = .variable cond nm' →
      (∀ l ∈ b.labels, ∃ l' ∈ b'.labels, (∀ k, Selects ds cond l.1 k → Selects ds' cond l'.1 k) ∧
        DeclLater ds ds' l.2 l'.2) →
      (dflt = true → ∀ d, b.default = some d → ∃ d', b'.default = some d' ∧ DeclLater ds ds' d d' ∧
        ∀ l' ∈ b'.labels, ∀ k, Selects ds' cond l'.1 k → ∃ l ∈ b.labels, Selects ds cond l.1 k) →
      DefLater dflt ds ds' (.union u b) (.union u' b')

/-- The second file is a later version of the first. -/
def Versions (dflt : Bool) (ds ds' : List Definition) : Prop :=
  ∀ name t, typeOf ds name = some t → ∃ t', typeOf ds' name = some t' ∧ DefLater dflt ds ds' t t'

end Xdr.Rpcgen
