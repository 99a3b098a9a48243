import Verif.Spec.Variants
import Verif.Spec.Fragment
import Verif.Spec.Resolve
/-!
# Interfaces the generator has source for

Conditions on the definitions of a file, apart from the generator: the numbers are found and fit, and the
types are those of the table of the README.
-/

namespace Xdr.Rpcgen

/-- The types a union may switch on. -/
inductive Switchable : TypeSpecifier → Prop
  | int (signed : Bool) : Switchable (.int signed)
  | bool : Switchable .bool
  | name (name : Str) : Switchable (.identifier name)

/-- Files the generator has source for. -/
structure Translatable (ds : List Definition) : Prop where
  /-- the constants fit 64 bits -/
  constants : ∀ name c, .constant ⟨name, .constant c⟩ ∈ ds → 0 ≤ c.number ∧ c.number < 2 ^ 64
  /-- the members of enums have numbers of 32 bits -/
  enums : ∀ e as, .type (.enum e as) ∈ ds → ∀ a ∈ as,
    ∃ k, Outcome ds (-2147483648) 2147483647 a.value (some k)
  /-- the members of structures have a type -/
  members : ∀ d, MemberIn ds d → ∃ ty op, DeclType ds true d ty op
  /-- unions switch on integers, `bool` and names -/
  conds : ∀ u b, .type (.union u b) ∈ ds → ∃ ts nm, b.cond = .variable ts nm ∧ Switchable ts
  /-- their labels are numbers of 32 bits, without sign -/
  labels : ∀ u b ts nm, .type (.union u b) ∈ ds → b.cond = .variable ts nm → ts ≠ .bool → ∀ l ∈ b.labels,
    ∃ k, Outcome ds 0 4294967295 l.1 (some k)
  /-- the arms have a type or are `void` -/
  arms : ∀ u b, .type (.union u b) ∈ ds → ∀ l ∈ b.used, l.2 = .void ∨ ∃ ty op, DeclType ds true l.2 ty op
  /-- so have the default arms -/
  defaults : ∀ d, DefaultIn ds d → d = .void ∨ ∃ ty op, DeclType ds true d ty op

end Xdr.Rpcgen
