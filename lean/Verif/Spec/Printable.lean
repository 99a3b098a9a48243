import Verif.Spec.Translatable
import Verif.Spec.Tame
/-!
# Interfaces the tool prints source for

`Translatable` files without what makes the generator panic or not return. Conditions on the definitions
of a file, apart from the generator.
-/

namespace Xdr.Rpcgen

mutual
/-- The table has no Rust type for a type specifier: it is, or is an array of, a pointer to or another
name for, a `quadruple`, an enum, structure or union without a name, or an array with a length that does
not fit 64 bits. -/
inductive SpecRefused (ds : List Definition) : TypeSpecifier → Prop
  | quadruple : SpecRefused ds .quadruple
  | enum (as : List Assign) : SpecRefused ds (.enum as)
  | struct (ms : List Declaration) : SpecRefused ds (.struct ms)
  | union (b : UnionBody) : SpecRefused ds (.union b)
  | typedef {name : Str} {d : Declaration} : typeOf ds name = some (.declaration d) → DeclRefused ds d →
      SpecRefused ds (.identifier name)

/-- Same for a declaration. -/
inductive DeclRefused (ds : List Definition) : Declaration → Prop
  | element {d : Declaration} {ts : TypeSpecifier} : d.element = some ts → SpecRefused ds ts → DeclRefused ds d
  | length {ts : TypeSpecifier} {nm : Str} {c : Constant} {ty : RTy} {op : OpaqueType} :
      SpecType ds true ts ty op → (∀ len, ¬ LenTok (.constant c) len) →
      DeclRefused ds (.fixedArray ts nm (.constant c))
  | opaqueLength {nm : Str} {c : Constant} : (∀ len, ¬ LenTok (.constant c) len) →
      DeclRefused ds (.opaqueFixedArray nm (.constant c))
  | void : DeclRefused ds .void
end

/-- Files the tool prints source for. -/
structure Printable (ds : List Definition) (cfg : Config) : Prop extends Translatable ds where
  /-- in names of enums, structures and unions the first character after underscores is a letter -/
  enumNames : ∀ e as, .type (.enum e as) ∈ ds → LetterFirst e
  structNames : ∀ s ms, .type (.struct s ms) ∈ ds → LetterFirst s
  unionNames : ∀ u b, .type (.union u b) ∈ ds → LetterFirst u
  /-- so it is in names of members of enums -/
  memberNames : ∀ e as, .type (.enum e as) ∈ ds → ∀ a ∈ as, LetterFirst a.identifier
  /-- and in labels of unions that are names -/
  labelNames : ∀ u b, .type (.union u b) ∈ ds → ∀ l ∈ b.used, ∀ i, l.1 = .identifier i → LetterFirst i
  /-- members of structures are not named `self`, `super`, `crate` or `Self` -/
  fieldNames : ∀ d, MemberIn ds d → ∀ f, d.name = some f → f ∉ pathWords
  /-- members of enums are not 2^31 - 1 -/
  enumTop : ∀ e as, .type (.enum e as) ∈ ds → ∀ a ∈ as, ¬ Outcome ds (-2147483648) 2147483647 a.value (some 2147483647)
  /-- without traits, there are no negative gaps: a negative number between two members of an enum is the
  number of a member -/
  enumGaps : cfg.enum_impl_indexer = false → cfg.enum_impl_std_trait = false →
    ∀ e as, .type (.enum e as) ∈ ds → ∀ a ∈ as, ∀ b ∈ as, ∀ j k i : Int,
      Outcome ds (-2147483648) 2147483647 a.value (some j) → Outcome ds (-2147483648) 2147483647 b.value (some k) →
      j < i → i < k → i < 0 → ∃ c ∈ as, Outcome ds (-2147483648) 2147483647 c.value (some i)
  /-- labels of unions, except those on `bool`, are not 2^32 - 1 -/
  labelTop : ∀ u b ts nm, .type (.union u b) ∈ ds → b.cond = .variable ts nm → ts ≠ .bool → ∀ l ∈ b.labels,
    ¬ Outcome ds 0 4294967295 l.1 (some 4294967295)
  /-- unions on `bool` have a case `TRUE`, a case `FALSE` or a default arm -/
  boolCases : ∀ u b nm, .type (.union u b) ∈ ds → b.cond = .variable .bool nm → b.default = none → b.used ≠ []
  /-- a name a union switches on has a type, or the table has none for it, and then the name is used -/
  condNames : ∀ u b i nm, .type (.union u b) ∈ ds → b.cond = .variable (.identifier i) nm →
    (∃ ty op, SpecType ds true (.identifier i) ty op) ∨ SpecRefused ds (.identifier i) ∧ LetterFirst i

end Xdr.Rpcgen
