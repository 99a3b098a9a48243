import Verif.Spec.Clean
/-!
# Interfaces that are translated, compile and speak XDR

The conditions of `Spec/Tame.lean`, `Spec/Clean.lean` and `Spec/Fragment.lean` together, with the two that make
the generator have source for the file. All are about the definitions of the file, none about the generator.
-/

namespace Xdr.Rpcgen

/-- A type of the README's table, or a name of one, maybe through typedef names. -/
inductive KnownType (ds : List Definition) : TypeSpecifier → Prop
  | int (signed : Bool) : KnownType ds (.int signed)
  | hyper (signed : Bool) : KnownType ds (.hyper signed)
  | float : KnownType ds .float
  | double : KnownType ds .double
  | bool : KnownType ds .bool
  | char (signed : Bool) : KnownType ds (.char signed)
  | short (signed : Bool) : KnownType ds (.short signed)
  | item {name : Str} {t : TypeDef} : typeOf ds name = some t → (∀ d, t ≠ .declaration d) →
      KnownType ds (.identifier name)
  | typedef {name : Str} {d : Declaration} {ts : TypeSpecifier} : typeOf ds name = some (.declaration d) →
      d.element = some ts → KnownType ds ts → KnownType ds (.identifier name)
  /-- `opaque` and `string` -/
  | bytes {name : Str} {d : Declaration} : typeOf ds name = some (.declaration d) → d ≠ .void →
      d.element = none → KnownType ds (.identifier name)

/-- Interfaces the tool is right about. -/
structure Proper (ds : List Definition) (cfg : Config) : Prop where
  /-- nothing in them makes the generator panic -/
  tame : Tame ds cfg
  /-- nothing in them makes rustc refuse the source -/
  clean : Clean ds cfg
  /-- nothing in them makes the source say something else -/
  supported : Supported ds cfg
  /-- the constants fit 64 bits -/
  constants : ∀ name c, .constant ⟨name, .constant c⟩ ∈ ds → 0 ≤ c.number ∧ c.number < 2 ^ 64
  /-- no length is negative -/
  lengths : ∀ ts nm c, DeclIn ds (.fixedArray ts nm (.constant c)) → 0 ≤ c.number
  opaqueLengths : ∀ nm c, DeclIn ds (.opaqueFixedArray nm (.constant c)) → 0 ≤ c.number
  /-- the types of declarations are known -/
  types : ∀ d ts, DeclIn ds d → d.element = some ts → KnownType ds ts

end Xdr.Rpcgen
