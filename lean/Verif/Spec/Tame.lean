import Verif.Spec.Schema
import Verif.Spec.XdrPrint
import Verif.Rpcgen.Gen
/-!
# Interfaces the generator handles without panicking

Conditions on the definitions of a file, apart from the generator.
-/

namespace Xdr.Rpcgen

/-- The first character that is not an underscore is a letter. (`_`, `__` and `_1` are names, too.) -/
def LetterFirst (s : Str) : Prop := ∃ c cs, s.dropWhile (· = '_') = c :: cs ∧ isAlpha c = true

/-- `v` may stand for the literal `c`, whichever definition of a name is taken. -/
inductive Ends (ds : List Definition) : Value → Constant → Prop
  | literal (c : Constant) : Ends ds (.constant c) c
  | const {name : Str} {v : Value} {c : Constant} : constOf ds name = some v → Ends ds v c →
      Ends ds (.identifier name) c
  | member {name : Str} {v : Value} {c : Constant} : memberOf ds name = some v → Ends ds v c →
      Ends ds (.identifier name) c

/-- The words that cannot be raw identifiers in Rust. -/
def pathWords : List Str := [c!"self", c!"super", c!"crate", c!"Self"]

/-- Files in which nothing makes the generator panic. -/
structure Tame (ds : List Definition) (cfg : Config) : Prop where
  /-- names contain a letter, before any digit -/
  names : ∀ s, .ident s ∈ atoms ds → LetterFirst s
  /-- members of structures have a name (are not `void`), which is not a path keyword of Rust -/
  members : ∀ s ms, .type (.struct s ms) ∈ ds → ∀ d ∈ ms, ∃ f, d.name = some f ∧ f ∉ pathWords
  /-- unions on `bool` have a case `TRUE`, a case `FALSE` or a default arm -/
  bools : ∀ u b nm, .type (.union u b) ∈ ds → b.cond = .variable .bool nm → b.default = none →
    ∃ l ∈ b.labels, l.1 = .identifier c!"TRUE" ∨ l.1 = .identifier c!"FALSE"
  /-- members of enums are not 2^31 - 1 and, without traits, not negative -/
  enums : ∀ e as, .type (.enum e as) ∈ ds → ∀ a ∈ as, ∀ c, Ends ds a.value c →
    c.number ≠ 2147483647 ∧ (cfg.enum_impl_indexer = false → cfg.enum_impl_std_trait = false → 0 ≤ c.number)
  /-- labels of unions are not 2^32 - 1 -/
  labels : ∀ u b, .type (.union u b) ∈ ds → ∀ l ∈ b.labels, ∀ c, Ends ds l.1 c → c.number ≠ 4294967295

end Xdr.Rpcgen
