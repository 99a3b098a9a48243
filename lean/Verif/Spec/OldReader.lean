import Verif.Spec.Accepted
import Verif.Spec.Versions
/-!
# Messages of a later version

What an earlier program may be asked to read, and when it can tell.
-/

namespace Xdr.Rpcgen

open Rfc (XVal)

mutual
/-- A value with the discriminants of unions as bare numbers. -/
def bare : XVal → XVal
  | .union d x => .union (match discriminant d with | some k => .int k | none => d) (bare x)
  | .arrayFixed xs => .arrayFixed (bareAll xs)
  | .arrayVar xs => .arrayVar (bareAll xs)
  | .struct xs => .struct (bareAll xs)
  | .optSome x => .optSome (bare x)
  | x => x

def bareAll : List XVal → List XVal
  | [] => []
  | x :: xs => bare x :: bareAll xs
end

/-- The earlier interface, with its flags, leaves no room for other messages. -/
structure Careful (ds : List Definition) (cfg : Config) : Prop where
  /-- unknown numbers of an enum are not taken for its first member (as `XdrIndexer` does) -/
  enums : cfg.enum_impl_indexer = false
  /-- if unions are numbered by position: their labels have no gaps, from 0 on -/
  gaps : cfg.leeway.unionGaps = true → ∀ u b cond nm, .type (.union u b) ∈ ds → b.cond = .variable cond nm →
    ∀ k : Nat, UpToLabels ds b cond k → ∃ l ∈ b.labels, Selects ds cond l.1 k
  /-- if unions keep no discriminant: their labels are the same number signed and unsigned -/
  labels : cfg.leeway.bareLabels = true → ∀ u b cond nm, .type (.union u b) ∈ ds → b.cond = .variable cond nm →
    ∀ l ∈ b.labels, ∀ k, Selects ds cond l.1 k → k < 2147483648

/-- Names are defined once and the labels of a union have different numbers (RFC 4506 6.4, notes 2 and 7). -/
structure Distinct (ds : List Definition) : Prop where
  unambiguous : Unambiguous ds
  unions : ∀ u b, .type (.union u b) ∈ ds → ∃ cond nm ks, b.cond = .variable cond nm ∧ Labelled ds cond b.labels ks

end Xdr.Rpcgen
