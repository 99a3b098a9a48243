import Verif.Rpcgen.Meaning
import Mathlib.Logic.Relation
/-! # Generated source in which no type contains itself -/

namespace Xdr.Rpcgen

/-- The definition of the type `a` mentions the type `b`, in an `Option`, a `Vec`, a `Box` or a variant too. -/
def RustFile.Mentions (f : RustFile) (a b : RIdent) : Prop := ∃ i ∈ f.types, i.name = a ∧ b ∈ i.paths

/-- No type of the file contains itself. -/
def RustFile.NotRecursive (f : RustFile) : Prop := ∀ a, ¬ Relation.TransGen f.Mentions a a

end Xdr.Rpcgen
