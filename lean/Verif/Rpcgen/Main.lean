import Verif.Rpcgen.Gen
import Verif.Rpcgen.Parser
/-!
# The command line tool, `rpcgen/src/main.rs`

clap, reading the file and printing are not modelled: a run takes the text of the file and the flags.
-/

namespace Xdr.Rpcgen

/-- The flags, `main.rs` 15-23. -/
structure Flags where
  use_std_trait : Bool := false
  use_extra_trait : Bool := false
  use_indexer : Bool := false
  use_union : Bool := false
deriving DecidableEq, Repr, Inhabited

/-- `main.rs` 29-42. -/
def Flags.config (f : Flags) : Config where
  remove_typedef := true
  enum_impl_indexer := !f.use_std_trait && f.use_indexer
  enum_impl_std_trait := f.use_std_trait
  union_impl_indexer := !f.use_union && (f.use_extra_trait || f.use_indexer)
  union_impl_union := f.use_union

/-- What a run ends with. `main.rs` 6 and 42-47. -/
inductive RunResult where
  | printed (f : RustFile)
  | parseError
  | genError (e : GenError)
  | panic (p : GenPanic)
  | depth

/-- `main`, `main.rs` 44-49. -/
def run (n : Nat) (source : Str) (flags : Flags) : RunResult :=
  match parse source with
  | .ok decls =>
    match gen_code n decls flags.config with
    | .ok f => .printed f
    | .err e => .genError e
    | .panic p => .panic p
    | .depth => .depth
  | .parseError => .parseError
  | .trailingData => .parseError
  | .out => .depth

end Xdr.Rpcgen
