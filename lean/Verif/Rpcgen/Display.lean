import Verif.Model.Display
import Verif.Rpcgen.Main
/-!
# Errors of the tool

`main` returns its `Result` (`main.rs` 6): std prints `Error: ` and the `Debug` text of the error on
standard error and exits with 1.
-/

namespace Xdr.Rpcgen

/-- `#[derive(Debug)]` of `Constant`, `parser.rs` 55-61. -/
def Constant.debug (plain : Char → Bool) : Constant → Str
  | .decimal v => c!"Decimal(" ++ debugStr plain v ++ c!")"
  | .hex v => c!"Hex(" ++ debugStr plain v ++ c!")"
  | .octal v => c!"Octal(" ++ debugStr plain v ++ c!")"

/-- `#[derive(Debug)]` of `Error`, `rpcgen/src/error.rs` 4-10; the text of `Parse` is `format!("{self:?}")` of the
constant, `parser.rs` 68. -/
def GenError.debug (plain : Char → Bool) : GenError → Str
  | .notFound name => c!"NotFountIdentifier(" ++ debugStr plain name ++ c!")"
  | .notSupported => c!"NotSupported"
  | .parse c => c!"Parse(" ++ debugStr plain (c.debug plain) ++ c!")"

/-- What `main` prints on standard error when it returns `Err`, `main.rs` 42-43 and 50-55. For `parse` that is
`Error::TrailingData` always (C34). -/
def RunResult.message (plain : Char → Bool) : RunResult → Option Str
  | .parseError => some c!"Error: RpcGen(TrailingData)\n"
  | .genError e => some (c!"Error: RpcGen(" ++ e.debug plain ++ c!")\n")
  | _ => none

end Xdr.Rpcgen
