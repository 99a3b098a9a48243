import Verif.Rpcgen.Tokens
import Verif.Spec.RustLex
/-!
# Token trees as sequences of tokens
-/

namespace Xdr.Rpcgen

/-- The opening delimiter. -/
def Delim.open : Delim → Str
  | .paren => c!"("
  | .brace => c!"{"
  | .bracket => c!"["

/-- The closing delimiter. -/
def Delim.close : Delim → Str
  | .paren => c!")"
  | .brace => c!"}"
  | .bracket => c!"]"

mutual

/-- A token tree, flattened. -/
def Token.lexemes : Token → List Lexeme
  | .ident i => [.ident i.raw i.name]
  | .op s => [.sym s]
  | .lifetime s => [.lifetime s]
  | .lit s => [.literal s]
  | .group d ts => .sym d.open :: lexemes ts ++ [.sym d.close]

/-- A sequence of token trees, flattened. -/
def lexemes : List Token → List Lexeme
  | [] => []
  | t :: ts => t.lexemes ++ lexemes ts

end

end Xdr.Rpcgen
