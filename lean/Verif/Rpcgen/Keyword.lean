import Verif.Rpcgen.Text
/-!
# `rpcgen/src/keyword.rs`
-/

namespace Xdr.Rpcgen

/-- `KEYWORDS_RUST`, `keyword.rs` 4-60. -/
def KEYWORDS_RUST : List Str := [
  c!"as", c!"async", c!"await", c!"break", c!"const", c!"continue", c!"crate", c!"dyn", c!"else",
  c!"enum", c!"extern", c!"false", c!"fn", c!"for", c!"if", c!"impl", c!"in", c!"let", c!"loop",
  c!"match", c!"mod", c!"move", c!"mut", c!"pub", c!"ref", c!"return", c!"Self", c!"self",
  c!"static", c!"struct", c!"super", c!"trait", c!"true", c!"type", c!"union", c!"unsafe", c!"use",
  c!"where", c!"while",
  c!"abstract", c!"become", c!"box", c!"do", c!"final", c!"gen", c!"macro", c!"override", c!"priv",
  c!"try", c!"typeof", c!"unsized", c!"virtual", c!"yield"]

/-- `KEYWORDS_XDR`, `keyword.rs` 63-86. -/
def KEYWORDS_XDR : List Str := [
  c!"bool", c!"case", c!"const", c!"default", c!"double", c!"quadruple", c!"enum", c!"float",
  c!"hyper", c!"int", c!"opaque", c!"string", c!"struct", c!"switch", c!"typedef", c!"union",
  c!"unsigned", c!"void",
  c!"program", c!"version"]

/-- `rust_reserved`, `keyword.rs` 88-90. -/
def rust_reserved (keyword : Str) : Bool := KEYWORDS_RUST.contains keyword

/-- `xdr_reserved`, `keyword.rs` 92-94. -/
def xdr_reserved (keyword : Str) : Bool := KEYWORDS_XDR.contains keyword

end Xdr.Rpcgen
