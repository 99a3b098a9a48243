import Verif.Model.Types
/-!
# Where an encoding can be cut

The bytes of a value are a sequence of pieces: units of four or eight bytes, and texts (strings and
serde byte buffers), which are a length, that many bytes, and padding to a multiple of four bytes. This
file says which pieces a value consists of, and what a reader has to report that finds only the first `k`
bytes of them. For C06.
-/

namespace Xdr

/-- A piece of an encoding: a unit of some number of bytes, or a string or byte buffer of that length. -/
inductive Piece where
  | unit (size : Nat)
  | text (length : Nat)
deriving DecidableEq, Repr

/-- The number of bytes a text is padded with. -/
def padding (length : Nat) : Nat := (4 - length % 4) % 4

/-- The number of bytes a piece takes. -/
def Piece.size : Piece → Nat
  | .unit size => size
  | .text length => 4 + length + padding length

/-- The number of bytes the pieces take. -/
def piecesSize (ps : List Piece) : Nat := (ps.map Piece.size).sum

mutual
/-- The pieces that the calls of a `Serialize` impl write. -/
def SVal.pieces : SVal → List Piece
  | .bool _ | .i8 _ | .i16 _ | .i32 _ | .u8 _ | .u16 _ | .u32 _ | .f32 _ | .char _ | .none
  | .unitVariant _ _ _ => [.unit 4]
  | .i64 _ | .u64 _ | .f64 _ => [.unit 8]
  | .str s => [.text (s.flatMap String.utf8EncodeChar).length]
  | .bytes b => [.text b.length]
  | .some v | .newtypeVariant _ _ _ v => .unit 4 :: v.pieces
  | .unit | .unitStruct _ => []
  | .newtypeStruct _ v => v.pieces
  | .seq _ vs | .tupleVariant _ _ _ _ vs => .unit 4 :: piecesList vs
  | .tuple _ vs | .tupleStruct _ _ vs => piecesList vs
  | .map _ es => .unit 4 :: piecesEntries es
  | .struct _ _ fs => piecesFields fs
  | .structVariant _ _ _ _ fs => .unit 4 :: piecesFields fs
  | .i128 _ | .u128 _ | .fail _ | .panic _ => []

/-- The pieces of values one after the other. -/
def piecesList : List SVal → List Piece
  | [] => []
  | v :: vs => v.pieces ++ piecesList vs

/-- The pieces of entries of a map one after the other. -/
def piecesEntries : List (SVal × SVal) → List Piece
  | [] => []
  | (k, v) :: es => k.pieces ++ (v.pieces ++ piecesEntries es)

/-- The pieces of fields one after the other. -/
def piecesFields : List (String × SVal) → List Piece
  | [] => []
  | (_, v) :: fs => v.pieces ++ piecesFields fs
end

/-- The pieces of the encoding of a value. -/
def pieces (env : Env) (t : Ty) (v : Val) : List Piece :=
  match present env t v with
  | some s => s.pieces
  | none => []

/-- Where the first `k` bytes of some pieces end: `missing n`, before the end of a unit, of a length or
of the bytes of a text, of which `n` are missing; or `inPadding`, after the bytes of a text but before
the end of its padding. -/
inductive Stop where
  | missing (n : Nat)
  | inPadding
deriving DecidableEq, Repr

/-- Where the first `k` bytes end, for `k` less than the size of the pieces. -/
def stopAt : List Piece → Nat → Stop
  | [], _ => .missing 0
  | .unit size :: ps, k => if k < size then .missing (size - k) else stopAt ps (k - size)
  | .text length :: ps, k =>
    if k < 4 then .missing (4 - k)
    else if k < 4 + length then .missing (4 + length - k)
    else if k < 4 + length + padding length then .inPadding
    else stopAt ps (k - (4 + length + padding length))

end Xdr
