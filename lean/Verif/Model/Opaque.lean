import Verif.Model.Ser
import Verif.Model.De
/-!
# `serde-xdr/src/opaque.rs` and `serde-xdr/src/primitive.rs`
-/

namespace Xdr

/-- `chunks_mut(4)` of std: pieces of four bytes, the last one possibly shorter. -/
def chunks4 : Bytes → List Bytes
  | a :: b :: c :: d :: rest => [a, b, c, d] :: chunks4 rest
  | [] => []
  | short => [short]

/-- One iteration of `enumerate_u32`, `opaque.rs` 58-60: copy the chunk over `[0u8; 4]`. -/
def chunkNumber (chunk : Bytes) : UInt32 :=
  ofBe32 (chunk.getD 0 0) (chunk.getD 1 0) (chunk.getD 2 0) (chunk.getD 3 0)

/-- `enumerate_u32`, `opaque.rs` 54-64. (The argument buffer is scratch; its zeroing by
`swap_with_slice` is not observable.) -/
def enumerate_u32 (buf : Bytes) : List UInt32 := (chunks4 buf).map chunkNumber

/-- `opaque::fixed::serialize`, `opaque.rs` 94-108. -/
def fixed_serialize (value : Bytes) : SVal :=
  .tuple value.length ((enumerate_u32 value).map .u32)

/-- `opaque::variable::serialize`, `opaque.rs` 123-137. -/
def variable_serialize (value : Bytes) : SVal :=
  .seq (some value.length) ((enumerate_u32 value).map .u32)

/-- Inner statement of `enumerate_u8`, `opaque.rs` 79-82: `if idx < size { bytes[idx] = b; idx += 1 }`. -/
def writeByte (size : Nat) (st : Bytes × Nat) (b : UInt8) : Bytes × Nat :=
  if st.2 < size then (st.1.set st.2 b, st.2 + 1) else st

/-- The `for _ in 0..padded_len` loop of `enumerate_u8`, `opaque.rs` 76-85. -/
def enumerate_u8_loop (size : Nat) : Nat → Seq → Bytes × Nat → De Bytes
  | 0, _, st => pure st.1
  | n + 1, seq, st => do
    let (o, seq') ← seq.next_element (deserialize_u32 pure)
    match o with
    | some v => enumerate_u8_loop size n seq' ((be32 v).foldl (writeByte size) st)
    | none => enumerate_u8_loop size n seq' st

/-- `enumerate_u8`, `opaque.rs` 66-88. -/
def enumerate_u8 (seq : Seq) : De Bytes :=
  match seq.size_hint with
  | none => M.panic .unwrapNone
  | some size =>
    -- `size.div_ceil(4)`
    enumerate_u8_loop size ((size + 3) / 4) seq (List.replicate size 0, 0)

/-- `impl Visitor for OpaqueVisitor<[u8; N]>`, `opaque.rs` 31-36: `try_into().unwrap()`. -/
def visitFixed (n : Nat) (seq : Seq) : De Bytes := do
  let v ← enumerate_u8 seq
  if v.length = n then pure v else M.panic .unwrapErr

/-- `opaque::fixed::deserialize`, `opaque.rs` 110-116. -/
def fixed_deserialize (n : Nat) : De Bytes := deserialize_tuple n (visitFixed n)

/-- `opaque::variable::deserialize`, `opaque.rs` 139-145, with the visitor of `opaque.rs` 46-51. -/
def variable_deserialize : De Bytes := deserialize_seq enumerate_u8

/-- `primitive::signed32::serialize`, `primitive.rs` 5-11; the argument is `*value.as_ref()`. -/
def signed32_serialize (asRef : Int32) : SVal := .i32 asRef

/-- `primitive::signed32::deserialize`, `primitive.rs` 13-20, for a given `TryFrom<i32>`
(a user function: any error it returns is replaced; it may also panic). -/
def signed32_deserialize {α : Type} (tryFrom : Int32 → Res α) : De α := do
  let v ← deserialize_i32 pure
  match tryFrom v with
  | .err _ => M.fail (.custom s!"Can not convert from {v.toInt}")
  | r => M.ofRes r

end Xdr
