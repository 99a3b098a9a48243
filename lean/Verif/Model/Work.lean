import Verif.Model.Reserve
/-!
# The work of decoding

The same decoders as in `Types.lean`, which also count the `Deserialize` impls they call and the words
of opaque data they copy (each iteration of the loop of `enumerate_u8`). Looking at the bytes of a
string or of a byte buffer is not counted: they are there, and are looked at once.
-/

namespace Xdr

/-- One unit of work. Plumbing. -/
def A.step : A Unit := fun s => (1, .ok ((), s))

/-- The loop of `enumerate_u8`, `opaque.rs` 76-85, counting the words copied; see `enumerate_u8_loop`. -/
def enumerate_u8_loopW (size : Nat) : Nat → Seq → Bytes × Nat → A Bytes
  | 0, _, st => pure st.1
  | n + 1, seq, st => do
    let (o, seq') ← seq.next_elementA (A.lift (deserialize_u32 pure))
    match o with
    | some v => do
      A.step
      enumerate_u8_loopW size n seq' ((be32 v).foldl (writeByte size) st)
    | none => enumerate_u8_loopW size n seq' st

/-- `enumerate_u8`, `opaque.rs` 66-88. -/
def enumerate_u8W (seq : Seq) : A Bytes :=
  match seq.size_hint with
  | none => A.lift (M.panic .unwrapNone)
  | some size => enumerate_u8_loopW size ((size + 3) / 4) seq (List.replicate size 0, 0)

/-- `impl Visitor for OpaqueVisitor<[u8; N]>`, `opaque.rs` 31-36. -/
def visitFixedW (n : Nat) (seq : Seq) : A Bytes := do
  let v ← enumerate_u8W seq
  if v.length = n then pure v else A.lift (M.panic .unwrapErr)

/-- The `Deserialize` impl of a type, counting each call; see `deTy`. Types not listed call no other
impl. Impls of serde; `opaque.rs`, `primitive.rs` and `serde-xdr-derive/src/lib.rs` as cited at `deTy`. -/
def deTyW (env : Env) : Nat → Ty → A Val
  | 0, _ => A.lift M.depth
  | n + 1, t => do
    A.step
    match t with
    | .option t => do
        let tag ← A.lift read_u32
        if tag == 0 then pure .none else do
          let v ← deTyW env n t
          pure (.some v)
    | .vec t => do
        let count := (← A.lift read_u32).toNat
        let vs ← visitVecA (deTyW env n t) (count + 1) { count := count }
        pure (.seq vs)
    | .array len t => do
        let vs ← visitEachA s!"an array of length {len}" (List.replicate len (deTyW env n t)) 0
          { count := len }
        pure (.seq vs)
    | .tuple ts => do
        let vs ← visitEachA s!"a tuple of size {ts.length}" (ts.map (deTyW env n)) 0
          { count := ts.length }
        pure (.seq vs)
    | .map k v => do
        let count := (← A.lift read_u32).toNat
        let es ← visitMapA (deTyW env n k) (deTyW env n v) (count + 1) { count := count } []
        pure (.map es)
    | .opaqueFixed len => do
        let v ← visitFixedW len { count := len }
        pure (.bytes v)
    | .opaqueVar => do
        let count := (← A.lift read_u32).toNat
        let v ← enumerate_u8W { count := count }
        pure (.bytes v)
    | .named name =>
      match env name with
      | none => A.lift (M.panic .illTyped)
      | some d => deDefA (deTyW env n) name d
    | t => A.lift (deTy env (n + 1) t)

/-- The work of `from_bytes` on `b` as a `t`: the calls of `Deserialize` impls and the words of opaque
data copied. `from_bytes`, `de.rs` 25-36. -/
def work (env : Env) (n : Nat) (t : Ty) (b : Bytes) : Nat := (deTyW env n t b).1

end Xdr
