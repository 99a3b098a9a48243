import Verif.Model.Types
/-!
# Memory a decoder requests before the data is there

The same decoders as in `Types.lean`, which also add up the bytes requested ahead of the data:

* `vec![0u8; size]` in `enumerate_u8`, `opaque.rs` 72, where `size` is what `size_hint` says
  (`de.rs` 365-367): for a variable-length opaque the count just read, for a fixed one the length of
  the array;
* `Vec::with_capacity(cautious::<T>(seq.size_hint()))` in serde's `VecVisitor`.

Everything else grows as data arrives: strings and byte buffers are copied from the input, maps start
empty (`MapAccess::size_hint` is serde's default, `None`), arrays and tuples are built in place. What
pushing onto a `Vec` beyond its capacity costs is not counted, nor is the stack.
-/

namespace Xdr

/-- A decoder that also adds up bytes requested in advance, whatever its outcome.
Plumbing: `De` of `de.rs` with a counter. -/
def A (α : Type) : Type := Bytes → Nat × Res (α × Bytes)

namespace A

/-- Plumbing: `Ok(a)`. -/
@[inline] def pure {α : Type} (a : α) : A α := fun s => (0, .ok (a, s))

/-- Plumbing: the `?` operator; requests add up. -/
@[inline] def bind {α β : Type} (m : A α) (f : α → A β) : A β := fun s =>
  match m s with
  | (c, .ok (a, s')) => (c + (f a s').1, (f a s').2)
  | (c, .err e) => (c, .err e)
  | (c, .panic p) => (c, .panic p)
  | (c, .depth) => (c, .depth)

/-- Plumbing: `do` notation for `A`. -/
instance : Monad A where
  pure := A.pure
  bind := A.bind

/-- A step that requests nothing in advance. Plumbing. -/
def lift {α : Type} (d : De α) : A α := fun s => (0, d s)

/-- An allocation of so many bytes. `opaque.rs` 72, and serde. -/
def reserve (bytes : Nat) : A Unit := fun s => (bytes, .ok ((), s))

end A

/-- `size_hint::cautious` of serde (private, since 1.0.164) times the size of an element: the bytes
`Vec::with_capacity` requests; nothing for elements of size zero, else at most 1 MiB.
(Before, the cap was 4096 elements.) -/
def cautious (size : Nat) (hint : Option Nat) : Nat :=
  if size = 0 then 0 else min (hint.getD 0) (2 ^ 20 / size) * size

/-- `SeqAccess::next_element_seed`, `de.rs` 353-363. -/
def Seq.next_elementA {α : Type} (s : Seq) (seed : A α) : A (Option α × Seq) :=
  if s.count = 0 then pure (none, s)
  else do
    let v ← seed
    pure (some v, { count := s.count - 1 })

/-- `MapAccess::next_key_seed`, `de.rs` 379-389. -/
def MapAcc.next_keyA {α : Type} (s : MapAcc) (seed : A α) : A (Option α × MapAcc) :=
  if s.count = 0 then pure (none, s)
  else do
    let v ← seed
    pure (some v, { count := s.count - 1 })

/-- `enumerate_u8`, `opaque.rs` 66-88: `vec![0u8; size]` comes before anything is read. -/
def enumerate_u8A (seq : Seq) : A Bytes :=
  match seq.size_hint with
  | none => A.lift (M.panic .unwrapNone)
  | some size => do
    A.reserve size
    A.lift (enumerate_u8_loop size ((size + 3) / 4) seq (List.replicate size 0, 0))

/-- `impl Visitor for OpaqueVisitor<[u8; N]>`, `opaque.rs` 31-36. -/
def visitFixedA (n : Nat) (seq : Seq) : A Bytes := do
  let v ← enumerate_u8A seq
  if v.length = n then pure v else A.lift (M.panic .unwrapErr)

/-- `visit_seq` of tuples, arrays and derived structs; see `visitEach`. Serde. -/
def visitEachA (exp : String) : List (A Val) → Nat → Seq → A (List Val)
  | [], _, _ => pure []
  | d :: ds, i, seq => do
    let (o, seq') ← seq.next_elementA d
    match o with
    | none => A.lift (M.fail (invalidLength i exp))
    | some v => do
      let vs ← visitEachA exp ds (i + 1) seq'
      pure (v :: vs)

/-- The loop of `VecVisitor::visit_seq` of serde; see `visitVec`. -/
def visitVecA (d : A Val) : Nat → Seq → A (List Val)
  | 0, _ => A.lift M.depth
  | n + 1, seq => do
    let (o, seq') ← seq.next_elementA d
    match o with
    | none => pure []
    | some v => do
      let vs ← visitVecA d n seq'
      pure (v :: vs)

/-- `MapVisitor::visit_map` of serde; see `visitMap`. -/
def visitMapA (dk dv : A Val) : Nat → MapAcc → List (Val × Val) → A (List (Val × Val))
  | 0, _, _ => A.lift M.depth
  | n + 1, acc, es => do
    let (o, acc') ← acc.next_keyA dk
    match o with
    | none => pure es
    | some k => do
      let v ← dv
      visitMapA dk dv n acc' (mapInsert k v es)

/-- `next_element::<T>()?.unwrap()` for each field, `serde-xdr-derive` 33-35 and 151-153. -/
def visitUnwrapA : List (A Val) → Seq → A (List Val)
  | [], _ => pure []
  | d :: ds, seq => do
    let (o, seq') ← seq.next_elementA d
    match o with
    | none => A.lift (M.panic .unwrapNone)
    | some v => do
      let vs ← visitUnwrapA ds seq'
      pure (v :: vs)

/-- `XdrIndexerVisitor::visit_seq`, `serde-xdr-derive` 94-105; see `visitIndexer`. -/
def visitIndexerA (field : Ty → A Val) (vars : List (String × Option (List Ty)))
    (impl : IndexerImpl) (seq : Seq) : A Val := do
  let (o, seq) ← seq.next_elementA (A.lift (deserialize_i32 pure))
  match o with
  | none => A.lift (M.panic .unwrapNone)
  | some index =>
    match impl.name_by_index index with
    | .err _ => A.lift (M.fail (.custom s!"Can not convert from {index.toInt}"))
    | .panic p => A.lift (M.panic p)
    | .depth => A.lift M.depth
    | .ok name =>
      match findVariant name vars 0 with
      | none => A.lift (M.panic .unimplemented)
      | some (i, none) => pure (.variant i [])
      | some (i, some ts) => do
        let vs ← visitUnwrapA (ts.map field) seq
        pure (.variant i vs)

/-- `XdrUnionVisitor::visit_seq`, `serde-xdr-derive` 217-228; see `visitUnion`. -/
def visitUnionA (field : Ty → A Val) (disc : Ty) (vars : List (String × Option (List Ty)))
    (impl : UnionImpl) (seq : Seq) : A Val := do
  let (o, seq) ← seq.next_elementA (field disc)
  match o with
  | none => A.lift (M.panic .unwrapNone)
  | some value =>
    match impl.name_by_value value with
    | .err _ => A.lift (M.fail (.custom "Can not convert from value"))
    | .panic p => A.lift (M.panic p)
    | .depth => A.lift M.depth
    | .ok name =>
      match findVariant name vars 0 with
      | none => A.lift (M.panic .unimplemented)
      | some (i, none) => pure (.variant i [])
      | some (i, some []) => pure (.variant i [])
      | some (i, some (_ :: ts)) => do
        let vs ← visitUnwrapA (ts.map field) seq
        pure (.variant i (value :: vs))

/-- Derived impls; see `deDef`. Serde's derive and `serde-xdr-derive/src/lib.rs` 60-110, 186-233. -/
def deDefA (field : Ty → A Val) (name : String) : Def → A Val
  | .unitStruct => pure .unit
  | .newtypeStruct t => do
      let v ← field t
      pure (.seq [v])
  | .tupleStruct ts => do
      let vs ← visitEachA s!"tuple struct {name} with {ts.length} elements" (ts.map field) 0
        { count := ts.length }
      pure (.seq vs)
  | .struct fs => do
      let vs ← visitEachA s!"struct {name} with {fs.length} elements" (fs.map fun f => field f.2) 0
        { count := (fs.map (·.1)).length }
      pure (.seq vs)
  | .enum vars => do
      let i ← A.lift (Enum_variant_seed (variantIndex vars.length))
      match vars[i]? with
      | none => A.lift (M.panic .illTyped)
      | some (_, .unit) => pure (.variant i [])
      | some (_, .newtype t) => do
        let v ← field t
        pure (.variant i [v])
      | some (vn, .tuple ts) => do
        let vs ← visitEachA s!"tuple variant {name}::{vn} with {ts.length} elements" (ts.map field) 0
          { count := ts.length }
        pure (.variant i vs)
      | some (vn, .struct fs) => do
        let vs ← visitEachA s!"struct variant {name}::{vn} with {fs.length} elements"
          (fs.map fun f => field f.2) 0 { count := (fs.map (·.1)).length }
        pure (.variant i vs)
  | .indexer vars impl => visitIndexerA field vars impl { count := 10 }
  | .union disc vars impl => visitUnionA field disc vars impl { count := 10 }

/-- The `Deserialize` impl of a type; see `deTy`. `size` is `size_of`, the bytes a value of a type
takes in memory. Types not listed request nothing in advance.
Impls of serde; `opaque.rs` and `primitive.rs` as cited at `deTy`. -/
def deTyA (env : Env) (size : Ty → Nat) : Nat → Ty → A Val
  | 0, _ => A.lift M.depth
  | n + 1, t =>
    match t with
    | .option t => do
        let tag ← A.lift read_u32
        if tag == 0 then pure .none else do
          let v ← deTyA env size n t
          pure (.some v)
    | .vec t => do
        let count := (← A.lift read_u32).toNat
        let seq : Seq := { count := count }
        A.reserve (cautious (size t) seq.size_hint)
        let vs ← visitVecA (deTyA env size n t) (seq.count + 1) seq
        pure (.seq vs)
    | .array len t => do
        let vs ← visitEachA s!"an array of length {len}" (List.replicate len (deTyA env size n t)) 0
          { count := len }
        pure (.seq vs)
    | .tuple ts => do
        let vs ← visitEachA s!"a tuple of size {ts.length}" (ts.map (deTyA env size n)) 0
          { count := ts.length }
        pure (.seq vs)
    | .map k v => do
        let count := (← A.lift read_u32).toNat
        let acc : MapAcc := { count := count }
        -- `HashMap::with_capacity(cautious::<(K, V)>(map.size_hint()))`
        A.reserve (cautious (size (.tuple [k, v])) acc.size_hint)
        let es ← visitMapA (deTyA env size n k) (deTyA env size n v) (acc.count + 1) acc []
        pure (.map es)
    | .opaqueFixed len => do
        let v ← visitFixedA len { count := len }
        pure (.bytes v)
    | .opaqueVar => do
        let count := (← A.lift read_u32).toNat
        let v ← enumerate_u8A { count := count }
        pure (.bytes v)
    | .named name =>
      match env name with
      | none => A.lift (M.panic .illTyped)
      | some d => deDefA (deTyA env size n) name d
    | t => A.lift (deTy env (n + 1) t)

/-- The bytes `from_bytes` requests in advance while decoding `b` as a `t`. `from_bytes`, `de.rs` 25-36. -/
def reserved (env : Env) (size : Ty → Nat) (n : Nat) (t : Ty) (b : Bytes) : Nat :=
  (deTyA env size n t b).1

end Xdr
