import Verif.Model.Types
/-!
# The values the round-trip theorems speak about

`Fits env t v` collects, for a value `v` of type `t`, the preconditions of decoding what was encoded:

* every string, byte string, `Vec` and map inside has fewer than 2^32 elements (bytes for strings);
* a `signed32` field: `TryFrom` gives back the value whose `AsRef` was written;
* an `XdrIndexer` value: `name_by_index` of its `index()` is the name of its variant, no earlier
  variant has the same name, and the variant has at most nine fields;
* an `XdrUnion` value: its first field is the discriminant, `name_by_value` of it is the name of its
  variant, no earlier variant has the same name, and the variant has at most ten fields;
* variant numbers are below 2^32 (serde's `variant_index: u32`).
-/

namespace Xdr

mutual
def Fits (env : Env) : Ty → Val → Prop
  | .string, .str v => (utf8Bytes v).length < 2 ^ 32
  | .bytes, .bytes v => v.length < 2 ^ 32
  | .option t, .some v => Fits env t v
  | .vec t, .seq vs => vs.length < 2 ^ 32 ∧ FitsAll env t vs
  | .array _ t, .seq vs => FitsAll env t vs
  | .tuple ts, .seq vs => FitsEach env ts vs
  | .map k t, .map es => es.length < 2 ^ 32 ∧ FitsEntries env k t es
  | .opaqueVar, .bytes v => v.length < 2 ^ 32
  | .signed32 _ impl, .variant i vs =>
    impl.try_from (impl.as_ref (.variant i vs)) = .ok (.variant i vs)
  | .named name, v =>
    match env name with
    | none => True
    | some d =>
      match d, v with
      | .newtypeStruct t, .seq [v] => Fits env t v
      | .tupleStruct ts, .seq vs => FitsEach env ts vs
      | .struct fs, .seq vs => FitsEach env (fs.map (·.2)) vs
      | .enum vars, .variant i vs =>
        i < 2 ^ 32 ∧
        match vars[i]? with
        | none => True
        | some (_, sh) =>
          match sh, vs with
          | .newtype t, [v] => Fits env t v
          | .tuple ts, vs => FitsEach env ts vs
          | .struct fs, vs => FitsEach env (fs.map (·.2)) vs
          | _, _ => True
      | .indexer vars impl, .variant i vs =>
        match vars[i]? with
        | none => True
        | some (vn, fields) =>
          (∃ idx, impl.index i vs = .ok idx ∧ impl.name_by_index idx = .ok vn) ∧
          (∀ j < i, ∀ x, vars[j]? = some x → x.1 ≠ vn) ∧
          match fields with
          | none => True
          | some ts => ts.length ≤ 9 ∧ FitsEach env ts vs
      | .union disc vars impl, .variant i vs =>
        match vars[i]? with
        | none => True
        | some (vn, fields) =>
          (∃ ts v vs', fields = some (disc :: ts) ∧ vs = v :: vs' ∧ ts.length ≤ 9 ∧
            impl.name_by_value v = .ok vn) ∧
          (∀ j < i, ∀ x, vars[j]? = some x → x.1 ≠ vn) ∧
          match fields with
          | none => True
          | some ts => FitsEach env ts vs
      | _, _ => True
  | _, _ => True

def FitsAll (env : Env) (t : Ty) : List Val → Prop
  | [] => True
  | v :: vs => Fits env t v ∧ FitsAll env t vs

def FitsEach (env : Env) : List Ty → List Val → Prop
  | t :: ts, v :: vs => Fits env t v ∧ FitsEach env ts vs
  | _, _ => True

def FitsEntries (env : Env) (k t : Ty) : List (Val × Val) → Prop
  | [] => True
  | (a, b) :: es => Fits env k a ∧ Fits env t b ∧ FitsEntries env k t es
end

mutual
/-- Only the length conditions of `Fits`: strings, byte strings, `Vec`s and maps inside `v` have fewer
than 2^32 elements, and variant numbers are below 2^32. -/
def Small (env : Env) : Ty → Val → Prop
  | .string, .str v => (utf8Bytes v).length < 2 ^ 32
  | .bytes, .bytes v => v.length < 2 ^ 32
  | .option t, .some v => Small env t v
  | .vec t, .seq vs => vs.length < 2 ^ 32 ∧ SmallAll env t vs
  | .array _ t, .seq vs => SmallAll env t vs
  | .tuple ts, .seq vs => SmallEach env ts vs
  | .map k t, .map es => es.length < 2 ^ 32 ∧ SmallEntries env k t es
  | .opaqueVar, .bytes v => v.length < 2 ^ 32
  | .named name, v =>
    match env name with
    | none => True
    | some d =>
      match d, v with
      | .newtypeStruct t, .seq [v] => Small env t v
      | .tupleStruct ts, .seq vs => SmallEach env ts vs
      | .struct fs, .seq vs => SmallEach env (fs.map (·.2)) vs
      | .enum vars, .variant i vs =>
        i < 2 ^ 32 ∧
        match vars[i]? with
        | none => True
        | some (_, sh) =>
          match sh, vs with
          | .newtype t, [v] => Small env t v
          | .tuple ts, vs => SmallEach env ts vs
          | .struct fs, vs => SmallEach env (fs.map (·.2)) vs
          | _, _ => True
      | .indexer vars _, .variant i vs =>
        match vars[i]? with
        | some (_, some ts) => SmallEach env ts vs
        | _ => True
      | .union _ vars _, .variant i vs =>
        match vars[i]? with
        | some (_, some ts) => SmallEach env ts vs
        | _ => True
      | _, _ => True
  | _, _ => True

def SmallAll (env : Env) (t : Ty) : List Val → Prop
  | [] => True
  | v :: vs => Small env t v ∧ SmallAll env t vs

def SmallEach (env : Env) : List Ty → List Val → Prop
  | t :: ts, v :: vs => Small env t v ∧ SmallEach env ts vs
  | _, _ => True

def SmallEntries (env : Env) (k t : Ty) : List (Val × Val) → Prop
  | [] => True
  | (a, b) :: es => Small env k a ∧ Small env t b ∧ SmallEntries env k t es
end

mutual
/-- Nesting depth of a value: the recursion depth decoding it takes, less one. -/
def Val.depth : Val → Nat
  | .some v => v.depth + 1
  | .seq vs => depthList vs
  | .map es => depthEntries es
  | .variant _ vs => depthList vs
  | _ => 0

def depthList : List Val → Nat
  | [] => 0
  | v :: vs => max (v.depth + 1) (depthList vs)

def depthEntries : List (Val × Val) → Nat
  | [] => 0
  | (k, v) :: es => max (max (k.depth + 1) (v.depth + 1)) (depthEntries es)
end

end Xdr
