import Verif.Spec.Classes
/-!
# Values inside values

From the types alone: what a value is made of, each part with its type.
-/

namespace Xdr

/-- The immediate parts of a value of a type. -/
def parts (env : Env) : Ty → Val → List (Ty × Val)
  | .option t, .some v => [(t, v)]
  | .vec t, .seq vs => vs.map fun v => (t, v)
  | .array _ t, .seq vs => vs.map fun v => (t, v)
  | .tuple ts, .seq vs => ts.zip vs
  | .map k t, .map es => es.flatMap fun e => [(k, e.1), (t, e.2)]
  | .named name, .seq vs =>
    match env name with
    | some (.newtypeStruct t) => [t].zip vs
    | some (.tupleStruct ts) => ts.zip vs
    | some (.struct fs) => (fs.map (·.2)).zip vs
    | _ => []
  | .named name, .variant i vs =>
    match env name with
    | some (.enum vars) => ((vars[i]?.map (·.2.types)).getD []).zip vs
    | some (.indexer vars _) => ((vars[i]?.bind (·.2)).getD []).zip vs
    | some (.union _ vars _) => ((vars[i]?.bind (·.2)).getD []).zip vs
    | _ => []
  | _, _ => []

/-- A value of type `t` is, or has inside it, the `i`-th variant (from 0) of the enum `name`, with `vs` in it. -/
inductive HasVariant (env : Env) (name : String) (i : Nat) (vs : List Val) : Ty → Val → Prop
  | here : HasVariant env name i vs (.named name) (.variant i vs)
  | part {t u : Ty} {v w : Val} : (u, w) ∈ parts env t v → HasVariant env name i vs u w → HasVariant env name i vs t v

/-- How writing a variant itself fails: serde's number of a variant does not fit `i32`, or the enum's own `index` has
none for it (that it panics is the case there is in Rust). -/
inductive Refusal (env : Env) (name : String) (i : Nat) (vs : List Val) : Res Bytes → Prop
  | number {vars : List (String × Shape)} : env name = some (.enum vars) → 2147483648 ≤ i % 4294967296 →
      Refusal env name i vs (.err .convert)
  | panic {vars : List (String × Option (List Ty))} {impl : IndexerImpl} {p : PanicSite} :
      env name = some (.indexer vars impl) → impl.index i vs = .panic p → Refusal env name i vs (.panic p)
  | err {vars : List (String × Option (List Ty))} {impl : IndexerImpl} {e : Error} :
      env name = some (.indexer vars impl) → impl.index i vs = .err e → Refusal env name i vs (.panic .unwrapErr)
  | depth {vars : List (String × Option (List Ty))} {impl : IndexerImpl} :
      env name = some (.indexer vars impl) → impl.index i vs = .depth → Refusal env name i vs (.panic .unimplemented)

/-- Each variant of a union inside a value has a discriminant for which the union's own `name_by_value` names it. -/
def Selected (env : Env) (t : Ty) (v : Val) : Prop :=
  ∀ name i d vs disc vars impl vn fs, HasVariant env name i (d :: vs) t v →
    env name = some (.union disc vars impl) → vars[i]? = some (vn, fs) → impl.name_by_value d = .ok vn

end Xdr
