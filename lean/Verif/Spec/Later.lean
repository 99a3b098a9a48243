import Verif.Model.Types
/-!
# Later versions of a program's types

`Later env env'`: the definitions `env'` are a later version of `env`. A definition may have become
another one in these ways only; new definitions may have been added:

* a struct with fields, a tuple struct or a newtype struct may have become another one of these kinds,
  with fields of the same types in the same order, under any names;
* a derived enum may have got further variants after the old ones; a variant with fields may have
  another name and kind, with fields of the same types in the same order; a unit variant may have
  another name;
* an enum with `XdrIndexer` or `XdrUnion` may have got further variants after the old ones, with an impl
  that treats the old ones as before.
-/

namespace Xdr

/-- The types of the fields of a struct, in order. -/
def Def.fields : Def → Option (List Ty)
  | .newtypeStruct t => some [t]
  | .tupleStruct ts => some ts
  | .struct fs => some (fs.map (·.2))
  | _ => none

/-- The types of the fields of a variant, in order; none for a unit variant. -/
def Shape.fields : Shape → Option (List Ty)
  | .unit => none
  | .newtype t => some [t]
  | .tuple ts => some ts
  | .struct fs => some (fs.map (·.2))

/-- The second definition is a later version of the first. -/
inductive Def.Later : Def → Def → Prop
  | same (d : Def) : Def.Later d d
  | struct {d d' : Def} {ts : List Ty} : d.fields = some ts → d'.fields = some ts → Def.Later d d'
  | enum {vs vs' : List (String × Shape)} :
      (∀ (i : Nat) (v : String × Shape), vs[i]? = some v →
        ∃ v', vs'[i]? = some v' ∧ v'.2.fields = v.2.fields) →
      Def.Later (.enum vs) (.enum vs')
  | indexer {vs more : List (String × Option (List Ty))} {impl impl' : IndexerImpl} :
      (∀ i, i < vs.length → ∀ fields, impl'.index i fields = impl.index i fields) →
      (∀ k name, impl.name_by_index k = .ok name → impl'.name_by_index k = .ok name) →
      Def.Later (.indexer vs impl) (.indexer (vs ++ more) impl')
  | union {disc : Ty} {vs more : List (String × Option (List Ty))} {impl impl' : UnionImpl} :
      (∀ v name, impl.name_by_value v = .ok name → impl'.name_by_value v = .ok name) →
      Def.Later (.union disc vs impl) (.union disc (vs ++ more) impl')

/-- The second program's definitions are a later version of the first one's. -/
def Later (env env' : Env) : Prop :=
  ∀ name d, env name = some d → ∃ d', env' name = some d' ∧ d.Later d'

end Xdr
