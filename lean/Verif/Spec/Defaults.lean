import Verif.Rpcgen.Default
import Verif.Spec.Schema
import Verif.Spec.Fragment
/-!
# Words for default values

What the property about `Default::default()` is stated with, apart from its definition in
`Rpcgen/Default.lean`.
-/

namespace Xdr.Rpcgen

/-- Variant `i` of the type is called `vn`. -/
def VariantNamed (env : Env) (ty : String) (i : Nat) (vn : String) : Prop :=
  (∃ vars sh, env ty = some (.enum vars) ∧ vars[i]? = some (vn, sh)) ∨
  (∃ vars fs impl, env ty = some (.indexer vars impl) ∧ vars[i]? = some (vn, fs)) ∨
  (∃ disc vars fs impl, env ty = some (.union disc vars impl) ∧ vars[i]? = some (vn, fs))

/-- The numbers of which `k` is the least. -/
def Least (k : Int) (ks : List Int) : Prop := k ∈ ks ∧ ∀ j ∈ ks, k ≤ j

/-- The number of the default value of the type of a discriminant: zero, `FALSE`, the least member. -/
inductive First (ds : List Definition) : TypeSpecifier → Int → Prop
  | int {signed : Bool} : First ds (.int signed) 0
  | bool : First ds .bool 0
  | enum {name e : Str} {as : List Assign} {ks : List Int} {k : Int} :
      typeOf ds name = some (.enum e as) → Numbered ds as ks → Least k ks → First ds (.identifier name) k
  | typedef {name nm : Str} {ts : TypeSpecifier} {k : Int} :
      typeOf ds name = some (.declaration (.variable ts nm)) → First ds ts k → First ds (.identifier name) k

/-- The types of the file whose values are inside any default value of the type: not behind a vector or an
option, and not the elements of an empty array. -/
def RTy.inside (cs : List ConstItem) : RTy → List RIdent
  | .path i => [i]
  | .array t len cast => if arrayLen cs len cast = some 0 then [] else t.inside cs
  | .box t => t.inside cs
  | _ => []

/-- The same for a field; with an attribute it is a byte string. -/
def insideField (cs : List ConstItem) : Attr → RTy → List RIdent
  | .fixed, _ => []
  | .variable, _ => []
  | _, t => t.inside cs

/-- The same for an item: all fields of a struct; of a union the fields of the variant that is its
default. -/
def Item.inside (cs : List ConstItem) : Item → List RIdent
  | .alias _ t => t.inside cs
  | .enum _ => []
  | .struct s => s.fields.flatMap fun f => insideField cs f.1 f.2.2
  | .union u => (u.variants.filter fun v => v.name = u.default.1).flatMap fun v =>
      v.fields.flatMap (insideField cs v.attr)

/-- How many variants an enum or union has. -/
def Item.variantCount : Item → Nat
  | .enum e => e.variants.length
  | .union u => u.variants.length
  | _ => 0

/-- With `--use-union`: the default of the discriminant selects the default of the union. It is no label if
there is a default arm, and the least label if there is none. -/
def DefaultSelects (ds : List Definition) (body : UnionBody) : Prop :=
  ∃ cond nm ks k, body.cond = .variable cond nm ∧ Labelled ds cond body.labels ks ∧ First ds cond k ∧
    (body.default.isSome → k ∉ ks) ∧ (body.default = none → Least k ks)

/-- No endless chain of types, each inside the default value of the one before, starts from the type. -/
inductive DefaultEnds (file : RustFile) : RIdent → Prop
  | item {i : Item} : i ∈ file.types → (∀ j ∈ i.inside file.constants, DefaultEnds file j) → DefaultEnds file i.name

end Xdr.Rpcgen
