import Verif.Spec.RustTypes
import Verif.Rpcgen.Gen
/-!
# Which variants a union becomes

The table of the README for unions, as relations.
-/

namespace Xdr.Rpcgen

/-- The labels that become variants: all of them, but in a union on `bool` the first `FALSE` and the first
`TRUE`. -/
def UnionBody.used (b : UnionBody) : List (Value × Declaration) :=
  match b.cond with
  | .variable .bool _ =>
    (b.labels.find? fun l => l.1 = .identifier c!"FALSE").toList ++
    (b.labels.find? fun l => l.1 = .identifier c!"TRUE").toList
  | _ => b.labels

/-- The name of the variant of a label. A literal label stays a literal. -/
inductive CaseName : Value → Tok → Prop
  | name {a : Str} {id : RIdent} : upper_camel_case_ident a = .ok id → CaseName (.identifier a) (.ident id)
  | literal {c : Constant} {k : Int} : c.value .u32 = .ok k → CaseName (.constant c) (.lit .u32 k)

/-- The attribute and the fields of the arm of a case. Opaque data is wrapped where serde attributes
cannot be used. -/
inductive ArmType (ds : List Definition) (cfg : Config) : Declaration → Attr → List RTy → Prop
  | void : ArmType ds cfg .void .none []
  | plain {d : Declaration} {ty : RTy} : DeclType ds cfg.remove_typedef d ty .none → ArmType ds cfg d .none [ty]
  | fixed {d : Declaration} {ty : RTy} : DeclType ds cfg.remove_typedef d ty .fixed →
      cfg.union_complement_index = true → ArmType ds cfg d .fixed [ty]
  | «variable» {d : Declaration} {ty : RTy} : DeclType ds cfg.remove_typedef d ty .variable →
      cfg.union_complement_index = true → ArmType ds cfg d .variable [ty]
  | wrapped {d : Declaration} {ty : RTy} {op : OpaqueType} : DeclType ds cfg.remove_typedef d ty op → op ≠ .none →
      cfg.union_complement_index = false → ArmType ds cfg d .none [.variableArray]

/-- The type of the discriminant: that of the table. A name without one is used as it is. -/
def CondType (ds : List Definition) (drop : Bool) (cond : TypeSpecifier) (ct : RTy) : Prop :=
  (∃ op, SpecType ds drop cond ct op) ∨
  ((∀ ty op, ¬ SpecType ds drop cond ty op) ∧
    ∃ name id, cond = .identifier name ∧ upper_camel_case_ident name = .ok id ∧ ct = .path id)

/-- With `--use-union` a variant has the discriminant as its first field. -/
def withCond (cfg : Config) (ct : RTy) (ts : List RTy) : List RTy :=
  if cfg.union_impl_union then ct :: ts else ts

/-- The variant of a label. -/
structure VariantOf (ds : List Definition) (cfg : Config) (ct : RTy) (l : Value × Declaration) (v : Variant) :
    Prop where
  name : CaseName l.1 v.name
  arm : ∃ ts, ArmType ds cfg l.2 v.attr ts ∧ v.fields = withCond cfg ct ts

/-- The variant of the default arm, `Default`. -/
inductive DefaultVariant (ds : List Definition) (cfg : Config) (ct : RTy) : Option Declaration → List Variant → Prop
  | none : DefaultVariant ds cfg ct none []
  | void : DefaultVariant ds cfg ct (some .void) [⟨.none, .ident ⟨false, c!"Default"⟩, withCond cfg ct []⟩]
  | some {d : Declaration} {ty : RTy} {op : OpaqueType} : DeclType ds cfg.remove_typedef d ty op →
      DefaultVariant ds cfg ct (some d) [⟨.none, .ident ⟨false, c!"Default"⟩, withCond cfg ct [ty]⟩]

/-- A variant that stands for a number without a case. -/
def ReservedVariant (v : Variant) : Prop :=
  v.attr = .none ∧ v.fields = [] ∧ ∃ s, v.name = .ident ⟨false, c!"_Reserved" ++ s⟩

end Xdr.Rpcgen
