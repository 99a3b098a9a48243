import Verif.Spec.Schema
import Verif.Rpcgen.Gen
/-!
# Interfaces whose generated code is right

Conditions on the definitions of a file, apart from the generator. Each excludes something the generator
accepts and translates wrongly; the theorems in `Props/EndToEnd.lean` and the witnesses beside them show
both sides.
-/

namespace Xdr.Rpcgen

/-- A typedef of the file. -/
def TypedefIn (ds : List Definition) (d : Declaration) : Prop := .type (.declaration d) ∈ ds

/-- A member of a structure of the file. -/
def MemberIn (ds : List Definition) (d : Declaration) : Prop :=
  ∃ s ms, .type (.struct s ms) ∈ ds ∧ d ∈ ms

/-- An arm of a union of the file. -/
def ArmIn (ds : List Definition) (d : Declaration) : Prop :=
  ∃ u b v, .type (.union u b) ∈ ds ∧ (v, d) ∈ b.labels

/-- The default arm of a union of the file. -/
def DefaultIn (ds : List Definition) (d : Declaration) : Prop :=
  ∃ u b, .type (.union u b) ∈ ds ∧ b.default = some d

/-- The discriminant of a union of the file. -/
def CondIn (ds : List Definition) (d : Declaration) : Prop :=
  ∃ u b, .type (.union u b) ∈ ds ∧ b.cond = d

/-- The members of an enum have the numbers from 0 on, in any order. -/
def Positional (ds : List Definition) (as : List Assign) : Prop :=
  ∃ ks, Numbered ds as ks ∧ ∀ k ∈ ks, 0 ≤ k ∧ k < as.length

/-- Opaque data of variable length, or no opaque data at all. -/
def OpaqueOk (ds : List Definition) (d : Declaration) : Prop := PlainOpaque ds d ∨ ¬ HasOpaque ds d

/-- A type name that is an enum's, maybe through typedef names. -/
inductive NamesEnum (ds : List Definition) : TypeSpecifier → List Assign → Prop
  | enum {name e : Str} {as : List Assign} : typeOf ds name = some (.enum e as) →
      NamesEnum ds (.identifier name) as
  | typedef {name nm : Str} {ts : TypeSpecifier} {as : List Assign} :
      typeOf ds name = some (.declaration (.variable ts nm)) → NamesEnum ds ts as →
      NamesEnum ds (.identifier name) as

/-- The enums of the file, and the one the discriminant has, are such that they are on the wire under their
numbers: different ones, without flags no negative ones, with `--use-std-trait` those from 0 on. -/
structure EnumsOk (ds : List Definition) (cfg : Config) (cond : TypeSpecifier) : Prop where
  enums : ∀ e as, .type (.enum e as) ∈ ds → ∃ ks, Numbered ds as ks ∧
    (cfg.enum_complement_index = true → ∀ k ∈ ks, 0 ≤ k)
  positions : cfg.enum_impl_std_trait = true → ∀ as, NamesEnum ds cond as → Positional ds as

/-- The supported interfaces. -/
structure Supported (ds : List Definition) (cfg : Config) : Prop where
  /-- every name is defined once -/
  unambiguous : Unambiguous ds
  /-- enum members have different numbers, without flags no negative ones -/
  enums : ∀ e as, .type (.enum e as) ∈ ds → ∃ ks, Numbered ds as ks ∧
    (cfg.enum_complement_index = true → ∀ k ∈ ks, 0 ≤ k)
  /-- with `--use-std-trait`: only structure members may be of enums numbered otherwise than by position -/
  positions : cfg.enum_impl_std_trait = true → ∀ d name e as,
    TypedefIn ds d ∨ ArmIn ds d ∨ DefaultIn ds d ∨ CondIn ds d →
    d.type_specifier = some (.identifier name) → typeOf ds name = some (.enum e as) → Positional ds as
  /-- variable-length arrays of opaque data: only of variable length -/
  arrays : ∀ ts nm m, TypedefIn ds (.variableArray ts nm m) ∨ MemberIn ds (.variableArray ts nm m) ∨
    ArmIn ds (.variableArray ts nm m) ∨ DefaultIn ds (.variableArray ts nm m) →
    OpaqueOk ds (.variable ts nm)
  /-- the labels of a union have different numbers -/
  unions : ∀ u b, .type (.union u b) ∈ ds → ∃ cond nm ks, b.cond = .variable cond nm ∧
    Labelled ds cond b.labels ks ∧ (cfg.union_complement_index = true → ∀ k ∈ ks, k < 2147483648)
  /-- with flags, arms of opaque data: only of variable length -/
  arms : cfg.union_complement_index = false → ∀ d, ArmIn ds d → OpaqueOk ds d
  /-- with `--use-union`: no default arm of opaque data -/
  defaults : cfg.union_impl_union = true → ∀ d, DefaultIn ds d → ¬ HasOpaque ds d

end Xdr.Rpcgen
