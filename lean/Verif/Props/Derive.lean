import Verif.Proofs.Derive
/-!
# Property C62: the derive macros

`xdr_indexer` and `xdr_union` are the macros (`Model/Derive.lean`): they turn the syntax of an enum into
code. `indexerSerialize` and the like run that code. `present` and `deDef` are the impls used in all
other properties (`Model/Types.lean`).
-/

namespace Xdr.Derive

/-- A variant is a unit variant or has a list of types. -/
def Fields.shape : Fields → Option (List Ty)
  | .unit => none
  | f => some f.types

/-- The variants of an enum. -/
def ItemEnum.shapes (e : ItemEnum) : List (String × Option (List Ty)) :=
  e.variants.map fun v => (v.ident, v.fields.shape)

/-- No variant has named fields. -/
def ItemEnum.Tuples (e : ItemEnum) : Prop := ∀ v ∈ e.variants, ∀ fs, v.fields ≠ .named fs

/-- The names of the variants are different, as rustc requires. -/
def ItemEnum.Named (e : ItemEnum) : Prop := (e.variants.map (·.ident)).Nodup

theorem shape_fieldsOf (o : Option (List Ty)) : (fieldsOf o).shape = o := by
  cases o <;> rfl

theorem shapes_itemOf (name : String) (vars : List (String × Option (List Ty))) :
    ItemEnum.shapes ⟨name, itemOf vars⟩ = vars := by
  simp [ItemEnum.shapes, itemOf, Function.comp_def, shape_fieldsOf]

theorem named_itemOf {name : String} {vars : List (String × Option (List Ty))}
    (h : ItemEnum.Named ⟨name, itemOf vars⟩) : (vars.map (·.1)).Nodup := by
  simpa [ItemEnum.Named, itemOf, Function.comp_def] using h

theorem tuples_of_indexer {e : ItemEnum} {c : Code} (h : xdr_indexer (.enum e) = .ok c) : e.Tuples := by
  intro v hv fs hf
  rw [xdr_indexer, indexerVariants_named hv hf] at h
  cases h

theorem tuples_of_union {e : ItemEnum} {c : Code} {ty : Ty} (h : xdr_union (.enum e) = .ok (c, ty)) :
    e.Tuples := by
  intro v hv fs hf
  rw [xdr_union, unionVariants_named hv hf] at h
  cases h

theorem valueTy_itemOf (vars : List (String × Option (List Ty))) :
    (itemOf vars).findSome? (fun v => v.fields.types.head?) = valueTy vars := by
  induction vars with
  | nil => rfl
  | cons v vars ih =>
    obtain ⟨n, o⟩ := v
    simp only [itemOf, List.map_cons, List.findSome?_cons, valueTy] at ih ⊢
    rw [ih]
    cases o <;> rfl

/-- C62. `#[derive(XdrIndexer)]` compiles exactly on enums without named fields; it panics on a struct
and on a named field. -/
theorem C62_indexer_expands (i : Input) :
    (∃ c, xdr_indexer i = .ok c) ↔ ∃ e, i = .enum e ∧ e.Tuples := by
  constructor
  · rintro ⟨c, h⟩
    cases i with
    | other => cases h
    | enum e => exact ⟨e, rfl, tuples_of_indexer h⟩
  · rintro ⟨⟨n, vs⟩, rfl, ht⟩
    obtain ⟨vars, rfl⟩ := itemOf_of ht
    exact ⟨_, indexerVariants_eq _ vars⟩

/-- C62. `#[derive(XdrUnion)]` moreover needs a variant with a field. -/
theorem C62_union_expands (i : Input) :
    (∃ c ty, xdr_union i = .ok (c, ty)) ↔
      ∃ e, i = .enum e ∧ e.Tuples ∧ ∃ v ∈ e.variants, v.fields.types ≠ [] := by
  constructor
  · rintro ⟨c, ty, h⟩
    cases i with
    | other => cases h
    | enum e =>
      refine ⟨e, rfl, tuples_of_union h, ?_⟩
      obtain ⟨n, vs⟩ := e
      obtain ⟨vars, rfl⟩ := itemOf_of (tuples_of_union h)
      simp only [xdr_union, unionVariants_eq, Option.none_or] at h
      cases hv : valueTy vars with
      | none => rw [hv] at h; cases h
      | some t =>
        rw [← valueTy_itemOf] at hv
        obtain ⟨v, hm, hv⟩ := List.exists_of_findSome?_eq_some hv
        exact ⟨v, hm, fun hnil => by simp [hnil] at hv⟩
  · rintro ⟨⟨n, vs⟩, rfl, ht, v, hm, hne⟩
    obtain ⟨vars, rfl⟩ := itemOf_of ht
    simp only [xdr_union, unionVariants_eq, Option.none_or]
    cases hv : valueTy vars with
    | none =>
      rw [← valueTy_itemOf, List.findSome?_eq_none_iff] at hv
      exact absurd (List.head?_eq_none_iff.1 (hv v hm)) hne
    | some t => exact ⟨_, _, rfl⟩

/-- C62. The discriminant read by `XdrUnion` has the type of the first field of the first variant with
fields. -/
theorem C62_union_discriminant (e : ItemEnum) (c : Code) (ty : Ty)
    (h : xdr_union (.enum e) = .ok (c, ty)) :
    e.variants.findSome? (fun v => v.fields.types.head?) = some ty := by
  obtain ⟨n, vs⟩ := e
  obtain ⟨vars, rfl⟩ := itemOf_of (tuples_of_union h)
  simp only [xdr_union, unionVariants_eq, Option.none_or] at h
  rw [valueTy_itemOf]
  cases hv : valueTy vars with
  | none => rw [hv] at h; cases h
  | some t =>
    rw [hv] at h
    simp only [Res.ok.injEq, Prod.mk.injEq] at h
    rw [h.2]

/-- C62. The code of `XdrIndexer` writes a value as the model of all other properties says: the number
of the variant, then the fields in order. -/
theorem C62_indexer_serialize (e : ItemEnum) (c : Code) (h : xdr_indexer (.enum e) = .ok c)
    (hn : e.Named) (env : Env) (impl : IndexerImpl) (henv : env e.ident = some (.indexer e.shapes impl))
    (i : Nat) (vs : List Val) :
    indexerSerialize env e c impl i vs = present env (.named e.ident) (.variant i vs) := by
  obtain ⟨n, vs'⟩ := e
  obtain ⟨vars, rfl⟩ := itemOf_of (tuples_of_indexer h)
  rw [shapes_itemOf] at henv
  simp only [xdr_indexer, indexerVariants_eq, List.nil_append, Res.ok.injEq] at h
  subst h
  unfold indexerSerialize
  rw [serMatch_eq env n vars (named_itemOf hn)]
  rw [present]
  simp only at henv
  rw [henv]
  simp only
  cases vars[i]? with
  | none => rfl
  | some v =>
    obtain ⟨m, o⟩ := v
    cases o with
    | none =>
      simp only [Option.bind_some, presentFields]
      split <;> rfl
    | some ts => rfl

/-- C62. The code of `XdrUnion` writes the fields in order, the discriminant being the first. -/
theorem C62_union_serialize (e : ItemEnum) (c : Code) (ty : Ty)
    (h : xdr_union (.enum e) = .ok (c, ty)) (hn : e.Named) (env : Env) (impl : UnionImpl)
    (henv : env e.ident = some (.union ty e.shapes impl)) (i : Nat) (vs : List Val) :
    unionSerialize env e c i vs = present env (.named e.ident) (.variant i vs) := by
  obtain ⟨n, vs'⟩ := e
  obtain ⟨vars, rfl⟩ := itemOf_of (tuples_of_union h)
  rw [shapes_itemOf] at henv
  simp only [xdr_union, unionVariants_eq, Option.none_or, List.nil_append] at h
  cases hv : valueTy vars with
  | none => rw [hv] at h; cases h
  | some t =>
    rw [hv] at h
    simp only [Res.ok.injEq, Prod.mk.injEq] at h
    obtain ⟨rfl, rfl⟩ := h
    unfold unionSerialize
    rw [serMatch_eq env n vars (named_itemOf hn)]
    rw [present]
    simp only at henv
    rw [henv]
    simp only
    cases vars[i]? with
    | none => rfl
    | some v =>
      obtain ⟨m, o⟩ := v
      cases o with
      | none =>
        simp only [Option.bind_some, presentFields]
        split <;> rfl
      | some ts => rfl

/-- C62. The code of `XdrIndexer` reads as the model of all other properties says. -/
theorem C62_indexer_deserialize (e : ItemEnum) (c : Code) (h : xdr_indexer (.enum e) = .ok c)
    (impl : IndexerImpl) (field : Ty → De Val) :
    indexerDeserialize field e c impl = deDef field e.ident (.indexer e.shapes impl) := by
  obtain ⟨n, vs'⟩ := e
  obtain ⟨vars, rfl⟩ := itemOf_of (tuples_of_indexer h)
  rw [shapes_itemOf]
  simp only [xdr_indexer, indexerVariants_eq, List.nil_append, Res.ok.injEq] at h
  subst h
  unfold indexerDeserialize deDef
  congr 1
  funext seq
  unfold indexerVisit visitIndexer
  simp only [deMatch_indexer]
  rfl

/-- C62. The code of `XdrUnion` reads as the model of all other properties says. -/
theorem C62_union_deserialize (e : ItemEnum) (c : Code) (ty : Ty)
    (h : xdr_union (.enum e) = .ok (c, ty)) (impl : UnionImpl) (field : Ty → De Val) :
    unionDeserialize field e c ty impl = deDef field e.ident (.union ty e.shapes impl) := by
  obtain ⟨n, vs'⟩ := e
  obtain ⟨vars, rfl⟩ := itemOf_of (tuples_of_union h)
  rw [shapes_itemOf]
  simp only [xdr_union, unionVariants_eq, Option.none_or, List.nil_append] at h
  cases hv : valueTy vars with
  | none => rw [hv] at h; cases h
  | some t =>
    rw [hv] at h
    simp only [Res.ok.injEq, Prod.mk.injEq] at h
    obtain ⟨rfl, rfl⟩ := h
    unfold unionDeserialize deDef
    congr 1
    funext seq
    unfold unionVisit visitUnion
    simp only [deMatch_union]
    rfl

/-- A unit variant and variants with fields. -/
def sample : ItemEnum := ⟨"Sample", [⟨"A", .unit⟩, ⟨"B", .unnamed [.i32]⟩,
  ⟨"C", .unnamed [.i32, .string, .vec .u32]⟩]⟩

example : sample.Named := by simp [ItemEnum.Named, sample]
example : ∃ c, xdr_indexer (.enum sample) = .ok c :=
  (C62_indexer_expands _).2 ⟨sample, rfl, by simp [ItemEnum.Tuples, sample]⟩
example : ∃ c, xdr_union (.enum sample) = .ok (c, .i32) ∧
    c.ser = [⟨"A", none, []⟩, ⟨"B", some ["a0"], ["a0"]⟩,
      ⟨"C", some ["a0", "a1", "a2"], ["a0", "a1", "a2"]⟩] ∧
    (c.de.map (·.rets)) = [none, some ["value"], some ["value", "r1", "r2"]] := ⟨_, rfl, by decide, by decide⟩
/-- Named fields. -/
example : xdr_indexer (.enum ⟨"E", [⟨"A", .unit⟩, ⟨"B", .named [("x", .i32)]⟩]⟩) =
    .panic .unimplemented := rfl
/-- A union of unit variants only. -/
example : xdr_union (.enum ⟨"E", [⟨"A", .unit⟩, ⟨"B", .unnamed []⟩]⟩) = .panic .unwrapNone := rfl

end Xdr.Derive
