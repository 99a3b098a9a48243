import Verif.Rpcgen.Meaning
import Mathlib.Logic.Relation
/-!
# What else rustc asks of the generated source

`RustFile.defs` (`Rpcgen/Meaning.lean`) is `some` when names are legal and different and types and patterns
fit. Two more things are asked: that the size of every type is finite, and that the names of constants and types
are not names which the `quote!` templates (`gen_code.rs` 292-347, 626-672) and the derive macros
(`serde-xdr-derive/src/lib.rs`) use for something else.
-/

namespace Xdr.Rpcgen

/-- The types of which a value of the type has values inside it. What is in a `Vec` or a `Box` is elsewhere.
Rustc's layout. -/
def RTy.inline : RTy → List RIdent
  | .path i => [i]
  | .array t _ _ => t.inline
  | .option t => t.inline
  | _ => []

/-- The types of which a value of the item has values inside it. Rustc's layout. -/
def Item.inline : Item → List RIdent
  | .alias _ t => t.inline
  | .enum _ => []
  | .struct s => s.fields.flatMap fun f => f.2.2.inline
  | .union u => u.variants.flatMap fun v => v.fields.flatMap RTy.inline

/-- The type `a` has values of the type `b` inside it. Rustc's layout. -/
def RustFile.Holds (f : RustFile) (a b : RIdent) : Prop := ∃ i ∈ f.types, i.name = a ∧ b ∈ i.inline

/-- No type holds itself: rustc's E0072. -/
def RustFile.Sized (f : RustFile) : Prop := ∀ a, ¬ Relation.TransGen f.Holds a a

/-- The constants in the lengths of arrays. `gen_code.rs` 733 and 749. -/
def RTy.lengths : RTy → List Str
  | .array t (.ident i) _ => i.name :: t.lengths
  | .array t _ _ => t.lengths
  | .vec t => t.lengths
  | .option t => t.lengths
  | .box t => t.lengths
  | _ => []

/-- Variables of `derive(XdrIndexer)`, `serde-xdr-derive/src/lib.rs` 60-111, and what it calls. -/
def indexerLocals : List Str :=
  [c!"serializer", c!"index", c!"ser", c!"deserializer", c!"formatter", c!"seq", c!"variant", c!"Ok"]

/-- Variables of `derive(XdrUnion)`, `serde-xdr-derive/src/lib.rs` 186-234, and what it calls. -/
def unionLocals : List Str :=
  [c!"serializer", c!"ser", c!"deserializer", c!"formatter", c!"seq", c!"value", c!"variant", c!"Ok"]

/-- Variables for the fields of a variant, `serde-xdr-derive/src/lib.rs` 26-27 and 139-140. -/
def fieldLocals (v : Variant) : List Str :=
  (List.range v.fields.length).flatMap fun (i : Nat) => [c!"a" ++ intToString i, c!"r" ++ intToString i]

/-- The names an enum without fields gives to variables or calls: `gen_code.rs` 304-347 and its derive. -/
def EnumItem.locals (e : EnumItem) : List Str :=
  (if e.tryFrom.isSome then [c!"v", c!"Ok", c!"Err"] else []) ++
  (if e.indexer.isSome then [c!"index", c!"Ok"] else []) ++
  (if e.deriveIndexer then indexerLocals else [])

/-- The names a union gives to variables or calls: `gen_code.rs` 613-672 and its derive. -/
def UnionItem.locals (u : UnionItem) : List Str :=
  (match u.indexer with
    | some ix => if ix.otherwise then [c!"index", c!"Ok"] else [c!"index", c!"Ok", c!"Err"]
    | none => []) ++
  (match u.union with
    | some un => if un.otherwise = .err then [c!"value", c!"Ok", c!"Err"] else [c!"value", c!"Ok"]
    | none => []) ++
  (match u.derive with
    | .serde => []
    | .indexer => indexerLocals ++ u.variants.flatMap fieldLocals
    | .union => unionLocals ++ u.variants.flatMap fieldLocals)

/-- Constants that cannot be in a file with the item: they would be taken for variables in patterns. Serde's
own derives use names that begin with `__`. A structure's derive has a constant `FIELDS`, that of an enum one
called `VARIANTS`, in whose scope the types of fields are. Rustc's patterns. -/
def Item.bars : Item → Str → Bool
  | .alias _ _, _ => false
  | .enum e, c => c ∈ e.locals ∨ (e.deriveIndexer = false ∧ c!"__" <+: c)
  | .struct s, c => c!"__" <+: c ∨ (c = c!"FIELDS" ∧ ∃ f ∈ s.fields, c ∈ f.2.2.lengths)
  | .union u, c => c ∈ u.locals ∨ (u.derive = .serde ∧
      (c!"__" <+: c ∨ (c = c!"VARIANTS" ∧ ∃ v ∈ u.variants, ∃ t ∈ v.fields, c ∈ t.lengths)))

/-- Type parameters and types in the derives of `serde-xdr-derive/src/lib.rs`: an item with one of these names
is hidden by them. -/
def ownGenerics : List Str := [c!"S", c!"D", c!"A", c!"XdrIndexerVisitor", c!"XdrUnionVisitor"]

/-- The same for the types of fields, which are only in `visit_seq`.
`serde-xdr-derive/src/lib.rs` 94-105 and 217-228. -/
def fieldGenerics : List Str := [c!"D", c!"A", c!"XdrIndexerVisitor", c!"XdrUnionVisitor"]

/-- The names of an item with `derive(XdrIndexer)` or `derive(XdrUnion)` are not hidden, and no variant is called
`Error`: `Self::Error` in the `impl` would be ambiguous (rustc denies `ambiguous_associated_items`). -/
def Item.apart : Item → Bool
  | .alias _ _ => true
  | .enum e => e.deriveIndexer = true ∨ e.indexer.isSome = true →
      e.name.name ∉ ownGenerics ∧ ∀ v ∈ e.variants, v.1 ≠ ⟨false, c!"Error"⟩
  | .struct _ => true
  | .union u => u.derive ≠ .serde ∨ u.indexer.isSome = true ∨ u.union.isSome = true →
      u.name.name ∉ ownGenerics ∧
      (∀ v ∈ u.variants, ∀ t ∈ v.fields, ∀ p ∈ t.paths, p.name ∉ fieldGenerics) ∧
      ∀ v ∈ u.variants, v.name ≠ .ident ⟨false, c!"Error"⟩

/-- No name of the file is taken for another. Rustc's name lookup. -/
def RustFile.apart (f : RustFile) : Bool :=
  (∀ i ∈ f.types, ∀ c ∈ f.constants, i.bars c.name.name = false) ∧ (∀ i ∈ f.types, i.apart = true)

/-- rustc accepts the file. -/
def RustFile.Compiles (f : RustFile) : Prop :=
  (∃ defs, f.defs = some defs) ∧ f.Sized ∧ f.apart = true

end Xdr.Rpcgen
