import Verif.Props.DeriveTokens
import Verif.Proofs.EnumText
/-!
# C62 for enums as they are written

From the tokens of any enum without generics (`Spec/EnumText.lean`): attributes and visibility are passed over, a comma at
the end is allowed, and the commas within the `<..>` of a type do not end a field.
-/

namespace Xdr.Derive

open Rpcgen (Str Token RIdent kw)
open RustCode Written

/-- C62. The macros see the enum that is written: its name, its variants in order, the types of their fields in order. -/
theorem C62_written (ts : List Token) (e : EnumTokens) (h : Enum_ ts e) : syn_parse ts = some (.enum e) := h.parse

/-- C62. They return code exactly for enums whose variants have no named fields, and XdrUnion for those with a field. -/
theorem C62_written_expands (ts : List Token) (e : EnumTokens) (h : Enum_ ts e) :
    ((∃ code, derive_indexer ts = some (.ok code)) ↔ ∀ v ∈ e.variants, v.fields ≠ .named) ∧
    ((∃ code, derive_union ts = some (.ok code)) ↔ (∀ v ∈ e.variants, v.fields ≠ .named) ∧
      ∃ v ∈ e.variants, ∃ t ts, v.fields = .unnamed (t :: ts)) := by
  unfold derive_indexer derive_union
  rw [h.parse]
  simp only [Option.map_some, Option.some.injEq]
  constructor
  · rw [C62_indexer_tokens]
    simp
  · rw [C62_union_tokens]
    simp

/-- C62. What XdrIndexer makes of the enum that is written. -/
theorem C62_written_indexer (ts : List Token) (e : EnumTokens) (hw : Enum_ ts e) (meaning : List Token → Option Ty)
    (E : EnumType) (h : Understood meaning e E) (hi : meaning [kw c!"i32"] = some .i32) (hne : e.variants ≠ []) :
    ∃ code impls, derive_indexer ts = some (.ok code) ∧ readImpls e.ident code = some impls ∧ impls.length = 10 ∧
      (∀ (env : Env) (impl : IndexerImpl), env E.name.str = some (.indexer E.shapes impl) →
        ∀ i vs s, present env (.named E.name.str) (.variant i vs) = some s →
          runSerialize env E (some (impl.index i vs)) i vs impls.serialize = some s) ∧
      (∀ (field : Ty → De Val) (impl : IndexerImpl), field .i32 = deserialize_i32 (fun i => pure (.i32 i)) →
        deserialize_tuple impls.length (runVisit meaning field E ⟨some impl.name_by_index, none⟩ impls.visit) =
          deDef field E.name.str (.indexer E.shapes impl)) := by
  obtain ⟨code, impls, h1, h2⟩ := C62_indexer_code meaning e E h hi hne
  exact ⟨code, impls, by rw [derive_indexer, hw.parse, Option.map_some, h1], h2⟩

/-- C62. What XdrUnion makes of the enum that is written. -/
theorem C62_written_union (ts : List Token) (e : EnumTokens) (hw : Enum_ ts e) (meaning : List Token → Option Ty)
    (E : EnumType) (h : Understood meaning e E) (disc : Ty)
    (hd : E.variants.findSome? (fun v => v.2.bind List.head?) = some disc) :
    ∃ code impls, derive_union ts = some (.ok code) ∧ readImpls e.ident code = some impls ∧ impls.length = 10 ∧
      (∀ (env : Env) (impl : UnionImpl), env E.name.str = some (.union disc E.shapes impl) →
        ∀ i vs s, present env (.named E.name.str) (.variant i vs) = some s →
          runSerialize env E none i vs impls.serialize = some s) ∧
      (∀ (field : Ty → De Val) (impl : UnionImpl),
        deserialize_tuple impls.length (runVisit meaning field E ⟨none, some impl.name_by_value⟩ impls.visit) =
          deDef field E.name.str (.union disc E.shapes impl)) := by
  obtain ⟨code, impls, h1, h2⟩ := C62_union_code meaning e E h disc hd
  exact ⟨code, impls, by rw [derive_union, hw.parse, Option.map_some, h1], h2⟩

/-! ## An enum that is written in many ways -/

/-- `#[..] #[..] pub(crate) enum Shape { #[..] Dot, Box(i32, BTreeMap<u8, Vec<u8>>,), Line = 7, }`. -/
example (a b c : List Token) :
    Enum_ [.op c!"#", .group .bracket a, .op c!"#", .group .bracket b, kw c!"pub", .group .paren [kw c!"crate"],
      kw c!"enum", kw c!"Shape", .group .brace [
        .op c!"#", .group .bracket c, kw c!"Dot", .op c!",",
        kw c!"Box", .group .paren [kw c!"i32", .op c!",", kw c!"BTreeMap", .op c!"<", kw c!"u8", .op c!",",
          kw c!"Vec", .op c!"<", kw c!"u8", .op c!">", .op c!">", .op c!","], .op c!",",
        kw c!"Line", .op c!"=", .lit c!"7", .op c!","]]
      ⟨word c!"Shape", [⟨word c!"Dot", .unit⟩,
        ⟨word c!"Box", .unnamed [[kw c!"i32"], [kw c!"BTreeMap", .op c!"<", kw c!"u8", .op c!",",
          kw c!"Vec", .op c!"<", kw c!"u8", .op c!">", .op c!">"]]⟩,
        ⟨word c!"Line", .unit⟩]⟩ := by
  have ident : ∀ (s : Str) {k ts}, Balanced k ts → Balanced k (kw s :: ts) := fun s _ _ h =>
    .token (by simp [kw]) (by simp [kw]) (by simp [kw]) h
  have vec : Balanced true [kw c!"Vec", .op c!"<", kw c!"u8", .op c!">"] :=
    ident _ (.angles (a := [kw c!"u8"]) (ident _ .nil) .nil)
  have map : Balanced false [kw c!"BTreeMap", .op c!"<", kw c!"u8", .op c!",", kw c!"Vec", .op c!"<", kw c!"u8",
      .op c!">", .op c!">"] :=
    ident _ (.angles (a := [kw c!"u8", .op c!",", kw c!"Vec", .op c!"<", kw c!"u8", .op c!">"])
      (ident _ (.comma vec)) .nil)
  refine .mk (a := [.op c!"#", .group .bracket a, .op c!"#", .group .bracket b])
    (v := [kw c!"pub", .group .paren [kw c!"crate"]])
    (ps := [[.op c!"#", .group .bracket c, kw c!"Dot"], _, [kw c!"Line", .op c!"=", .lit c!"7"]])
    (.cons (.cons .nil)) .restricted
    (.cons (x := [.op c!"#", .group .bracket c, kw c!"Dot"]) (.cons (x := [kw c!"Box", .group .paren _]) .trailing))
    (.cons (.unit (a := [.op c!"#", .group .bracket c]) (.cons .nil)) (.cons ?_ (.cons ?_ .nil)))
  · refine .tuple (a := []) (fs := [[kw c!"i32"], [kw c!"BTreeMap", .op c!"<", kw c!"u8", .op c!",",
        kw c!"Vec", .op c!"<", kw c!"u8", .op c!">", .op c!">"]]) .nil
      (.cons (x := [kw c!"i32"]) .trailing)
      (.cons (.mk (a := []) .nil ⟨ident _ .nil, by simp, by simp [kw]⟩) (.cons (.mk (a := []) .nil ⟨map, by simp, by simp [kw]⟩) .nil))
  · exact .number (a := []) .nil (by simp)

end Xdr.Derive
