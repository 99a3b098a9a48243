import Verif.Props.GenWrites
import Verif.Props.AcceptedBytes
import Verif.RpcgenProofs.MessageSize
/-!
# Property C97: the sizes of messages follow from the interface

`DefSize` (`Spec/MessageSize.lean`) are the least and, if there is one, the greatest number of bytes by the tables of
RFC 4506.
-/

namespace Xdr.Rpcgen

open Rfc (XVal)

/-- C97: generated decoders accept no input that is shorter or longer than the interface says. -/
theorem C97_accepted {n : Nat} {s : Str} {flags : Flags} {file : RustFile} (h : run n s flags = .printed file)
    {defs : List (String × Def)} (hd : file.defs = some defs) :
    ∃ ds, parse s = .ok ds ∧ (Supported ds flags.config → NamesDefined ds → DefaultsRead ds flags.config →
      ∀ t name, .type t ∈ ds → t.name = some name → (∀ d, t ≠ .declaration d) →
        (∀ e as, t = .enum e as → flags.use_std_trait = true → Positional ds as) →
        ∃ ty, upper_camel_case_ident name = .ok ty ∧
          ∀ lo hi, DefSize ds flags.config.leeway.unionGaps t lo hi → ∀ m input v,
            fromBytes (Xdr.program defs) m (.named ty.str) input = .ok v → lo ≤ input.length ∧ ∀ h, hi = some h → input.length ≤ h) := by
  obtain ⟨ds, hp, key⟩ := C86_bytes h hd
  refine ⟨ds, hp, fun hok hdfd hdf t name ht hname hnd hpos => ?_⟩
  obtain ⟨ty, hty, k⟩ := key hok hdfd hdf t name ht hname hnd hpos
  refine ⟨ty, hty, fun lo hi hs m input v hv => ?_⟩
  obtain ⟨x, hx⟩ := (k.accepted input).1 ⟨m, v, hv⟩
  exact hx.size hs

/-- C97: generated encoders write no message that is shorter or longer. -/
theorem C97_written {n : Nat} {s : Str} {flags : Flags} {file : RustFile} (h : run n s flags = .printed file)
    {defs : List (String × Def)} (hd : file.defs = some defs) :
    ∃ ds, parse s = .ok ds ∧ (Supported ds flags.config → NamesDefined ds → DefaultsWritten ds flags.config →
      ∀ t name, .type t ∈ ds → t.name = some name → (∀ d, t ≠ .declaration d) →
        (∀ e as, t = .enum e as → flags.use_std_trait = true → Positional ds as) →
        ∃ ty, upper_camel_case_ident name = .ok ty ∧
          ∀ lo hi, DefSize ds flags.config.leeway.unionGaps t lo hi →
            ∀ v bs, HasTy (Xdr.program defs) (.named ty.str) v → Small (Xdr.program defs) (.named ty.str) v →
              (flags.use_union = true → Selected (Xdr.program defs) (.named ty.str) v) →
              toBytes (Xdr.program defs) (.named ty.str) v = .ok bs → lo ≤ bs.length ∧ ∀ h, hi = some h → bs.length ≤ h) := by
  obtain ⟨ds, hp, key⟩ := C92_written h hd
  refine ⟨ds, hp, fun hok hdfd hdf t name ht hname hnd hpos => ?_⟩
  obtain ⟨ty, hty, k⟩ := key hok hdfd hdf t name ht hname hnd hpos
  refine ⟨ty, hty, fun lo hi hs v bs h1 h2 h3 h4 => ?_⟩
  obtain ⟨x, hx, he⟩ := k v bs h1 h2 h3 h4
  exact hx.size hs he

/-- C97 for the printed text of a proper interface (`C73_whole`), both ways. -/
theorem C97_whole {s : Str} {ds : List Definition} (hp : parse s = .ok ds) {flags : Flags}
    (h : Proper ds flags.config) (hdr : DefaultsRead ds flags.config) (hdw : DefaultsWritten ds flags.config) :
    ∃ out defs, (∀ n, (definedNames ds).length < n → ds.length < n → output n s flags = some out) ∧
      rustDefs out = some defs ∧
      ∀ t name, .type t ∈ ds → t.name = some name → (∀ d, t ≠ .declaration d) →
        (∀ e as, t = .enum e as → flags.use_std_trait = true → Positional ds as) →
        ∃ ty, upper_camel_case_ident name = .ok ty ∧
          ∀ lo hi, DefSize ds flags.config.leeway.unionGaps t lo hi →
            (∀ m input v, fromBytes (Xdr.program defs) m (.named ty.str) input = .ok v →
              lo ≤ input.length ∧ ∀ h, hi = some h → input.length ≤ h) ∧
            ∀ v bs, HasTy (Xdr.program defs) (.named ty.str) v → Small (Xdr.program defs) (.named ty.str) v →
              (flags.use_union = true → Selected (Xdr.program defs) (.named ty.str) v) →
              toBytes (Xdr.program defs) (.named ty.str) v = .ok bs → lo ≤ bs.length ∧ ∀ h, hi = some h → bs.length ≤ h := by
  obtain ⟨out, defs, h1, h2, k⟩ := C86_whole hp h hdr
  obtain ⟨out', defs', h1', h2', k'⟩ := C92_whole hp h hdw
  let m := max (definedNames ds).length ds.length + 1
  have ho := (h1 m (by omega) (by omega)).symm.trans (h1' m (by omega) (by omega))
  cases ho
  cases h2.symm.trans h2'
  refine ⟨out, defs, h1, h2, fun t name ht hname hnd hpos => ?_⟩
  obtain ⟨ty, hty, a⟩ := k t name ht hname hnd hpos
  obtain ⟨ty', hty', b⟩ := k' t name ht hname hnd hpos
  cases hty.symm.trans hty'
  refine ⟨ty, hty, fun lo hi hs => ⟨fun m input v hv => ?_, fun v bs h1 h2 h3 h4 => ?_⟩⟩
  · obtain ⟨x, hx⟩ := (a.accepted input).1 ⟨m, v, hv⟩
    exact hx.size hs
  · obtain ⟨x, hx, he⟩ := b v bs h1 h2 h3 h4
    exact hx.size hs he

/-! ## Example -/

def tilesText : Str := c!"
enum color { RED = 1, GREEN = 0 };
struct point { color c; int xs[3]; opaque id[5]; };
union shape switch (color c) { case RED: point p; case GREEN: void; };
struct tile { shape s; hyper *area; };
"

def tilesColors : List Assign := [⟨c!"RED", .constant (.decimal c!"1")⟩, ⟨c!"GREEN", .constant (.decimal c!"0")⟩]

def tilesPoint : List Declaration :=
  [.variable (.identifier c!"color") c!"c", .fixedArray (.int true) c!"xs" (.constant (.decimal c!"3")),
   .opaqueFixedArray c!"id" (.constant (.decimal c!"5"))]

def tilesShape : UnionBody := ⟨.variable (.identifier c!"color") c!"c",
  [⟨[.identifier c!"RED"], .variable (.identifier c!"point") c!"p"⟩, ⟨[.identifier c!"GREEN"], .void⟩], none⟩

def tilesTile : List Declaration :=
  [.variable (.identifier c!"shape") c!"s", .optionVariable (.hyper true) c!"area"]

def tiles : List Definition :=
  [.type (.enum c!"color" tilesColors), .type (.struct c!"point" tilesPoint), .type (.union c!"shape" tilesShape),
   .type (.struct c!"tile" tilesTile)]

theorem parse_tiles : parse tilesText = .ok tiles := by
  set_option maxRecDepth 100000 in rfl

theorem numbered_tiles : Numbered tiles tilesColors [1, 0] where
  stands := .cons ⟨_, .literal _, rfl⟩ (.cons ⟨_, .literal _, rfl⟩ .nil)
  distinct := by decide
  range := by decide

theorem labelled_tiles : Labelled tiles (.identifier c!"color") tilesShape.labels [1, 0] where
  selects :=
    .cons (.enum (e := c!"color") (as := tilesColors) (a := ⟨c!"RED", .constant (.decimal c!"1")⟩) rfl (by decide) ⟨_, .literal _, rfl⟩)
    (.cons (.enum (e := c!"color") (as := tilesColors) (a := ⟨c!"GREEN", .constant (.decimal c!"0")⟩) rfl (by decide) ⟨_, .literal _, rfl⟩)
     .nil)
  distinct := by decide
  range := by decide

theorem tiles_labels : tilesShape.labels = [(.identifier c!"RED", .variable (.identifier c!"point") c!"p"),
    (.identifier c!"GREEN", .void)] := rfl

theorem declarations_tiles : declarations tiles = [.variable (.identifier c!"color") c!"c",
    .fixedArray (.int true) c!"xs" (.constant (.decimal c!"3")), .opaqueFixedArray c!"id" (.constant (.decimal c!"5")),
    .variable (.identifier c!"color") c!"c", .variable (.identifier c!"point") c!"p", .void,
    .variable (.identifier c!"shape") c!"s", .optionVariable (.hyper true) c!"area"] := rfl

theorem no_default_tiles (d : Declaration) : ¬ DefaultIn tiles d := by
  rintro ⟨u, b, h, hd⟩
  simp only [tiles, List.mem_cons, reduceCtorEq, Definition.type.injEq, TypeDef.union.injEq,
    List.not_mem_nil, or_false, false_or] at h
  obtain ⟨rfl, rfl⟩ := h
  cases hd

theorem supported_tiles (flags : Flags) : Supported tiles flags.config where
  unambiguous := ⟨by decide +kernel, by decide +kernel⟩
  enums e as h := by
    simp only [tiles, List.mem_cons, reduceCtorEq, Definition.type.injEq, TypeDef.enum.injEq,
      List.not_mem_nil, or_false] at h
    obtain ⟨rfl, rfl⟩ := h
    exact ⟨_, numbered_tiles, fun _ => by decide⟩
  positions _ d name e as _ _ ht := by
    have hm := (typeOf_mem ht).1
    simp only [tiles, List.mem_cons, reduceCtorEq, Definition.type.injEq, TypeDef.enum.injEq,
      List.not_mem_nil, or_false] at hm
    obtain ⟨rfl, rfl⟩ := hm
    exact ⟨_, numbered_tiles, by decide⟩
  arrays ts nm m h := by
    have h' : DeclIn tiles (.variableArray ts nm m) := by
      rcases h with h | h | h | h
      · exact .inl h
      · exact .inr (.inl h)
      · exact .inr (.inr (.inl h))
      · exact .inr (.inr (.inr (.inl h)))
    simpa [declarations_tiles] using declIn_mem h'
  unions u b h := by
    simp only [tiles, List.mem_cons, reduceCtorEq, Definition.type.injEq, TypeDef.union.injEq,
      List.not_mem_nil, or_false, false_or] at h
    obtain ⟨rfl, rfl⟩ := h
    exact ⟨_, _, _, rfl, labelled_tiles, fun _ => by decide⟩
  arms _ d h := by
    obtain ⟨u, b, v, h, hd⟩ := h
    simp only [tiles, List.mem_cons, reduceCtorEq, Definition.type.injEq, TypeDef.union.injEq,
      List.not_mem_nil, or_false, false_or] at h
    obtain ⟨rfl, rfl⟩ := h
    simp only [tiles_labels, List.mem_cons, Prod.mk.injEq, List.not_mem_nil, or_false] at hd
    rcases hd with ⟨-, rfl⟩ | ⟨-, rfl⟩
    · refine .inr (not_opaque (by simp) (by simp) ?_)
      intro name d' h
      cases h
      intro h
      cases h
    · exact .inr (not_opaque (by simp) (by simp) (fun _ _ h => by cases h))
  defaults _ d h := absurd h (no_default_tiles d)

theorem named_tiles : NamesDefined tiles := by
  intro d name h hd
  have hm := declIn_mem h
  rw [declarations_tiles] at hm
  simp only [List.mem_cons, List.not_mem_nil, or_false] at hm
  rcases hm with rfl | rfl | rfl | rfl | rfl | rfl | rfl | rfl <;> cases hd <;> simp [typeOf, tiles, TypeDef.name]

/-- Points take 24 bytes, whatever the flags. -/
theorem point_size (gaps : Bool) : DefSize tiles gaps (.struct c!"point" tilesPoint) 24 (some 24) :=
  .struct (.cons (.variable (.name (t := .enum c!"color" tilesColors) rfl .enum))
    (.cons (.fixedArray (n := 3) ⟨_, .literal _, rfl⟩ .int) (.cons (.opaqueFixed (n := 5) ⟨_, .literal _, rfl⟩) .nil)))

/-- Tiles take from 8 bytes to 40. -/
theorem tile_size (gaps : Bool) : DefSize tiles gaps (.struct c!"tile" tilesTile) 8 (some 40) := by
  have hshape : DefSize tiles gaps (.union c!"shape" tilesShape) (4 + 0) (some (4 + 24)) := by
    refine .union (hi := some 24) (least := fun d => match d with | .void => 0 | _ => 24)
      (most := fun d => match d with | .void => some 0 | _ => some 24) ?_ ?_ (fun _ => rfl)
    · rintro d (⟨v, h⟩ | h)
      · simp only [tiles_labels, List.mem_cons, Prod.mk.injEq, List.not_mem_nil, or_false] at h
        rcases h with ⟨-, rfl⟩ | ⟨-, rfl⟩
        · exact .variable (.name (t := .struct c!"point" tilesPoint) rfl (point_size gaps))
        · exact .void
      · cases h
    · intro d _
      split
      · exact ⟨Nat.le_refl _, fun h e => ⟨0, rfl, Nat.zero_le _⟩⟩
      · exact ⟨Nat.zero_le _, fun h e => ⟨24, rfl, by cases e; exact Nat.le_refl _⟩⟩
  exact .struct (.cons (.variable (.name (t := .union c!"shape" tilesShape) rfl hshape))
    (.cons (.optional .hyper) .nil))

/-- No point is accepted that is not of 24 bytes, no tile of less than 8 or more than 40; with any flags. -/
example {n : Nat} {flags : Flags} {file : RustFile} (h : run n tilesText flags = .printed file)
    {defs : List (String × Def)} (hd : file.defs = some defs) (m : Nat) (input : Bytes) (v : Val) :
    (fromBytes (Xdr.program defs) m (.named "Point") input = .ok v → input.length = 24) ∧
    (fromBytes (Xdr.program defs) m (.named "Tile") input = .ok v → 8 ≤ input.length ∧ input.length ≤ 40) := by
  obtain ⟨ds, hp, key⟩ := C97_accepted h hd
  cases parse_tiles.symm.trans hp
  have key := key (supported_tiles _) named_tiles (fun u b d hm hd => absurd ⟨u, b, hm, hd⟩ (no_default_tiles d))
  constructor
  · intro hv
    obtain ⟨ty, hty, k⟩ := key (.struct c!"point" tilesPoint) c!"point" (by simp [tiles]) rfl (by simp) (by simp)
    cases hty
    obtain ⟨h1, h2⟩ := k 24 (some 24) (point_size _) m input v hv
    have := h2 24 rfl
    omega
  · intro hv
    obtain ⟨ty, hty, k⟩ := key (.struct c!"tile" tilesTile) c!"tile" (by simp [tiles]) rfl (by simp) (by simp)
    cases hty
    obtain ⟨h1, h2⟩ := k 8 (some 40) (tile_size _) m input v hv
    exact ⟨h1, h2 40 rfl⟩

/-- Tiles of 8 bytes and of 40 are accepted. -/
example : ∃ file defs, run 9 tilesText {} = .printed file ∧ file.defs = some defs ∧
    (∃ v, fromBytes (Xdr.program defs) 9 (.named "Tile") [0, 0, 0, 0, 0, 0, 0, 0] = .ok v) ∧
    ∃ v, fromBytes (Xdr.program defs) 9 (.named "Tile") [0, 0, 0, 1, 0, 0, 0, 1, 0, 0, 0, 1, 0, 0, 0, 2, 0, 0, 0, 3,
      1, 2, 3, 4, 5, 0, 0, 0, 0, 0, 0, 1, 0, 0, 0, 0, 0, 0, 0, 7] = .ok v := by
  set_option maxRecDepth 100000 in exact ⟨_, _, rfl, rfl, ⟨_, rfl⟩, ⟨_, rfl⟩⟩

/-- Entries of the catalogue, with strings, lists and entries in entries: 44 bytes at least. -/
theorem entry_size (gaps : Bool) : DefSize catalogue gaps (.struct c!"entry" catalogueEntry) 44 none :=
  .struct (.cons (.variable (.name (t := .enum c!"kind" catalogueKinds) rfl .enum))
    (.cons (.fixedArray (n := 3) ⟨_, .literal _, rfl⟩ .int)
    (.cons (.variable (.name (t := .declaration (.opaqueVariableArray c!"bytes" (some (.identifier c!"NAME_MAX")))) rfl
      (.typedef .opaqueVar)))
    (.cons (.variable (.name (t := .declaration (.variableArray (.identifier c!"bytes") c!"pages" none)) rfl
      (.typedef .variableArray)))
    (.cons .string (.cons (.optional .any) (.cons (.variable .double)
    (.cons (.opaqueFixed (n := 4) ⟨_, .literal _, rfl⟩) .nil))))))))

/-- No shorter input is accepted by the program of the printed text, and no shorter entry is written. -/
example : ∃ out defs, output 9 catalogueText { use_union := true } = some out ∧ rustDefs out = some defs ∧
    (∀ m input v, fromBytes (Xdr.program defs) m (.named "Entry") input = .ok v → 44 ≤ input.length) ∧
    ∀ v bs, HasTy (Xdr.program defs) (.named "Entry") v → Small (Xdr.program defs) (.named "Entry") v →
      Selected (Xdr.program defs) (.named "Entry") v → toBytes (Xdr.program defs) (.named "Entry") v = .ok bs →
      44 ≤ bs.length := by
  obtain ⟨out, defs, h1, h2, key⟩ := C97_whole parse_catalogue (flags := { use_union := true })
    (proper_catalogue _) (fun _ _ _ _ _ => .inl rfl) (fun _ _ _ _ _ h => by cases h)
  refine ⟨out, defs, h1 9 (by decide) (by decide), h2, ?_⟩
  obtain ⟨ty, hty, h⟩ := key (.struct c!"entry" catalogueEntry) c!"entry" (by simp [catalogue]) rfl (by simp) (by simp)
  cases hty
  obtain ⟨a, b⟩ := h 44 none (entry_size _)
  exact ⟨fun m input v hv => (a m input v hv).1, fun v bs h1 h2 h3 h4 => (b v bs h1 h2 (fun _ => h3) h4).1⟩

end Xdr.Rpcgen
