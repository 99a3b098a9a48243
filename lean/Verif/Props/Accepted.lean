import Verif.RpcgenProofs.Accepted
import Verif.RpcgenProofs.NoLeeway
import Verif.Proofs.FitsSmall
import Verif.Props.Normal
import Verif.Props.Whole
/-!
# Property C74: what the generated decoders accept

The other direction of C53: whatever bytes the decoder of a generated type takes, the value it gives is one
of the interface, and is written as RFC 4506 prescribes for that. `DefinedL ds L t x` are the values of the
type `t` of the file without its maximum lengths and with the leeway `L`, `Defined ds true t x` those by RFC
4506 (`Spec/Accepted.lean`, `Spec/Schema.lean`).
-/

namespace Xdr.Rpcgen

open Rfc (XVal)

/-- Any bytes read as the type give a value for an XDR value in `P`; it is written as RFC 4506 prescribes for
that, in as many bytes, and read from these again. -/
def ReadsOnly (env : Env) (ty : String) (P : XVal → Prop) : Prop :=
  ∀ n bs v, fromBytes env n (.named ty) bs = .ok v → ∃ x bs', P x ∧ Rfc.encode x = some bs' ∧
    bs'.length = bs.length ∧ toBytes env (.named ty) v = .ok bs' ∧ fromBytes env n (.named ty) bs' = .ok v

/-- Any bytes read as the type are bytes for an XDR value, by `P`; what is read is written as RFC 4506 prescribes
for that value. -/
def TakesOnly (env : Env) (ty : String) (P : XVal → Bytes → Prop) : Prop :=
  ∀ n bs v, fromBytes env n (.named ty) bs = .ok v → ∃ x bs', P x bs ∧ Rfc.encode x = some bs' ∧
    bs'.length = bs.length ∧ toBytes env (.named ty) v = .ok bs'

theorem run_of {n : Nat} {ds : List Definition} {flags : Flags} {file : RustFile} {defs : List (String × Def)}
    (hwf : WellFormed ds) (hok : Supported ds flags.config) (hg : gen_code n ds flags.config = .ok file)
    (hd : file.defs = some defs) : Run ds flags.config n file defs false := {
    wf := hwf
    ok := hok
    rt := rfl
    enumTraits := by
      simp only [Flags.config, Bool.and_eq_true, Bool.not_eq_true']
      rintro ⟨⟨h1, -⟩, h2⟩
      rw [h1] at h2
      cases h2
    unionTraits := by
      simp only [Flags.config, Bool.and_eq_true, Bool.not_eq_true']
      rintro ⟨⟨h1, -⟩, h2⟩
      rw [h1] at h2
      cases h2
    gen := hg
    defs := hd
    dflt := by simp }

theorem DefaultsRead.indexer {ds : List Definition} {cfg : Config} {n : Nat} {file : RustFile}
    {defs : List (String × Def)} {dflt : Bool} (h : DefaultsRead ds cfg) (R : Run ds cfg n file defs dflt)
    (hi : cfg.union_impl_indexer = true) (d : Declaration) : ¬ DefaultIn ds d := by
  rintro ⟨u, b, hm, hd⟩
  rcases h u b d hm hd with hu | ⟨hc, -⟩
  · exact R.unionTraits ⟨hi, hu⟩
  · simp [Config.union_complement_index, hi] at hc

theorem DefaultsRead.written {ds : List Definition} {cfg : Config} (h : DefaultsRead ds cfg) :
    DefaultsWritten ds cfg := by
  intro u b d hm hd hc
  rcases h u b d hm hd with hu | h
  · simp [Config.union_complement_index, hu] at hc
  · exact h.2

theorem back_of_gen {n : Nat} {ds : List Definition} {flags : Flags} {file : RustFile}
    (hwf : WellFormed ds) (hg : gen_code n ds flags.config = .ok file)
    {defs : List (String × Def)} (hd : file.defs = some defs) (hok : Supported ds flags.config)
    (hdfd : NamesDefined ds) (hdf : DefaultsWritten ds flags.config) (t : TypeDef) (name : Str)
    (ht : .type t ∈ ds) (hname : t.name = some name) (hnd : ∀ d, t ≠ .declaration d)
    (hpos : ∀ e as, t = .enum e as → flags.use_std_trait = true → Positional ds as) :
    ∃ ty, upper_camel_case_ident name = .ok ty ∧
      ∀ v s, Pres (Xdr.program defs) (.named ty.str) v s → Fits (Xdr.program defs) (.named ty.str) v →
        ∃ x, DefinedL ds flags.config.leeway t x ∧ Rep (Xdr.program defs) (.named ty.str) v x ∧
          ∀ b, Wire.Form (Xdr.program defs) (.named ty.str) v b → DefinedF ds flags.config t x b := by
  have R := run_of hwf hok hg hd
  cases t with
  | declaration d => exact absurd rfl (hnd d)
  | enum e as =>
    cases hname
    obtain ⟨e, he, -⟩ := gen_code_enum hg ht
    obtain ⟨_, _, -, hty, -⟩ := convert_enum_ok he
    refine ⟨_, hty, fun v s hp hf => ?_⟩
    obtain ⟨x, h1, h2, -, h3⟩ := enum_back R ht hty (attr := .none) (.inl ⟨rfl, hpos _ _ rfl⟩) rfl hp hf
    exact ⟨x, h1, h2, h3⟩
  | struct s ms =>
    cases hname
    obtain ⟨st, hst, -⟩ := gen_code_struct hg ht
    have hty := (convert_struct_ok hst).1
    refine ⟨_, hty, fun v s hp hf => ?_⟩
    obtain ⟨x, h1, h2, -, h3⟩ := struct_back R hdfd (back R hdfd hdf v.depth n).2 ht hty hp hf (Nat.lt_succ_self _)
    exact ⟨x, h1, h2, h3⟩
  | union u b =>
    cases hname
    obtain ⟨ut, hut, -⟩ := gen_code_union hg ht
    obtain ⟨_, _, _, hty, _⟩ := convert_union_ok hut
    refine ⟨_, hty, fun v s hp hf => ?_⟩
    obtain ⟨x, h1, h2, -, h3⟩ := union_back R hdfd hdf (back R hdfd hdf v.depth n).2 (back R hdfd hdf v.depth n).1
      ht hty hp hf (Nat.lt_succ_self _)
    exact ⟨x, h1, h2, h3⟩

theorem reads_of_gen {n : Nat} {ds : List Definition} {flags : Flags} {file : RustFile}
    (hwf : WellFormed ds) (hg : gen_code n ds flags.config = .ok file)
    {defs : List (String × Def)} (hd : file.defs = some defs) (hok : Supported ds flags.config)
    (hdfd : NamesDefined ds) (hdf : DefaultsRead ds flags.config) (t : TypeDef) (name : Str)
    (ht : .type t ∈ ds) (hname : t.name = some name) (hnd : ∀ d, t ≠ .declaration d)
    (hpos : ∀ e as, t = .enum e as → flags.use_std_trait = true → Positional ds as) :
    ∃ ty, upper_camel_case_ident name = .ok ty ∧
      ReadsOnly (Xdr.program defs) ty.str (DefinedL ds flags.config.leeway t) ∧
      TakesOnly (Xdr.program defs) ty.str (DefinedF ds flags.config t) := by
  have R := run_of hwf hok hg hd
  have hcon := gen_consistent R (hdf.indexer R)
  have fin : ∀ ty : RIdent, (∀ v s, Pres (Xdr.program defs) (.named ty.str) v s →
      Fits (Xdr.program defs) (.named ty.str) v →
      ∃ x, DefinedL ds flags.config.leeway t x ∧ Rep (Xdr.program defs) (.named ty.str) v x ∧
        ∀ b, Wire.Form (Xdr.program defs) (.named ty.str) v b → DefinedF ds flags.config t x b) →
      ReadsOnly (Xdr.program defs) ty.str (DefinedL ds flags.config.leeway t) ∧
        TakesOnly (Xdr.program defs) ty.str (DefinedF ds flags.config t) := by
    intro ty key
    suffices h : ∀ m bs v, fromBytes (Xdr.program defs) m (.named ty.str) bs = .ok v → ∃ x bs',
        (DefinedL ds flags.config.leeway t x ∧ DefinedF ds flags.config t x bs) ∧ Rfc.encode x = some bs' ∧
        bs'.length = bs.length ∧ toBytes (Xdr.program defs) (.named ty.str) v = .ok bs' ∧
        fromBytes (Xdr.program defs) m (.named ty.str) bs' = .ok v by
      constructor
      · intro m bs v hv
        obtain ⟨x, bs', ⟨h1, -⟩, h2⟩ := h m bs v hv
        exact ⟨x, bs', h1, h2⟩
      · intro m bs v hv
        obtain ⟨x, bs', ⟨-, h1⟩, h2, h3, h4, -⟩ := h m bs v hv
        exact ⟨x, bs', h1, h2, h3, h4⟩
    intro m bs v h
    obtain ⟨k, ⟨s, bs', h1, h2, h3, h4, h5⟩, h6, h7⟩ :=
      decoded_normal hcon m (.named ty.str) trivial _ _ _ (from_bytes_eq_ok h)
    have hb : toBytes (Xdr.program defs) (.named ty.str) v = .ok bs' := by
      unfold toBytes; rw [h1.complete]; exact h4
    obtain ⟨x, hx, hr, hfm⟩ := key v s h1 h2
    obtain ⟨y, hy, he⟩ := hr.xdr
    obtain ⟨y', hy', he'⟩ := (C03_rfc4506 _ _ v bs' hr.hasTy (Fits.small _ _ _ h2)).1 hb
    rw [hy] at hy'
    cases hy'
    simp only [List.length_nil, Nat.sub_zero] at h7
    exact ⟨x, bs', ⟨hx, hfm bs ((C84_accepted _ _ _ _).1 ⟨m, h⟩)⟩, he.symm.trans he', by rw [h5]; exact h7 trivial, hb, C01_roundtrip _ _ _ _ _ h2 h3 hb⟩
  obtain ⟨ty, hty, key⟩ := back_of_gen hwf hg hd hok hdfd hdf.written t name ht hname hnd hpos
  exact ⟨ty, hty, fin ty key⟩

/-- C74. For every file the tool translates, in the supported fragment, whose type names are defined and
whose default arms, if any, are translated with `--use-union` or without flags, and every enum, structure and
union `name` in it: whatever its decoder accepts is a value of the type, apart from maximum lengths and the leeway
of the flags. It is written as RFC 4506 prescribes for it, in as many bytes as were read. -/
theorem C74_accepted {n : Nat} {s : Str} {flags : Flags} {file : RustFile} (h : run n s flags = .printed file)
    {defs : List (String × Def)} (hd : file.defs = some defs) :
    ∃ ds, parse s = .ok ds ∧ (Supported ds flags.config → NamesDefined ds →
      DefaultsRead ds flags.config →
      ∀ t name, .type t ∈ ds → t.name = some name → (∀ d, t ≠ .declaration d) →
        (∀ e as, t = .enum e as → flags.use_std_trait = true → Positional ds as) →
        ∃ ty, upper_camel_case_ident name = .ok ty ∧
          ReadsOnly (Xdr.program defs) ty.str (DefinedL ds flags.config.leeway t)) := by
  obtain ⟨ds, hp, hg⟩ := run_ok h
  refine ⟨ds, hp, fun hok hdfd hdf t name ht hname hnd hpos => ?_⟩
  obtain ⟨ty, h1, h2, -⟩ := reads_of_gen (wellFormed_parse hp) hg hd hok hdfd hdf t name ht hname hnd hpos
  exact ⟨ty, h1, h2⟩

theorem Supported.labels_le {ds : List Definition} {cfg : Config} (h : Supported ds cfg) : ∀ u b cond nm,
    .type (.union u b) ∈ ds → b.cond = .variable cond nm → ∀ l ∈ b.labels, ∀ k, Selects ds cond l.1 k →
    k ≤ 4294967295 := by
  intro u b cond nm hm hc l hl k hk
  obtain ⟨cond', nm', ks, h1, h2, -⟩ := h.unions u b hm
  rw [hc] at h1
  cases h1
  obtain ⟨j, hj⟩ := zip_mem_left h2.selects.length_eq hl
  have := hk.unique h.unambiguous (forall₂_zip h2.selects hj)
  subst this
  exact (h2.range _ (List.of_mem_zip hj).2).2

/-- A file that leaves no leeway has, up to the encoding, no other values than those of RFC 4506. -/
theorem C74_same {ds : List Definition} {cfg : Config} (hok : Supported ds cfg) {L : Leeway} (htight : NoLeeway ds L)
    {t : TypeDef} (ht : .type t ∈ ds) {x : XVal} (h : DefinedL ds L t x) :
    ∃ y, Defined ds true t y ∧ Rfc.encode y = Rfc.encode x := by
  obtain ⟨y, h1, h2, -⟩ := DefinedL.same (fun name as h => (hok.enums name as h).imp fun _ h => h.1) htight
    hok.labels_le h ht
  exact ⟨y, h1, h2⟩

/-- C74 for files that leave no leeway: the decoders accept values of the interface only. -/
theorem C74_values_partial {n : Nat} {s : Str} {flags : Flags} {file : RustFile}
    (h : run n s flags = .printed file) {defs : List (String × Def)} (hd : file.defs = some defs) :
    ∃ ds, parse s = .ok ds ∧ (Supported ds flags.config → NamesDefined ds → NoLeeway ds flags.config.leeway →
      DefaultsRead ds flags.config →
      ∀ t name, .type t ∈ ds → t.name = some name → (∀ d, t ≠ .declaration d) →
        (∀ e as, t = .enum e as → flags.use_std_trait = true → Positional ds as) →
        ∃ ty, upper_camel_case_ident name = .ok ty ∧
          ReadsOnly (Xdr.program defs) ty.str (Defined ds true t)) := by
  obtain ⟨ds, hp, hg⟩ := run_ok h
  refine ⟨ds, hp, fun hok hdfd htight hdf t name ht hname hnd hpos => ?_⟩
  obtain ⟨ty, hty, key, -⟩ :=
    reads_of_gen (wellFormed_parse hp) hg hd hok hdfd hdf t name ht hname hnd hpos
  refine ⟨ty, hty, fun m bs v hv => ?_⟩
  obtain ⟨x, bs', h1, h2, h3⟩ := key m bs v hv
  obtain ⟨y, h4, h5⟩ := C74_same hok htight ht h1
  exact ⟨y, bs', h4, h5.trans h2, h3⟩

/-- C74 for the printed text of a proper interface (`C73_whole`). -/
theorem C74_whole {s : Str} {ds : List Definition} (hp : parse s = .ok ds) {flags : Flags}
    (h : Proper ds flags.config) (hdf : DefaultsRead ds flags.config) :
    ∃ out defs, (∀ n, (definedNames ds).length < n → ds.length < n → output n s flags = some out) ∧
      rustDefs out = some defs ∧
      ∀ t name, .type t ∈ ds → t.name = some name → (∀ d, t ≠ .declaration d) →
        (∀ e as, t = .enum e as → flags.use_std_trait = true → Positional ds as) →
        ∃ ty, upper_camel_case_ident name = .ok ty ∧
          ReadsOnly (Xdr.program defs) ty.str (DefinedL ds flags.config.leeway t) := by
  obtain ⟨file, out, defs, h1, ⟨⟨defs', hd⟩, -⟩, h3, -⟩ := C73_whole hp h
  let m := max (definedNames ds).length ds.length + 1
  obtain ⟨h4, h5⟩ := h1 m (by omega) (by omega)
  have h6 := C70_program h4 h5 hd
  rw [h3] at h6
  cases h6
  refine ⟨out, defs, fun n hn hn' => (h1 n hn hn').2, h3, ?_⟩
  obtain ⟨ds', hp', hall⟩ := C74_accepted h4 hd
  cases hp.symm.trans hp'
  exact hall h.supported h.clean.defined hdf

/-- C09 for generated types: what is read can be written, in as many bytes, and is read again from these. -/
theorem C09_generated {n : Nat} {s : Str} {flags : Flags} {file : RustFile} (h : run n s flags = .printed file)
    {defs : List (String × Def)} (hd : file.defs = some defs) :
    ∃ ds, parse s = .ok ds ∧ (Supported ds flags.config →
      (flags.config.union_impl_indexer = true → ∀ d, ¬ DefaultIn ds d) →
      ∀ name m b v, fromBytes (Xdr.program defs) m (.named name) b = .ok v → ∃ bs,
        toBytes (Xdr.program defs) (.named name) v = .ok bs ∧ bs.length = b.length ∧
        fromBytes (Xdr.program defs) m (.named name) bs = .ok v) := by
  obtain ⟨ds, hp, hg⟩ := run_ok h
  refine ⟨ds, hp, fun hok hdf name m b v hv => ?_⟩
  exact (C09_normalisation _ (gen_consistent (run_of (wellFormed_parse hp) hok hg hd) hdf) (.named name) trivial m b v hv).2

/-! ## Examples -/

theorem named_catalogue : NamesDefined catalogue := by
  intro d name h hd
  rcases h with h | ⟨s, ms, h, hm⟩ | ⟨u, b, v, h, hm⟩ | ⟨u, b, h, hm⟩ | ⟨u, b, h, hm⟩
  · simp only [catalogue, TypedefIn, List.mem_cons, reduceCtorEq, Definition.type.injEq,
      TypeDef.declaration.injEq, List.not_mem_nil, or_false, false_or] at h
    rcases h with rfl | rfl <;> cases hd
    simp [typeOf, catalogue, TypeDef.name, Declaration.name]
  · simp only [catalogue, List.mem_cons, reduceCtorEq, Definition.type.injEq, TypeDef.struct.injEq,
      List.not_mem_nil, or_false, false_or] at h
    obtain ⟨rfl, rfl⟩ := h
    simp only [catalogueEntry, List.mem_cons, List.not_mem_nil, or_false] at hm
    rcases hm with rfl | rfl | rfl | rfl | rfl | rfl | rfl | rfl <;> cases hd <;>
      simp [typeOf, catalogue, TypeDef.name, Declaration.name]
  · simp only [catalogue, List.mem_cons, reduceCtorEq, Definition.type.injEq, TypeDef.union.injEq,
      List.not_mem_nil, or_false, false_or] at h
    obtain ⟨rfl, rfl⟩ := h
    simp only [catalogue_labels, List.mem_cons, Prod.mk.injEq, List.not_mem_nil, or_false] at hm
    rcases hm with ⟨-, rfl⟩ | ⟨-, rfl⟩ | ⟨-, rfl⟩ <;> cases hd
    simp [typeOf, catalogue, TypeDef.name, Declaration.name]
  · simp only [catalogue, List.mem_cons, reduceCtorEq, Definition.type.injEq, TypeDef.union.injEq,
      List.not_mem_nil, or_false, false_or] at h
    obtain ⟨rfl, rfl⟩ := h
    simp only [catalogue_default, Option.some.injEq] at hm
    subst hm
    cases hd
    simp [typeOf, catalogue, TypeDef.name, Declaration.name]
  · simp only [catalogue, List.mem_cons, reduceCtorEq, Definition.type.injEq, TypeDef.union.injEq,
      List.not_mem_nil, or_false, false_or] at h
    obtain ⟨rfl, rfl⟩ := h
    subst hm
    cases hd
    simp [typeOf, catalogue, TypeDef.name, Declaration.name]

/-- The default arm of the catalogue is read and written alike unless unions implement `XdrIndexer`. -/
theorem defaultsRead_catalogue {flags : Flags} (h : flags.config.union_impl_indexer = false) :
    DefaultsRead catalogue flags.config := by
  intro u b d hm hd
  simp only [catalogue, List.mem_cons, reduceCtorEq, Definition.type.injEq, TypeDef.union.injEq,
    List.not_mem_nil, or_false, false_or] at hm
  obtain ⟨rfl, rfl⟩ := hm
  cases hd
  cases hu : flags.use_union with
  | true => exact .inl hu
  | false =>
    refine .inr ⟨?_, not_opaque (by simp) (by simp) ?_, ?_⟩
    · rw [Config.union_complement_index, h]
      simp [Flags.config, hu]
    · intro name d' h
      cases h
      intro h
      cases h
    · intro cond nm hc l hl k hk
      cases hc
      obtain ⟨j, hj⟩ := zip_mem_left labelled_catalogue.selects.length_eq hl
      cases hk.unique (supported_catalogue flags).unambiguous (forall₂_zip labelled_catalogue.selects hj)
      have := (List.of_mem_zip hj).2
      simp only [List.mem_cons, List.not_mem_nil, or_false] at this
      omega

/-- The items of the catalogue without flags. -/
example : ∃ file defs, run 9 catalogueText {} = .printed file ∧ file.defs = some defs ∧
    ReadsOnly (Xdr.program defs) "Item" (DefinedL catalogue ⟨true, true, true⟩ (.union c!"item" catalogueItem)) := by
  obtain ⟨file, defs, hr, hd⟩ := run_accepted (n := 9) (flags := {}) parse_catalogue (by decide +kernel)
  refine ⟨file, defs, hr, hd, ?_⟩
  obtain ⟨ds, hp, key⟩ := C74_accepted hr hd
  rw [parse_catalogue] at hp
  cases hp
  obtain ⟨ty, hty, h⟩ := key (supported_catalogue _) named_catalogue (defaultsRead_catalogue rfl)
    (.union c!"item" catalogueItem) c!"item" (by simp [catalogue]) rfl (by simp) (by simp)
  cases hty
  exact h

/-- The items of the catalogue with `--use-union`. -/
example : ∃ file defs, run 9 catalogueText { use_union := true } = .printed file ∧ file.defs = some defs ∧
    ReadsOnly (Xdr.program defs) "Item" (DefinedL catalogue ⟨true, false, false⟩ (.union c!"item" catalogueItem)) := by
  obtain ⟨file, defs, hr, hd⟩ := run_accepted (n := 9) (flags := { use_union := true }) parse_catalogue
    (by decide +kernel)
  refine ⟨file, defs, hr, hd, ?_⟩
  obtain ⟨ds, hp, key⟩ := C74_accepted hr hd
  rw [parse_catalogue] at hp
  cases hp
  obtain ⟨ty, hty, h⟩ := key (supported_catalogue _) named_catalogue (fun _ _ _ _ _ => .inl rfl)
    (.union c!"item" catalogueItem) c!"item" (by simp [catalogue]) rfl (by simp) (by simp)
  cases hty
  exact h

/-- The same for the printed text. -/
example : ∃ out defs, output 9 catalogueText { use_union := true } = some out ∧ rustDefs out = some defs ∧
    ReadsOnly (Xdr.program defs) "Entry" (DefinedL catalogue ⟨true, false, false⟩ (.struct c!"entry" catalogueEntry)) := by
  obtain ⟨out, defs, h1, h2, key⟩ := C74_whole parse_catalogue (flags := { use_union := true })
    (proper_catalogue _) (fun _ _ _ _ _ => .inl rfl)
  refine ⟨out, defs, h1 9 (by decide) (by decide), h2, ?_⟩
  obtain ⟨ty, hty, h⟩ := key (.struct c!"entry" catalogueEntry) c!"entry" (by simp [catalogue]) rfl (by simp) (by simp)
  cases hty
  exact h

/-- Bytes no encoder writes, with 9 for `TRUE` and garbage in the padding, are read, and written as they should be. -/
example : ∃ file defs, run 5 c!"struct s { bool b; opaque o<>; };" {} = .printed file ∧ file.defs = some defs ∧
    ∃ v, fromBytes (Xdr.program defs) 3 (.named "S") [0, 0, 0, 9, 0, 0, 0, 1, 7, 5, 5, 5] = .ok v ∧
      toBytes (Xdr.program defs) (.named "S") v = .ok [0, 0, 0, 1, 0, 0, 0, 1, 7, 0, 0, 0] :=
  ⟨_, _, rfl, rfl, _, rfl, rfl⟩

/-- Writing what was read, for the items of the catalogue. -/
example : ∃ file defs, run 9 catalogueText { use_union := true } = .printed file ∧ file.defs = some defs ∧
    ∀ m b v, fromBytes (Xdr.program defs) m (.named "Item") b = .ok v → ∃ bs,
      toBytes (Xdr.program defs) (.named "Item") v = .ok bs ∧ bs.length = b.length ∧
      fromBytes (Xdr.program defs) m (.named "Item") bs = .ok v := by
  obtain ⟨file, defs, hr, hd⟩ := run_accepted (n := 9) (flags := { use_union := true }) parse_catalogue
    (by decide +kernel)
  obtain ⟨ds, hp, key⟩ := C09_generated hr hd
  rw [parse_catalogue] at hp
  cases hp
  exact ⟨file, defs, hr, hd, key (supported_catalogue _) (fun h => by cases h) "Item"⟩

/-- An interface that leaves no leeway. -/
def figuresText : Str := c!"
enum color { RED = 1, GREEN = 0 };
struct point { color c; int xs<>; point *next; };
union shape switch (color c) { case RED: point p; case GREEN: void; };
"

def figuresColors : List Assign := [⟨c!"RED", .constant (.decimal c!"1")⟩, ⟨c!"GREEN", .constant (.decimal c!"0")⟩]

def figuresPoint : List Declaration :=
  [.variable (.identifier c!"color") c!"c", .variableArray (.int true) c!"xs" none,
   .optionVariable (.identifier c!"point") c!"next"]

def figuresShape : UnionBody := ⟨.variable (.identifier c!"color") c!"c",
  [⟨[.identifier c!"RED"], .variable (.identifier c!"point") c!"p"⟩, ⟨[.identifier c!"GREEN"], .void⟩], none⟩

def figures : List Definition :=
  [.type (.enum c!"color" figuresColors), .type (.struct c!"point" figuresPoint), .type (.union c!"shape" figuresShape)]

theorem parse_figures : parse figuresText = .ok figures := by
  set_option maxRecDepth 100000 in rfl

theorem numbered_figures : Numbered figures figuresColors [1, 0] where
  stands := .cons ⟨_, .literal _, rfl⟩ (.cons ⟨_, .literal _, rfl⟩ .nil)
  distinct := by decide
  range := by decide

theorem labelled_figures : Labelled figures (.identifier c!"color") figuresShape.labels [1, 0] where
  selects :=
    .cons (.enum (e := c!"color") (as := figuresColors) (a := ⟨c!"RED", .constant (.decimal c!"1")⟩) rfl (by decide) ⟨_, .literal _, rfl⟩)
    (.cons (.enum (e := c!"color") (as := figuresColors) (a := ⟨c!"GREEN", .constant (.decimal c!"0")⟩) rfl (by decide) ⟨_, .literal _, rfl⟩)
     .nil)
  distinct := by decide
  range := by decide

theorem figures_labels : figuresShape.labels = [(.identifier c!"RED", .variable (.identifier c!"point") c!"p"),
    (.identifier c!"GREEN", .void)] := rfl

/-- The declarations of the interface. -/
theorem declIn_figures {d : Declaration} (h : DeclIn figures d) :
    d ∈ figuresPoint ∨ d = .variable (.identifier c!"point") c!"p" ∨ d = .void ∨
      d = .variable (.identifier c!"color") c!"c" := by
  rcases h with h | ⟨s, ms, h, hm⟩ | ⟨u, b, v, h, hm⟩ | ⟨u, b, h, hm⟩ | ⟨u, b, h, hm⟩ <;>
    simp only [figures, TypedefIn, List.mem_cons, reduceCtorEq, Definition.type.injEq, TypeDef.struct.injEq,
      TypeDef.union.injEq, List.not_mem_nil, or_false, false_or] at h <;> obtain ⟨rfl, rfl⟩ := h
  · exact .inl hm
  · simp only [figures_labels, List.mem_cons, Prod.mk.injEq, List.not_mem_nil, or_false] at hm
    rcases hm with ⟨-, rfl⟩ | ⟨-, rfl⟩
    · exact .inr (.inl rfl)
    · exact .inr (.inr (.inl rfl))
  · cases hm
  · exact .inr (.inr (.inr hm.symm))

theorem supported_figures (flags : Flags) : Supported figures flags.config where
  unambiguous := ⟨by decide +kernel, by decide +kernel⟩
  enums e as h := by
    simp only [figures, List.mem_cons, reduceCtorEq, Definition.type.injEq, TypeDef.enum.injEq,
      List.not_mem_nil, or_false] at h
    obtain ⟨rfl, rfl⟩ := h
    exact ⟨_, numbered_figures, fun _ => by decide⟩
  positions _ d name e as _ _ ht := by
    have hm := (typeOf_mem ht).1
    simp only [figures, List.mem_cons, reduceCtorEq, Definition.type.injEq, TypeDef.enum.injEq,
      List.not_mem_nil, or_false] at hm
    obtain ⟨rfl, rfl⟩ := hm
    exact ⟨_, numbered_figures, by decide⟩
  arrays ts nm m h := by
    have h' : DeclIn figures (.variableArray ts nm m) := by
      rcases h with h | h | h | h
      · exact .inl h
      · exact .inr (.inl h)
      · exact .inr (.inr (.inl h))
      · exact .inr (.inr (.inr (.inl h)))
    rcases declIn_figures h' with h | h | h | h
    · simp only [figuresPoint, List.mem_cons, reduceCtorEq, Declaration.variableArray.injEq, List.not_mem_nil,
        or_false, false_or] at h
      obtain ⟨rfl, -, -⟩ := h
      exact .inr (not_opaque (by simp) (by simp) (fun _ _ h => by cases h))
    all_goals cases h
  unions u b h := by
    simp only [figures, List.mem_cons, reduceCtorEq, Definition.type.injEq, TypeDef.union.injEq,
      List.not_mem_nil, or_false, false_or] at h
    obtain ⟨rfl, rfl⟩ := h
    exact ⟨_, _, _, rfl, labelled_figures, fun _ => by decide⟩
  arms _ d h := by
    obtain ⟨u, b, v, h, hd⟩ := h
    simp only [figures, List.mem_cons, reduceCtorEq, Definition.type.injEq, TypeDef.union.injEq,
      List.not_mem_nil, or_false, false_or] at h
    obtain ⟨rfl, rfl⟩ := h
    simp only [figures_labels, List.mem_cons, Prod.mk.injEq, List.not_mem_nil, or_false] at hd
    rcases hd with ⟨-, rfl⟩ | ⟨-, rfl⟩
    · refine .inr (not_opaque (by simp) (by simp) ?_)
      intro name d' h
      cases h
      intro h
      cases h
    · exact .inr (not_opaque (by simp) (by simp) (fun _ _ h => by cases h))
  defaults _ d h := by
    obtain ⟨u, b, h, hd⟩ := h
    simp only [figures, List.mem_cons, reduceCtorEq, Definition.type.injEq, TypeDef.union.injEq,
      List.not_mem_nil, or_false, false_or] at h
    obtain ⟨rfl, rfl⟩ := h
    cases hd

theorem named_figures : NamesDefined figures := by
  intro d name h hd
  rcases declIn_figures h with h | rfl | rfl | rfl
  · simp only [figuresPoint, List.mem_cons, List.not_mem_nil, or_false] at h
    rcases h with rfl | rfl | rfl <;> cases hd <;> simp [typeOf, figures, TypeDef.name]
  all_goals cases hd <;> simp [typeOf, figures, TypeDef.name]

theorem noLeeway_figures (L : Leeway) : NoLeeway figures L where
  limits d h := by
    rcases declIn_figures h with h | rfl | rfl | rfl
    · simp only [figuresPoint, List.mem_cons, List.not_mem_nil, or_false] at h
      rcases h with rfl | rfl | rfl <;> rfl
    all_goals rfl
  enums _ e as h a ha j k hj h0 hk := by
    simp only [figures, List.mem_cons, reduceCtorEq, Definition.type.injEq, TypeDef.enum.injEq,
      List.not_mem_nil, or_false] at h
    obtain ⟨rfl, rfl⟩ := h
    simp only [figuresColors, List.mem_cons, List.not_mem_nil, or_false] at ha
    have hj1 : j ≤ 1 := by
      rcases ha with rfl | rfl
      · have h1 : Stands figures (.constant (.decimal c!"1")) 1 := ⟨_, .literal _, rfl⟩
        have := stands_unique hj h1
        omega
      · have h0 : Stands figures (.constant (.decimal c!"0")) 0 := ⟨_, .literal _, rfl⟩
        have := stands_unique hj h0
        omega
    rcases (by omega : k = 0 ∨ k = 1) with rfl | rfl
    · exact ⟨⟨c!"GREEN", .constant (.decimal c!"0")⟩, by simp [figuresColors], _, .literal _, rfl⟩
    · exact ⟨⟨c!"RED", .constant (.decimal c!"1")⟩, by simp [figuresColors], _, .literal _, rfl⟩
  unions _ u b cond nm h hc k hk := by
    simp only [figures, List.mem_cons, reduceCtorEq, Definition.type.injEq, TypeDef.union.injEq,
      List.not_mem_nil, or_false, false_or] at h
    obtain ⟨rfl, rfl⟩ := h
    cases hc
    rcases hk with ⟨l, hl, j, hj, hk⟩ | ⟨h, -⟩
    · obtain ⟨i, hi⟩ := zip_mem_left labelled_figures.selects.length_eq hl
      have := hj.unique (supported_figures {}).unambiguous (forall₂_zip labelled_figures.selects hi)
      subst this
      have hi := (List.of_mem_zip hi).2
      simp only [List.mem_cons, List.not_mem_nil, or_false] at hi
      have h1 : (1 : Int) ∈ ([1, 0] : List Int) := by decide
      have h0 : (0 : Int) ∈ ([1, 0] : List Int) := by decide
      rcases (by omega : k = 0 ∨ k = 1) with rfl | rfl
      · obtain ⟨l, hl⟩ := zip_mem_right labelled_figures.selects.length_eq h0
        exact ⟨l, (List.of_mem_zip hl).1, forall₂_zip labelled_figures.selects hl⟩
      · obtain ⟨l, hl⟩ := zip_mem_right labelled_figures.selects.length_eq h1
        exact ⟨l, (List.of_mem_zip hl).1, forall₂_zip labelled_figures.selects hl⟩
    · cases h
  defaults _ u b d cond nm h hd := by
    simp only [figures, List.mem_cons, reduceCtorEq, Definition.type.injEq, TypeDef.union.injEq,
      List.not_mem_nil, or_false, false_or] at h
    obtain ⟨rfl, rfl⟩ := h
    cases hd
  labels _ u b cond nm h hc l hl k hk := by
    simp only [figures, List.mem_cons, reduceCtorEq, Definition.type.injEq, TypeDef.union.injEq,
      List.not_mem_nil, or_false, false_or] at h
    obtain ⟨rfl, rfl⟩ := h
    cases hc
    obtain ⟨i, hi⟩ := zip_mem_left labelled_figures.selects.length_eq hl
    have := hk.unique (supported_figures {}).unambiguous (forall₂_zip labelled_figures.selects hi)
    subst this
    obtain ⟨a, ha⟩ := zip_mem_right numbered_figures.stands.length_eq (List.of_mem_zip hi).2
    exact ⟨_, .name (t := .enum c!"color" figuresColors) rfl
      (.enum (List.of_mem_zip ha).1 (forall₂_zip numbered_figures.stands ha)), rfl⟩

/-- With each set of flags, the figures read are those of the interface. -/
example : ∀ flags ∈ ([{}, { use_std_trait := true }, { use_indexer := true }, { use_union := true },
    { use_std_trait := true, use_union := true }] : List Flags),
    ∃ file defs, run 9 figuresText flags = .printed file ∧ file.defs = some defs ∧
      ReadsOnly (Xdr.program defs) "Shape" (Defined figures true (.union c!"shape" figuresShape)) := by
  intro flags hf
  have hacc : accepted 9 figures flags.config = true := by
    revert flags
    decide +kernel
  obtain ⟨file, defs, hr, hd⟩ := run_accepted parse_figures hacc
  refine ⟨file, defs, hr, hd, ?_⟩
  obtain ⟨ds, hp, key⟩ := C74_values_partial hr hd
  rw [parse_figures] at hp
  cases hp
  obtain ⟨ty, hty, h⟩ := key (supported_figures flags) named_figures (noLeeway_figures _)
    (by
      intro u b d h hd
      simp only [figures, List.mem_cons, reduceCtorEq, Definition.type.injEq, TypeDef.union.injEq,
        List.not_mem_nil, or_false, false_or] at h
      obtain ⟨rfl, rfl⟩ := h
      cases hd)
    (.union c!"shape" figuresShape) c!"shape" (by simp [figures]) rfl (by simp) (by simp)
  cases hty
  exact h

/-! ## The leeway is there

In each case the tool accepts the text and the generated code compiles as far as `Meaning.lean` goes, and the
decoder takes bytes that stand for no value of the type. -/

/-- Bytes of no value are read. -/
theorem not_reads {env : Env} {ty : String} {P : XVal → Prop} {n : Nat} {bs bs' : Bytes} {v : Val}
    (h : fromBytes env n (.named ty) bs = .ok v) (hw : toBytes env (.named ty) v = .ok bs')
    (hx : ∀ x, P x → Rfc.encode x ≠ some bs') : ¬ ReadsOnly env ty P := by
  intro hr
  obtain ⟨x, b, h1, h2, -, h3, -⟩ := hr n bs v h
  rw [hw] at h3
  cases h3
  exact hx x h1 h2

/-- Decoders that accept too much. -/
def Foreign (s : Str) (flags : Flags) (name ty : Str) : Prop :=
  ∃ ds file defs t, run 5 s flags = .printed file ∧ parse s = .ok ds ∧ file.defs = some defs ∧
    .type t ∈ ds ∧ t.name = some name ∧ upper_camel_case_ident name = .ok ⟨false, ty⟩ ∧
    ¬ ReadsOnly (Xdr.program defs) (String.ofList ty) (Defined ds true t)

/-- A maximum length: two numbers where at most one is allowed. -/
theorem C74_maximum_violated : Foreign c!"struct s { int xs<1>; };" { use_union := true, use_indexer := true }
    c!"s" c!"S" := by
  refine ⟨_, _, _, _, rfl, rfl, rfl, List.mem_cons_self, rfl, rfl, ?_⟩
  refine not_reads (n := 9) (bs := [0, 0, 0, 2, 0, 0, 0, 7, 0, 0, 0, 8]) rfl rfl ?_
  rintro x (_ | _ | @⟨_, _, xs, hm⟩)
  cases hm with
  | cons h hm =>
    cases hm
    cases h with
    | @variableArray _ _ _ xs h1 h2 h3 =>
      have := h2 _ 1 rfl ⟨_, .literal _, rfl⟩
      match xs, this with
      | [], _ => intro h; cases h
      | [x], _ =>
        cases h3 with
        | cons h3 _ =>
          cases h3 with
          | @int k h4 h5 =>
            intro h
            simp only [Rfc.encode, Rfc.encodeAll] at h
            rw [cat_nil, cat_nil] at h
            obtain ⟨a, b, ha, hb, hab⟩ := Xdr.cat_some h
            have h1 : Rfc.unsigned 4 1 = some [0, 0, 0, 1] := by decide
            rw [List.length_singleton, h1] at ha
            cases ha
            cases hab

/-- Without flags, a number below that of the only member. -/
theorem C74_enum_gap_violated : Foreign c!"enum e { A = 1 };" {} c!"e" c!"E" := by
  refine ⟨_, _, _, _, rfl, rfl, rfl, List.mem_cons_self, rfl, rfl, ?_⟩
  refine not_reads (n := 9) (bs := [0, 0, 0, 0]) rfl rfl ?_
  intro x hx
  cases hx with
  | enum ha hk =>
    cases List.mem_singleton.1 ha
    have h1 : ∀ ds, Stands ds (.constant (.decimal c!"1")) 1 := fun _ => ⟨_, .literal _, rfl⟩
    cases stands_unique hk (h1 _)
    decide

/-- Without flags, a label below the only one. -/
theorem C74_union_gap_violated : Foreign c!"union u switch (bool k) { case TRUE: int x; };" {} c!"u" c!"U" := by
  refine ⟨_, _, _, _, rfl, rfl, rfl, List.mem_cons_self, rfl, rfl, ?_⟩
  refine not_reads (n := 9) (bs := [0, 0, 0, 0]) rfl rfl ?_
  intro x hx
  cases hx with
  | default _ _ h => cases h
  | arm h1 h2 h3 h4 h5 h6 =>
    cases h1
    cases List.mem_singleton.1 h2
    cases h3
    cases h4 with
    | @bool b =>
      cases b with
      | false => cases h5
      | true =>
        cases h6 with
        | «variable» h =>
          cases h with
          | int =>
            intro h
            simp only [Rfc.encode] at h
            obtain ⟨a, b, ha, hb, hab⟩ := Xdr.cat_some h
            cases ha
            cases hab

/-- A label out of the range of the discriminant. -/
theorem C74_label_violated : Foreign c!"const K = 3000000000; union u switch (int k) { case K: void; };"
    { use_indexer := true } c!"u" c!"U" := by
  refine ⟨_, _, _, _, rfl, rfl, rfl, List.mem_cons_of_mem _ List.mem_cons_self, rfl, rfl, ?_⟩
  refine not_reads (n := 9) (bs := [178, 208, 94, 0]) rfl rfl ?_
  intro x hx
  cases hx with
  | default _ _ h => cases h
  | arm h1 h2 h3 h4 h5 h6 =>
    cases h1
    cases List.mem_singleton.1 h2
    cases h4 with
    | int h7 h8 =>
      cases h5
      cases h3 with
      | int h3 =>
        have h9 := stands_unique h3 (k' := 3000000000) ⟨_, .name rfl (.literal _), rfl⟩
        omega

/-- A name that is not defined, but is that of another type in camel case. -/
theorem C74_undefined_violated : Foreign c!"enum foo { A = 0 }; struct s { Foo x; };" {} c!"s" c!"S" := by
  refine ⟨_, _, _, _, rfl, rfl, rfl, List.mem_cons_of_mem _ List.mem_cons_self, rfl, rfl, ?_⟩
  refine not_reads (n := 9) (bs := [0, 0, 0, 0]) rfl rfl ?_
  intro x hx
  cases hx with
  | struct h =>
    cases h with
    | cons h _ =>
      cases h with
      | «variable» h =>
        cases h with
        | name h => cases h

/-- Without flags, the default arm: its number need not be one of the discriminant's. -/
theorem C74_default_number_violated : Foreign
    c!"union u switch (bool k) { case FALSE: void; default: void; };" {} c!"u" c!"U" := by
  refine ⟨_, _, _, _, rfl, rfl, rfl, List.mem_cons_self, rfl, rfl, ?_⟩
  refine not_reads (n := 9) (bs := [0, 0, 0, 2]) rfl rfl ?_
  have key : ∀ b y, Rfc.encode (.union (.bool b) y) ≠ some [0, 0, 0, 2] := by
    intro b y h
    simp only [Rfc.encode] at h
    obtain ⟨a, c, ha, -, hab⟩ := Xdr.cat_some h
    cases b <;> cases ha <;> cases hab
  intro x hx
  cases hx with
  | default _ h1 _ h4 =>
    cases h1
    cases h4
    exact key _ _
  | arm h1 _ _ h4 =>
    cases h1
    cases h4
    exact key _ _

/-- With `--use-indexer`, the default arm: what was read cannot be written. -/
theorem C74_default_violated : Foreign
    c!"enum e { A = 0, B = 1, C = 2 }; union u switch (e k) { case A: void; default: void; };"
    { use_indexer := true } c!"u" c!"U" := by
  refine ⟨_, _, _, _, rfl, rfl, rfl, List.mem_cons_of_mem _ List.mem_cons_self, rfl, rfl, fun h => ?_⟩
  obtain ⟨x, bs, -, -, -, hw, -⟩ := h 9 [0, 0, 0, 2] _ rfl
  cases hw

end Xdr.Rpcgen
