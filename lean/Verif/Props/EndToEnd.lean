import Verif.RpcgenProofs.EndToEndRep
import Verif.Props.GenEnum
/-!
# Property C53: from the interface file to the bytes

A run of the tool on a text, and what the generated program writes and reads. `Defined ds dflt t x` says
that the XDR value `x` is a value of the type `t` of the file, by RFC 4506 (`Spec/Schema.lean`); with
`dflt = false` no union in it takes its default arm. `Rfc.encode x` are the bytes RFC 4506 prescribes for
`x`. `Supported` lists what is excluded (`Spec/Fragment.lean`); every exclusion is one of something the tool
translates wrongly, as the theorems at the end show.
-/

namespace Xdr.Rpcgen

open Rfc (XVal)

/-- The Rust type has a value for `x`: it is written as RFC 4506 prescribes for `x`, and read from that. -/
def Conforms (env : Env) (ty : String) (x : XVal) : Prop :=
  ∃ bs v, Rfc.encode x = some bs ∧ toBytes env (.named ty) v = .ok bs ∧
    ∀ n, v.depth < n → fromBytes env n (.named ty) bs = .ok v

/-- What a run that prints a file did. -/
theorem run_ok {n : Nat} {s : Str} {flags : Flags} {file : RustFile} (h : run n s flags = .printed file) :
    ∃ ds, parse s = .ok ds ∧ gen_code n ds flags.config = .ok file := by
  unfold run at h
  split at h
  · next ds hp =>
    refine ⟨ds, hp, ?_⟩
    split at h
    · next f hf =>
      cases h
      exact hf
    all_goals cases h
  all_goals cases h

/-- The core of C53, for any tree the language can express. -/
theorem conforms_of_gen {n : Nat} {ds : List Definition} {flags : Flags} {file : RustFile}
    (hwf : WellFormed ds) (hg : gen_code n ds flags.config = .ok file)
    {defs : List (String × Def)} (hd : file.defs = some defs) (hok : Supported ds flags.config)
    (dflt : Bool) (t : TypeDef) (name : Str) (x : XVal) (ht : .type t ∈ ds) (hname : t.name = some name)
    (hnd : ∀ d, t ≠ .declaration d)
    (hpos : ∀ e as, t = .enum e as → flags.use_std_trait = true → Positional ds as)
    (hdf : dflt = true → flags.use_union = true) (hx : Defined ds dflt t x) :
    ∃ ty, upper_camel_case_ident name = .ok ty ∧ Conforms (Xdr.program defs) ty.str x := by
  have R : Run ds flags.config n file defs dflt := {
    wf := hwf
    ok := hok
    rt := rfl
    enumTraits := by
      simp only [Flags.config, Bool.and_eq_true, Bool.not_eq_true']
      rintro ⟨⟨h1, -⟩, h2⟩
      rw [h1] at h2
      cases h2
    unionTraits := by
      simp only [Flags.config, Bool.and_eq_true, Bool.not_eq_true']
      rintro ⟨⟨h1, -⟩, h2⟩
      rw [h1] at h2
      cases h2
    gen := hg
    defs := hd
    dflt := hdf }
  have hrep := Defined.rep R hx ht
  obtain ⟨bs, hb⟩ := Option.isSome_iff_exists.1 (hx.encodes R.enums ht)
  have fin : ∀ ty : RIdent, (∃ v, Rep (Xdr.program defs) (.named ty.str) v x) →
      Conforms (Xdr.program defs) ty.str x := by
    rintro ty ⟨v, hv⟩
    exact ⟨bs, v, hb, hv.write hb, fun n hn => hv.read hb hn⟩
  cases t with
  | declaration d => exact absurd rfl (hnd d)
  | enum e as =>
    cases hname
    obtain ⟨a, ha, k, hk, rfl⟩ := hrep
    obtain ⟨ks, hnum, hks⟩ := hok.enums name as ht
    obtain ⟨e, he, -⟩ := gen_code_enum hg ht
    obtain ⟨_, _, -, hty, -⟩ := convert_enum_ok he
    obtain ⟨_, i, id, -, -, -, h1, -⟩ := enum_values R.wf R.enumTraits hg hd ht hnum hks ha hk hty
    exact ⟨_, hty, fin _ ⟨_, h1 (hpos name as rfl)⟩⟩
  | struct s ms =>
    cases hname
    obtain ⟨st, hst, -⟩ := gen_code_struct hg ht
    have hty := (convert_struct_ok hst).1
    exact ⟨_, hty, fin _ (hrep _ hty).1⟩
  | union u b =>
    cases hname
    obtain ⟨ut, hut, -⟩ := gen_code_union hg ht
    obtain ⟨_, _, _, hty, _⟩ := convert_union_ok hut
    exact ⟨_, hty, fin _ (hrep _ hty).1⟩

/-- C53. For every file the tool translates, in the supported fragment, and every enum, structure and union
`name` in it: each of its XDR values has a Rust value of the generated type, which `to_bytes` writes as
RFC 4506 prescribes and `from_bytes` reads back from that. Values that take default arms are included with
`--use-union`; enums as such are included with `--use-std-trait` only if they are numbered by position
(their use as structure members needs no such condition). -/
theorem C53_conforms_partial {n : Nat} {s : Str} {flags : Flags} {file : RustFile} (h : run n s flags = .printed file)
    {defs : List (String × Def)} (hd : file.defs = some defs) :
    ∃ ds, parse s = .ok ds ∧ (Supported ds flags.config →
      ∀ dflt t name x, .type t ∈ ds → t.name = some name → (∀ d, t ≠ .declaration d) →
        (∀ e as, t = .enum e as → flags.use_std_trait = true → Positional ds as) →
        (dflt = true → flags.use_union = true) → Defined ds dflt t x →
        ∃ ty, upper_camel_case_ident name = .ok ty ∧ Conforms (Xdr.program defs) ty.str x) := by
  obtain ⟨ds, hp, hg⟩ := run_ok h
  exact ⟨ds, hp, fun hok dflt t name x ht hname hnd hpos hdf hx =>
    conforms_of_gen (wellFormed_parse hp) hg hd hok dflt t name x ht hname hnd hpos hdf hx⟩

/-! ## An interface in the fragment, with every flag -/

def catalogueText : Str := c!"
const NAME_MAX = 16;
enum kind { none = 2, text = 1, blob = 0, misc = 3 };
typedef opaque bytes<NAME_MAX>;
typedef bytes pages<>;
struct entry { kind k; int pos[3]; bytes data; pages ps; string name<NAME_MAX>; entry *next; double weight; opaque id[4]; };
union item switch (kind k) { case none: void; case text: string s<>; case blob: bytes b; default: entry e; };
"

def catalogueEntry : List Declaration :=
  [.variable (.identifier c!"kind") c!"k", .fixedArray (.int true) c!"pos" (.constant (.decimal c!"3")),
   .variable (.identifier c!"bytes") c!"data", .variable (.identifier c!"pages") c!"ps",
   .string c!"name" (some (.identifier c!"NAME_MAX")), .optionVariable (.identifier c!"entry") c!"next",
   .variable .double c!"weight", .opaqueFixedArray c!"id" (.constant (.decimal c!"4"))]

def catalogueItem : UnionBody := ⟨.variable (.identifier c!"kind") c!"k",
  [⟨[.identifier c!"none"], .void⟩, ⟨[.identifier c!"text"], .string c!"s" none⟩,
   ⟨[.identifier c!"blob"], .variable (.identifier c!"bytes") c!"b"⟩],
  some (.variable (.identifier c!"entry") c!"e")⟩

def catalogueKinds : List Assign := [⟨c!"none", .constant (.decimal c!"2")⟩,
  ⟨c!"text", .constant (.decimal c!"1")⟩, ⟨c!"blob", .constant (.decimal c!"0")⟩,
  ⟨c!"misc", .constant (.decimal c!"3")⟩]

def catalogue : List Definition :=
  [.constant ⟨c!"NAME_MAX", .constant (.decimal c!"16")⟩,
   .type (.enum c!"kind" catalogueKinds),
   .type (.declaration (.opaqueVariableArray c!"bytes" (some (.identifier c!"NAME_MAX")))),
   .type (.declaration (.variableArray (.identifier c!"bytes") c!"pages" none)),
   .type (.struct c!"entry" catalogueEntry),
   .type (.union c!"item" catalogueItem)]

theorem parse_catalogue : parse catalogueText = .ok catalogue := by
  set_option maxRecDepth 100000 in rfl

theorem numbered_catalogue : Numbered catalogue catalogueKinds [2, 1, 0, 3] where
  stands := .cons ⟨_, .literal _, rfl⟩ (.cons ⟨_, .literal _, rfl⟩ (.cons ⟨_, .literal _, rfl⟩
    (.cons ⟨_, .literal _, rfl⟩ .nil)))
  distinct := by decide
  range := by decide

theorem positional_catalogue : Positional catalogue catalogueKinds :=
  ⟨_, numbered_catalogue, by decide⟩

theorem labelled_catalogue :
    Labelled catalogue (.identifier c!"kind") catalogueItem.labels [2, 1, 0] where
  selects :=
    .cons (.enum (e := c!"kind") (as := catalogueKinds) (a := ⟨c!"none", .constant (.decimal c!"2")⟩) rfl (by decide) ⟨_, .literal _, rfl⟩)
    (.cons (.enum (e := c!"kind") (as := catalogueKinds) (a := ⟨c!"text", .constant (.decimal c!"1")⟩) rfl (by decide) ⟨_, .literal _, rfl⟩)
    (.cons (.enum (e := c!"kind") (as := catalogueKinds) (a := ⟨c!"blob", .constant (.decimal c!"0")⟩) rfl (by decide) ⟨_, .literal _, rfl⟩)
     .nil))
  distinct := by decide
  range := by decide

theorem catalogue_labels : catalogueItem.labels = [(.identifier c!"none", .void),
    (.identifier c!"text", .string c!"s" none),
    (.identifier c!"blob", .variable (.identifier c!"bytes") c!"b")] := rfl

theorem catalogue_default : catalogueItem.default = some (.variable (.identifier c!"entry") c!"e") := rfl

/-- Declarations without opaque data. -/
theorem not_opaque {ds : List Definition} {d : Declaration} (h1 : ∀ nm v, d ≠ .opaqueFixedArray nm v)
    (h2 : ∀ nm m, d ≠ .opaqueVariableArray nm m) (h3 : ∀ name d', d.type_specifier = some (.identifier name) →
      typeOf ds name ≠ some (.declaration d')) : ¬ HasOpaque ds d := by
  intro h
  cases h with
  | fixed => exact h1 _ _ rfl
  | «variable» => exact h2 _ _ rfl
  | typedef h4 h5 => exact h3 _ _ h4 h5

theorem supported_catalogue (flags : Flags) : Supported catalogue flags.config where
  unambiguous := ⟨by decide +kernel, by decide +kernel⟩
  enums e as h := by
    simp only [catalogue, List.mem_cons, reduceCtorEq, Definition.type.injEq, TypeDef.enum.injEq,
      List.not_mem_nil, or_false, false_or] at h
    obtain ⟨rfl, rfl⟩ := h
    exact ⟨_, numbered_catalogue, fun _ => by decide⟩
  positions _ d name e as _ _ ht := by
    have hm := (typeOf_mem ht).1
    simp only [catalogue, List.mem_cons, reduceCtorEq, Definition.type.injEq, TypeDef.enum.injEq,
      List.not_mem_nil, or_false, false_or] at hm
    obtain ⟨rfl, rfl⟩ := hm
    exact positional_catalogue
  arrays ts nm m h := by
    have : ts = .identifier c!"bytes" := by
      rcases h with h | ⟨s, ms, h, hd⟩ | ⟨u, b, v, h, hd⟩ | ⟨u, b, h, hd⟩
      · simp [catalogue, TypedefIn] at h
        exact h.1
      · simp [catalogue] at h
        obtain ⟨rfl, rfl⟩ := h
        simp [catalogueEntry] at hd
      · simp [catalogue] at h
        obtain ⟨rfl, rfl⟩ := h
        simp [catalogue_labels] at hd
      · simp [catalogue] at h
        obtain ⟨rfl, rfl⟩ := h
        simp [catalogue_default] at hd
    subst this
    exact .inl (.typedef (d := .opaqueVariableArray c!"bytes" (some (.identifier c!"NAME_MAX"))) rfl .direct)
  unions u b h := by
    simp only [catalogue, List.mem_cons, reduceCtorEq, Definition.type.injEq, TypeDef.union.injEq,
      List.not_mem_nil, or_false, false_or] at h
    obtain ⟨rfl, rfl⟩ := h
    exact ⟨_, _, _, rfl, labelled_catalogue, fun _ => by decide⟩
  arms _ d h := by
    obtain ⟨u, b, v, h, hd⟩ := h
    simp only [catalogue, List.mem_cons, reduceCtorEq, Definition.type.injEq, TypeDef.union.injEq,
      List.not_mem_nil, or_false, false_or] at h
    obtain ⟨rfl, rfl⟩ := h
    simp [catalogue_labels] at hd
    rcases hd with ⟨-, rfl⟩ | ⟨-, rfl⟩ | ⟨-, rfl⟩
    · exact .inr (not_opaque (by simp) (by simp) (fun _ _ h => by cases h))
    · exact .inr (not_opaque (by simp) (by simp) (fun _ _ h h' => by
        cases h
        cases h'))
    · exact .inl (.typedef (d := .opaqueVariableArray c!"bytes" (some (.identifier c!"NAME_MAX"))) rfl .direct)
  defaults _ d h := by
    obtain ⟨u, b, h, hd⟩ := h
    simp only [catalogue, List.mem_cons, reduceCtorEq, Definition.type.injEq, TypeDef.union.injEq,
      List.not_mem_nil, or_false, false_or] at h
    obtain ⟨rfl, rfl⟩ := h
    simp [catalogue_default] at hd
    subst hd
    refine not_opaque (by simp) (by simp) ?_
    intro name d' h
    cases h
    intro h
    cases h

theorem run_accepted {n : Nat} {s : Str} {ds : List Definition} {flags : Flags} (hp : parse s = .ok ds)
    (h : accepted n ds flags.config = true) :
    ∃ file defs, run n s flags = .printed file ∧ file.defs = some defs := by
  obtain ⟨file, defs, hg, hd⟩ := accepted_ok h
  exact ⟨file, defs, by simp only [run, hp, hg], hd⟩

/-- An entry with another one behind its pointer. -/
def someEntry (next : XVal) : XVal :=
  .struct [.enum 2, .arrayFixed [.int 1, .int (-2), .int 3], .opaqueVar [1, 2, 3],
    .arrayVar [.opaqueVar [9], .opaqueVar []], .string (utf8Bytes ['a', 'é']), next, .double 0,
    .opaqueFixed [1, 2, 3, 4]]

theorem some_entry {dflt : Bool} {next : XVal}
    (hn : Declared catalogue dflt (.optionVariable (.identifier c!"entry") c!"next") next) :
    Defined catalogue dflt (.struct c!"entry" catalogueEntry) (someEntry next) := by
  have hb : ∀ bs : Bytes, bs.length ≤ 3 → Typed catalogue dflt (.identifier c!"bytes") (.opaqueVar bs) := by
    intro bs h
    refine .name (t := .declaration (.opaqueVariableArray c!"bytes" (some (.identifier c!"NAME_MAX")))) rfl
      (.typedef (.opaqueVar (by omega) ?_))
    intro v k hv hk
    cases hv
    have h16 : Stands catalogue (.identifier c!"NAME_MAX") 16 :=
      ⟨.decimal c!"16", .name rfl (.literal _), rfl⟩
    have := stands_unique hk h16
    omega
  refine .struct (.cons (.variable (.name (t := .enum c!"kind" catalogueKinds) rfl
    (.enum (a := ⟨c!"none", .constant (.decimal c!"2")⟩) (by decide) ⟨_, .literal _, rfl⟩)))
    (.cons (.fixedArray ⟨_, .literal _, rfl⟩ (.cons (.int (by decide) (by decide))
      (.cons (.int (by decide) (by decide)) (.cons (.int (by decide) (by decide)) .nil))))
    (.cons (.variable (hb _ (by decide)))
    (.cons (.variable (.name (t := .declaration (.variableArray (.identifier c!"bytes") c!"pages" none)) rfl
      (.typedef (.variableArray (by decide) (by simp) (.cons (hb _ (by decide)) (.cons (hb _ (by decide)) .nil))))))
    (.cons (.string (by decide) ?_)
    (.cons hn (.cons (.variable (.double (by decide))) (.cons (.opaqueFixed ⟨_, .literal _, rfl⟩) .nil))))))))
  intro v k hv hk
  cases hv
  have h16 : Stands catalogue (.identifier c!"NAME_MAX") 16 :=
    ⟨.decimal c!"16", .name rfl (.literal _), rfl⟩
  have := stands_unique hk h16
  subst this
  decide

/-- With each set of flags: an entry with an entry behind its pointer. -/
example : ∀ flags ∈ ([{}, { use_std_trait := true }, { use_indexer := true }, { use_union := true },
    { use_std_trait := true, use_union := true }] : List Flags),
    ∃ file defs, run 9 catalogueText flags = .printed file ∧ file.defs = some defs ∧
      Conforms (Xdr.program defs) "Entry" (someEntry (.optSome (someEntry .optNone))) := by
  intro flags hf
  have hacc : accepted 9 catalogue flags.config = true := by
    revert flags
    decide +kernel
  obtain ⟨file, defs, hr, hd⟩ := run_accepted parse_catalogue hacc
  refine ⟨file, defs, hr, hd, ?_⟩
  obtain ⟨ds, hp, key⟩ := C53_conforms_partial hr hd
  rw [parse_catalogue] at hp
  cases hp
  obtain ⟨ty, hty, h⟩ := key (supported_catalogue flags) false (.struct c!"entry" catalogueEntry) c!"entry" _
    (by simp [catalogue]) rfl (by simp) (by simp) (by simp)
    (some_entry (.present (.name (t := .struct c!"entry" catalogueEntry) rfl (some_entry .absent))))
  cases hty
  exact h

/-- With `--use-union`, an item that takes the default arm. -/
example : ∃ file defs, run 9 catalogueText { use_union := true } = .printed file ∧ file.defs = some defs ∧
    Conforms (Xdr.program defs) "Item" (.union (.enum 3) (someEntry .optNone)) := by
  obtain ⟨file, defs, hr, hd⟩ := run_accepted (n := 9) (flags := { use_union := true }) parse_catalogue
    (by decide +kernel)
  refine ⟨file, defs, hr, hd, ?_⟩
  obtain ⟨ds, hp, key⟩ := C53_conforms_partial hr hd
  rw [parse_catalogue] at hp
  cases hp
  obtain ⟨ty, hty, h⟩ := key (supported_catalogue _) true (.union c!"item" catalogueItem) c!"item"
    (.union (.enum 3) (someEntry .optNone))
    (by simp [catalogue]) rfl (by simp) (by simp) (by simp)
    (.default rfl rfl rfl (.name (t := .enum c!"kind" catalogueKinds) rfl
      (.enum (a := ⟨c!"misc", .constant (.decimal c!"3")⟩) (by decide) ⟨_, .literal _, rfl⟩)) rfl
      (fun l hl hs => by
        obtain ⟨k, hk⟩ := zip_mem_left labelled_catalogue.selects.length_eq hl
        have := hs.unique (supported_catalogue {}).unambiguous (forall₂_zip labelled_catalogue.selects hk)
        have hk := (List.of_mem_zip hk).2
        subst this
        exact absurd hk (by decide))
      (.variable (.name (t := .struct c!"entry" catalogueEntry) rfl (some_entry .absent))))
  cases hty
  exact h

/-! ## The exclusions are needed

In each case the tool accepts the text, the generated code compiles as far as `Meaning.lean` goes, `x` is a
value of the type, and the generated type has no value that is read from and written as what RFC 4506
prescribes for `x`. -/

/-- The bytes of an XDR value are not read. -/
theorem not_conforms {env : Env} {ty : String} {x : XVal} {bs : Bytes} (hb : Rfc.encode x = some bs)
    {e : Error} (h : ∀ n, fromBytes env (n + 5) (.named ty) bs = .err e) : ¬ Conforms env ty x := by
  rintro ⟨bs', v, hb', -, hr⟩
  rw [hb] at hb'
  cases hb'
  have := hr (v.depth + 5) (by omega)
  rw [h] at this
  cases this

/-- Wrong translations. -/
def Violated (s : Str) (flags : Flags) (dflt : Bool) (name ty : Str) (x : XVal) : Prop :=
  ∃ ds file defs t, run 5 s flags = .printed file ∧ parse s = .ok ds ∧ file.defs = some defs ∧
    .type t ∈ ds ∧ t.name = some name ∧ upper_camel_case_ident name = .ok ⟨false, ty⟩ ∧ Defined ds dflt t x ∧
    ¬ Conforms (Xdr.program defs) (String.ofList ty) x

/-- A fixed-length opaque arm with `--use-indexer`: `VariableArray`, which has a length in front. -/
theorem C53_fixed_opaque_arm_violated : Violated
    c!"enum e { A = 0 }; union u switch (e k) { case A: opaque o[4]; };" { use_indexer := true } false
    c!"u" c!"U" (.union (.enum 0) (.opaqueFixed [0, 0, 0, 9])) := by
  refine ⟨_, _, _, _, rfl, rfl, rfl, List.mem_cons_of_mem _ List.mem_cons_self, rfl, rfl,
    .arm rfl List.mem_cons_self (.enum (as := [⟨c!"A", .constant (.decimal c!"0")⟩])
      (a := ⟨c!"A", .constant (.decimal c!"0")⟩) rfl List.mem_cons_self ⟨_, .literal _, rfl⟩)
      (.name (t := .enum c!"e" [⟨c!"A", .constant (.decimal c!"0")⟩]) rfl (.enum List.mem_cons_self ⟨_, .literal _, rfl⟩))
      rfl (.opaqueFixed ⟨_, .literal _, rfl⟩), ?_⟩
  exact not_conforms (bs := [0, 0, 0, 0, 0, 0, 0, 9]) (by decide) (fun n => rfl)

/-- Two enums for the examples. -/
def oneMember : List Assign := [⟨c!"A", .constant (.decimal c!"0")⟩]

def threeMembers : List Assign := [⟨c!"A", .constant (.decimal c!"0")⟩, ⟨c!"B", .constant (.decimal c!"1")⟩,
  ⟨c!"C", .constant (.decimal c!"2")⟩]

/-- A default arm of opaque data with `--use-union`: the bytes are numbers of four bytes each. -/
theorem C53_opaque_default_violated : Violated
    c!"enum e { A = 0, B = 1, C = 2 }; union u switch (e k) { case A: void; default: opaque o<>; };"
    { use_union := true } true c!"u" c!"U" (.union (.enum 1) (.opaqueVar [7, 8])) := by
  refine ⟨_, _, _, _, rfl, rfl, rfl, List.mem_cons_of_mem _ List.mem_cons_self, rfl, rfl,
    .default rfl rfl rfl (.name (t := .enum c!"e" threeMembers) rfl
      (.enum (a := ⟨c!"B", .constant (.decimal c!"1")⟩) (by decide) ⟨_, .literal _, rfl⟩)) rfl ?_
      (.opaqueVar (by decide) (by simp)), ?_⟩
  · intro l hl hs
    have : l = (.identifier c!"A", .void) := List.mem_singleton.1 hl
    subst this
    have := hs.unique ⟨by decide, by decide⟩ (.enum (e := c!"e") (as := threeMembers)
      (a := ⟨c!"A", .constant (.decimal c!"0")⟩) rfl List.mem_cons_self ⟨_, .literal _, rfl⟩)
    cases this
  · exact not_conforms (bs := [0, 0, 0, 1, 0, 0, 0, 2, 7, 8, 0, 0]) (by decide) (fun n => rfl)

/-- A variable-length array of a typedef name of an array of opaque data: the inner array is dropped. -/
theorem C53_opaque_array_violated : Violated
    c!"typedef opaque o<>; typedef o two[2]; struct s { two x<>; };" {} false
    c!"s" c!"S" (.struct [.arrayVar [.arrayFixed [.opaqueVar [], .opaqueVar []]]]) := by
  have ho : ∀ ds, typeOf ds c!"o" = some (.declaration (.opaqueVariableArray c!"o" none)) →
      Typed ds false (.identifier c!"o") (.opaqueVar []) := fun ds h =>
    .name h (.typedef (.opaqueVar (by decide) (by simp)))
  refine ⟨_, _, _, _, rfl, rfl, rfl, List.mem_cons_of_mem _ (List.mem_cons_of_mem _ List.mem_cons_self), rfl, rfl,
    .struct (.cons (.variableArray (by decide) (by simp) (.cons (.name rfl (.typedef (.fixedArray
      ⟨_, .literal _, rfl⟩ (.cons (ho _ rfl) (.cons (ho _ rfl) .nil))))) .nil)) .nil), ?_⟩
  exact not_conforms (bs := [0, 0, 0, 1, 0, 0, 0, 0, 0, 0, 0, 0]) (by decide) (fun n => rfl)

/-- With `--use-std-trait`, an enum under a typedef name is written by position. -/
theorem C53_position_violated : Violated
    c!"enum e { A = 5 }; typedef e f; struct s { f x; };" { use_std_trait := true } false
    c!"s" c!"S" (.struct [.enum 5]) := by
  refine ⟨_, _, _, _, rfl, rfl, rfl, List.mem_cons_of_mem _ (List.mem_cons_of_mem _ List.mem_cons_self), rfl, rfl,
    .struct (.cons (.variable (.name rfl (.typedef (.variable (.name rfl
      (.enum List.mem_cons_self ⟨_, .literal _, rfl⟩)))))) .nil), ?_⟩
  exact not_conforms (bs := [0, 0, 0, 5]) (by decide) (fun n => rfl)

/-- So it is as such. -/
theorem C53_enum_position_violated : Violated c!"enum e { A = 5 };" { use_std_trait := true } false
    c!"e" c!"E" (.enum 5) := by
  refine ⟨_, _, _, _, rfl, rfl, rfl, List.mem_cons_self, rfl, rfl,
    .enum List.mem_cons_self ⟨_, .literal _, rfl⟩, ?_⟩
  exact not_conforms (bs := [0, 0, 0, 5]) (by decide) (fun n => rfl)

/-- Without flags, an enum with a negative number. -/
theorem C53_negative_violated : Violated c!"enum e { A = -1, B = 0 };" {} false c!"e" c!"E" (.enum (-1)) := by
  refine ⟨_, _, _, _, rfl, rfl, rfl, List.mem_cons_self, rfl, rfl,
    .enum List.mem_cons_self ⟨_, .literal _, rfl⟩, ?_⟩
  exact not_conforms (bs := [255, 255, 255, 255]) (by decide) (fun n => rfl)

/-- Without flags, a default arm. -/
theorem C53_default_violated : Violated
    c!"enum e { A = 0, B = 1, C = 2 }; union u switch (e k) { case A: void; default: void; };"
    {} true c!"u" c!"U" (.union (.enum 2) .void) := by
  refine ⟨_, _, _, _, rfl, rfl, rfl, List.mem_cons_of_mem _ List.mem_cons_self, rfl, rfl,
    .default rfl rfl rfl (.name (t := .enum c!"e" threeMembers) rfl
      (.enum (a := ⟨c!"C", .constant (.decimal c!"2")⟩) (by decide) ⟨_, .literal _, rfl⟩)) rfl ?_ .void, ?_⟩
  · intro l hl hs
    have : l = (.identifier c!"A", .void) := List.mem_singleton.1 hl
    subst this
    have := hs.unique ⟨by decide, by decide⟩ (.enum (e := c!"e") (as := threeMembers)
      (a := ⟨c!"A", .constant (.decimal c!"0")⟩) rfl List.mem_cons_self ⟨_, .literal _, rfl⟩)
    cases this
  · exact not_conforms (bs := [0, 0, 0, 2]) (by decide) (fun n => rfl)

/-- With `--use-indexer`, a default arm: it is read, but writing what was read panics. -/
theorem C53_indexer_default_violated : Violated
    c!"enum e { A = 0, B = 1, C = 2 }; union u switch (e k) { case A: void; default: void; };"
    { use_indexer := true } true c!"u" c!"U" (.union (.enum 2) .void) := by
  refine ⟨_, _, _, _, rfl, rfl, rfl, List.mem_cons_of_mem _ List.mem_cons_self, rfl, rfl,
    .default rfl rfl rfl (.name (t := .enum c!"e" threeMembers) rfl
      (.enum (a := ⟨c!"C", .constant (.decimal c!"2")⟩) (by decide) ⟨_, .literal _, rfl⟩)) rfl ?_ .void, ?_⟩
  · intro l hl hs
    have : l = (.identifier c!"A", .void) := List.mem_singleton.1 hl
    subst this
    have := hs.unique ⟨by decide, by decide⟩ (.enum (e := c!"e") (as := threeMembers)
      (a := ⟨c!"A", .constant (.decimal c!"0")⟩) rfl List.mem_cons_self ⟨_, .literal _, rfl⟩)
    cases this
  · rintro ⟨bs, v, hb, hw, hr⟩
    have h2 : bs = [0, 0, 0, 2] := by
      have : Rfc.encode (.union (.enum 2) .void) = some [0, 0, 0, 2] := by decide
      rw [this] at hb
      cases hb
      rfl
    subst h2
    have h3 := hr (v.depth + 1) (by omega)
    have h4 : v = .variant 1 [] := (Res.ok.inj h3).symm
    subst h4
    cases hw

/-- With `--use-indexer`, a constant and an enum member of the same name: the label is the constant. -/
theorem C53_ambiguous_violated : Violated
    c!"const A = 5; enum e { A = 0 }; union u switch (e k) { case A: void; };" { use_indexer := true } false
    c!"u" c!"U" (.union (.enum 0) .void) := by
  refine ⟨_, _, _, _, rfl, rfl, rfl, List.mem_cons_of_mem _ (List.mem_cons_of_mem _ List.mem_cons_self), rfl, rfl,
    .arm rfl List.mem_cons_self (.enum (e := c!"e") (as := oneMember)
      (a := ⟨c!"A", .constant (.decimal c!"0")⟩) rfl List.mem_cons_self ⟨_, .literal _, rfl⟩)
      (.name (t := .enum c!"e" oneMember) rfl (.enum List.mem_cons_self ⟨_, .literal _, rfl⟩))
      rfl .void, ?_⟩
  exact not_conforms (bs := [0, 0, 0, 0]) (by decide) (fun n => rfl)

end Xdr.Rpcgen
