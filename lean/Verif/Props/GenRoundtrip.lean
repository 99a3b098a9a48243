import Verif.RpcgenProofs.Inverse
import Verif.Props.Writable
import Verif.Props.Accepted
/-!
# Property C91: which values of generated types come back

`Small` (`Spec/Fits.lean`) bounds lengths by 2^32; `Selected` (`Spec/Inside.lean`) says that the discriminants inside a
value agree with the variants they are in.
-/

namespace Xdr.Rpcgen

/-- C91 for the program of any supported interface, any of its types, and any value of the type: if it is written, it is
read back, provided that the discriminants in it agree with their variants. -/
theorem C91_reads {n : Nat} {s : Str} {flags : Flags} {file : RustFile} (h : run n s flags = .printed file)
    {defs : List (String × Def)} (hd : file.defs = some defs) {ds : List Definition} (hp : parse s = .ok ds)
    (hok : Supported ds flags.config) {name : String} {v : Val} (hv : HasTy (Xdr.program defs) (.named name) v)
    (hs : Small (Xdr.program defs) (.named name) v) {bs : Bytes}
    (hb : toBytes (Xdr.program defs) (.named name) v = .ok bs) (hsel : Selected (Xdr.program defs) (.named name) v) :
    ∀ m, v.depth < m → fromBytes (Xdr.program defs) m (.named name) bs = .ok v := by
  obtain ⟨ds', hp', hg⟩ := run_ok h
  cases hp.symm.trans hp'
  obtain ⟨sv, hsv⟩ := Option.isSome_iff_exists.1 hv
  have henv := gen_inv (run_of (wellFormed_parse hp) hok hg hd)
  have hf := fits_of henv _ (Nat.le_refl _) (present_sound _ _ _ _ hsv) hs trivial ⟨bs, hb⟩ hsel
  exact fun m hm => C01_roundtrip _ _ _ _ _ hf hm hb

/-- C91: and only then. -/
theorem C91_exact {n : Nat} {s : Str} {flags : Flags} {file : RustFile} (h : run n s flags = .printed file)
    {defs : List (String × Def)} (hd : file.defs = some defs) {ds : List Definition} (hp : parse s = .ok ds)
    (hok : Supported ds flags.config) {name : String} {v : Val} (hv : HasTy (Xdr.program defs) (.named name) v)
    (hs : Small (Xdr.program defs) (.named name) v) {bs : Bytes}
    (hb : toBytes (Xdr.program defs) (.named name) v = .ok bs) :
    (∃ m, fromBytes (Xdr.program defs) m (.named name) bs = .ok v) ↔ Selected (Xdr.program defs) (.named name) v := by
  constructor
  · intro hf
    obtain ⟨ds', hp', hg⟩ := run_ok h
    cases hp.symm.trans hp'
    exact selected_of_formed (gen_inv (run_of (wellFormed_parse hp) hok hg hd)) ⟨bs, (C84_accepted _ _ _ _).1 hf⟩
  · exact fun hsel => ⟨v.depth + 1, C91_reads h hd hp hok hv hs hb hsel _ (Nat.lt_succ_self _)⟩

theorem union_flag {n : Nat} {ds : List Definition} {cfg : Config} (hrt : cfg.remove_typedef = true) {file : RustFile}
    (hg : gen_code n ds cfg = .ok file) {defs : List (String × Def)} (hd : file.defs = some defs) {name : String}
    {disc : Ty} {vars : List (String × Option (List Ty))} {impl : UnionImpl}
    (he : Xdr.program defs name = some (.union disc vars impl)) : cfg.union_impl_union = true := by
  rcases program_origin hd he with ⟨-, h⟩ | ⟨item, hi, hname, hm⟩
  · cases h
  · rcases item_origin hrt hg hi with ⟨nm, as, e, hin, rfl, hc⟩ | ⟨nm, ms, s, hin, rfl, hc⟩ |
      ⟨nm, b, u, hin, rfl, hc⟩
    · obtain ⟨-, ⟨-, h⟩ | ⟨hder, ix, hix', h⟩⟩ := enum_meaning_ok hm <;> cases h
    · simp only [Item.meaning] at hm
      unfold StructItem.meaning at hm
      split at hm
      · simp only [Option.map_eq_some_iff] at hm
        obtain ⟨_, -, h⟩ := hm
        cases h
      · cases hm
    · obtain ⟨ct, acc, dflt, -, -, -, -, hde, -, -, hun⟩ := convert_union_ok hc
      obtain ⟨-, ⟨-, _, -, h⟩ | ⟨-, ix, vars', hix, h1, h2, -, -, h⟩ | ⟨-, un, _, _, _, hun', -⟩⟩ := union_meaning_ok hm
      · cases h
      · cases h
      · rw [hun] at hun'
        split at hun'
        · assumption
        · cases hun'

/-- C91: without `use-union` no type keeps a discriminant, and every value that is written is read back. -/
theorem C91_plain {n : Nat} {s : Str} {flags : Flags} {file : RustFile} (h : run n s flags = .printed file)
    {defs : List (String × Def)} (hd : file.defs = some defs) {ds : List Definition} (hp : parse s = .ok ds)
    (hok : Supported ds flags.config) (hu : flags.use_union = false) {name : String} {v : Val}
    (hv : HasTy (Xdr.program defs) (.named name) v) (hs : Small (Xdr.program defs) (.named name) v) {bs : Bytes}
    (hb : toBytes (Xdr.program defs) (.named name) v = .ok bs) :
    ∀ m, v.depth < m → fromBytes (Xdr.program defs) m (.named name) bs = .ok v := by
  refine C91_reads h hd hp hok hv hs hb ?_
  obtain ⟨ds', -, hg⟩ := run_ok h
  intro nm i d vs disc vars impl vn fs _ he
  have : flags.use_union = true := union_flag rfl hg hd he
  rw [hu] at this
  cases this

/-- C91: without `use-union`, without default arms under `use-indexer`, and with at most 2^31 variants per enum, every
value of the type is written and read back. -/
theorem C91_all {n : Nat} {s : Str} {flags : Flags} {file : RustFile} (h : run n s flags = .printed file)
    {defs : List (String × Def)} (hd : file.defs = some defs) {ds : List Definition} (hp : parse s = .ok ds)
    (hok : Supported ds flags.config) (hu : flags.use_union = false)
    (hdef : flags.config.union_impl_indexer = false ∨ ∀ nm b, .type (.union nm b) ∈ ds → b.default = none)
    (hen : ∀ name vars, Xdr.program defs name = some (.enum vars) → vars.length ≤ 2147483648) {name : String} {v : Val}
    (hv : HasTy (Xdr.program defs) (.named name) v) (hs : Small (Xdr.program defs) (.named name) v) :
    ∃ bs, toBytes (Xdr.program defs) (.named name) v = .ok bs ∧
      ∀ m, v.depth < m → fromBytes (Xdr.program defs) m (.named name) bs = .ok v := by
  obtain ⟨bs, hb⟩ := C90_generated_all h hd hen hp hdef hv
  exact ⟨bs, hb, C91_plain h hd hp hok hu hv hs hb⟩

/-- C91: so two values with one encoding are equal. -/
theorem C91_injective {n : Nat} {s : Str} {flags : Flags} {file : RustFile} (h : run n s flags = .printed file)
    {defs : List (String × Def)} (hd : file.defs = some defs) {ds : List Definition} (hp : parse s = .ok ds)
    (hok : Supported ds flags.config) {name : String} {v w : Val}
    (hv : HasTy (Xdr.program defs) (.named name) v) (hs : Small (Xdr.program defs) (.named name) v)
    (hsel : Selected (Xdr.program defs) (.named name) v)
    (hw : HasTy (Xdr.program defs) (.named name) w) (hs' : Small (Xdr.program defs) (.named name) w)
    (hsel' : Selected (Xdr.program defs) (.named name) w) {bs : Bytes}
    (hb : toBytes (Xdr.program defs) (.named name) v = .ok bs)
    (hb' : toBytes (Xdr.program defs) (.named name) w = .ok bs) : v = w := by
  have h1 := C91_reads h hd hp hok hv hs hb hsel (max v.depth w.depth + 1) (by omega)
  have h2 := C91_reads h hd hp hok hw hs' hb' hsel' (max v.depth w.depth + 1) (by omega)
  cases h1.symm.trans h2
  rfl

/-- A discriminant has no union in it. -/
theorem selected_discriminant {file : RustFile} {defs : List (String × Def)} (hd : file.defs = some defs) {rc : RTy}
    (hty : rc = .u32 ∨ rc = .bool ∨ ∃ e, .enum e ∈ file.types ∧ rc = .path e.name) {disc : Ty}
    (hdisc : rc.meaning file.constants = some disc) {v : Val} {s : SVal} (hv : Pres (Xdr.program defs) disc v s) :
    Selected (Xdr.program defs) disc v := by
  intro nm i d vs disc' vars impl vn fs hh he
  rcases hty with rfl | rfl | ⟨e, hmem, rfl⟩ <;> cases hdisc
  · cases hh with
    | part h =>
      cases hv
      cases h
  · cases hh with
    | part h =>
      cases hv
      cases h
  · obtain ⟨d', h1, h2⟩ := defs_lookup hd hmem
    obtain ⟨-, ⟨-, rfl⟩ | ⟨-, ix, -, rfl⟩⟩ := enum_meaning_ok h1
    · cases hh with
      | here => cases h2.symm.trans he
      | part h =>
        simp only [Item.name] at h2
        cases v <;> simp only [parts, h2, List.not_mem_nil] at h
        rw [List.getElem?_map, Option.map_map] at h
        generalize e.variants[(_ : Nat)]? = o at h
        cases o <;> simp [Shape.types] at h
    · cases hh with
      | here => cases h2.symm.trans he
      | part h =>
        simp only [Item.name] at h2
        cases v <;> simp only [parts, h2, List.not_mem_nil] at h
        rw [List.getElem?_map] at h
        generalize e.variants[(_ : Nat)]? = o at h
        cases o <;> simp at h

/-- C91: what it means that a discriminant agrees. With `--use-union`, a value that a variant of the union holds as its
discriminant is written as some XDR value `xd` of the discriminant's type, with a number `j`. The union's `name_by_value`
names the variant of the case with the label `j`, and the default variant if there is none. -/
theorem C91_discriminant {n : Nat} {s : Str} {flags : Flags} {file : RustFile} (h : run n s flags = .printed file)
    {defs : List (String × Def)} (hd : file.defs = some defs) {ds : List Definition} (hp : parse s = .ok ds)
    (hok : Supported ds flags.config) (hdfd : NamesDefined ds) (hu : flags.use_union = true) {name : Str}
    {body : UnionBody} (hm : .type (.union name body) ∈ ds) {cond : TypeSpecifier} {nm : Str}
    (hcond : body.cond = .variable cond nm) {ks : List Int} (hlab : Labelled ds cond body.labels ks) :
    ∃ ty disc vars impl, upper_camel_case_ident name = .ok ty ∧
      Xdr.program defs ty.str = some (.union disc vars impl) ∧
      ∀ d bs, HasTy (Xdr.program defs) disc d → Small (Xdr.program defs) disc d →
        toBytes (Xdr.program defs) disc d = .ok bs →
        ∃ xd j, TypedL ds flags.config.leeway cond xd ∧ Rfc.encode xd = some bs ∧ discriminant xd = some j ∧
          ∀ vn, impl.name_by_value d = .ok vn ↔
            (∃ l a id, (l, j) ∈ body.labels.zip ks ∧ l.1 = .identifier a ∧ upper_camel_case_ident a = .ok id ∧
              vn = id.str) ∨ (j ∉ ks ∧ body.default.isSome = true ∧ vn = "Default") := by
  obtain ⟨ds', hp', hg⟩ := run_ok h
  cases hp.symm.trans hp'
  have R := run_of (wellFormed_parse hp) hok hg hd
  have hci : flags.config.union_impl_indexer = false := by simp [Flags.config, hu]
  have hdf : DefaultsWritten ds flags.config := fun _ _ _ _ _ h => by simp [Flags.config, Config.union_complement_index, hu] at h
  obtain ⟨ty, vars, impl, disc, rc, h1, h2, hnd, h3, h4, h5, h6, h7⟩ :=
    union_case R.wf hok.unambiguous R.enums hci hu hg hd hm hcond hlab
  obtain ⟨hrc, hty⟩ := h3 (labels_ne R.wf hm)
  obtain ⟨l0, hl0⟩ := List.exists_mem_of_ne_nil _ (labels_ne R.wf hm)
  obtain ⟨k0, hk0⟩ := zip_mem_left hlab.selects.length_eq hl0
  have hs0 := forall₂_zip hlab.selects hk0
  refine ⟨ty, disc, vars, impl, h1, h2, fun d bs hv hs hb => ?_⟩
  obtain ⟨sv, hsv⟩ := Option.isSome_iff_exists.1 hv
  have hpres := present_sound _ _ _ _ hsv
  have hinv : disc.Inv (Xdr.program defs) := by
    rcases hty with rfl | rfl | ⟨e, -, rfl⟩ <;> cases h4 <;> trivial
  have hf := fits_of (gen_inv R) _ (Nat.le_refl _) hpres hs hinv ⟨bs, hb⟩ (selected_discriminant hd hty h4 hpres)
  obtain ⟨xd, j, hx, hr, hj, hnum, -⟩ := cond_back R hdfd hm hcond hs0 hrc hty h4
    ((back R hdfd hdf (d.depth + 1) n).1 cond) hpres hf (Nat.lt_succ_self _)
  obtain ⟨y, hy, he⟩ := hr.xdr
  refine ⟨xd, j, hx, ?_, hj, fun vn => ?_⟩
  · obtain ⟨y', hy', he'⟩ := (C03_rfc4506 _ _ _ _ hv hs).1 hb
    cases hy.symm.trans hy'
    exact he.symm.trans he'
  · by_cases hjk : j ∈ ks
    · obtain ⟨l, hl⟩ := zip_mem_right hlab.selects.length_eq hjk
      obtain ⟨a, id, ts, i, ha, hid, -, -, hname⟩ := h5 l j hl
      rw [hname d hnum]
      constructor
      · intro h
        cases h
        exact .inl ⟨l, a, id, hl, ha, hid, rfl⟩
      · rintro (⟨l', a', id', hl', ha', hid', rfl⟩ | ⟨h, -⟩)
        · obtain ⟨a2, id2, -, -, ha2, hid2, -, -, hname2⟩ := h5 l' j hl'
          cases ha2.symm.trans ha'
          cases hid2.symm.trans hid'
          rw [← hname d hnum, hname2 d hnum]
        · exact absurd hjk h
    · rw [h6 j hjk d hnum]
      constructor
      · intro h
        split at h
        · next hdd =>
          cases h
          exact .inr ⟨hjk, hdd, rfl⟩
        · cases h
      · rintro (⟨l', a', id', hl', -⟩ | ⟨-, hdd, rfl⟩)
        · exact absurd (List.of_mem_zip hl').2 hjk
        · rw [if_pos hdd]

/-- C91 for the printed text of a proper interface (`C73_whole`). -/
theorem C91_whole {s : Str} {ds : List Definition} (hp : parse s = .ok ds) {flags : Flags}
    (h : Proper ds flags.config) :
    ∃ out defs, (∀ n, (definedNames ds).length < n → ds.length < n → output n s flags = some out) ∧
      rustDefs out = some defs ∧
      ∀ name v bs, HasTy (Xdr.program defs) (.named name) v → Small (Xdr.program defs) (.named name) v →
        toBytes (Xdr.program defs) (.named name) v = .ok bs →
        ((∃ m, fromBytes (Xdr.program defs) m (.named name) bs = .ok v) ↔
          Selected (Xdr.program defs) (.named name) v) := by
  obtain ⟨file, out, defs, h1, ⟨⟨defs', hd⟩, -⟩, h3, -⟩ := C73_whole hp h
  let m := max (definedNames ds).length ds.length + 1
  obtain ⟨h4, h5⟩ := h1 m (by omega) (by omega)
  have h6 := C70_program h4 h5 hd
  rw [h3] at h6
  cases h6
  exact ⟨out, defs, fun n hn hn' => (h1 n hn hn').2, h3,
    fun name v bs hv hs hb => C91_exact h4 hd hp h.supported hv hs hb⟩

/-! ## Examples -/

/-- Without flags and with `use-indexer`, all figures come back. -/
example : ∀ flags ∈ ([{}, { use_indexer := true }] : List Flags), ∃ file defs,
    run 9 figuresText flags = .printed file ∧ file.defs = some defs ∧
    HasTy (Xdr.program defs) (.named "Shape") (.variant 1 [.seq [.variant 0 [], .seq [.i32 7], .none]]) ∧
    Small (Xdr.program defs) (.named "Shape") (.variant 1 [.seq [.variant 0 [], .seq [.i32 7], .none]]) ∧
    ∀ v, HasTy (Xdr.program defs) (.named "Shape") v → Small (Xdr.program defs) (.named "Shape") v →
      ∃ bs, toBytes (Xdr.program defs) (.named "Shape") v = .ok bs ∧
        ∀ m, v.depth < m → fromBytes (Xdr.program defs) m (.named "Shape") bs = .ok v := by
  intro flags hf
  have h : ∃ file defs, run 9 figuresText flags = .printed file ∧ file.defs = some defs ∧
      HasTy (Xdr.program defs) (.named "Shape") (.variant 1 [.seq [.variant 0 [], .seq [.i32 7], .none]]) ∧
      Small (Xdr.program defs) (.named "Shape") (.variant 1 [.seq [.variant 0 [], .seq [.i32 7], .none]]) ∧
      fewVariants defs = true ∧ flags.use_union = false := by
    simp only [List.mem_cons, List.not_mem_nil, or_false] at hf
    rcases hf with rfl | rfl
    · set_option maxRecDepth 100000 in
      exact ⟨_, _, rfl, rfl, rfl, ⟨by decide, ⟨by decide, trivial⟩, ⟨by decide, trivial, trivial⟩, trivial, trivial⟩, rfl, rfl⟩
    · set_option maxRecDepth 100000 in
      exact ⟨_, _, rfl, rfl, rfl, ⟨⟨trivial, ⟨by decide, trivial, trivial⟩, trivial, trivial⟩, trivial⟩, rfl, rfl⟩
  obtain ⟨file, defs, h1, h2, h3, h4, h5, h6⟩ := h
  refine ⟨file, defs, h1, h2, h3, h4, fun v hv hs => ?_⟩
  refine C91_all h1 h2 parse_figures (supported_figures _) h6 (.inr ?_) (fun _ _ he => fewVariants_iff h5 he) hv hs
  intro u b h
  simp only [figures, List.mem_cons, reduceCtorEq, Definition.type.injEq, TypeDef.union.injEq,
    List.not_mem_nil, or_false, false_or] at h
  obtain ⟨rfl, rfl⟩ := h
  rfl

/-- With `use-union`, a text under the discriminant of a blob has the type `Item`, is written, and comes back as a blob:
the discriminant does not agree. One under its own discriminant comes back. -/
example : ∃ file defs, run 9 catalogueText { use_union := true } = .printed file ∧ file.defs = some defs ∧
    (let v := Val.variant 1 [.variant 0 [], .str ['a', 'b']]
     HasTy (Xdr.program defs) (.named "Item") v ∧ Small (Xdr.program defs) (.named "Item") v ∧
     toBytes (Xdr.program defs) (.named "Item") v = .ok [0, 0, 0, 0, 0, 0, 0, 2, 97, 98, 0, 0] ∧
     fromBytes (Xdr.program defs) 9 (.named "Item") [0, 0, 0, 0, 0, 0, 0, 2, 97, 98, 0, 0] =
       .ok (.variant 0 [.variant 0 [], .seq [.bytes [97, 98]]]) ∧
     ¬ Selected (Xdr.program defs) (.named "Item") v) ∧
    (let v := Val.variant 1 [.variant 1 [], .str ['a', 'b']]
     HasTy (Xdr.program defs) (.named "Item") v ∧ Small (Xdr.program defs) (.named "Item") v ∧
     Selected (Xdr.program defs) (.named "Item") v) := by
  have h : ∃ file defs, run 9 catalogueText { use_union := true } = .printed file ∧ file.defs = some defs ∧
      (let v := Val.variant 1 [.variant 0 [], .str ['a', 'b']]
       HasTy (Xdr.program defs) (.named "Item") v ∧ Small (Xdr.program defs) (.named "Item") v ∧
       toBytes (Xdr.program defs) (.named "Item") v = .ok [0, 0, 0, 0, 0, 0, 0, 2, 97, 98, 0, 0] ∧
       fromBytes (Xdr.program defs) 9 (.named "Item") [0, 0, 0, 0, 0, 0, 0, 2, 97, 98, 0, 0] =
         .ok (.variant 0 [.variant 0 [], .seq [.bytes [97, 98]]])) ∧
      (let v := Val.variant 1 [.variant 1 [], .str ['a', 'b']]
       HasTy (Xdr.program defs) (.named "Item") v ∧ Small (Xdr.program defs) (.named "Item") v ∧
       toBytes (Xdr.program defs) (.named "Item") v = .ok [0, 0, 0, 1, 0, 0, 0, 2, 97, 98, 0, 0] ∧
       fromBytes (Xdr.program defs) 9 (.named "Item") [0, 0, 0, 1, 0, 0, 0, 2, 97, 98, 0, 0] = .ok v) := by
    set_option maxRecDepth 100000 in
    exact ⟨_, _, rfl, rfl, ⟨rfl, ⟨⟨by decide, trivial⟩, (by decide : (2 : Nat) < 2 ^ 32), trivial⟩, rfl, rfl⟩,
      rfl, ⟨⟨by decide, trivial⟩, (by decide : (2 : Nat) < 2 ^ 32), trivial⟩, rfl, rfl⟩
  obtain ⟨file, defs, h1, h2, ⟨h3, h4, h5, h6⟩, h7, h8, h9, h10⟩ := h
  refine ⟨file, defs, h1, h2, ⟨h3, h4, h5, h6, fun hsel => ?_⟩, h7, h8, ?_⟩
  · have h11 := C91_reads h1 h2 parse_catalogue (supported_catalogue _) h3 h4 h5 hsel 9 (by decide)
    rw [h6] at h11
    cases h11
  · exact (C91_exact h1 h2 parse_catalogue (supported_catalogue _) h7 h8 h9).1 ⟨9, h10⟩

/-- A shape of the figures: each discriminant it can hold is a number of the interface. -/
example : ∃ file defs cond disc vars impl, run 9 figuresText { use_union := true } = .printed file ∧
    file.defs = some defs ∧ (∃ nm, figuresShape.cond = .variable cond nm) ∧
    Xdr.program defs "Shape" = some (.union disc vars impl) ∧
    ∀ d bs, HasTy (Xdr.program defs) disc d → Small (Xdr.program defs) disc d →
      toBytes (Xdr.program defs) disc d = .ok bs → ∃ xd j, Rfc.encode xd = some bs ∧ discriminant xd = some j ∧
        TypedL figures { use_union := true : Flags }.config.leeway cond xd := by
  obtain ⟨file, defs, hr, hd⟩ := run_accepted (n := 9) (flags := { use_union := true }) parse_figures (by decide +kernel)
  have hm : Definition.type (.union c!"shape" figuresShape) ∈ figures := by simp [figures]
  obtain ⟨cond, nm, ks, hc, hlab, -⟩ := (supported_figures { use_union := true }).unions _ _ hm
  obtain ⟨ty, disc, vars, impl, hty, he, key⟩ := C91_discriminant hr hd parse_figures (supported_figures _) named_figures
    rfl hm hc hlab
  cases hty
  refine ⟨file, defs, cond, disc, vars, impl, hr, hd, ⟨nm, hc⟩, he, fun d bs h1 h2 h3 => ?_⟩
  obtain ⟨xd, j, h4, h5, h6, -⟩ := key d bs h1 h2 h3
  exact ⟨xd, j, h5, h6, h4⟩

end Xdr.Rpcgen
