import Verif.Props.GenRoundtrip
import Verif.RpcgenProofs.NoDefaults
/-!
# Property C92: what generated encoders write

`Defined` (`Spec/Schema.lean`) are the XDR values of a type of the interface, `DefinedL` (`Spec/Accepted.lean`) those
with the leeway of the flags; `Rfc.encode` is RFC 4506.
-/

namespace Xdr.Rpcgen

open Rfc (XVal)

theorem writes_of_gen {n : Nat} {ds : List Definition} {flags : Flags} {file : RustFile}
    (hwf : WellFormed ds) (hg : gen_code n ds flags.config = .ok file)
    {defs : List (String × Def)} (hd : file.defs = some defs) (hok : Supported ds flags.config)
    (hdfd : NamesDefined ds) (hdf : DefaultsWritten ds flags.config) (t : TypeDef) (name : Str)
    (ht : .type t ∈ ds) (hname : t.name = some name) (hnd : ∀ d, t ≠ .declaration d)
    (hpos : ∀ e as, t = .enum e as → flags.use_std_trait = true → Positional ds as) :
    ∃ ty, upper_camel_case_ident name = .ok ty ∧
      ∀ v bs, HasTy (Xdr.program defs) (.named ty.str) v → Small (Xdr.program defs) (.named ty.str) v →
        (flags.use_union = true → Selected (Xdr.program defs) (.named ty.str) v) →
        toBytes (Xdr.program defs) (.named ty.str) v = .ok bs →
        ∃ x, DefinedL ds flags.config.leeway t x ∧ Rfc.encode x = some bs := by
  obtain ⟨ty, hty, key⟩ := back_of_gen hwf hg hd hok hdfd hdf t name ht hname hnd hpos
  refine ⟨ty, hty, fun v bs hv hs hsel hb => ?_⟩
  obtain ⟨sv, hsv⟩ := Option.isSome_iff_exists.1 hv
  have hpres := present_sound _ _ _ _ hsv
  have hsel' : Selected (Xdr.program defs) (.named ty.str) v := fun nm i d vs disc vars impl vn fs hh he =>
    hsel (union_flag rfl hg hd he) nm i d vs disc vars impl vn fs hh he
  obtain ⟨x, hx, hr, -⟩ := key v sv hpres
    (fits_of (gen_inv (run_of hwf hok hg hd)) _ (Nat.le_refl _) hpres hs trivial ⟨bs, hb⟩ hsel')
  obtain ⟨y, hy, he⟩ := hr.xdr
  obtain ⟨y', hy', he'⟩ := (C03_rfc4506 _ _ _ _ hv hs).1 hb
  cases hy.symm.trans hy'
  exact ⟨x, hx, he.symm.trans he'⟩

/-- C92. For every file the tool translates, in the supported fragment, whose type names are defined and whose default
arms, without flags, are of no opaque data and have a number, and every enum, structure and union `name` in it:
what is written for a value of the Rust type is the encoding of a value of the XDR type, apart from maximum lengths and
the leeway of the flags; with `--use-union`, if the discriminants in it agree with their variants. -/
theorem C92_written {n : Nat} {s : Str} {flags : Flags} {file : RustFile} (h : run n s flags = .printed file)
    {defs : List (String × Def)} (hd : file.defs = some defs) :
    ∃ ds, parse s = .ok ds ∧ (Supported ds flags.config → NamesDefined ds → DefaultsWritten ds flags.config →
      ∀ t name, .type t ∈ ds → t.name = some name → (∀ d, t ≠ .declaration d) →
        (∀ e as, t = .enum e as → flags.use_std_trait = true → Positional ds as) →
        ∃ ty, upper_camel_case_ident name = .ok ty ∧
          ∀ v bs, HasTy (Xdr.program defs) (.named ty.str) v → Small (Xdr.program defs) (.named ty.str) v →
            (flags.use_union = true → Selected (Xdr.program defs) (.named ty.str) v) →
            toBytes (Xdr.program defs) (.named ty.str) v = .ok bs →
            ∃ x, DefinedL ds flags.config.leeway t x ∧ Rfc.encode x = some bs) := by
  obtain ⟨ds, hp, hg⟩ := run_ok h
  exact ⟨ds, hp, fun hok hdfd hdf => writes_of_gen (wellFormed_parse hp) hg hd hok hdfd hdf⟩

/-- C92 for files that leave no leeway: the encoders write values of the interface only. -/
theorem C92_values_partial {n : Nat} {s : Str} {flags : Flags} {file : RustFile} (h : run n s flags = .printed file)
    {defs : List (String × Def)} (hd : file.defs = some defs) :
    ∃ ds, parse s = .ok ds ∧ (Supported ds flags.config → NamesDefined ds → NoLeeway ds flags.config.leeway →
      DefaultsWritten ds flags.config →
      ∀ t name, .type t ∈ ds → t.name = some name → (∀ d, t ≠ .declaration d) →
        (∀ e as, t = .enum e as → flags.use_std_trait = true → Positional ds as) →
        ∃ ty, upper_camel_case_ident name = .ok ty ∧
          ∀ v bs, HasTy (Xdr.program defs) (.named ty.str) v → Small (Xdr.program defs) (.named ty.str) v →
            (flags.use_union = true → Selected (Xdr.program defs) (.named ty.str) v) →
            toBytes (Xdr.program defs) (.named ty.str) v = .ok bs →
            ∃ x, Defined ds true t x ∧ Rfc.encode x = some bs) := by
  obtain ⟨ds, hp, key⟩ := C92_written h hd
  refine ⟨ds, hp, fun hok hdfd htight hdf t name ht hname hnd hpos => ?_⟩
  obtain ⟨ty, hty, hr⟩ := key hok hdfd hdf t name ht hname hnd hpos
  refine ⟨ty, hty, fun v bs hv hs hsel hb => ?_⟩
  obtain ⟨x, h1, h2⟩ := hr v bs hv hs hsel hb
  obtain ⟨y, h3, h4⟩ := C74_same hok htight ht h1
  exact ⟨y, h3, h4.trans h2⟩

theorem exact_of_gen {n : Nat} {ds : List Definition} {flags : Flags} {file : RustFile}
    (hwf : WellFormed ds) (hg : gen_code n ds flags.config = .ok file)
    {defs : List (String × Def)} (hd : file.defs = some defs) (hok : Supported ds flags.config)
    (hdfd : NamesDefined ds) (htight : NoLeeway ds flags.config.leeway)
    (hdef : flags.use_union = true ∨ ∀ u b, .type (.union u b) ∈ ds → b.default = none) (t : TypeDef) (name : Str)
    (ht : .type t ∈ ds) (hname : t.name = some name) (hnd : ∀ d, t ≠ .declaration d)
    (hpos : ∀ e as, t = .enum e as → flags.use_std_trait = true → Positional ds as) :
    ∃ ty, upper_camel_case_ident name = .ok ty ∧
      ∀ bs, (∃ v, HasTy (Xdr.program defs) (.named ty.str) v ∧ Small (Xdr.program defs) (.named ty.str) v ∧
          (flags.use_union = true → Selected (Xdr.program defs) (.named ty.str) v) ∧
          toBytes (Xdr.program defs) (.named ty.str) v = .ok bs) ↔
        ∃ x, Defined ds true t x ∧ Rfc.encode x = some bs := by
  have hdw : DefaultsWritten ds flags.config := by
    intro u b d hm hbd hc
    rcases hdef with hu | hno
    · simp [Flags.config, Config.union_complement_index, hu] at hc
    · rw [hno u b hm] at hbd
      cases hbd
  have hci : flags.config.union_impl_indexer = true → ∀ d, ¬ DefaultIn ds d := by
    rcases hdef with hu | hno
    · simp [Flags.config, hu]
    · rintro - d ⟨u, b, hm, hbd⟩
      rw [hno u b hm] at hbd
      cases hbd
  obtain ⟨ty, hty, hr⟩ := writes_of_gen hwf hg hd hok hdfd hdw t name ht hname hnd hpos
  refine ⟨ty, hty, fun bs => ⟨fun ⟨v, hv, hs, hsel, hb⟩ => ?_, fun ⟨x, hx, hxb⟩ => ?_⟩⟩
  · obtain ⟨x, h1, h2⟩ := hr v bs hv hs hsel hb
    obtain ⟨y, h3, h4⟩ := C74_same hok htight ht h1
    exact ⟨y, h3, h4.trans h2⟩
  obtain ⟨ty', hty', bs', v, h1, h2, h3⟩ : ∃ ty, upper_camel_case_ident name = .ok ty ∧
      Conforms (Xdr.program defs) ty.str x := by
    rcases hdef with hu | hno
    · exact conforms_of_gen hwf hg hd hok true t name x ht hname hnd hpos (fun _ => hu) hx
    · exact conforms_of_gen hwf hg hd hok false t name x ht hname hnd hpos (fun h => by cases h) (hx.plain hno false ht)
  cases hty.symm.trans hty'
  cases hxb.symm.trans h1
  have hread := h3 _ (Nat.lt_succ_self _)
  obtain ⟨k, ⟨sv, bs', g1, g2, -⟩, -⟩ := decoded_normal (gen_consistent (run_of hwf hok hg hd) hci) _ (.named ty.str)
    trivial _ _ _ (from_bytes_eq_ok hread)
  have hv : HasTy (Xdr.program defs) (.named ty.str) v := by rw [HasTy, g1.complete]; rfl
  exact ⟨v, hv, Fits.small _ _ _ g2, fun _ => selected_of_formed (gen_inv (run_of hwf hok hg hd))
    ⟨_, (C84_accepted _ _ _ _).1 ⟨_, hread⟩⟩, h2⟩

/-- C92, with `--use-union` or without default arms, for files that leave no leeway: what is written is all there is. The
encodings of the values of the XDR type are those of the values of the Rust type, with `--use-union` of those whose
discriminants agree with their variants. -/
theorem C92_exact_partial {n : Nat} {s : Str} {flags : Flags} {file : RustFile} (h : run n s flags = .printed file)
    {defs : List (String × Def)} (hd : file.defs = some defs) :
    ∃ ds, parse s = .ok ds ∧ (Supported ds flags.config → NamesDefined ds → NoLeeway ds flags.config.leeway →
      (flags.use_union = true ∨ ∀ u b, .type (.union u b) ∈ ds → b.default = none) →
      ∀ t name, .type t ∈ ds → t.name = some name → (∀ d, t ≠ .declaration d) →
        (∀ e as, t = .enum e as → flags.use_std_trait = true → Positional ds as) →
        ∃ ty, upper_camel_case_ident name = .ok ty ∧
          ∀ bs, (∃ v, HasTy (Xdr.program defs) (.named ty.str) v ∧ Small (Xdr.program defs) (.named ty.str) v ∧
              (flags.use_union = true → Selected (Xdr.program defs) (.named ty.str) v) ∧
              toBytes (Xdr.program defs) (.named ty.str) v = .ok bs) ↔
            ∃ x, Defined ds true t x ∧ Rfc.encode x = some bs) := by
  obtain ⟨ds, hp, hg⟩ := run_ok h
  exact ⟨ds, hp, fun hok hdfd htight hdef => exact_of_gen (wellFormed_parse hp) hg hd hok hdfd htight hdef⟩

/-- C92 for the printed text of a proper interface (`C73_whole`). -/
theorem C92_whole {s : Str} {ds : List Definition} (hp : parse s = .ok ds) {flags : Flags}
    (h : Proper ds flags.config) (hdf : DefaultsWritten ds flags.config) :
    ∃ out defs, (∀ n, (definedNames ds).length < n → ds.length < n → output n s flags = some out) ∧
      rustDefs out = some defs ∧
      ∀ t name, .type t ∈ ds → t.name = some name → (∀ d, t ≠ .declaration d) →
        (∀ e as, t = .enum e as → flags.use_std_trait = true → Positional ds as) →
        ∃ ty, upper_camel_case_ident name = .ok ty ∧
          ∀ v bs, HasTy (Xdr.program defs) (.named ty.str) v → Small (Xdr.program defs) (.named ty.str) v →
            (flags.use_union = true → Selected (Xdr.program defs) (.named ty.str) v) →
            toBytes (Xdr.program defs) (.named ty.str) v = .ok bs →
            ∃ x, DefinedL ds flags.config.leeway t x ∧ Rfc.encode x = some bs := by
  obtain ⟨file, out, defs, h1, ⟨⟨defs', hd⟩, -⟩, h3, -⟩ := C73_whole hp h
  let m := max (definedNames ds).length ds.length + 1
  obtain ⟨h4, h5⟩ := h1 m (by omega) (by omega)
  have h6 := C70_program h4 h5 hd
  rw [h3] at h6
  cases h6
  refine ⟨out, defs, fun n hn hn' => (h1 n hn hn').2, h3, ?_⟩
  obtain ⟨ds', hp', hall⟩ := C92_written h4 hd
  cases hp.symm.trans hp'
  exact hall h.supported h.clean.defined hdf

/-! ## The exclusions are needed -/

/-- Encoders that write what is no value of the type. -/
def WritesForeign (s : Str) (flags : Flags) (name ty : Str) : Prop :=
  ∃ ds file defs t v bs, run 5 s flags = .printed file ∧ parse s = .ok ds ∧ file.defs = some defs ∧
    .type t ∈ ds ∧ t.name = some name ∧ upper_camel_case_ident name = .ok ⟨false, ty⟩ ∧
    HasTy (Xdr.program defs) (.named (String.ofList ty)) v ∧ Small (Xdr.program defs) (.named (String.ofList ty)) v ∧
    toBytes (Xdr.program defs) (.named (String.ofList ty)) v = .ok bs ∧
    ∀ x, Defined ds true t x → Rfc.encode x ≠ some bs

/-- With `--use-union`, the variant for FALSE with TRUE in it: the discriminant of another case. -/
theorem C92_discriminant_violated :
    WritesForeign c!"union u switch (bool k) { case FALSE: void; case TRUE: int x; };" { use_union := true } c!"u" c!"U" := by
  refine ⟨_, _, _, _, .variant 0 [.bool true], [0, 0, 0, 1], rfl, rfl, rfl, List.mem_cons_self, rfl, rfl, rfl,
    ⟨trivial, trivial⟩, rfl, ?_⟩
  intro x hx
  cases hx with
  | default _ _ h => cases h
  | arm h1 h2 h3 h4 h5 h6 =>
    cases h1
    rcases List.mem_cons.1 h2 with h2 | h2
    · cases h2
      cases h3
      cases h4 with
      | @bool b =>
        cases b with
        | true => cases h5
        | false =>
          cases h6
          decide
    · cases List.mem_singleton.1 h2
      cases h3
      cases h4 with
      | @bool b =>
        cases b with
        | false => cases h5
        | true =>
          cases h6 with
          | «variable» h =>
            cases h with
            | int =>
              intro h
              simp only [Rfc.encode] at h
              obtain ⟨a, b, ha, hb, hab⟩ := Xdr.cat_some h
              cases ha
              rw [Rfc.signed] at hb
              split at hb
              · have hlen := congrArg List.length (Option.some.inj hb)
                rw [show (Rfc.beBytes 4 _).length = 4 by simp [Rfc.beBytes]] at hlen
                have := congrArg List.length hab
                rw [List.length_append, ← hlen] at this
                cases this
              · cases hb

/-- A maximum length: two numbers where at most one is allowed. -/
theorem C92_maximum_violated : WritesForeign c!"struct s { int xs<1>; };" { use_union := true, use_indexer := true }
    c!"s" c!"S" := by
  refine ⟨_, _, _, _, .seq [.seq [.i32 7, .i32 8]], [0, 0, 0, 2, 0, 0, 0, 7, 0, 0, 0, 8], rfl, rfl, rfl,
    List.mem_cons_self, rfl, rfl, rfl, ⟨⟨by decide, trivial, trivial, trivial⟩, trivial⟩, rfl, ?_⟩
  rintro x (_ | _ | @⟨_, _, xs, hm⟩)
  cases hm with
  | cons h hm =>
    cases hm
    cases h with
    | @variableArray _ _ _ xs h1 h2 h3 =>
      have := h2 _ 1 rfl ⟨_, .literal _, rfl⟩
      match xs, this with
      | [], _ => intro h; cases h
      | [x], _ =>
        cases h3 with
        | cons h3 _ =>
          cases h3 with
          | @int k h4 h5 =>
            intro h
            simp only [Rfc.encode, Rfc.encodeAll] at h
            rw [cat_nil, cat_nil] at h
            obtain ⟨a, b, ha, hb, hab⟩ := Xdr.cat_some h
            have h1 : Rfc.unsigned 4 1 = some [0, 0, 0, 1] := by decide
            rw [List.length_singleton, h1] at ha
            cases ha
            cases hab

/-- Without flags, the variant that fills a gap. -/
theorem C92_enum_gap_violated : WritesForeign c!"enum e { A = 1 };" {} c!"e" c!"E" := by
  refine ⟨_, _, _, _, .variant 0 [], [0, 0, 0, 0], rfl, rfl, rfl, List.mem_cons_self, rfl, rfl, rfl, ⟨by decide, trivial⟩,
    rfl, ?_⟩
  intro x hx
  cases hx with
  | enum ha hk =>
    cases List.mem_singleton.1 ha
    have h1 : ∀ ds, Stands ds (.constant (.decimal c!"1")) 1 := fun _ => ⟨_, .literal _, rfl⟩
    cases stands_unique hk (h1 _)
    decide

/-! ## Examples -/

/-- The figures, under any flags: what can be written for a shape, and what RFC 4506 prescribes for one, is the same. -/
example (flags : Flags) : ∃ file defs, run 9 figuresText flags = .printed file ∧ file.defs = some defs ∧
    ∀ bs, (∃ v, HasTy (Xdr.program defs) (.named "Shape") v ∧ Small (Xdr.program defs) (.named "Shape") v ∧
        (flags.use_union = true → Selected (Xdr.program defs) (.named "Shape") v) ∧
        toBytes (Xdr.program defs) (.named "Shape") v = .ok bs) ↔
      ∃ x, Defined figures true (.union c!"shape" figuresShape) x ∧ Rfc.encode x = some bs := by
  have hacc : accepted 9 figures flags.config = true := by
    obtain ⟨a, b, c, d⟩ := flags
    revert a b c d
    decide +kernel
  obtain ⟨file, defs, hr, hd⟩ := run_accepted parse_figures hacc
  refine ⟨file, defs, hr, hd, ?_⟩
  obtain ⟨ds, hp, key⟩ := C92_exact_partial hr hd
  rw [parse_figures] at hp
  cases hp
  obtain ⟨ty, hty, h⟩ := key (supported_figures _) named_figures (noLeeway_figures _)
    (.inr fun u b hm => by
      simp only [figures, List.mem_cons, reduceCtorEq, Definition.type.injEq, TypeDef.union.injEq,
        List.not_mem_nil, or_false, false_or] at hm
      obtain ⟨rfl, rfl⟩ := hm
      rfl)
    (.union c!"shape" figuresShape) c!"shape" (by simp [figures]) rfl (by simp) (by simp)
  cases hty
  exact h

/-- The catalogue with `--use-indexer`, where the default arm is not written: what is written for an item is one. -/
example : ∃ file defs, run 9 catalogueText { use_indexer := true } = .printed file ∧ file.defs = some defs ∧
    (∃ v bs, HasTy (Xdr.program defs) (.named "Item") v ∧ Small (Xdr.program defs) (.named "Item") v ∧
      toBytes (Xdr.program defs) (.named "Item") v = .ok bs) ∧
    ∀ v bs, HasTy (Xdr.program defs) (.named "Item") v → Small (Xdr.program defs) (.named "Item") v →
      toBytes (Xdr.program defs) (.named "Item") v = .ok bs →
      ∃ x, DefinedL catalogue { use_indexer := true : Flags }.config.leeway (.union c!"item" catalogueItem) x ∧
        Rfc.encode x = some bs := by
  have h : ∃ file defs, run 9 catalogueText { use_indexer := true } = .printed file ∧ file.defs = some defs ∧
      HasTy (Xdr.program defs) (.named "Item") (.variant 1 [.str ['a', 'b']]) ∧
      Small (Xdr.program defs) (.named "Item") (.variant 1 [.str ['a', 'b']]) ∧
      toBytes (Xdr.program defs) (.named "Item") (.variant 1 [.str ['a', 'b']]) =
        .ok [0, 0, 0, 1, 0, 0, 0, 2, 97, 98, 0, 0] := by
    set_option maxRecDepth 100000 in
    exact ⟨_, _, rfl, rfl, rfl, ⟨(by decide : (2 : Nat) < 2 ^ 32), trivial⟩, rfl⟩
  obtain ⟨file, defs, hr, hd, h1, h2, h3⟩ := h
  obtain ⟨ds, hp, key⟩ := C92_written hr hd
  rw [parse_catalogue] at hp
  cases hp
  obtain ⟨ty, hty, h⟩ := key (supported_catalogue _) named_catalogue (fun _ _ _ _ _ h => by cases h)
    (.union c!"item" catalogueItem) c!"item" (by simp [catalogue]) rfl (by simp) (by simp)
  cases hty
  exact ⟨file, defs, hr, hd, ⟨_, _, h1, h2, h3⟩, fun v bs h1 h2 h3 => h v bs h1 h2 (by simp) h3⟩

end Xdr.Rpcgen
