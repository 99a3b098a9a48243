import Verif.RpcgenProofs.Takes
import Verif.Props.Accepted
/-!
# Property C86: exactly which bytes the generated decoders take

C74 says which values come out of a generated decoder; this says from which bytes. `DefinedF ds cfg t x bs`
(`Spec/AcceptedForm.lean`) lists, from the interface alone, the bytes `bs` that may be taken for the value `x` of the
type `t`.
-/

namespace Xdr.Rpcgen

open Rfc (XVal)

/-- The bytes read as the type are those `P` has for some XDR value; what is read is written as RFC 4506 prescribes
for that value. No bytes are had for two values, or go on where others end. -/
structure TakesExactly (env : Env) (ty : String) (P : XVal → Bytes → Prop) : Prop where
  accepted : ∀ bs, (∃ n v, fromBytes env n (.named ty) bs = .ok v) ↔ ∃ x, P x bs
  meaning : ∀ bs bs', (∃ n v, fromBytes env n (.named ty) bs = .ok v ∧ toBytes env (.named ty) v = .ok bs') ↔
    ∃ x, P x bs ∧ Rfc.encode x = some bs'
  unambiguous : ∀ bs extra x y, P x bs → P y (bs ++ extra) → extra = [] ∧ Rfc.encode x = Rfc.encode y

theorem takes_of_gen {n : Nat} {ds : List Definition} {flags : Flags} {file : RustFile}
    (hwf : WellFormed ds) (hg : gen_code n ds flags.config = .ok file)
    {defs : List (String × Def)} (hd : file.defs = some defs) (hok : Supported ds flags.config)
    (hdfd : NamesDefined ds) (hdf : DefaultsRead ds flags.config) (t : TypeDef) (name : Str)
    (ht : .type t ∈ ds) (hname : t.name = some name) (hnd : ∀ d, t ≠ .declaration d)
    (hpos : ∀ e as, t = .enum e as → flags.use_std_trait = true → Positional ds as) :
    ∃ ty, upper_camel_case_ident name = .ok ty ∧
      TakesExactly (Xdr.program defs) ty.str (DefinedF ds flags.config t) := by
  obtain ⟨ty, hty, -, hto⟩ := reads_of_gen hwf hg hd hok hdfd hdf t name ht hname hnd hpos
  have R := run_of hwf hok hg hd
  have hcon := gen_consistent R (hdf.indexer R)
  have key : ∀ x bs, DefinedF ds flags.config t x bs → ∃ m v bs', fromBytes (Xdr.program defs) m (.named ty.str) bs = .ok v ∧
      Wire.Form (Xdr.program defs) (.named ty.str) v bs ∧ Rfc.encode x = some bs' ∧ toBytes (Xdr.program defs) (.named ty.str) v = .ok bs' := by
    intro x bs hx
    obtain ⟨v, hr, hf⟩ : ∃ v, RepF (Xdr.program defs) (.named ty.str) v x bs := by
      have := hx.takes R hdf ht
      cases t with
      | declaration d => exact absurd rfl (hnd d)
      | enum e as =>
        cases hname
        obtain ⟨_, _, _, _, _, _, _, _, h, -⟩ := enum_takes R ht hx hty
        exact ⟨_, h (hpos _ _ rfl)⟩
      | struct s ms =>
        cases hname
        exact (this _ hty).1
      | union u b =>
        cases hname
        exact (this _ hty).1
    obtain ⟨m, hm⟩ := (C84_accepted _ _ _ _).2 hf
    obtain ⟨_, bs', -, -, -, h4⟩ := hto m bs v hm
    obtain ⟨k, ⟨s, bs'', h1, h2, -⟩, -⟩ := decoded_normal hcon m (.named ty.str) trivial _ _ _ (from_bytes_eq_ok hm)
    obtain ⟨y, hy, he⟩ := hr.xdr
    obtain ⟨y', hy', he'⟩ := (C03_rfc4506 _ _ v bs' hr.hasTy (Fits.small _ _ _ h2)).1 h4
    rw [hy] at hy'
    cases hy'
    exact ⟨m, v, bs', hm, hf, he.symm.trans he', h4⟩
  refine ⟨ty, hty, fun bs => ⟨?_, ?_⟩, fun bs bs' => ⟨?_, ?_⟩, ?_⟩
  · rintro ⟨m, v, h⟩
    obtain ⟨x, _, hx, -⟩ := hto m bs v h
    exact ⟨x, hx⟩
  · rintro ⟨x, hx⟩
    obtain ⟨m, v, _, h, -⟩ := key x bs hx
    exact ⟨m, v, h⟩
  · rintro ⟨m, v, h, hw⟩
    obtain ⟨x, b, hx, he, -, hw'⟩ := hto m bs v h
    rw [hw] at hw'
    cases hw'
    exact ⟨x, hx, he⟩
  · rintro ⟨x, hx, he⟩
    obtain ⟨m, v, b, h, -, he', hw⟩ := key x bs hx
    rw [he] at he'
    cases he'
    exact ⟨m, v, h, hw⟩
  · intro bs extra x y hx hy
    obtain ⟨_, v, b, -, hf, he, hw⟩ := key x bs hx
    obtain ⟨_, w, c, -, hf', he', hw'⟩ := key y _ hy
    obtain ⟨h1, rfl⟩ := C84_unambiguous _ _ _ _ _ _ hf hf'
    rw [hw] at hw'
    cases hw'
    exact ⟨h1, he.trans he'.symm⟩

/-- C86. For every file the tool translates, in the supported fragment, whose type names are defined and
whose default arms, if any, are translated with `--use-union` or without flags, and every enum, structure and
union `name` in it: the decoder takes exactly the bytes the interface has for a value of the type, by the table of
`Spec/AcceptedForm.lean`. What it reads from them is written as RFC 4506 prescribes for that value. -/
theorem C86_bytes {n : Nat} {s : Str} {flags : Flags} {file : RustFile} (h : run n s flags = .printed file)
    {defs : List (String × Def)} (hd : file.defs = some defs) :
    ∃ ds, parse s = .ok ds ∧ (Supported ds flags.config → NamesDefined ds →
      DefaultsRead ds flags.config →
      ∀ t name, .type t ∈ ds → t.name = some name → (∀ d, t ≠ .declaration d) →
        (∀ e as, t = .enum e as → flags.use_std_trait = true → Positional ds as) →
        ∃ ty, upper_camel_case_ident name = .ok ty ∧
          TakesExactly (Xdr.program defs) ty.str (DefinedF ds flags.config t)) := by
  obtain ⟨ds, hp, hg⟩ := run_ok h
  exact ⟨ds, hp, fun hok hdfd hdf t name ht hname hnd hpos =>
    takes_of_gen (wellFormed_parse hp) hg hd hok hdfd hdf t name ht hname hnd hpos⟩

/-- C86 for the printed text of a proper interface (`C73_whole`). -/
theorem C86_whole {s : Str} {ds : List Definition} (hp : parse s = .ok ds) {flags : Flags}
    (h : Proper ds flags.config) (hdf : DefaultsRead ds flags.config) :
    ∃ out defs, (∀ n, (definedNames ds).length < n → ds.length < n → output n s flags = some out) ∧
      rustDefs out = some defs ∧
      ∀ t name, .type t ∈ ds → t.name = some name → (∀ d, t ≠ .declaration d) →
        (∀ e as, t = .enum e as → flags.use_std_trait = true → Positional ds as) →
        ∃ ty, upper_camel_case_ident name = .ok ty ∧
          TakesExactly (Xdr.program defs) ty.str (DefinedF ds flags.config t) := by
  obtain ⟨file, out, defs, h1, ⟨⟨defs', hd⟩, -⟩, h3, -⟩ := C73_whole hp h
  let m := max (definedNames ds).length ds.length + 1
  obtain ⟨h4, h5⟩ := h1 m (by omega) (by omega)
  have h6 := C70_program h4 h5 hd
  rw [h3] at h6
  cases h6
  refine ⟨out, defs, fun n hn hn' => (h1 n hn hn').2, h3, ?_⟩
  obtain ⟨ds', hp', hall⟩ := C86_bytes h4 hd
  cases hp.symm.trans hp'
  exact hall h.supported h.clean.defined hdf

/-! ## Examples -/

/-- The items of the catalogue without flags. -/
example : ∃ file defs, run 9 catalogueText {} = .printed file ∧ file.defs = some defs ∧
    TakesExactly (Xdr.program defs) "Item"
      (DefinedF catalogue (Flags.config {}) (.union c!"item" catalogueItem)) := by
  obtain ⟨file, defs, hr, hd⟩ := run_accepted (n := 9) (flags := {}) parse_catalogue (by decide +kernel)
  refine ⟨file, defs, hr, hd, ?_⟩
  obtain ⟨ds, hp, key⟩ := C86_bytes hr hd
  rw [parse_catalogue] at hp
  cases hp
  obtain ⟨ty, hty, h⟩ := key (supported_catalogue _) named_catalogue (defaultsRead_catalogue rfl)
    (.union c!"item" catalogueItem) c!"item" (by simp [catalogue]) rfl (by simp) (by simp)
  cases hty
  exact h

/-- The items of the catalogue with `--use-union`. -/
example : ∃ file defs, run 9 catalogueText { use_union := true } = .printed file ∧ file.defs = some defs ∧
    TakesExactly (Xdr.program defs) "Item"
      (DefinedF catalogue (Flags.config { use_union := true }) (.union c!"item" catalogueItem)) := by
  obtain ⟨file, defs, hr, hd⟩ := run_accepted (n := 9) (flags := { use_union := true }) parse_catalogue
    (by decide +kernel)
  refine ⟨file, defs, hr, hd, ?_⟩
  obtain ⟨ds, hp, key⟩ := C86_bytes hr hd
  rw [parse_catalogue] at hp
  cases hp
  obtain ⟨ty, hty, h⟩ := key (supported_catalogue _) named_catalogue (fun _ _ _ _ _ => .inl rfl)
    (.union c!"item" catalogueItem) c!"item" (by simp [catalogue]) rfl (by simp) (by simp)
  cases hty
  exact h

/-- The same for the printed text. -/
example : ∃ out defs, output 9 catalogueText { use_union := true } = some out ∧ rustDefs out = some defs ∧
    TakesExactly (Xdr.program defs) "Entry"
      (DefinedF catalogue (Flags.config { use_union := true }) (.struct c!"entry" catalogueEntry)) := by
  obtain ⟨out, defs, h1, h2, key⟩ := C86_whole parse_catalogue (flags := { use_union := true })
    (proper_catalogue _) (fun _ _ _ _ _ => .inl rfl)
  refine ⟨out, defs, h1 9 (by decide) (by decide), h2, ?_⟩
  obtain ⟨ty, hty, h⟩ := key (.struct c!"entry" catalogueEntry) c!"entry" (by simp [catalogue]) rfl (by simp) (by simp)
  cases hty
  exact h

theorem no_default_figures (d : Declaration) : ¬ DefaultIn figures d := by
  rintro ⟨u, b, h, hd⟩
  simp only [figures, List.mem_cons, reduceCtorEq, Definition.type.injEq, TypeDef.union.injEq,
    List.not_mem_nil, or_false, false_or] at h
  obtain ⟨rfl, rfl⟩ := h
  cases hd

/-- With `--use-indexer`: by the table a point may begin with the number 7, of no colour, which is taken for the
colour of least number; its one number is 5, and 9 says that another point follows. -/
theorem odd_figures : DefinedF figures (Flags.config { use_indexer := true }) (.struct c!"point" figuresPoint)
    (.struct [.enum 0, .arrayVar [.int 5], .optSome (.struct [.enum 1, .arrayVar [], .optNone])])
    [0, 0, 0, 7, 0, 0, 0, 1, 0, 0, 0, 5, 0, 0, 0, 9, 0, 0, 0, 1, 0, 0, 0, 0, 0, 0, 0, 0] := by
  have hr : Stands figures (.constant (.decimal c!"1")) 1 := ⟨_, .literal _, rfl⟩
  have hg : Stands figures (.constant (.decimal c!"0")) 0 := ⟨_, .literal _, rfl⟩
  have each : ∀ (a : Assign) (j : Int), a ∈ figuresColors → Stands figures a.value j → j = 0 ∨ j = 1 := by
    intro a j ha hj
    simp only [figuresColors, List.mem_cons, List.not_mem_nil, or_false] at ha
    rcases ha with rfl | rfl
    · exact .inr (stands_unique hj hr)
    · exact .inl (stands_unique hj hg)
  have c7 : TypedF figures (Flags.config { use_indexer := true }) (.identifier c!"color") (.enum 0) [0, 0, 0, 7] := by
    refine .name (t := .enum c!"color" figuresColors) rfl (.enumOther (a := ⟨c!"GREEN", .constant (.decimal c!"0")⟩)
      rfl (by simp [figuresColors]) hg ?_ rfl ?_)
    · intro a' ha j hj
      rcases each a' j ha hj with rfl | rfl <;> decide
    · intro a' ha j hj
      rcases each a' j ha hj with rfl | rfl <;> decide
  have c1 : TypedF figures (Flags.config { use_indexer := true }) (.identifier c!"color") (.enum 1) [0, 0, 0, 1] :=
    .name (t := .enum c!"color" figuresColors) rfl (.enum (a := ⟨c!"RED", .constant (.decimal c!"1")⟩)
      (by simp [figuresColors]) hr rfl)
  have inner : DefinedF figures (Flags.config { use_indexer := true }) (.struct c!"point" figuresPoint)
      (.struct [.enum 1, .arrayVar [], .optNone]) [0, 0, 0, 1, 0, 0, 0, 0, 0, 0, 0, 0] :=
    .struct (.cons (bs := [0, 0, 0, 1]) (.variable c1)
      (.cons (bs := [0, 0, 0, 0]) (.variableArray (xs := []) (by decide) .nil) (.cons (bs := [0, 0, 0, 0]) .absent .nil)))
  exact .struct (.cons (bs := [0, 0, 0, 7]) (.variable c7)
    (.cons (bs := [0, 0, 0, 1, 0, 0, 0, 5]) (.variableArray (xs := [.int 5]) (by decide)
        (.cons (bs := [0, 0, 0, 5]) (.int rfl) .nil))
      (.cons (.present (w := 9) (by decide) (by decide) (.name (t := .struct c!"point" figuresPoint) rfl inner)) .nil)))

/-- So they are read, and written as the colour, the number and the points they are taken for; and they are not if a
byte follows. -/
example : ∃ file defs, run 9 figuresText { use_indexer := true } = .printed file ∧ file.defs = some defs ∧
    (∃ n v, fromBytes (Xdr.program defs) n (.named "Point")
        [0, 0, 0, 7, 0, 0, 0, 1, 0, 0, 0, 5, 0, 0, 0, 9, 0, 0, 0, 1, 0, 0, 0, 0, 0, 0, 0, 0] = .ok v ∧
      toBytes (Xdr.program defs) (.named "Point") v =
        .ok [0, 0, 0, 0, 0, 0, 0, 1, 0, 0, 0, 5, 0, 0, 0, 1, 0, 0, 0, 1, 0, 0, 0, 0, 0, 0, 0, 0]) ∧
    ∀ n v b extra, fromBytes (Xdr.program defs) n (.named "Point")
      ([0, 0, 0, 7, 0, 0, 0, 1, 0, 0, 0, 5, 0, 0, 0, 9, 0, 0, 0, 1, 0, 0, 0, 0, 0, 0, 0, 0] ++ b :: extra) ≠ .ok v := by
  obtain ⟨file, defs, hr, hd⟩ := run_accepted (n := 9) (flags := { use_indexer := true }) parse_figures
    (by decide +kernel)
  refine ⟨file, defs, hr, hd, ?_⟩
  obtain ⟨ds, hp, key⟩ := C86_bytes hr hd
  rw [parse_figures] at hp
  cases hp
  obtain ⟨ty, hty, h⟩ := key (supported_figures _) named_figures (fun u b d hm hd => absurd ⟨u, b, hm, hd⟩ (no_default_figures d))
    (.struct c!"point" figuresPoint) c!"point" (by simp [figures]) rfl (by simp) (by simp)
  cases hty
  refine ⟨(h.meaning _ _).2 ⟨_, odd_figures, by decide⟩, fun n v b extra hv => ?_⟩
  obtain ⟨y, hy⟩ := (h.accepted _).1 ⟨n, v, hv⟩
  cases (h.unambiguous _ _ _ _ odd_figures hy).1

end Xdr.Rpcgen
