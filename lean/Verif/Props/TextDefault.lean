import Verif.Props.Text
import Verif.Props.Defaults
import Verif.RpcgenProofs.TextDefault
/-!
# Properties C64 and C70: `Default::default()` in the printed text

`rustDefault out m i` (`Verif/Spec/RustDefault.lean`) is `Default::default()` of the type `i` of the Rust text `out`,
found in its derives and impls, knowing nothing of the generator.
-/

namespace Xdr.Rpcgen

/-- The same tokens have the same defaults. -/
theorem rustDefault_newline {n : Nat} {ds : List Definition} {cfg : Config} {file : RustFile}
    (hg : gen_code n ds cfg = .ok file) : rustDefault (file.text ++ c!"\n") = rustDefault file.text := by
  unfold rustDefault parseRust RustFile.text
  rw [lexRust_newline (file_tokens_ok (gen_code_Ok hg)), lexRust_tokens (file_tokens_ok (gen_code_Ok hg))]

section
variable {n : Nat} {s out : Str} {flags : Flags} {file : RustFile} (h : run n s flags = .printed file)
  (ho : output n s flags = some out) {defs : List (String × Def)} (hd : file.defs = some defs)
include h ho hd

/-- C70. In the text the tool prints, for any interface and any flags, `Default::default()` of a type is what the
theorems about defaults (C64) speak of. -/
theorem C70_default (m : Nat) (i : RIdent) : rustDefault out m i = file.default m i := by
  obtain ⟨file', ds, hr, -, hg, rfl⟩ := output_ok ho
  rw [hr] at h
  cases h
  rw [rustDefault_newline hg]
  exact rustDefault_text (flags_apart flags) hg hd m i

/-- C64, of the text the tool prints: the default of a type is a value of the type, and nothing but an endless
recursion keeps it from being returned. -/
theorem C64_text {i : Item} (hi : i ∈ file.types) (m : Nat) : rustDefs out = some defs ∧
    ((∃ v, rustDefault out m i.name = .ok v ∧ HasTy (Xdr.program defs) (.named i.name.str) v) ∨
      rustDefault out m i.name = .depth) := by
  obtain ⟨ds, -, hg⟩ := run_ok h
  refine ⟨C70_program h ho hd, ?_⟩
  rw [C70_default h ho hd]
  exact C64_value hg hd hi m

/-- C64, of the text the tool prints: the default of an enum is its member with the least number. -/
theorem C64_text_enum {ds : List Definition} (hp : parse s = .ok ds) (hwf : WellFormed ds) {name : Str}
    {as : List Assign} {ks : List Int} (hm : .type (.enum name as) ∈ ds) (hnum : Numbered ds as ks) :
    ∃ ty a k id i, upper_camel_case_ident name = .ok ty ∧ (a, k) ∈ as.zip ks ∧ Least k ks ∧
      upper_camel_case_ident a.identifier = .ok id ∧ VariantNamed (Xdr.program defs) ty.str i id.str ∧
      ∀ m, rustDefault out (m + 1) ty = .ok (.variant i []) := by
  obtain ⟨ds', hp', hg⟩ := run_ok h
  rw [hp] at hp'
  cases hp'
  obtain ⟨ty, a, k, id, i, h1, h2, h3, h4, h5, h6⟩ := C64_enum hg hd hwf hm hnum
  exact ⟨ty, a, k, id, i, h1, h2, h3, h4, h5, fun m => by rw [C70_default h ho hd]; exact h6 m⟩

/-- C64, of the text the tool prints: the default of a union is its default arm, and without one the case of the
least label. -/
theorem C64_text_union {ds : List Definition} (hp : parse s = .ok ds) (hwf : WellFormed ds) (hu : Unambiguous ds)
    {name : Str} {body : UnionBody} (hm : .type (.union name body) ∈ ds) {cond : TypeSpecifier} {nm : Str}
    {ks : List Int} (hcond : body.cond = .variable cond nm) (hlab : Labelled ds cond body.labels ks) :
    ∃ ty vn i, upper_camel_case_ident name = .ok ty ∧ VariantNamed (Xdr.program defs) ty.str i vn ∧
      (body.default.isSome → vn = "Default") ∧
      (body.default = none → ∃ l k a id, (l, k) ∈ body.labels.zip ks ∧ Least k ks ∧ l.1 = .identifier a ∧
        upper_camel_case_ident a = .ok id ∧ vn = id.str) ∧
      ∀ m v, rustDefault out m ty = .ok v → ∃ vs, v = .variant i vs := by
  obtain ⟨ds', hp', hg⟩ := run_ok h
  rw [hp] at hp'
  cases hp'
  obtain ⟨ty, vn, i, h1, h2, h3, h4, h5⟩ := C64_union hg hd hwf hu hm hcond hlab
  exact ⟨ty, vn, i, h1, h2, h3, h4, fun m v hv => h5 m v (by rw [← C70_default h ho hd]; exact hv)⟩

end

/-! ## Texts -/

/-- The default of a type of a text. -/
def defaultIn (out : Option Str) (m : Nat) (name : Str) : Option Val :=
  match out.map fun s => rustDefault s m ⟨false, name⟩ with
  | some (.ok v) => some v
  | _ => none

/-- Without the generator: the defaults in the text of the example of C70. `red` is the second variant, after the
reserved one; the default of the union is its default arm with that discriminant. -/
example : (match defaultIn (output 9 smallText { use_union := true }) 3 c!"Color" with
    | some (.variant 1 []) => true
    | _ => false) = true := by decide +kernel

example : (match defaultIn (output 9 smallText { use_union := true }) 3 c!"Point" with
    | some (.seq [.i32 x, .variant 1 [], .bytes l]) => x == 0 && l == List.replicate 16 0
    | _ => false) = true := by decide +kernel

example : (match defaultIn (output 9 smallText { use_union := true }) 3 c!"Shape" with
    | some (.variant 1 [.variant 1 []]) => true
    | _ => false) = true := by decide +kernel

/-- The interface of C53 with each set of flags: its types have defaults in the printed text. -/
example : ∀ flags ∈ ([{}, { use_std_trait := true }, { use_indexer := true }, { use_union := true },
    { use_std_trait := true, use_union := true }] : List Flags),
    ∃ out file defs, output 9 catalogueText flags = some out ∧ run 9 catalogueText flags = .printed file ∧
      rustDefs out = some defs ∧ ∀ i ∈ file.types,
      (∃ v, rustDefault out 5 i.name = .ok v ∧ HasTy (Xdr.program defs) (.named i.name.str) v) ∨
        rustDefault out 5 i.name = .depth := by
  intro flags hf
  have hacc : accepted 9 catalogue flags.config = true := by
    revert flags
    decide +kernel
  obtain ⟨file, defs, hr, hd⟩ := run_accepted parse_catalogue hacc
  have ho := output_printed hr
  exact ⟨_, file, defs, ho, hr, C70_program hr ho hd, fun i hi => (C64_text hr ho hd hi 5).2⟩

end Xdr.Rpcgen
