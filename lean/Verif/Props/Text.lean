import Verif.Props.EndToEnd
import Verif.RpcgenProofs.TextDefs
/-!
# Properties C69 and C70: the printed text

`output` is what the tool writes to standard output. `lexRust`, `parseRust` and `rustDefs` (`Verif/Spec/RustLex.lean`,
`RustSyntax.lean`, `RustMeaning.lean`) read a text as rustc and the derives do, knowing nothing of the generator.
-/

namespace Xdr.Rpcgen

theorem output_ok {n : Nat} {s out : Str} {flags : Flags} (h : output n s flags = some out) :
    ∃ file ds, run n s flags = .printed file ∧ parse s = .ok ds ∧ gen_code n ds flags.config = .ok file ∧
      out = file.text ++ c!"\n" := by
  unfold output at h
  split at h
  · rename_i file hr
    cases h
    obtain ⟨ds, hp, hg⟩ := run_ok hr
    exact ⟨file, ds, hr, hp, hg, rfl⟩
  · cases h

theorem output_printed {n : Nat} {s : Str} {flags : Flags} {file : RustFile} (h : run n s flags = .printed file) :
    output n s flags = some (file.text ++ c!"\n") := by
  simp only [output, h]

/-- The flags never ask for both kinds of union. -/
theorem flags_apart (flags : Flags) :
    flags.config.union_impl_indexer = true → flags.config.union_impl_union = false := by
  obtain ⟨a, b, c, d⟩ := flags
  cases d <;> simp [Flags.config]

/-- C69. The text the tool prints, for any interface and any flags, reads as the tokens the generator put
together: no two are glued, none is split, lost or added. -/
theorem C69_tokens {n : Nat} {s out : Str} {flags : Flags} (h : output n s flags = some out) :
    ∃ file, run n s flags = .printed file ∧ lexRust out = some (lexemes file.tokens) := by
  obtain ⟨file, ds, hr, -, hg, rfl⟩ := output_ok h
  exact ⟨file, hr, lexRust_newline (file_tokens_ok (gen_code_Ok hg))⟩

/-- The same tokens mean the same. -/
theorem rustDefs_newline {n : Nat} {ds : List Definition} {cfg : Config} {file : RustFile}
    (hg : gen_code n ds cfg = .ok file) : rustDefs (file.text ++ c!"\n") = rustDefs file.text := by
  unfold rustDefs parseRust RustFile.text
  rw [lexRust_newline (file_tokens_ok (gen_code_Ok hg)), lexRust_tokens (file_tokens_ok (gen_code_Ok hg))]

/-- C70. The text the tool prints, for any interface and any flags, is a Rust program with the types that the
theorems about generated types speak of: read by Rust's grammar, with the meaning of its impls and derives, it
defines `defs`. -/
theorem C70_program {n : Nat} {s out : Str} {flags : Flags} {file : RustFile} (h : run n s flags = .printed file)
    (ho : output n s flags = some out) {defs : List (String × Def)} (hd : file.defs = some defs) :
    rustDefs out = some defs := by
  obtain ⟨file', ds, hr, -, hg, rfl⟩ := output_ok ho
  rw [hr] at h
  cases h
  rw [rustDefs_newline hg]
  exact rustDefs_text (flags_apart flags) hg hd

/-- C53, of the text the tool prints. The part that is missing is that of `C53_conforms_partial`. -/
theorem C53_text_partial {n : Nat} {s out : Str} {flags : Flags} {file : RustFile} (h : run n s flags = .printed file)
    (ho : output n s flags = some out) (hf : file.defs ≠ none) :
    ∃ ds defs, parse s = .ok ds ∧ rustDefs out = some defs ∧ (Supported ds flags.config →
      ∀ dflt t name x, .type t ∈ ds → t.name = some name → (∀ d, t ≠ .declaration d) →
        (∀ e as, t = .enum e as → flags.use_std_trait = true → Positional ds as) →
        (dflt = true → flags.use_union = true) → Defined ds dflt t x →
        ∃ ty, upper_camel_case_ident name = .ok ty ∧ Conforms (Xdr.program defs) ty.str x) := by
  obtain ⟨defs, hd⟩ := Option.ne_none_iff_exists'.1 hf
  obtain ⟨ds, hp, key⟩ := C53_conforms_partial h hd
  exact ⟨ds, defs, hp, C70_program h ho hd, key⟩

/-! ## Texts -/

/-- An interface with a constant, an enum, a struct with a keyword as a member, and a union. -/
def smallText : Str := c!"
const MAX = 0x10;
enum color { red = 1, blue = 2 };
struct point { int type; color c; opaque tag[MAX]; };
union shape switch (color c) { case red: point p; default: void; };
"

/-- What the tool prints for it. -/
example : output 9 smallText { use_union := true } = some c!"use serde :: { Deserialize , Serialize } ; use serde :: ser :: SerializeTuple ; use serde_xdr :: \
    XdrUnion ; use serde_xdr_derive :: XdrUnion ; pub const MAX : u32 = 16u32 ; # [derive (Clone , Debug \
    , Deserialize , PartialEq , Serialize)] # [repr (i32)] pub enum Color { _Reserved0 = 0i32 , Red = \
    1i32 , Blue = 2i32 } impl Default for Color { fn default () -> Self { Color :: Red } } # [derive \
    (Clone , Debug , Default , Deserialize , Serialize)] pub struct Point { pub r#type : i32 , pub c : \
    Color , # [serde (with = \"serde_xdr::opaque::fixed\")] pub tag : [u8 ; MAX as usize] } # [derive \
    (Clone , Debug , XdrUnion)] pub enum Shape { Red (Color , Point) , Default (Color) } impl Default \
    for Shape { fn default () -> Self { Shape :: Default (Default :: default ()) } } impl XdrUnion < \
    Color > for Shape { type Error = :: serde_xdr :: error :: Error ; fn name_by_value (value : & Color) \
    -> Result < & 'static str , Self :: Error > { match value { Color :: Red => Ok (stringify ! (Red)) , \
    _ => Ok (stringify ! (Default)) , } } }\n" := by
  decide +kernel

/-- The definitions of a text, by name. -/
def namesIn (out : Option Str) : Option (List String) := out.bind fun s => (rustDefs s).map (·.map (·.1))

/-- Without the generator: the text of the example is Rust with three types. -/
example : namesIn (output 9 smallText { use_union := true }) =
    some ["Color", "Point", "Shape", "serde_xdr::opaque::VariableArray"] := by decide +kernel

/-- The interface of C53 with each set of flags: the printed text defines its three types, and they conform. -/
example : ∀ flags ∈ ([{}, { use_std_trait := true }, { use_indexer := true }, { use_union := true },
    { use_std_trait := true, use_union := true }] : List Flags),
    ∃ out defs, output 9 catalogueText flags = some out ∧ rustDefs out = some defs ∧
      Conforms (Xdr.program defs) "Entry" (someEntry (.optSome (someEntry .optNone))) := by
  intro flags hf
  have hacc : accepted 9 catalogue flags.config = true := by
    revert flags
    decide +kernel
  obtain ⟨file, defs, hr, hd⟩ := run_accepted parse_catalogue hacc
  have ho := output_printed hr
  obtain ⟨ds, defs, hp, hdf, key⟩ := C53_text_partial hr ho (by rw [hd]; simp)
  rw [parse_catalogue] at hp
  cases hp
  refine ⟨_, defs, ho, hdf, ?_⟩
  obtain ⟨ty, hty, h⟩ := key (supported_catalogue flags) false (.struct c!"entry" catalogueEntry) c!"entry" _
    (by simp [catalogue]) rfl (by simp) (by simp) (by simp)
    (some_entry (.present (.name (t := .struct c!"entry" catalogueEntry) rfl (some_entry .absent))))
  cases hty
  exact h

end Xdr.Rpcgen
