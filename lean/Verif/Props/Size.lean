import Verif.RpcgenProofs.SizeFile
import Verif.Props.Text
/-!
# Property C80: the length of the generated source

The claim is that the tool prints at most `6000 * (s.length + 1) ^ 2` characters for an interface of
`s.length` characters. (It is a square because a chain of typedefs is written out at each use.) It fails
where reserved variants are made for the numbers an enum or a union leaves out, which takes as many
characters as the largest number asks for. It is proved for all flags without reserved variants, and for all
flags with the largest number of the file as a factor.
-/

namespace Xdr.Rpcgen

/-- No number is written in these definitions that is larger than `b`. -/
def NumbersUpTo (b : Nat) (ds : List Definition) : Prop := ∀ c, .number c ∈ atoms ds → c.number ≤ (b : Int)

/-- With these flags nothing is made of the numbers left out by enums. -/
def Flags.enumsAsGiven (flags : Flags) : Prop := flags.use_std_trait = true ∨ flags.use_indexer = true

/-- With these flags nothing is made of the numbers left out by unions. -/
def Flags.unionsAsGiven (flags : Flags) : Prop :=
  flags.use_union = true ∨ flags.use_extra_trait = true ∨ flags.use_indexer = true

theorem output_length {n b : Nat} {s out : Str} {flags : Flags} (h : output n s flags = some out)
    {ds : List Definition} (hp : parse s = .ok ds)
    (he : ¬ flags.enumsAsGiven → NumbersUpTo b ds) (hu : ¬ flags.unionsAsGiven → NumbersUpTo b ds) :
    out.length ≤ 6000 * (b + 1) * (s.length + 1) ^ 2 := by
  obtain ⟨file, ds', -, hp', hg, rfl⟩ := output_ok h
  rw [hp] at hp'
  cases hp'
  have ht := parseWith_text hp
  have h1 := file_text_length (wellFormed_of_text ht) (b := b) (m := s.length) rfl
    (fun hc => he fun ha => by
      rcases ha with ha | ha <;> cases flags <;>
        simp_all [Flags.config, Config.enum_complement_index])
    (fun hc => hu fun ha => by
      rcases ha with ha | ha | ha <;> cases flags <;>
        simp_all [Flags.config, Config.union_complement_index])
    hg (file_size ht)
  simp only [List.length_append, List.length_cons, List.length_nil, Nat.pow_two]
  omega

/-- C80, for flags without reserved variants: what is printed is at most quadratic in the length of the
interface. Missing: the other flags, see the next theorem. -/
theorem C80_quadratic_partial {n : Nat} {s out : Str} {flags : Flags} (h : output n s flags = some out)
    (he : flags.enumsAsGiven) (hu : flags.unionsAsGiven) : out.length ≤ 6000 * (s.length + 1) ^ 2 := by
  obtain ⟨-, ds, -, hp, -⟩ := output_ok h
  have := output_length (b := 0) h hp (fun h => absurd he h) (fun h => absurd hu h)
  simpa using this

/-- C80, for all flags: the largest number written in the interface is a factor. Missing: a bound by the
length of the interface alone, which is false. -/
theorem C80_numbers_partial {n b : Nat} {s out : Str} {flags : Flags} (h : output n s flags = some out)
    {ds : List Definition} (hp : parse s = .ok ds) (hb : NumbersUpTo b ds) :
    out.length ≤ 6000 * (b + 1) * (s.length + 1) ^ 2 := output_length h hp (fun _ => hb) (fun _ => hb)

/-- The first theorem at work: 161 characters become some hundreds, and at most the bound. -/
example : ∃ out, output 9 smallText { use_indexer := true } = some out ∧ 161 ≤ out.length ∧
    out.length ≤ 6000 * (smallText.length + 1) ^ 2 := by
  refine ⟨(output 9 smallText { use_indexer := true }).get (by decide +kernel), by simp, by decide +kernel,
    C80_quadratic_partial (n := 9) (flags := { use_indexer := true }) (by simp) (.inr rfl) (.inr (.inr rfl))⟩

/-- The second at work, without flags: the largest number of the interface of C53 is 16. -/
example : ∃ out, output 9 catalogueText {} = some out ∧ out.length ≤ 6000 * (16 + 1) * (catalogueText.length + 1) ^ 2 := by
  obtain ⟨file, defs, hr, -⟩ := run_accepted (flags := {}) parse_catalogue (by decide +kernel : accepted 9 catalogue _ = true)
  refine ⟨_, output_printed hr, C80_numbers_partial (b := 16) (output_printed hr) parse_catalogue ?_⟩
  have h : ∀ a ∈ atoms catalogue, (match a with | .number c => decide (c.number ≤ 16) | _ => true) = true := by
    decide +kernel
  intro c hc
  simpa using h _ hc

/-- One member with a large number. -/
def hugeText : Str := c!"enum e { A = 2147483646 };"

theorem parse_huge : parse hugeText = .ok [.type (.enum c!"e" [⟨c!"A", .constant (.decimal c!"2147483646")⟩])] := by
  set_option maxRecDepth 100000 in rfl

theorem value_huge : (Constant.decimal c!"2147483646").value .i32 = .ok ((2147483646 : Nat) : Int) := by
  decide +kernel

theorem output_of {n : Nat} {s : Str} {flags : Flags} {ds : List Definition} {file : RustFile}
    (hp : parse s = .ok ds) (hg : gen_code n ds flags.config = .ok file) :
    output n s flags = some (file.text ++ c!"\n") := by
  refine output_printed ?_
  unfold run
  rw [hp]
  simp only [hg]

/-- C80 is false: 26 characters for which the tool, without flags, prints more than two thousand million. -/
theorem C80_quadratic_violated :
    (∃ out, output 1 hugeText {} = some out ∧ 2147483646 ≤ out.length) ∧
    ¬ ∀ n s out flags, output n s flags = some out → out.length ≤ 6000 * (s.length + 1) ^ 2 := by
  have h : ∃ out, output 1 hugeText {} = some out ∧ 2147483646 ≤ out.length := by
    obtain ⟨file, hg, hl⟩ := huge_enum (N := 2147483646) (by decide) 1 (flags := {}) rfl rfl value_huge
    refine ⟨_, output_of parse_huge hg, ?_⟩
    rw [List.length_append]
    exact Nat.le_trans hl (Nat.le_add_right _ _)
  refine ⟨h, fun hall => ?_⟩
  obtain ⟨out, ho, hl⟩ := h
  have h1 := Nat.le_trans hl (hall 1 hugeText out {} ho)
  exact absurd h1 (by decide)

/-- The same for every number of `int` but the last: as many characters as the number says, from a definition
with one member. -/
theorem C80_reserved_violated {N : Nat} (hN : N < 2147483647) (n : Nat) {c : Constant}
    (hc : c.value .i32 = .ok (N : Int)) :
    ∃ file, gen_code n [.type (.enum c!"e" [⟨c!"A", .constant c⟩])] ({} : Flags).config = .ok file ∧
      N ≤ file.text.length := huge_enum hN n rfl rfl hc

example : ∃ file, gen_code 1 [.type (.enum c!"e" [⟨c!"A", .constant (.hex c!"10000")⟩])] ({} : Flags).config = .ok file ∧
    65536 ≤ file.text.length := C80_reserved_violated (by decide) 1 (by decide +kernel)

end Xdr.Rpcgen
