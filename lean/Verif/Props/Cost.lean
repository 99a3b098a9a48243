import Verif.RpcgenProofs.CallsBound
import Verif.Props.Parsing
/-!
# Property C63: the work of the parser

`typeCalls s` counts the calls of `type_specifier` that `parse` makes on `s`; it comes from the parser
written once more with a counter (`Rpcgen/Cost.lean`). `fileCalls` and `NestsWithin`
(`Spec/Calls.lean`) look at the syntax tree only.

The claim is that the work grows in proportion to the text. It fails: every anonymous struct or union is
read four times where it stands at the head of a declaration, so the work is exponential in the nesting.
-/

namespace Xdr.Rpcgen

/-- C63. The parser with the counter is the parser. -/
theorem C63_same_parser (s : Str) : (parseC (s.length + 1) s).1 = parse s := parseC_fst _ s

example : (parseC (exampleText.length + 1) exampleText).1 = .ok exampleFile :=
  (C63_same_parser _).trans parse_example

/-- C63. On every accepted text the number of calls is told from the result: layout and comments do not
matter, and each declaration `type name` counts its type four times. -/
theorem C63_exact (s : Str) (ds : List Definition) (h : parse s = .ok ds) : typeCalls s = fileCalls ds :=
  parseC_snd h

example : typeCalls exampleText = fileCalls exampleFile ∧ fileCalls exampleFile = 20 :=
  ⟨C63_exact _ _ parse_example, by decide⟩

/-- A struct in a struct in a struct. -/
def nested : Nat → TypeSpecifier
  | 0 => .int true
  | n + 1 => .struct [.variable (nested n) c!"a"]

/-- `typedef struct { struct { ... int a; ... } a; } a;` -/
def nestedFile (n : Nat) : List Definition := [.type (.declaration (.variable (nested n) c!"a"))]

theorem nested_atoms (n : Nat) : ∀ a ∈ (nested n).atoms, a.Ok := by
  induction n with
  | zero => simp [nested, TypeSpecifier.atoms]
  | succ n ih =>
    intro a ha
    simp only [nested, TypeSpecifier.atoms, declsAtoms, Declaration.atoms, List.append_nil,
      List.mem_cons] at ha
    rcases ha with rfl | rfl | ha
    · simp [Atom.Ok]
    · exact ⟨⟨'a', [], rfl, by decide⟩, by decide⟩
    · exact ih a ha

theorem nested_writable (n : Nat) : TypeWritable (nested n) ∧ HeadOk (nested n) ∧ ¬ ShortType (nested n) := by
  induction n with
  | zero => simp [nested, TypeWritable, HeadOk, ShortType]
  | succ n ih =>
    refine ⟨?_, by simp [nested, HeadOk], by simp [nested, ShortType]⟩
    simp only [nested, TypeWritable, DeclsWritable, DeclWritable, and_true]
    exact ih

theorem nested_length (n : Nat) : (nested n).print.length = 14 * n + 3 := by
  induction n with
  | zero => rfl
  | succ n ih =>
    simp only [nested, TypeSpecifier.print, declsPrint, Declaration.print, List.length_append, ih,
      List.length_cons, List.length_nil]
    omega

theorem nested_calls (n : Nat) : 4 ^ n ≤ (nested n).calls := by
  induction n with
  | zero => simp [nested, TypeSpecifier.calls]
  | succ n ih =>
    simp only [nested, TypeSpecifier.calls, declsCalls, Declaration.calls, Nat.pow_succ]
    omega

/-- C63 fails: for every depth there is a text, longer by 14 characters for each level, that is accepted
only after a number of calls that is multiplied by four for each level. -/
theorem C63_violated (n : Nat) : ∃ s ds, parse s = .ok ds ∧ s.length = 14 * n + 15 ∧
    4 ^ (n + 1) ≤ typeCalls s := by
  have hp : parse (printFile (nestedFile n)) = .ok (nestedFile n) := by
    refine (C35_parse_print _).2 ⟨?_, ?_⟩
    · intro a ha
      simp only [atoms, nestedFile, List.flatMap_cons, List.flatMap_nil, List.append_nil, Definition.atoms,
        TypeDef.atoms, Declaration.atoms, List.mem_cons] at ha
      rcases ha with rfl | ha
      · exact ⟨⟨'a', [], rfl, by decide⟩, by decide⟩
      · exact nested_atoms n a ha
    · intro d hd
      simp only [nestedFile, List.mem_singleton] at hd
      subst hd
      exact nested_writable n
  refine ⟨_, _, hp, ?_, ?_⟩
  · simp only [printFile, nestedFile, List.flatMap_cons, List.flatMap_nil, List.append_nil,
      Definition.print, TypeDef.print, Declaration.print, List.length_append, nested_length,
      List.length_cons, List.length_nil]
    omega
  · rw [C63_exact _ _ hp]
    have := nested_calls n
    simp only [fileCalls, nestedFile, List.map_cons, List.map_nil, List.sum_cons, List.sum_nil,
      Definition.calls, TypeDef.calls, Declaration.calls, Nat.pow_succ]
    omega

/-- So no constant will do. -/
theorem C63_no_constant_violated (c : Nat) : ∃ s ds, parse s = .ok ds ∧ c * s.length < typeCalls s := by
  have grow : ∀ n, n < 2 ^ n := fun n => Nat.lt_two_pow_self
  obtain ⟨s, ds, hp, hl, hc⟩ := C63_violated (c + 15)
  refine ⟨s, ds, hp, Nat.lt_of_lt_of_le ?_ hc⟩
  have h1 := grow (c + 15)
  have h4 : 4 ^ (c + 15 + 1) = 4 * (2 ^ (c + 15) * 2 ^ (c + 15)) := by
    rw [Nat.pow_succ, Nat.mul_comm, ← Nat.mul_pow]
  have h5 : 2 ^ (c + 15) = 2 ^ c * 32768 := by rw [Nat.pow_add]
  have h6 := grow c
  have h7 : c + 15 + 1 ≤ 2 ^ (c + 15) := h1
  have h8 : c * s.length ≤ 2 ^ c * (16 * 2 ^ (c + 15)) := Nat.mul_le_mul (by omega) (by omega)
  have h9 : 2 ^ c * (16 * 2 ^ (c + 15)) * 8 ≤ 2 ^ (c + 15) * 2 ^ (c + 15) := by
    calc 2 ^ c * (16 * 2 ^ (c + 15)) * 8 = (2 ^ c * 128) * 2 ^ (c + 15) := by
          rw [Nat.mul_assoc, Nat.mul_comm 16, Nat.mul_assoc, Nat.mul_assoc, Nat.mul_comm _ (16 * 8)]
      _ ≤ 2 ^ (c + 15) * 2 ^ (c + 15) := Nat.mul_le_mul_right _ (by omega)
  have h10 : 1 ≤ 2 ^ c * (16 * 2 ^ (c + 15)) := Nat.mul_pos (by omega) (by omega)
  omega

/-- C63, for files whose types nest at most `k` deep: the work is within a constant times the length. -/
theorem C63_linear_partial (k : Nat) (s : Str) (ds : List Definition) (h : parse s = .ok ds)
    (hk : NestsWithin k ds) : typeCalls s ≤ 4 ^ (k + 1) * s.length := by
  rw [C63_exact s ds h]
  exact file_calls_le (parseWith_text h) hk

/-- The file of the examples has no anonymous types. -/
example : typeCalls exampleText ≤ 4 ^ (0 + 1) * exampleText.length :=
  C63_linear_partial 0 _ _ parse_example (by
    intro d hd
    simp only [exampleFile, List.mem_cons, List.not_mem_nil, or_false] at hd
    rcases hd with rfl | rfl | rfl | rfl | rfl | rfl <;> simp <;> decide)

end Xdr.Rpcgen
