import Verif.RpcgenProofs.Print
import Verif.RpcgenProofs.Total
/-!
# Properties C34 to C37, C39, C40, C61: parsing interface files

`parse` is `parser.rs` 18-24. Which text stands for which tree is `FileText` (`Spec/XdrText.lean`),
written without the parser. `FileExact` (`Spec/XdrExact.lean`) is the same grammar with the three
conditions under which the tool departs from it. `Readable`, `Writable` and `WellFormed` are in
`Spec/`.
-/

namespace Xdr.Rpcgen

/-- A file used in the examples below. -/
def exampleText : Str :=
  c!"/* c */ const N = 0x10;\nenum color { RED = 1, BLUE = N };\nstruct item { opaque key[8]; unsigned hyper size; item *next; };\nunion u switch (color c) { case RED: case BLUE: int x<N>; default: void; };\n%#include\nprogram P { version V { void NULL(int ) = 0; } = 1; } = 2;"

/-- What it is read as. -/
def exampleFile : List Definition := [
  .constant ⟨c!"N", .constant (.hex c!"10")⟩,
  .type (.enum c!"color" [⟨c!"RED", .constant (.decimal c!"1")⟩, ⟨c!"BLUE", .identifier c!"N"⟩]),
  .type (.struct c!"item" [.opaqueFixedArray c!"key" (.constant (.decimal c!"8")),
    .variable (.hyper false) c!"size", .optionVariable (.identifier c!"item") c!"next"]),
  .type (.union c!"u" (.mk (.variable (.identifier c!"color") c!"c")
    [.mk [.identifier c!"RED", .identifier c!"BLUE"]
      (.variableArray (.int true) c!"x" (some (.identifier c!"N")))] (some .void))),
  .lineComment,
  .program ⟨c!"P", [⟨c!"V", [⟨.void, c!"NULL", .int true, .constant (.decimal c!"0")⟩],
    .constant (.decimal c!"1")⟩], .constant (.decimal c!"2")⟩]

set_option maxRecDepth 100000 in
theorem parse_example : parse exampleText = .ok exampleFile := by rfl

/-! ## C34 -/

/-- C34. The parser terminates on every text: `parse`, which allows nesting up to the length of the
text, never runs out, and no larger allowance changes the result. The result is a list of definitions
or an error. -/
theorem C34_terminates (i : Str) :
    (∃ ds, ∀ n, i.length < n → parseWith n i = .ok ds) ∨
    (∀ n, i.length < n → parseWith n i = .parseError) ∨
    (∀ n, i.length < n → parseWith n i = .trailingData) := by
  have key : ∀ n, i.length < n → parseWith n i = parse i := fun n hn => (parseWith_bound n i hn).1
  have hout := (parseWith_bound (i.length + 1) i (Nat.lt_succ_self _)).2
  cases hp : parse i with
  | ok ds => exact .inl ⟨ds, fun n hn => by rw [key n hn, hp]⟩
  | parseError => exact .inr (.inl fun n hn => by rw [key n hn, hp])
  | trailingData => exact .inr (.inr fun n hn => by rw [key n hn, hp])
  | out => exact absurd hp hout

/-- C34. The error is always `TrailingData`; `Error::Parse` is never raised by `parse`. -/
theorem C34_error_is_trailing (i : Str) : (∃ ds, parse i = .ok ds) ∨ parse i = .trailingData := by
  cases hp : parse i with
  | ok ds => exact .inl ⟨ds, rfl⟩
  | parseError => exact absurd hp (parseWith_ne_parseError _ i)
  | trailingData => exact .inr rfl
  | out => exact absurd hp (parseWith_bound (i.length + 1) i (Nat.lt_succ_self _)).2

example : parse c!"struct s { struct { struct { int x; } y; } z; };" = .ok [.type (.struct c!"s"
    [.variable (.struct [.variable (.struct [.variable (.int true) c!"x"]) c!"y"]) c!"z"])] := by rfl
example : parse c!"struct s { struct { struct { struct {" = .trailingData := by rfl

/-! ## C35 -/

/-- C35. Printing a tree and parsing the text gives the tree back exactly when the tree is well formed
and writable: names are identifiers, numbers are numbers, no body is empty, no declaration begins with
a type name that begins with `void`, and no type named `char` or `short` stands where a blank must
follow it. -/
theorem C35_parse_print (ds : List Definition) :
    parse (printFile ds) = .ok ds ↔ WellFormed ds ∧ Writable ds := by
  constructor
  · intro h
    exact ⟨wellFormed_of_text (parseWith_text h), (file_of_exact (parseWith_exact h)).2⟩
  · intro h
    exact parse_of_exact (exact_printFile h.1 h.2)

/-- C35. These are the trees that have a text at all: the printer loses nothing. -/
theorem C35_printable (ds : List Definition) :
    (∃ t, parse t = .ok ds) ↔ parse (printFile ds) = .ok ds := by
  constructor
  · rintro ⟨t, h⟩
    exact parse_of_exact (exact_printFile (wellFormed_of_text (parseWith_text h))
      (file_of_exact (parseWith_exact h)).2)
  · intro h
    exact ⟨_, h⟩

/-- C35. A second round changes nothing: parsing, printing and parsing again gives the first
result. -/
theorem C35_reprint (t : Str) (ds : List Definition) (h : parse t = .ok ds) :
    parse (printFile ds) = .ok ds := (C35_printable ds).1 ⟨t, h⟩

/-- C35. So does any other text of a tree without ambiguous words, whatever its layout and
comments. -/
theorem C35_parse_text (ds : List Definition) (t : Str) (hr : Readable ds) (ht : FileText ds t) :
    parse t = .ok ds := parse_of_text hr ht

/-- C35. A text has at most one reading. -/
theorem C35_unambiguous (ds ds' : List Definition) (t : Str) (hr : Readable ds) (hr' : Readable ds')
    (ht : FileText ds t) (ht' : FileText ds' t) : ds = ds' := by
  have h := parse_of_text hr ht
  rw [parse_of_text hr' ht'] at h
  exact (ParseResult.ok.inj h).symm

/-- C35. The example file is well formed and free of ambiguous words. -/
example : WellFormed exampleFile ∧ Writable exampleFile :=
  (C35_parse_print exampleFile).1 (C35_reprint _ _ parse_example)
example : Readable exampleFile := by
  simp [Readable, exampleFile, DefinitionReadable, TypeDefReadable, DeclsReadable, DeclReadable,
    TypeReadable, UnionReadable, CasesReadable, CaseReadable, DefaultReadable, HeadOk, NameOk,
    ProcedureReadable]
set_option maxRecDepth 100000 in
example : parse (printFile exampleFile) = .ok exampleFile := by rfl

/-- The file `typedef voidptr p;`. -/
def voidptr : List Definition :=
  [.type (.declaration (.variable (.identifier c!"voidptr") c!"p"))]

/-- C35 fails for names beginning with `void`: the file `typedef voidptr p;` is well formed and is
rejected, because the parser takes the first four letters for the declaration `void`. -/
theorem C35_violated : WellFormed voidptr ∧ printFile voidptr = c!"typedef voidptr p;\n" ∧
    parse (printFile voidptr) = .trailingData := by
  have h : ∀ s, s ≠ [] → s.all isWord = true → (∀ c ∈ s.head?, isAlpha c = true) →
      s ∉ reservedWords → Ident s := by
    intro s hne hw hh hres
    cases s with
    | nil => exact absurd rfl hne
    | cons c cs =>
      simp only [List.all_cons, Bool.and_eq_true, List.all_eq_true] at hw
      exact ⟨⟨c, cs, rfl, .inl (hh c rfl), hw.2⟩, hres⟩
  refine ⟨?_, rfl, rfl⟩
  simp only [WellFormed, atoms, voidptr, List.flatMap_cons, List.flatMap_nil, Definition.atoms,
    TypeDef.atoms, Declaration.atoms, TypeSpecifier.atoms, List.append_nil, List.forall_mem_cons,
    Atom.Ok]
  exact ⟨h _ (by decide) (by decide) (by decide) (by decide),
    h _ (by decide) (by decide) (by decide) (by decide), by simp⟩

/-! ## C36 -/

/-- C36. Every name in an accepted file is a letter or underscore followed by letters, digits and
underscores, and is not a reserved word of the language. -/
theorem C36_identifiers (i : Str) (ds : List Definition) (h : parse i = .ok ds) (s : Str)
    (hs : Atom.ident s ∈ atoms ds) :
    (∃ c cs, s = c :: cs ∧ (isAlpha c = true ∨ c = '_') ∧
      ∀ x ∈ cs, isAlpha x = true ∨ isDigit x = true ∨ x = '_') ∧
    s ∉ reservedWords := by
  obtain ⟨⟨c, cs, rfl, hc, hcs⟩, hres⟩ : Ident s :=
    wellFormed_of_text (parseWith_text h) _ hs
  refine ⟨⟨c, cs, rfl, hc, fun x hx => ?_⟩, hres⟩
  have := hcs x hx
  simp only [isWord, Bool.or_eq_true, beq_iff_eq] at this
  rcases this with (h | h) | h
  · exact .inl h
  · exact .inr (.inl h)
  · exact .inr (.inr h)

example : Atom.ident c!"next" ∈ atoms exampleFile := by
  simp [atoms, exampleFile, Definition.atoms, TypeDef.atoms, declsAtoms, Declaration.atoms]

/-! ## C37 -/

/-- C37. Nothing is dropped: an accepted text is a text of the resulting definitions, from its first
to its last character. -/
theorem C37_whole_text (i : Str) (ds : List Definition) (h : parse i = .ok ds) : FileText ds i :=
  parseWith_text h

/-- C37. A rejected text is not a text of any file in the language of the tool. -/
theorem C37_rejected (i : Str) (h : parse i = .trailingData) (ds : List Definition) :
    ¬ FileExact ds i := by
  intro ht
  rw [parse_of_exact ht] at h
  cases h

/-- C37. In particular it is not a text, in the grammar of the RFC, of any file free of ambiguous
words. -/
theorem C37_rejected_readable (i : Str) (h : parse i = .trailingData) (ds : List Definition)
    (hr : Readable ds) : ¬ FileText ds i := fun ht => C37_rejected i h ds (file_exact ht hr)

example : FileText exampleFile exampleText := C37_whole_text _ _ parse_example
example : parse c!"const A = 1; junk" = .trailingData := by rfl

/-! ## C39 -/

theorem Gap.append {g g' : Str} (h : Gap g) (h' : Gap g') : Gap (g ++ g') := by
  induction h with
  | @blank s hs =>
    cases h' with
    | blank h' =>
      refine .blank fun c hc => ?_
      rcases List.mem_append.1 hc with hc | hc
      · exact hs c hc
      · exact h' c hc
    | @comment s' body rest hs' hb hr =>
      have : s ++ (s' ++ c!"/*" ++ body ++ c!"*/" ++ rest) =
          (s ++ s') ++ c!"/*" ++ body ++ c!"*/" ++ rest := by simp
      rw [this]
      refine .comment (fun c hc => ?_) hb hr
      rcases List.mem_append.1 hc with hc | hc
      · exact hs c hc
      · exact hs' c hc
  | @comment s body rest hs hb _ ih =>
    have : s ++ c!"/*" ++ body ++ c!"*/" ++ rest ++ g' =
        s ++ c!"/*" ++ body ++ c!"*/" ++ (rest ++ g') := by simp
    rw [this]
    exact .comment hs hb ih

theorem DefinitionsExact.gap {ds : List Definition} {s g : Str} (h : DefinitionsExact ds s)
    (hne : ds ≠ []) (hg : Gap g) : DefinitionsExact ds (s ++ g) := by
  induction ds generalizing s with
  | nil => exact absurd rfl hne
  | cons d ds ih =>
    obtain ⟨t, g', u, ht, hg', hu, rfl⟩ := h
    cases ds with
    | nil =>
      simp only [DefinitionsExact] at hu
      subst hu
      exact ⟨t, g' ++ g, [], ht, hg'.append hg, rfl, by simp⟩
    | cons e es => exact ⟨t, g', u ++ g, ht, hg', ih hu (by simp), by simp⟩

theorem DefinitionsExact.append {ds es : List Definition} {s t : Str} (h : DefinitionsExact ds s)
    (h' : DefinitionsExact es t) : DefinitionsExact (ds ++ es) (s ++ t) := by
  induction ds generalizing s with
  | nil =>
    simp only [DefinitionsExact] at h
    subst h
    exact h'
  | cons d ds ih =>
    obtain ⟨t', g, u, ht, hg, hu, rfl⟩ := h
    exact ⟨t', g, u ++ t, ht, hg, ih hu, by simp⟩

/-- C39. Blanks and comments before, between and after the definitions do not change the result. -/
theorem C39_between (i j g0 g1 g2 : Str) (ds es : List Definition)
    (hi : parse i = .ok ds) (hj : parse j = .ok es) (hds : ds ≠ []) (hes : es ≠ [])
    (h0 : Gap g0) (h1 : Gap g1) (h2 : Gap g2) :
    parse (g0 ++ i ++ g1 ++ j ++ g2) = .ok (ds ++ es) := by
  rcases parseWith_exact hi with ⟨h, _⟩ | ⟨ga, s, _, hga, hs, rfl⟩
  · exact absurd h hds
  rcases parseWith_exact hj with ⟨h, _⟩ | ⟨gb, t, _, hgb, ht, rfl⟩
  · exact absurd h hes
  refine parse_of_exact (.inr ⟨g0 ++ ga, s ++ (g1 ++ gb) ++ (t ++ g2), by simp [hds],
    h0.append hga, (hs.gap hds (h1.append hgb)).append (ht.gap hes h2), by simp⟩)

/-- C39 for one file. -/
theorem C39_around (i g0 g1 : Str) (ds : List Definition) (hi : parse i = .ok ds)
    (hds : ds ≠ []) (h0 : Gap g0) (h1 : Gap g1) :
    parse (g0 ++ i ++ g1) = .ok ds := by
  rcases parseWith_exact hi with ⟨h, _⟩ | ⟨ga, s, _, hga, hs, rfl⟩
  · exact absurd h hds
  exact parse_of_exact (.inr ⟨g0 ++ ga, s ++ g1, hds, h0.append hga, hs.gap hds h1, by simp⟩)

example : parse c!"const A = 1;" = .ok [.constant ⟨c!"A", .constant (.decimal c!"1")⟩] := by rfl
example : parse c!"/* x */ const A = 1; /**/ const B = A;\n" =
    .ok [.constant ⟨c!"A", .constant (.decimal c!"1")⟩, .constant ⟨c!"B", .identifier c!"A"⟩] := by rfl

/-- Blanks and comments alone are not accepted, though the empty text is. -/
theorem C39_blank_file (g : Str) (hg : Gap g) (hne : g ≠ []) : parse g = .trailingData := by
  have h : delimited comment0 (definition (type_specifier (g.length + 1))) comment0 g = .err := by
    obtain ⟨x, hx⟩ := comment0_of_gap (r := []) hg (notHead_nil _)
    obtain ⟨y, hy⟩ := comment0_tight (i := []) (notHead_nil _)
    rw [List.append_nil] at hx
    have := definition_nil (ts := type_specifier (g.length + 1))
    unfold delimited at this ⊢
    unfold P.bind at this ⊢
    rw [hy] at this
    rw [hx]
    exact this
  have hs : specification (type_specifier (g.length + 1)) g = .ok [] g := many0_of
    (fun i a r hi => by
      obtain ⟨g, t, g', _, _, _, rfl⟩ := oneDefinition_text (type_specifier_sound _) hi
      simp only [List.length_append]
      omega) (.nil h)
  unfold parse parseWith
  rw [hs]
  cases g with
  | nil => exact absurd rfl hne
  | cons c cs => rfl

example : Gap c!" /* only a comment */\n" := gap_space.append (.comment (s := []) (by simp [Blank])
  (body := c!" only a comment ") (by decide) gap_newline)

/-! ## C40 -/

/-- C40. In an accepted file no enum, struct, union, program, version or list of case labels is
empty. -/
theorem C40_nonempty (i : Str) (ds : List Definition) (h : parse i = .ok ds) (n : Nat)
    (hn : Atom.body n ∈ atoms ds) : 0 < n :=
  Nat.pos_of_ne_zero (wellFormed_of_text (parseWith_text h) _ hn)

example : Atom.body 3 ∈ atoms exampleFile := by
  simp [atoms, exampleFile, Definition.atoms, TypeDef.atoms]
example : parse c!"enum e { };" = .trailingData := by rfl

/-! ## C61 -/

/-- C61. The language of the tool: `parse` returns `ds` on `t` exactly when `t` is a text of `ds` in
the grammar of `Spec/XdrExact.lean`. -/
theorem C61_exact (t : Str) (ds : List Definition) : parse t = .ok ds ↔ FileExact ds t :=
  ⟨parseWith_exact, parse_of_exact⟩

/-- C61. Every accepted text is a text of its tree in the grammar of the RFC, with no condition. -/
theorem C61_within_grammar (t : Str) (ds : List Definition) (h : parse t = .ok ds) : FileText ds t :=
  parseWith_text h

/-- C61. Where no word is ambiguous, the two grammars agree. -/
theorem C61_agrees (t : Str) (ds : List Definition) (hr : Readable ds) :
    parse t = .ok ds ↔ FileText ds t := ⟨parseWith_text, parse_of_text hr⟩

/-- C61. Concatenating two accepted texts concatenates their trees. -/
theorem C61_concat (i j : Str) (ds es : List Definition) (hi : parse i = .ok ds)
    (hj : parse j = .ok es) : parse (i ++ j) = .ok (ds ++ es) := by
  rcases parseWith_exact hi with ⟨rfl, rfl⟩ | ⟨_, _, hds, _, _, _⟩
  · exact hj
  rcases parseWith_exact hj with ⟨rfl, rfl⟩ | ⟨_, _, hes, _, _, _⟩
  · simpa using hi
  have := C39_between i j [] [] [] ds es hi hj hds hes gap_nil gap_nil gap_nil
  simpa using this

example : FileExact exampleFile exampleText := (C61_exact _ _).1 parse_example

/-- Departures: with no blank before the star, `char` is the name of a type; -/
example : parse c!"struct s { char*p; };" = .ok [.type (.struct c!"s"
    [.optionVariable (.identifier c!"char") c!"p"])] := by rfl
/-- with a blank it is the type of one byte. -/
example : parse c!"struct s { char *p; };" = .ok [.type (.struct c!"s"
    [.optionVariable (.char true) c!"p"])] := by rfl
/-- The name `char` after `unsigned` needs the semicolon at once. -/
example : parse c!"struct s { unsigned char; };" = .ok [.type (.struct c!"s"
    [.variable (.int false) c!"char"])] := by rfl
example : parse c!"struct s { unsigned char ; };" = .trailingData := by rfl
example : parse c!"struct s { unsigned int char ; };" = .ok [.type (.struct c!"s"
    [.variable (.int false) c!"char"])] := by rfl
/-- A type name that begins with `void` cannot begin a declaration. -/
example : parse c!"struct s { voidptr p; };" = .trailingData := by rfl

end Xdr.Rpcgen
