import Verif.RpcgenProofs.Bare
import Verif.Rpcgen.Gen
/-!
# Properties C49, C50, C59, C60: names

`upper_camel_case` and `snake_case` are `gen_code.rs` 898-917 and 934-970.
-/

namespace Xdr.Rpcgen

/-! ## C49 -/

/-- C49. No underscore is left. -/
theorem C49_no_underscore (s : Str) : '_' ∉ upper_camel_case s := upper_camel_case_no s

/-- C49. The first character is not a lower-case letter. -/
theorem C49_first (s : Str) (c : Char) (cs : Str) (h : upper_camel_case s = c :: cs) :
    ¬ ('a' ≤ c ∧ c ≤ 'z') := by
  have := upper_camel_case_head s c cs h
  intro ⟨h1, h2⟩
  rw [Bool.eq_false_iff] at this
  exact this (isLower_iff.2 ⟨h1, h2⟩)

/-- C49. Converting twice is converting once. -/
theorem C49_idempotent (s : Str) : upper_camel_case (upper_camel_case s) = upper_camel_case s :=
  upper_camel_case_fixed (upper_camel_case_no s) (upper_camel_case_head s)

/-- C49. Apart from underscores nothing is dropped and only the case of letters changes. -/
theorem C49_letters (s : Str) :
    (upper_camel_case s).map toLower = (s.filter (· ≠ '_')).map toLower := upper_camel_case_letters s

example : upper_camel_case c!"AB_CD" = c!"AbCd" ∧ upper_camel_case c!"ab_cd" = c!"AbCd" ∧
    upper_camel_case c!"abCd" = c!"AbCd" ∧ upper_camel_case c!"AbCd" = c!"AbCd" ∧
    upper_camel_case c!"_x" = c!"X" := ⟨rfl, rfl, rfl, rfl, rfl⟩

/-! ## C50 -/

/-- C50. No upper-case letter is left. -/
theorem C50_no_upper (s : Str) : ∀ c ∈ snake_case s, ¬ ('A' ≤ c ∧ c ≤ 'Z') := by
  intro c hc ⟨h1, h2⟩
  have := snake_case_no s c hc
  rw [Bool.eq_false_iff] at this
  exact this (isUpper_iff.2 ⟨h1, h2⟩)

/-- C50. Converting twice is converting once. -/
theorem C50_idempotent (s : Str) : snake_case (snake_case s) = snake_case s :=
  snake_case_fixed (snake_case_no s)

/-- C50. Nothing is dropped: apart from inserted underscores, only the case of letters changes. -/
theorem C50_letters (s : Str) :
    (snake_case s).filter (· ≠ '_') = (s.filter (· ≠ '_')).map toLower := snake_case_letters s

example : snake_case c!"AbCd" = c!"ab_cd" ∧ snake_case c!"abCd" = c!"ab_cd" ∧
    snake_case c!"ab_cd" = c!"ab_cd" ∧ snake_case c!"Ab2Cd" = c!"ab2_cd" ∧
    snake_case c!"userID" = c!"user_id" := ⟨rfl, rfl, rfl, rfl, rfl⟩

/-! ## C59 -/

/-- C59. If no field name has a capital letter, no field of a generated struct is a bare Rust keyword.
Missing from the full claim: names with capitals; see `C59_violated`. -/
theorem C59_keywords_partial (cxt : Context) (n : Nat) (name : Str) (ds : List Declaration)
    (item : StructItem) (h : convert_struct_token cxt n name ds = .ok item)
    (hl : ∀ d ∈ ds, ∀ f, d.name = some f → ∀ c ∈ f, ¬ ('A' ≤ c ∧ c ≤ 'Z')) :
    ∀ a i ty, (a, i, ty) ∈ item.fields → i.raw = true ∨ i.name ∉ KEYWORDS_RUST := by
  intro a i ty hm
  obtain ⟨d, hd, f, hf, hi⟩ := struct_field_ident h hm
  have hlow : ∀ c ∈ f, isUpper c = false := fun c hc => by
    rw [Bool.eq_false_iff]
    intro h'
    exact hl d hd f hf c hc (isUpper_iff.1 h')
  exact fieldIdent_keyword hlow hi

example : ∃ item, convert_struct_token (setup_context [] {}) 1 c!"s"
    [.variable (.int true) c!"type", .variable (.int true) c!"x"] = .ok item ∧
    item.fields = [(.none, ⟨true, c!"type"⟩, .i32), (.none, ⟨false, c!"x"⟩, .i32)] := ⟨_, rfl, rfl⟩

/-- C59 is false of the code: the keyword test comes before the conversion to lower case, so the field
`Type` becomes the bare keyword `type`. -/
theorem C59_violated : ∃ (item : StructItem), ∀ cfg,
    convert_struct_token (setup_context [] cfg) 1 c!"s" [.variable (.int true) c!"Type"] = .ok item ∧
    item.fields = [(.none, ⟨false, c!"type"⟩, .i32)] ∧ c!"type" ∈ KEYWORDS_RUST := by
  refine ⟨⟨⟨false, c!"S"⟩, [(.none, ⟨false, c!"type"⟩, .i32)]⟩, fun cfg => ⟨?_, rfl, by decide⟩⟩
  rcases cfg with ⟨_ | _, _ | _, _ | _, _ | _, _ | _⟩ <;> rfl

/-- C59, exactly: a struct has a field that is a bare Rust keyword if and only if it declares a field whose
name is not a keyword, and is a keyword other than `Self` with some of its first letters in upper case. -/
theorem C59_exact (cxt : Context) (n : Nat) (name : Str) (ds : List Declaration)
    (item : StructItem) (h : convert_struct_token cxt n name ds = .ok item) :
    (∃ a i ty, (a, i, ty) ∈ item.fields ∧ i.raw = false ∧ i.name ∈ KEYWORDS_RUST) ↔
    ∃ d ∈ ds, ∃ f, d.name = some f ∧ f ∉ KEYWORDS_RUST ∧
      ∃ k ∈ KEYWORDS_RUST, k ≠ c!"Self" ∧ ∃ m, f = (k.take m).map toUpper ++ k.drop m := by
  constructor
  · rintro ⟨a, i, ty, hm, hb⟩
    obtain ⟨d, hd, f, hf, hi⟩ := struct_field_ident h hm
    exact ⟨d, hd, f, hf, (bare_iff hi).1 hb⟩
  · rintro ⟨d, hd, f, hf, hb⟩
    obtain ⟨⟨a, i, ty⟩, hm, hr⟩ := forall₂_mem_left (convert_struct_ok h).2 hd
    obtain ⟨f', ts, ty', op, hf', -, -, hi, -, -⟩ := convertField_ok hr
    rw [hf] at hf'
    cases hf'
    exact ⟨a, i, ty, hm, (bare_iff hi).2 hb⟩

/-- `Type`, `TYpe` and `TYPE` are such names; `tYPE` is not. -/
example : (∀ f ∈ [c!"Type", c!"TYpe", c!"TYPE"], f ∉ KEYWORDS_RUST ∧
    ∃ m, f = (c!"type".take m).map toUpper ++ c!"type".drop m) ∧ snake_case c!"tYPE" = c!"t_ype" := by
  refine ⟨?_, rfl⟩
  intro f hf
  simp only [List.mem_cons, List.not_mem_nil, or_false] at hf
  rcases hf with rfl | rfl | rfl
  · exact ⟨by decide, 1, rfl⟩
  · exact ⟨by decide, 2, rfl⟩
  · exact ⟨by decide, 4, rfl⟩

/-! ## C60 -/

/-- C60. Different field names without capitals stay different, and so do different type or member names
without underscores that begin with no lower-case letter. -/
theorem C60_distinct_partial (a b : Str) :
    ((∀ c ∈ a, ¬ ('A' ≤ c ∧ c ≤ 'Z')) → (∀ c ∈ b, ¬ ('A' ≤ c ∧ c ≤ 'Z')) → a ≠ b →
      snake_case a ≠ snake_case b) ∧
    ('_' ∉ a → '_' ∉ b → (∀ c, a.head? = some c ∨ b.head? = some c → ¬ ('a' ≤ c ∧ c ≤ 'z')) → a ≠ b →
      upper_camel_case a ≠ upper_camel_case b) := by
  constructor
  · intro ha hb hne
    have h1 : ∀ c ∈ a, isUpper c = false := fun c hc => by
      rw [Bool.eq_false_iff]; exact fun h => ha c hc (isUpper_iff.1 h)
    have h2 : ∀ c ∈ b, isUpper c = false := fun c hc => by
      rw [Bool.eq_false_iff]; exact fun h => hb c hc (isUpper_iff.1 h)
    rwa [snake_case_fixed h1, snake_case_fixed h2]
  · intro ha hb hh hne
    have h1 : HeadUpper a := fun c cs he => by
      rw [Bool.eq_false_iff]; exact fun h => hh c (.inl (by rw [he]; rfl)) (isLower_iff.1 h)
    have h2 : HeadUpper b := fun c cs he => by
      rw [Bool.eq_false_iff]; exact fun h => hh c (.inr (by rw [he]; rfl)) (isLower_iff.1 h)
    rwa [upper_camel_case_fixed ha h1, upper_camel_case_fixed hb h2]

/-- C60. Names that collide differ in nothing but underscores and the case of letters. Missing from the
full claim: names that differ only in these; see `C60_violated`. -/
theorem C60_collide_partial (a b : Str)
    (h : upper_camel_case a = upper_camel_case b ∨ snake_case a = snake_case b) :
    (a.filter (· ≠ '_')).map toLower = (b.filter (· ≠ '_')).map toLower := by
  rcases h with h | h
  · rw [← C49_letters, ← C49_letters, h]
  · rw [← C50_letters, ← C50_letters, h]

example : snake_case c!"aB" = snake_case c!"a_b" ∧
    (c!"aB".filter (· ≠ '_')).map toLower = (c!"a_b".filter (· ≠ '_')).map toLower :=
  ⟨rfl, C60_collide_partial _ _ (.inr rfl)⟩

/-- C60 is false of the code: two members of one enum, and two fields of one struct, can become the same
Rust name. -/
theorem C60_violated :
    (∃ cxt item, convert_enum_token cxt 0 c!"e"
      [⟨c!"A_B", .constant (.decimal c!"0")⟩, ⟨c!"AB", .constant (.decimal c!"1")⟩] = .ok item ∧
      item.variants = [(⟨false, c!"AB"⟩, 0), (⟨false, c!"AB"⟩, 1)]) ∧
    (∃ cxt item, convert_struct_token cxt 1 c!"s"
      [.variable (.int true) c!"aB", .variable (.int true) c!"a_b"] = .ok item ∧
      item.fields = [(.none, ⟨false, c!"a_b"⟩, .i32), (.none, ⟨false, c!"a_b"⟩, .i32)]) :=
  ⟨⟨setup_context [] {}, _, rfl, rfl⟩, ⟨setup_context [] {}, _, rfl, rfl⟩⟩

end Xdr.Rpcgen
