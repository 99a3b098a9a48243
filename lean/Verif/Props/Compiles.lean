import Verif.RpcgenProofs.Rustc
import Verif.Props.Accepts
/-!
# Property C71: the generated source compiles

What rustc asks of the generated source is in `RustFile.Compiles` (`Rpcgen/Rustc.lean`): names are legal and
different, types are defined and have the traits that are used, patterns have the type of what they match, and so
on (`RustFile.defs`, `Rpcgen/Meaning.lean`); every type has a finite size; and no name is taken for another one in
the code of the `impl`s and derive macros. The claim is false; `Clean` (`Spec/Clean.lean`) is a condition on the
interface under which it holds, and every part of it is needed.
-/

namespace Xdr.Rpcgen

/-- C71. Whatever is printed for a clean interface compiles, with any flags. -/
theorem C71_compiles_partial {n : Nat} {s : Str} {flags : Flags} {file : RustFile}
    (h : run n s flags = .printed file) :
    ∃ ds, parse s = .ok ds ∧ (Clean ds flags.config → file.Compiles) := by
  obtain ⟨ds, hp, hg⟩ := run_ok h
  exact ⟨ds, hp, fun hc => clean_compiles (wellFormed_parse hp) hc rfl hg (C65_declared hp hg)⟩

/-- The tool prints source that rustc does not take. -/
def refused (n : Nat) (s : Str) (flags : Flags) : Bool :=
  match run n s flags with
  | .printed file => file.defs.isNone || !file.apart
  | _ => false

def Refused (s : Str) (flags : Flags) : Prop :=
  ∃ n file, run n s flags = .printed file ∧ ¬ file.Compiles

theorem refused_of {n : Nat} {s : Str} {flags : Flags} (h : refused n s flags = true) : Refused s flags := by
  unfold refused at h
  split at h
  · next file hf =>
    refine ⟨n, file, hf, ?_⟩
    rintro ⟨⟨defs, hd⟩, -, ha⟩
    rw [hd, ha] at h
    cases h
  · cases h

/-! ## The claim is false; each part of `Clean` is needed -/

theorem C71_twice_violated : Refused c!"const A = 1; const A = 2;" {} := refused_of (n := 5) (by decide +kernel)

theorem C71_same_type_violated : Refused c!"struct ab { int x; }; struct Ab { int x; };" {} :=
  refused_of (n := 5) (by decide +kernel)

theorem C71_self_violated : Refused c!"struct self { int x; };" {} := refused_of (n := 5) (by decide +kernel)

theorem C71_undefined_violated : Refused c!"struct s { t x; };" {} := refused_of (n := 5) (by decide +kernel)

theorem C71_constant_keyword_violated : Refused c!"const type = 5;" {} := refused_of (n := 5) (by decide +kernel)

theorem C71_constant_member_violated : Refused c!"enum e { X = 0 }; const A = X;" {} :=
  refused_of (n := 5) (by decide +kernel)

theorem C71_named_length_violated : Refused c!"const N = 4; struct s { int a[N]; };" {} :=
  refused_of (n := 5) (by decide +kernel)

theorem C71_long_array_violated : Refused c!"struct s { int a[33]; };" {} := refused_of (n := 5) (by decide +kernel)

theorem C71_long_opaque_violated : Refused c!"struct s { opaque a[33]; };" {} :=
  refused_of (n := 5) (by decide +kernel)

theorem C71_opaque_arrays_violated : Refused c!"typedef opaque b<>; struct s { b a[2]; };" {} :=
  refused_of (n := 5) (by decide +kernel)

theorem C71_opaque_lists_violated : Refused c!"typedef opaque b[4]; struct s { b a<>; };" {} :=
  refused_of (n := 5) (by decide +kernel)

theorem C71_opaque_pointer_violated : Refused c!"typedef opaque b<>; struct s { b *a; };" {} :=
  refused_of (n := 5) (by decide +kernel)

theorem C71_enum_lists_violated : Refused c!"enum e { X = 0 }; struct s { e a<>; };" { use_std_trait := true } :=
  refused_of (n := 5) (by decide +kernel)

theorem C71_same_field_violated : Refused c!"struct s { int ab; int aB; int a_b; };" {} :=
  refused_of (n := 5) (by decide +kernel)

theorem C71_keyword_field_violated : Refused c!"struct s { int Type; };" {} := refused_of (n := 5) (by decide +kernel)

theorem C71_u8_violated : Refused c!"struct u8 { opaque a[4]; };" {} := refused_of (n := 5) (by decide +kernel)

theorem C71_same_number_violated : Refused c!"enum e { X = 0, Y = 0 };" {} := refused_of (n := 5) (by decide +kernel)

theorem C71_same_member_violated : Refused c!"enum e { ab = 0, Ab = 1 };" {} := refused_of (n := 5) (by decide +kernel)

theorem C71_literal_label_violated : Refused c!"union u switch (int i) { case 1: int a; };" {} :=
  refused_of (n := 5) (by decide +kernel)

theorem C71_default_label_violated :
    Refused c!"enum e { Default = 0 }; union u switch (e i) { case Default: int a; default: void; };" {} :=
  refused_of (n := 5) (by decide +kernel)

theorem C71_signed_violated : Refused c!"const ONE = 1; union u switch (int i) { case ONE: int a; };" { use_union := true } :=
  refused_of (n := 5) (by decide +kernel)

theorem C71_half_bool_violated :
    Refused c!"union u switch (bool i) { case TRUE: int a; default: void; };" { use_union := true } :=
  refused_of (n := 5) (by decide +kernel)

/-- Two structures that hold each other: the types have no finite size. -/
theorem C71_size_violated : Refused c!"struct a { b *x; }; struct b { a *y; };" {} := by
  refine ⟨5, _, rfl, ?_⟩
  rintro ⟨-, hs, -⟩
  refine hs ⟨false, c!"A"⟩ (.tail (b := ⟨false, c!"B"⟩) (.single ?_) ?_)
  · exact ⟨_, List.mem_cons_self, by decide +kernel, by decide +kernel⟩
  · exact ⟨_, List.mem_cons_of_mem _ List.mem_cons_self, by decide +kernel, by decide +kernel⟩

/-- A list as a union. -/
theorem C71_union_size_violated : Refused c!"union list switch (bool more) { case TRUE: list next; case FALSE: void; };" {} := by
  refine ⟨5, _, rfl, ?_⟩
  rintro ⟨-, hs, -⟩
  exact hs ⟨false, c!"List"⟩ (.single ⟨_, List.mem_cons_self, by decide +kernel, by decide +kernel⟩)

/-- A structure that holds itself through a typedef. -/
theorem C71_typedef_size_violated : Refused c!"typedef node *link; struct node { int x; link next; };" {} := by
  refine ⟨5, _, rfl, ?_⟩
  rintro ⟨-, hs, -⟩
  exact hs ⟨false, c!"Node"⟩ (.single ⟨_, List.mem_cons_self, by decide +kernel, by decide +kernel⟩)

theorem C71_variable_violated : Refused c!"const v = 1; enum e { X = 0 };" { use_std_trait := true } :=
  refused_of (n := 5) (by decide +kernel)

theorem C71_field_variable_violated :
    Refused c!"const a0 = 1; union u switch (bool b) { case TRUE: int a; case FALSE: void; };" { use_indexer := true } :=
  refused_of (n := 5) (by decide +kernel)

theorem C71_underscores_violated : Refused c!"const __serializer = 1; struct s { int a; };" {} :=
  refused_of (n := 5) (by decide +kernel)

theorem C71_fields_constant_violated : Refused c!"const FIELDS = 4; struct s { opaque a[FIELDS]; };" {} :=
  refused_of (n := 5) (by decide +kernel)

theorem C71_type_parameter_violated : Refused c!"enum s { X = 0 };" { use_indexer := true } :=
  refused_of (n := 5) (by decide +kernel)

theorem C71_error_member_violated : Refused c!"enum status { ok = 0, error = 1 };" { use_indexer := true } :=
  refused_of (n := 5) (by decide +kernel)

theorem C71_error_label_violated :
    Refused c!"enum status { ok = 0, error = 1 }; union u switch (status s) { case ok: int a; case error: void; };"
      { use_union := true } :=
  refused_of (n := 5) (by decide +kernel)

/-! ## An interface of all kinds -/

/-- The declarations of a file. -/
def declarations (ds : List Definition) : List Declaration :=
  ds.flatMap fun
    | .type (.declaration d) => [d]
    | .type (.struct _ ms) => ms
    | .type (.union _ b) => b.cond :: (b.labels.map (·.2) ++ b.default.toList)
    | _ => []

theorem declIn_mem {ds : List Definition} {d : Declaration} (h : DeclIn ds d) : d ∈ declarations ds := by
  rcases h with h | ⟨_, _, h, hd⟩ | ⟨_, _, _, h, hd⟩ | ⟨_, _, h, hd⟩ | ⟨_, _, h, hd⟩
  · exact List.mem_flatMap.2 ⟨_, h, List.mem_singleton.2 rfl⟩
  · exact List.mem_flatMap.2 ⟨_, h, hd⟩
  · exact List.mem_flatMap.2 ⟨_, h, List.mem_cons_of_mem _ (List.mem_append_left _ (List.mem_map.2 ⟨_, hd, rfl⟩))⟩
  · exact List.mem_flatMap.2 ⟨_, h, List.mem_cons_of_mem _ (List.mem_append_right _ (by simp [hd]))⟩
  · exact List.mem_flatMap.2 ⟨_, h, by simp [hd]⟩

theorem declarations_catalogue : declarations catalogue = [
    .opaqueVariableArray c!"bytes" (some (.identifier c!"NAME_MAX")),
    .variableArray (.identifier c!"bytes") c!"pages" none,
    .variable (.identifier c!"kind") c!"k", .fixedArray (.int true) c!"pos" (.constant (.decimal c!"3")),
    .variable (.identifier c!"bytes") c!"data", .variable (.identifier c!"pages") c!"ps",
    .string c!"name" (some (.identifier c!"NAME_MAX")), .optionVariable (.identifier c!"entry") c!"next",
    .variable .double c!"weight", .opaqueFixedArray c!"id" (.constant (.decimal c!"4")),
    .variable (.identifier c!"kind") c!"k", .void, .string c!"s" none, .variable (.identifier c!"bytes") c!"b",
    .variable (.identifier c!"entry") c!"e"] := rfl

theorem labels_catalogue : catalogueItem.labels = [(.identifier c!"none", .void),
    (.identifier c!"text", .string c!"s" none), (.identifier c!"blob", .variable (.identifier c!"bytes") c!"b")] := rfl

/-- In the catalogue a union holds a structure and an enum, the structure an enum. -/
theorem sized_catalogue : ∀ a, ¬ Relation.TransGen (Contains catalogue) a a := by
  have hin : ∀ {d m}, Inside catalogue d m → d.inPlace = some (.identifier m) := by
    intro d m h
    induction h with
    | item h _ _ => exact h
    | typedef _ ht _ ih =>
      have := (typeOf_mem ht).1
      simp only [catalogue, List.mem_cons, reduceCtorEq, Definition.type.injEq, TypeDef.declaration.injEq,
        List.not_mem_nil, or_false, false_or] at this
      rcases this with rfl | rfl <;> cases ih
  let rank (a : Str) : Nat := if a = c!"item" then 2 else if a = c!"entry" then 1 else 0
  have hstep : ∀ {a b}, Contains catalogue a b → rank b < rank a := by
    intro a b h
    cases h with
    | member hm hd hne hi =>
      have hi := hin hi
      simp only [catalogue, List.mem_cons, reduceCtorEq, Definition.type.injEq, TypeDef.struct.injEq,
        List.not_mem_nil, or_false, false_or] at hm
      obtain ⟨rfl, rfl⟩ := hm
      simp only [catalogueEntry, List.mem_cons, List.not_mem_nil, or_false] at hd
      rcases hd with rfl | rfl | rfl | rfl | rfl | rfl | rfl | rfl <;>
        simp_all [Declaration.inPlace]
      all_goals subst hi; decide +kernel
    | cond hm hi =>
      have hi := hin hi
      simp only [catalogue, List.mem_cons, reduceCtorEq, Definition.type.injEq, TypeDef.union.injEq,
        List.not_mem_nil, or_false, false_or] at hm
      obtain ⟨rfl, rfl⟩ := hm
      cases hi
      decide +kernel
    | arm hm hl hi =>
      have hb := hi.itemName
      have hi := hin hi
      simp only [catalogue, List.mem_cons, reduceCtorEq, Definition.type.injEq, TypeDef.union.injEq,
        List.not_mem_nil, or_false, false_or] at hm
      obtain ⟨rfl, rfl⟩ := hm
      rw [labels_catalogue] at hl
      simp only [List.mem_cons, List.not_mem_nil, or_false] at hl
      rcases hl with rfl | rfl | rfl <;> cases hi
      revert hb
      decide +kernel
    | default hm hd hi =>
      have hi := hin hi
      simp only [catalogue, List.mem_cons, reduceCtorEq, Definition.type.injEq, TypeDef.union.injEq,
        List.not_mem_nil, or_false, false_or] at hm
      obtain ⟨rfl, rfl⟩ := hm
      cases hd
      cases hi
      decide +kernel
  have hall : ∀ {a b}, Relation.TransGen (Contains catalogue) a b → rank b < rank a := by
    intro a b h
    induction h with
    | single h => exact hstep h
    | tail _ h ih => exact Nat.lt_trans (hstep h) ih
  intro a h
  exact Nat.lt_irrefl _ (hall h)

theorem clean_catalogue (flags : Flags) : Clean catalogue flags.config where
  unambiguous := (supported_catalogue flags).unambiguous
  types := by decide +kernel
  shadow := by decide +kernel
  defined d name h he := by
    have hm := declIn_mem h
    rw [declarations_catalogue] at hm
    simp only [List.mem_cons, List.not_mem_nil, or_false] at hm
    rcases hm with rfl | rfl | rfl | rfl | rfl | rfl | rfl | rfl | rfl | rfl | rfl | rfl | rfl | rfl | rfl <;>
      cases he <;> decide +kernel
  constants a ha := by
    simp only [catalogue, constants, List.filterMap_cons, List.filterMap_nil, List.mem_singleton] at ha
    subst ha
    exact ⟨by decide +kernel, by decide +kernel, 16, .literal _, fun _ => by decide⟩
  lengths ts nm v h := by
    have hm := declIn_mem h
    rw [declarations_catalogue] at hm
    simp only [List.mem_cons, reduceCtorEq, List.not_mem_nil, or_false, false_or, Declaration.fixedArray.injEq] at hm
    obtain ⟨rfl, rfl, rfl⟩ := hm
    exact ⟨_, rfl, by decide +kernel⟩
  opaqueLengths nm v h := by
    have hm := declIn_mem h
    rw [declarations_catalogue] at hm
    simp only [List.mem_cons, reduceCtorEq, List.not_mem_nil, or_false, false_or, Declaration.opaqueFixedArray.injEq] at hm
    obtain ⟨rfl, rfl⟩ := hm
    exact ⟨4, .literal _, by decide⟩
  fixedArrays ts nm v h := by
    have hm := declIn_mem h
    rw [declarations_catalogue] at hm
    simp only [List.mem_cons, reduceCtorEq, List.not_mem_nil, or_false, false_or, Declaration.fixedArray.injEq] at hm
    obtain ⟨rfl, rfl, rfl⟩ := hm
    exact nofun
  arrays ts nm m h _ := by
    have hm := declIn_mem h
    rw [declarations_catalogue] at hm
    simp only [List.mem_cons, reduceCtorEq, List.not_mem_nil, or_false, false_or, Declaration.variableArray.injEq] at hm
    obtain ⟨rfl, rfl, rfl⟩ := hm
    exact .typedef (d := .opaqueVariableArray c!"bytes" (some (.identifier c!"NAME_MAX"))) rfl .direct
  pointers ts nm h := by
    have hm := declIn_mem h
    rw [declarations_catalogue] at hm
    simp only [List.mem_cons, reduceCtorEq, List.not_mem_nil, or_false, false_or, Declaration.optionVariable.injEq] at hm
    obtain ⟨rfl, rfl⟩ := hm
    intro ho
    cases ho with
    | typedef h1 _ => cases h1
  enumMembers _ d name e as h hts ht := by
    have hm := (typeOf_mem ht).1
    simp only [catalogue, List.mem_cons, reduceCtorEq, Definition.type.injEq, TypeDef.enum.injEq,
      List.not_mem_nil, or_false, false_or] at hm
    obtain ⟨rfl, rfl⟩ := hm
    have hn := (typeOf_mem ht).2
    cases hn
    have hm := declIn_mem (.inr (.inl h))
    rw [declarations_catalogue] at hm
    simp only [List.mem_cons, List.not_mem_nil, or_false] at hm
    rcases hm with rfl | rfl | rfl | rfl | rfl | rfl | rfl | rfl | rfl | rfl | rfl | rfl | rfl | rfl | rfl <;>
      first | exact ⟨_, rfl⟩ | (exfalso; revert hts; simp [Declaration.type_specifier])
  fields s ms h := by
    simp only [catalogue, List.mem_cons, reduceCtorEq, Definition.type.injEq, TypeDef.struct.injEq,
      List.not_mem_nil, or_false, false_or] at h
    obtain ⟨rfl, rfl⟩ := h
    exact ⟨by decide +kernel, by decide +kernel⟩
  u8 ms h := by
    simp [catalogue] at h
  enums e as h := by
    simp only [catalogue, List.mem_cons, reduceCtorEq, Definition.type.injEq, TypeDef.enum.injEq,
      List.not_mem_nil, or_false, false_or] at h
    obtain ⟨rfl, rfl⟩ := h
    exact ⟨⟨_, numbered_catalogue⟩, by decide +kernel, by decide +kernel, nofun⟩
  unions u b h := by
    simp only [catalogue, List.mem_cons, reduceCtorEq, Definition.type.injEq, TypeDef.union.injEq,
      List.not_mem_nil, or_false, false_or] at h
    obtain ⟨rfl, rfl⟩ := h
    exact ⟨_, _, _, [c!"none", c!"text", c!"blob"], rfl, labelled_catalogue, rfl,
      ⟨by decide +kernel, by decide +kernel, fun _ => by decide +kernel⟩,
      fun _ => .enum (e := c!"kind") (as := catalogueKinds) rfl⟩
  sized := sized_catalogue
  locals a ha := by
    simp only [catalogue, constants, List.filterMap_cons, List.filterMap_nil, List.mem_singleton] at ha
    subst ha
    exact ⟨by decide +kernel, by decide +kernel⟩
  generics _ := by decide +kernel
  enumError _ e as h := by
    simp only [catalogue, List.mem_cons, reduceCtorEq, Definition.type.injEq, TypeDef.enum.injEq,
      List.not_mem_nil, or_false, false_or] at h
    obtain ⟨rfl, rfl⟩ := h
    decide +kernel
  unionError _ u b h a d hm := by
    simp only [catalogue, List.mem_cons, reduceCtorEq, Definition.type.injEq, TypeDef.union.injEq,
      List.not_mem_nil, or_false, false_or] at h
    obtain ⟨rfl, rfl⟩ := h
    rw [labels_catalogue] at hm
    simp only [List.mem_cons, Prod.mk.injEq, Value.identifier.injEq, List.not_mem_nil, or_false] at hm
    rcases hm with ⟨rfl, -⟩ | ⟨rfl, -⟩ | ⟨rfl, -⟩ <;> decide +kernel

end Xdr.Rpcgen
