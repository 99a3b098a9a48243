import Verif.RpcgenProofs.Panics
import Verif.Props.Whole
import Verif.Props.Stops
/-!
# Property C88: when generated decoders panic

C07 is about the panics of types whose hand-written parts do not panic. In a generated program those parts are
generated as well. `NoStrings` (`Spec/Strings.lean`) is about the interface alone.
-/

namespace Xdr.Rpcgen

/-- C88, for any interface, any flags and any type of the printed program: inputs of a whole number of words do not
make it panic. -/
theorem C88_whole_words {n : Nat} {s : Str} {flags : Flags} {file : RustFile} (h : run n s flags = .printed file)
    {defs : List (String × Def)} (hd : file.defs = some defs) {ty : String} (hty : ty ∈ defs.map (·.1))
    (m : Nat) (input : Bytes) (h4 : 4 ∣ input.length) (p : PanicSite) :
    fromBytes (Xdr.program defs) m (.named ty) input ≠ .panic p := by
  obtain ⟨ds, -, hg⟩ := run_ok h
  exact C07_aligned_no_panic_partial _ _ (gen_Ok rfl (flags_apart flags) hg hd (.inl rfl)) (named_Ok hty) m input h4 p

/-- C88: if the interface has no strings, nothing makes it panic. -/
theorem C88_no_strings {n : Nat} {s : Str} {flags : Flags} {file : RustFile} (h : run n s flags = .printed file)
    {defs : List (String × Def)} (hd : file.defs = some defs) :
    ∃ ds, parse s = .ok ds ∧ (NoStrings ds → ∀ ty ∈ defs.map (·.1), ∀ m input p,
      fromBytes (Xdr.program defs) m (.named ty) input ≠ .panic p) := by
  obtain ⟨ds, hp, hg⟩ := run_ok h
  exact ⟨ds, hp, fun hs ty hty => C07_no_panic_partial _ _
    (gen_Ok rfl (flags_apart flags) hg hd (.inr hs)) (named_Ok hty)⟩

/-- C88: any panic is that of padding which is missing at the end of the input. Neither a type name without a
definition, nor a conversion, nor the name or the fields of a variant are a cause. -/
theorem C88_only_padding {n : Nat} {s : Str} {flags : Flags} {file : RustFile} (h : run n s flags = .printed file)
    {defs : List (String × Def)} (hd : file.defs = some defs) {ty : String} (hty : ty ∈ defs.map (·.1))
    {m : Nat} {input : Bytes} {p : PanicSite} (hp : fromBytes (Xdr.program defs) m (.named ty) input = .panic p) :
    p = .paddingSlice ∧ ¬ 4 ∣ input.length := by
  obtain ⟨ds, -, hg⟩ := run_ok h
  refine ⟨C07_only_padding _ _ (gen_Ok rfl (flags_apart flags) hg hd (.inl rfl)) (named_Ok hty) m input p hp, ?_⟩
  exact fun h4 => C88_whole_words h hd hty m input h4 p hp

/-- C88 for the printed text of a proper interface (`C73_whole`). -/
theorem C88_whole {s : Str} {ds : List Definition} (hp : parse s = .ok ds) {flags : Flags}
    (h : Proper ds flags.config) :
    ∃ out defs, (∀ n, (definedNames ds).length < n → ds.length < n → output n s flags = some out) ∧
      rustDefs out = some defs ∧ ∀ ty ∈ defs.map (·.1), ∀ m input p,
        fromBytes (Xdr.program defs) m (.named ty) input = .panic p →
          p = .paddingSlice ∧ ¬ 4 ∣ input.length ∧ ¬ NoStrings ds := by
  obtain ⟨file, out, defs, h1, ⟨⟨defs', hd⟩, -⟩, h3, -⟩ := C73_whole hp h
  let m := max (definedNames ds).length ds.length + 1
  obtain ⟨h4, h5⟩ := h1 m (by omega) (by omega)
  have h6 := C70_program h4 h5 hd
  rw [h3] at h6
  cases h6
  refine ⟨out, defs, fun n hn hn' => (h1 n hn hn').2, h3, fun ty hty m input p hpn => ?_⟩
  obtain ⟨h7, h8⟩ := C88_only_padding h4 hd hty hpn
  refine ⟨h7, h8, fun hs => ?_⟩
  obtain ⟨ds', hp', hall⟩ := C88_no_strings h4 hd
  cases hp.symm.trans hp'
  exact hall hs ty hty m input p hpn

/-! ## Examples -/

/-- A union with a text. -/
def noteText : Str := c!"enum kind { none = 0, text = 1 }; union note switch (kind k) { case none: void; case text: string s<>; };"

/-- Nine bytes of a note, whose text of one byte is not padded, make its decoder panic; with the padding no panic is
possible. -/
example : ∃ file defs, run 5 noteText {} = .printed file ∧ file.defs = some defs ∧
    fromBytes (Xdr.program defs) 9 (.named "Note") [0, 0, 0, 1, 0, 0, 0, 1, 97] = .panic .paddingSlice ∧
    ∀ m p, fromBytes (Xdr.program defs) m (.named "Note") [0, 0, 0, 1, 0, 0, 0, 1, 97, 0, 0, 0] ≠ .panic p := by
  have h : ∃ file defs, run 5 noteText {} = .printed file ∧ file.defs = some defs ∧
      fromBytes (Xdr.program defs) 9 (.named "Note") [0, 0, 0, 1, 0, 0, 0, 1, 97] = .panic .paddingSlice ∧
      "Note" ∈ defs.map (·.1) := by
    set_option maxRecDepth 100000 in exact ⟨_, _, rfl, rfl, rfl, by decide +kernel⟩
  obtain ⟨file, defs, h1, h2, h3, h4⟩ := h
  exact ⟨file, defs, h1, h2, h3, fun m p => C88_whole_words h1 h2 h4 m _ (by decide) p⟩

/-- A tree of numbers, with an opaque tag. -/
def treeText : Str := c!"struct tree { opaque tag<3>; int xs<>; tree *next; };"

/-- It has no strings: no input at all makes its decoder panic, whatever the flags. -/
example (flags : Flags) (h : flags = {} ∨ flags = { use_std_trait := true }) : ∃ file defs,
    run 5 treeText flags = .printed file ∧ file.defs = some defs ∧ "Tree" ∈ defs.map (·.1) ∧
    ∀ m input p, fromBytes (Xdr.program defs) m (.named "Tree") input ≠ .panic p := by
  have hx : ∃ file defs, run 5 treeText flags = .printed file ∧ file.defs = some defs ∧
      "Tree" ∈ defs.map (·.1) := by
    rcases h with rfl | rfl <;> set_option maxRecDepth 100000 in exact ⟨_, _, rfl, rfl, by decide +kernel⟩
  obtain ⟨file, defs, h1, h2, h3⟩ := hx
  obtain ⟨ds, hp, key⟩ := C88_no_strings h1 h2
  have hp' : parse treeText = .ok [.type (.struct c!"tree" [.opaqueVariableArray c!"tag" (some (.constant (.decimal c!"3"))),
      .variableArray (.int true) c!"xs" none, .optionVariable (.identifier c!"tree") c!"next"])] := by
    set_option maxRecDepth 100000 in rfl
  cases hp'.symm.trans hp
  refine ⟨file, defs, h1, h2, h3, key ?_ _ h3⟩
  rintro d (h | ⟨s, ms, h, hm⟩ | ⟨u, b, v, h, -⟩ | ⟨u, b, h, -⟩) name max rfl
  · simp [TypedefIn] at h
  · simp only [List.mem_cons, Definition.type.injEq, TypeDef.struct.injEq, List.not_mem_nil, or_false] at h
    obtain ⟨-, rfl⟩ := h
    simp at hm
  · simp at h
  · simp at h

end Xdr.Rpcgen
