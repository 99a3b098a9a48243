import Verif.RpcgenProofs.Proper
import Verif.Props.Accepts
import Verif.Props.Compiles
import Verif.Props.Text
/-!
# Property C73: from the interface to the bytes

The conditions of C53, C57, C67, C71 and C72 together (`Proper`, `Spec/Proper.lean`): for such an interface the
tool prints source, which compiles, and whose types speak the XDR of the interface. Nothing is assumed of what
the tool does.
-/

namespace Xdr.Rpcgen

/-- C73. For a proper interface, with any flags, the tool prints one text, the same for every bound above the
size of the file; rustc accepts it; read as Rust, the text defines types; and each of them writes and reads the values of its
definition as XDR says. -/
theorem C73_whole {s : Str} {ds : List Definition} (hp : parse s = .ok ds) {flags : Flags}
    (h : Proper ds flags.config) :
    ∃ file out defs, (∀ n, (definedNames ds).length < n → ds.length < n →
        run n s flags = .printed file ∧ output n s flags = some out) ∧ file.Compiles ∧
      rustDefs out = some defs ∧
      ∀ dflt t name x, .type t ∈ ds → t.name = some name → (∀ d, t ≠ .declaration d) →
        (∀ e as, t = .enum e as → flags.use_std_trait = true → Positional ds as) →
        (dflt = true → flags.use_union = true) → Defined ds dflt t x →
        ∃ ty, upper_camel_case_ident name = .ok ty ∧ Conforms (Xdr.program defs) ty.str x := by
  have hwf := wellFormed_parse hp
  obtain ⟨file, hf⟩ := C72_tame hp (cfg := flags.config) rfl h.tame (proper_acyclic h)
    (known_not_leadsTo h.types) (proper_translatable hwf h)
  let m := max (definedNames ds).length ds.length + 1
  have hm := hf m (by omega) (by omega)
  have hrun : run m s flags = .printed file := by simp only [run, hp, hm]
  obtain ⟨ds', hp', hc⟩ := C71_compiles_partial hrun
  cases hp.symm.trans hp'
  have hcc := hc h.clean
  obtain ⟨defs, hd⟩ := hcc.1
  have hout : ∀ n, (definedNames ds).length < n → ds.length < n →
      run n s flags = .printed file ∧ output n s flags = some (file.text ++ c!"\n") := by
    intro n h1 h2
    simp only [output, run, hp, hf n h1 h2, and_self]
  refine ⟨file, _, defs, hout, hcc, C70_program hrun (hout m (by omega) (by omega)).2 hd, ?_⟩
  obtain ⟨ds', hp', hall⟩ := C53_conforms_partial hrun hd
  cases hp.symm.trans hp'
  exact hall h.supported

/-! ## An interface that is proper, with every flag -/

theorem proper_catalogue (flags : Flags) : Proper catalogue flags.config where
  tame := tame_catalogue _
  clean := clean_catalogue flags
  supported := supported_catalogue flags
  constants name c h := by
    simp only [catalogue, List.mem_cons, reduceCtorEq, Definition.constant.injEq, Assign.mk.injEq,
      Value.constant.injEq, List.not_mem_nil, or_false] at h
    obtain ⟨-, rfl⟩ := h
    decide
  lengths ts nm c h := by
    have hm := declIn_mem h
    rw [declarations_catalogue] at hm
    simp only [List.mem_cons, reduceCtorEq, List.not_mem_nil, or_false, false_or, Declaration.fixedArray.injEq,
      Value.constant.injEq] at hm
    obtain ⟨-, -, rfl⟩ := hm
    decide
  opaqueLengths nm c h := by
    have hm := declIn_mem h
    rw [declarations_catalogue] at hm
    simp only [List.mem_cons, reduceCtorEq, List.not_mem_nil, or_false, false_or,
      Declaration.opaqueFixedArray.injEq, Value.constant.injEq] at hm
    obtain ⟨-, rfl⟩ := hm
    decide
  types d ts h he := by
    have hbytes : KnownType catalogue (.identifier c!"bytes") :=
      .bytes (d := .opaqueVariableArray c!"bytes" (some (.identifier c!"NAME_MAX"))) rfl (by simp) rfl
    have hpages : KnownType catalogue (.identifier c!"pages") :=
      .typedef (d := .variableArray (.identifier c!"bytes") c!"pages" none) rfl rfl hbytes
    have hkind : KnownType catalogue (.identifier c!"kind") := .item (t := .enum c!"kind" catalogueKinds) rfl nofun
    have hentry : KnownType catalogue (.identifier c!"entry") :=
      .item (t := .struct c!"entry" catalogueEntry) rfl nofun
    have hm := declIn_mem h
    rw [declarations_catalogue] at hm
    simp only [List.mem_cons, List.not_mem_nil, or_false] at hm
    rcases hm with rfl | rfl | rfl | rfl | rfl | rfl | rfl | rfl | rfl | rfl | rfl | rfl | rfl | rfl | rfl <;>
      first
        | cases he; done
        | (cases he; first | exact hbytes | exact hpages | exact hkind | exact hentry | exact .int _ | exact .double)

/-- C71 of it: whatever is printed for the catalogue compiles. -/
example {n : Nat} {flags : Flags} {file : RustFile} (h : run n catalogueText flags = .printed file) :
    file.Compiles := by
  obtain ⟨ds, hp, hc⟩ := C71_compiles_partial h
  cases parse_catalogue.symm.trans hp
  exact hc (clean_catalogue flags)

/-- C72 of it: the catalogue is printed. -/
example (flags : Flags) : ∃ file, ∀ n, 6 < n → run n catalogueText flags = .printed file := by
  have h := proper_catalogue flags
  have hT := proper_translatable (wellFormed_parse parse_catalogue) h
  rcases C72_tame_exact parse_catalogue h.tame (proper_acyclic h) (known_not_leadsTo h.types) with
    ⟨-, file, hf⟩ | ⟨hn, -⟩
  · exact ⟨file, fun n hn => hf n (Nat.lt_of_le_of_lt (by decide) hn) (Nat.lt_of_le_of_lt (by decide) hn)⟩
  · exact absurd hT hn

/-- With any flags, the tool prints the catalogue's source, and an entry goes over the wire as XDR says. -/
example (flags : Flags) : ∃ out defs, (∀ n, 6 < n → output n catalogueText flags = some out) ∧
    rustDefs out = some defs ∧ Conforms (Xdr.program defs) "Entry" (someEntry .optNone) := by
  obtain ⟨_, out, defs, h1, -, h2, h3⟩ := C73_whole parse_catalogue (proper_catalogue flags)
  refine ⟨out, defs, fun n hn => (h1 n ?_ ?_).2, h2, ?_⟩
  · exact Nat.lt_of_le_of_lt (by decide) hn
  · exact Nat.lt_of_le_of_lt (by decide) hn
  · obtain ⟨ty, hty, hc⟩ := h3 false (.struct c!"entry" catalogueEntry) c!"entry" _ (by simp [catalogue]) rfl nofun nofun
      nofun (some_entry .absent)
    cases GR.ok.inj hty
    exact hc

end Xdr.Rpcgen
