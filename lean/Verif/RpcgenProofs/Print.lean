import Verif.Spec.XdrPrint
import Verif.RpcgenProofs.Exact
/-!
# Texts and their trees: what a tree with a text contains, and the printed text is one
-/

namespace Xdr.Rpcgen

/-! ## Trees that have a text -/

theorem value_atoms {v : Value} {s : Str} (h : ValueText v s) : ∀ a ∈ v.atoms, a.Ok := by
  cases v with
  | constant c => simpa [Value.atoms, Atom.Ok] using ⟨s, h⟩
  | identifier n => simpa [Value.atoms, Atom.Ok] using h.2

theorem optValue_atoms {v : Option Value} {s : Str} (h : OptValueText v s) :
    ∀ a ∈ optAtoms v, a.Ok := by
  cases v with
  | none => simp [optAtoms]
  | some v => exact value_atoms h

theorem assign_atoms {a : Assign} {s : Str} (h : AssignText a s) : ∀ x ∈ a.atoms, x.Ok := by
  obtain ⟨g1, g2, v, hn, _, _, hv, _⟩ := h
  simp only [Assign.atoms, List.forall_mem_cons]
  exact ⟨hn, value_atoms hv⟩

theorem assigns_atoms {as : List Assign} {s : Str} (h : AssignsText as s) :
    ∀ x ∈ as.flatMap Assign.atoms, x.Ok := by
  induction as generalizing s with
  | nil => simp
  | cons a as ih =>
    obtain ⟨g1, g2, t, u, _, _, ht, hu, _⟩ := h
    simp only [List.flatMap_cons, List.forall_mem_append]
    exact ⟨assign_atoms ht, ih hu⟩

theorem enum_atoms {as : List Assign} {s : Str} (h : EnumText as s) : ∀ x ∈ enumAtoms as, x.Ok := by
  cases as with
  | nil => exact h.elim
  | cons a as =>
    obtain ⟨g1, g2, t, u, _, _, ht, hu, _⟩ := h
    simp only [enumAtoms, List.flatMap_cons, List.forall_mem_cons, List.forall_mem_append]
    exact ⟨by simp [Atom.Ok], assign_atoms ht, assigns_atoms hu⟩

theorem labels_atoms {vs : List Value} {s : Str} (h : LabelsText vs s) :
    ∀ x ∈ vs.flatMap Value.atoms, x.Ok := by
  induction vs generalizing s with
  | nil => simp
  | cons a as ih =>
    obtain ⟨g1, g2, g3, t, u, _, _, _, ht, hu, _⟩ := h
    simp only [List.flatMap_cons, List.forall_mem_append]
    exact ⟨value_atoms ht, ih hu⟩

theorem body_ok {α : Type} {l : List α} (h : l ≠ []) : (Atom.body l.length).Ok := by
  simpa [Atom.Ok] using h

mutual
theorem type_atoms : ∀ {ty : TypeSpecifier} {s : Str}, TypeText ty s → ∀ a ∈ ty.atoms, a.Ok
  | .int _, _, _ | .hyper _, _, _ | .char _, _, _ | .short _, _, _ | .float, _, _ | .double, _, _
  | .quadruple, _, _ | .bool, _, _ => by simp [TypeSpecifier.atoms]
  | .enum body, s, h => by
    simp only [TypeText] at h
    obtain ⟨b, t, _, ht, _⟩ := h
    simpa only [TypeSpecifier.atoms] using enum_atoms ht
  | .struct body, s, h => by
    simp only [TypeText] at h
    obtain ⟨b, g, t, _, _, hne, ht, _⟩ := h
    simp only [TypeSpecifier.atoms, List.forall_mem_cons]
    exact ⟨body_ok hne, decls_atoms ht⟩
  | .union body, s, h => by
    simp only [TypeText] at h
    obtain ⟨b, t, _, ht, _⟩ := h
    simpa only [TypeSpecifier.atoms] using union_atoms ht
  | .identifier n, s, h => by
    simp only [TypeText] at h
    simpa [TypeSpecifier.atoms, Atom.Ok] using h.2
  | .void, s, h => by simp [TypeText] at h

theorem decl_atoms : ∀ {d : Declaration} {s : Str}, DeclText d s → ∀ a ∈ d.atoms, a.Ok
  | .void, _, _ => by simp [Declaration.atoms]
  | .opaqueFixedArray name len, s, h => by
    simp only [DeclText] at h
    obtain ⟨b, v, _, hn, hv, _⟩ := h
    simp only [Declaration.atoms, List.forall_mem_cons]
    exact ⟨hn, value_atoms hv⟩
  | .opaqueVariableArray name len, s, h => by
    simp only [DeclText] at h
    obtain ⟨b, v, _, hn, hv, _⟩ := h
    simp only [Declaration.atoms, List.forall_mem_cons]
    exact ⟨hn, optValue_atoms hv⟩
  | .string name len, s, h => by
    simp only [DeclText] at h
    obtain ⟨b, v, _, hn, hv, _⟩ := h
    simp only [Declaration.atoms, List.forall_mem_cons]
    exact ⟨hn, optValue_atoms hv⟩
  | .fixedArray ty name len, s, h => by
    simp only [DeclText] at h
    obtain ⟨t, b, v, ht, _, hn, hv, _⟩ := h
    simp only [Declaration.atoms, List.forall_mem_cons, List.forall_mem_append]
    exact ⟨hn, type_atoms ht, value_atoms hv⟩
  | .variableArray ty name len, s, h => by
    simp only [DeclText] at h
    obtain ⟨t, b, v, ht, _, hn, hv, _⟩ := h
    simp only [Declaration.atoms, List.forall_mem_cons, List.forall_mem_append]
    exact ⟨hn, type_atoms ht, optValue_atoms hv⟩
  | .optionVariable ty name, s, h => by
    simp only [DeclText] at h
    obtain ⟨t, b, b', ht, _, _, _, hn, _⟩ := h
    simp only [Declaration.atoms, List.forall_mem_cons]
    exact ⟨hn, type_atoms ht⟩
  | .variable ty name, s, h => by
    simp only [DeclText] at h
    obtain ⟨t, b, ht, _, hn, _⟩ := h
    simp only [Declaration.atoms, List.forall_mem_cons]
    exact ⟨hn, type_atoms ht⟩

theorem decls_atoms : ∀ {ds : List Declaration} {s : Str}, MembersText ds s →
    ∀ a ∈ declsAtoms ds, a.Ok
  | [], _, _ => by simp [declsAtoms]
  | d :: ds, s, h => by
    simp only [MembersText] at h
    obtain ⟨t, g1, g2, u, ht, _, _, hu, _⟩ := h
    simp only [declsAtoms, List.forall_mem_append]
    exact ⟨decl_atoms ht, decls_atoms hu⟩

theorem union_atoms : ∀ {b : UnionBody} {s : Str}, UnionText b s → ∀ a ∈ b.atoms, a.Ok
  | .mk cond specs default, s, h => by
    simp only [UnionText] at h
    obtain ⟨_, _, _, _, _, t, u, w, _, _, _, _, _, ht, hne, hu, hw, _⟩ := h
    simp only [UnionBody.atoms, List.forall_mem_cons, List.forall_mem_append]
    exact ⟨body_ok hne, ⟨decl_atoms ht, cases_atoms hu⟩, default_atoms hw⟩

theorem cases_atoms : ∀ {cs : List CaseSpec} {s : Str}, CasesText cs s → ∀ a ∈ casesAtoms cs, a.Ok
  | [], _, _ => by simp [casesAtoms]
  | c :: cs, s, h => by
    simp only [CasesText] at h
    obtain ⟨t, g, u, ht, _, hu, _⟩ := h
    simp only [casesAtoms, List.forall_mem_append]
    exact ⟨case_atoms ht, cases_atoms hu⟩

theorem case_atoms : ∀ {c : CaseSpec} {s : Str}, CaseText c s → ∀ a ∈ c.atoms, a.Ok
  | .mk values d, s, h => by
    simp only [CaseText] at h
    obtain ⟨t, u, g, hne, ht, hu, _, _⟩ := h
    simp only [CaseSpec.atoms, List.forall_mem_cons, List.forall_mem_append]
    exact ⟨body_ok hne, labels_atoms ht, decl_atoms hu⟩

theorem default_atoms : ∀ {d : Option Declaration} {s : Str}, DefaultText d s →
    ∀ a ∈ defaultAtoms d, a.Ok
  | none, _, _ => by simp [defaultAtoms]
  | some d, s, h => by
    simp only [DefaultText] at h
    obtain ⟨_, _, _, _, t, _, _, _, _, ht, _⟩ := h
    simpa only [defaultAtoms] using decl_atoms ht
end

theorem typeDef_atoms {d : TypeDef} {s : Str} (h : TypeDefText d s) : ∀ a ∈ d.atoms, a.Ok := by
  cases d with
  | declaration d =>
    obtain ⟨b, g, t, _, _, ht, _⟩ := h
    exact decl_atoms ht
  | enum name body =>
    obtain ⟨b, g, g', t, _, _, _, hn, ht, _⟩ := h
    simp only [TypeDef.atoms, List.forall_mem_cons]
    exact ⟨hn, enum_atoms ht⟩
  | struct name body =>
    obtain ⟨b, g, g1, g', t, _, _, _, _, hn, hne, ht, _⟩ := h
    simp only [TypeDef.atoms, List.forall_mem_cons]
    exact ⟨hn, body_ok hne, decls_atoms ht⟩
  | union name body =>
    obtain ⟨b, g, g', t, _, _, _, _, hn, ht, _⟩ := h
    simp only [TypeDef.atoms, List.forall_mem_cons]
    exact ⟨hn, union_atoms ht⟩

theorem typeOrVoid_atoms {ty : TypeSpecifier} {s : Str} (h : TypeOrVoidText ty s) :
    ∀ a ∈ procTypeAtoms ty, a.Ok := by
  cases ty <;> first | exact type_atoms h | simp [procTypeAtoms]

theorem procedure_atoms {p : Procedure} {s : Str} (h : ProcedureText p s) : ∀ a ∈ p.atoms, a.Ok := by
  obtain ⟨t, u, v, _, _, _, _, _, _, _, ht, hu, hv, hn, _⟩ := h
  simp only [Procedure.atoms, List.forall_mem_cons, List.forall_mem_append]
  exact ⟨hn, ⟨typeOrVoid_atoms ht, typeOrVoid_atoms hu⟩, value_atoms hv⟩

theorem procedures_atoms {ps : List Procedure} {s : Str} (h : ProceduresText ps s) :
    ∀ a ∈ ps.flatMap Procedure.atoms, a.Ok := by
  induction ps generalizing s with
  | nil => simp
  | cons p ps ih =>
    obtain ⟨t, b, u, ht, _, hu, _⟩ := h
    simp only [List.flatMap_cons, List.forall_mem_append]
    exact ⟨procedure_atoms ht, ih hu⟩

theorem version_atoms {x : Version} {s : Str} (h : VersionText x s) : ∀ a ∈ x.atoms, a.Ok := by
  obtain ⟨t, v, _, _, _, _, _, _, hne, ht, hv, hn, _⟩ := h
  simp only [Version.atoms, List.forall_mem_cons, List.forall_mem_append]
  exact ⟨hn, body_ok hne, procedures_atoms ht, value_atoms hv⟩

theorem versions_atoms {xs : List Version} {s : Str} (h : VersionsText xs s) :
    ∀ a ∈ xs.flatMap Version.atoms, a.Ok := by
  induction xs generalizing s with
  | nil => simp
  | cons p ps ih =>
    obtain ⟨t, u, ht, hu, _⟩ := h
    simp only [List.flatMap_cons, List.forall_mem_append]
    exact ⟨version_atoms ht, ih hu⟩

theorem program_atoms {x : Program} {s : Str} (h : ProgramText x s) : ∀ a ∈ x.atoms, a.Ok := by
  obtain ⟨t, v, _, _, _, _, _, _, _, hne, ht, hv, hn, _⟩ := h
  simp only [Program.atoms, List.forall_mem_cons, List.forall_mem_append]
  exact ⟨hn, body_ok hne, versions_atoms ht, value_atoms hv⟩

theorem definition_atoms {d : Definition} {s : Str} (h : DefinitionText d s) :
    ∀ a ∈ d.atoms, a.Ok := by
  cases d with
  | type d => exact typeDef_atoms h
  | constant a =>
    obtain ⟨b, g, t, _, _, ht, _⟩ := h
    exact assign_atoms ht
  | lineComment => simp [Definition.atoms]
  | program p => exact program_atoms h

theorem definitions_atoms {ds : List Definition} {s : Str} (h : DefinitionsText ds s) :
    WellFormed ds := by
  induction ds generalizing s with
  | nil => simp [WellFormed, atoms]
  | cons d ds ih =>
    obtain ⟨t, g, u, ht, _, hu, _⟩ := h
    have := ih hu
    simp only [WellFormed, atoms] at this
    simp only [WellFormed, atoms, List.flatMap_cons, List.forall_mem_append]
    exact ⟨definition_atoms ht, this⟩

/-- Only well-formed trees have texts. -/
theorem wellFormed_of_text {ds : List Definition} {s : Str} (h : FileText ds s) : WellFormed ds := by
  rcases h with ⟨rfl, _⟩ | ⟨g, t, _, _, ht, _⟩
  · simp [WellFormed, atoms]
  · exact definitions_atoms ht

/-! ## The printed text -/

theorem gap_space : Gap c!" " := .blank (by simp [Blank])
theorem gap_newline : Gap c!"\n" := .blank (by simp [Blank])
theorem blank1_space : Blank1 c!" " := ⟨by simp [Blank], by simp⟩
theorem blank_space : Blank c!" " := by simp [Blank]

theorem value_print {v : Value} (h : ∀ a ∈ v.atoms, a.Ok) : ValueText v v.print := by
  cases v with
  | constant c =>
    obtain ⟨s, hs⟩ : ∃ s, ConstantText c s := h (.number c) (by simp [Value.atoms])
    cases c <;> exact ⟨rfl, hs.2⟩
  | identifier n => exact ⟨rfl, h (.ident n) (by simp [Value.atoms])⟩

theorem optValue_print {v : Option Value} (h : ∀ a ∈ optAtoms v, a.Ok) :
    OptValueText v (optPrint v) := by
  cases v with
  | none => rfl
  | some v => exact value_print h

theorem assign_print {a : Assign} (h : ∀ x ∈ a.atoms, x.Ok) : AssignText a a.print := by
  simp only [Assign.atoms, List.forall_mem_cons] at h
  exact ⟨c!" ", c!" ", _, h.1, gap_space, gap_space, value_print h.2, by simp [Assign.print]⟩

theorem assigns_print {as : List Assign} (h : ∀ x ∈ as.flatMap Assign.atoms, x.Ok) :
    AssignsText as (as.flatMap fun x => c!", " ++ x.print) := by
  induction as with
  | nil => rfl
  | cons a as ih =>
    simp only [List.flatMap_cons, List.forall_mem_append] at h
    exact ⟨[], c!" ", _, _, gap_nil, gap_space, assign_print h.1, ih h.2, by simp⟩

theorem enum_print {as : List Assign} (h : ∀ x ∈ enumAtoms as, x.Ok) :
    EnumText as (enumPrint as) := by
  cases as with
  | nil => exact h (.body 0) (by simp [enumAtoms]) rfl
  | cons a as =>
    simp only [enumAtoms, List.flatMap_cons, List.forall_mem_cons, List.forall_mem_append] at h
    exact ⟨c!" ", c!" ", _, _, gap_space, gap_space, assign_print h.2.1, assigns_print h.2.2,
      by simp [enumPrint]⟩

theorem labels_print {vs : List Value} (h : ∀ x ∈ vs.flatMap Value.atoms, x.Ok) :
    LabelsText vs (labelsPrint vs) := by
  induction vs with
  | nil => rfl
  | cons a as ih =>
    simp only [List.flatMap_cons, List.forall_mem_append] at h
    exact ⟨c!" ", [], c!" ", _, _, gap_space, gap_nil, gap_space, value_print h.1, ih h.2,
      by simp [labelsPrint]⟩

theorem ne_of_body {α : Type} {l : List α} (h : (Atom.body l.length).Ok) : l ≠ [] := by
  simpa [Atom.Ok] using h

theorem pad_blank (ty : TypeSpecifier) : Blank ty.pad := by
  unfold TypeSpecifier.pad
  split
  · exact blank_space
  · simp [Blank]

theorem pad_keyword {ty : TypeSpecifier} (h : ty.isKeyword = true) : ty.pad ≠ [] := by
  simp [TypeSpecifier.pad, h]

theorem pad_short {ty : TypeSpecifier} (h : ShortType ty) : ty.pad = [] := by
  cases ty with
  | identifier n => rfl
  | _ => exact h.elim

theorem print_unsigned {ty : TypeSpecifier} (h : TypeExact ty ty.print) : ty.print ≠ c!"unsigned" := by
  intro he
  rw [he] at h
  rw [int_of_unsigned (type_of_exact h).1] at he
  exact absurd he (by simp [TypeSpecifier.print])

mutual
theorem type_print : ∀ {ty : TypeSpecifier}, (∀ a ∈ ty.atoms, a.Ok) → TypeWritable ty →
    TypeExact ty ty.print
  | .int true, _, _ | .hyper true, _, _ | .char true, _, _ | .short true, _, _ | .float, _, _
  | .double, _, _ | .quadruple, _, _ | .bool, _, _ => by simp [TypeExact, TypeSpecifier.print]
  | .int false, _, _ => by
    simp only [TypeExact, TypeSpecifier.print]
    exact .inr ⟨c!" ", blank1_space, rfl⟩
  | .hyper false, _, _ | .char false, _, _ | .short false, _, _ => by
    simp only [TypeExact, TypeSpecifier.print]
    exact ⟨c!" ", blank1_space, rfl⟩
  | .enum body, h, _ => by
    simp only [TypeSpecifier.atoms] at h
    simp only [TypeExact, TypeSpecifier.print]
    exact ⟨c!" ", _, blank1_space, enum_print h, rfl⟩
  | .struct body, h, hw => by
    simp only [TypeSpecifier.atoms, List.forall_mem_cons] at h
    simp only [TypeWritable] at hw
    simp only [TypeExact, TypeSpecifier.print]
    exact ⟨c!" ", c!" ", _, blank1_space, gap_space, ne_of_body h.1, decls_print h.2 hw, rfl⟩
  | .union body, h, hw => by
    simp only [TypeSpecifier.atoms] at h
    simp only [TypeWritable] at hw
    simp only [TypeExact, TypeSpecifier.print]
    exact ⟨c!" ", _, blank1_space, union_print h hw, rfl⟩
  | .identifier n, h, _ => by
    simp only [TypeExact, TypeSpecifier.print]
    exact ⟨trivial, h (.ident n) (by simp [TypeSpecifier.atoms])⟩
  | .void, h, _ => (h .voidType (by simp [TypeSpecifier.atoms])).elim

theorem decl_print : ∀ {d : Declaration}, (∀ a ∈ d.atoms, a.Ok) → DeclWritable d →
    ∀ r, DeclExact d r d.print
  | .void, _, _, _ => by simp [DeclExact, Declaration.print]
  | .opaqueFixedArray name len, h, _, _ => by
    simp only [Declaration.atoms, List.forall_mem_cons] at h
    simp only [DeclExact, Declaration.print]
    exact ⟨c!" ", _, blank1_space, h.1, value_print h.2, rfl⟩
  | .opaqueVariableArray name len, h, _, _ => by
    simp only [Declaration.atoms, List.forall_mem_cons] at h
    simp only [DeclExact, Declaration.print]
    exact ⟨c!" ", _, blank1_space, h.1, optValue_print h.2, rfl⟩
  | .string name len, h, _, _ => by
    simp only [Declaration.atoms, List.forall_mem_cons] at h
    simp only [DeclExact, Declaration.print]
    exact ⟨c!" ", _, blank1_space, h.1, optValue_print h.2, rfl⟩
  | .fixedArray ty name len, h, hw, _ => by
    simp only [Declaration.atoms, List.forall_mem_cons, List.forall_mem_append] at h
    simp only [DeclWritable] at hw
    simp only [DeclExact, Declaration.print]
    exact ⟨_, c!" ", _, type_print h.2.1 hw.1, hw.2.1, hw.2.2, blank1_space, h.1, value_print h.2.2,
      rfl⟩
  | .variableArray ty name len, h, hw, _ => by
    simp only [Declaration.atoms, List.forall_mem_cons, List.forall_mem_append] at h
    simp only [DeclWritable] at hw
    simp only [DeclExact, Declaration.print]
    exact ⟨_, c!" ", _, type_print h.2.1 hw.1, hw.2.1, hw.2.2, blank1_space, h.1,
      optValue_print h.2.2, rfl⟩
  | .optionVariable ty name, h, hw, _ => by
    simp only [Declaration.atoms, List.forall_mem_cons] at h
    simp only [DeclWritable] at hw
    simp only [DeclExact, Declaration.print]
    exact ⟨_, ty.pad, [], type_print h.2 hw.1, hw.2, pad_short, pad_blank ty, pad_keyword,
      by simp [Blank], h.1, by simp⟩
  | .variable ty name, h, hw, _ => by
    simp only [Declaration.atoms, List.forall_mem_cons] at h
    simp only [DeclWritable] at hw
    simp only [DeclExact, Declaration.print]
    exact ⟨_, c!" ", type_print h.2 hw.1, hw.2.1, hw.2.2, blank1_space, h.1,
      fun he => absurd he (print_unsigned (type_print h.2 hw.1)), rfl⟩

theorem decls_print : ∀ {ds : List Declaration}, (∀ a ∈ declsAtoms ds, a.Ok) → DeclsWritable ds →
    MembersExact ds (declsPrint ds)
  | [], _, _ => by simp [MembersExact, declsPrint]
  | d :: ds, h, hw => by
    simp only [declsAtoms, List.forall_mem_append] at h
    simp only [DeclsWritable] at hw
    simp only [MembersExact, declsPrint]
    exact ⟨_, [], c!" ", _, decl_print h.1 hw.1 _, gap_nil, gap_space, decls_print h.2 hw.2, by simp⟩

theorem union_print : ∀ {b : UnionBody}, (∀ a ∈ b.atoms, a.Ok) → UnionWritable b →
    UnionExact b b.print
  | .mk cond specs default, h, hw => by
    simp only [UnionBody.atoms, List.forall_mem_cons, List.forall_mem_append] at h
    simp only [UnionWritable] at hw
    simp only [UnionExact, UnionBody.print]
    exact ⟨c!" ", [], [], c!" ", c!" ", _, _, _, gap_space, gap_nil, gap_nil, gap_space, gap_space,
      decl_print h.2.1.1 hw.1 _, ne_of_body h.1, cases_print h.2.1.2 hw.2.1,
      default_print h.2.2 hw.2.2, by simp⟩

theorem cases_print : ∀ {cs : List CaseSpec}, (∀ a ∈ casesAtoms cs, a.Ok) → CasesWritable cs →
    CasesExact cs (casesPrint cs)
  | [], _, _ => by simp [CasesExact, casesPrint]
  | c :: cs, h, hw => by
    simp only [casesAtoms, List.forall_mem_append] at h
    simp only [CasesWritable] at hw
    simp only [CasesExact, casesPrint]
    exact ⟨_, c!" ", _, case_print h.1 hw.1, gap_space, cases_print h.2 hw.2, by simp⟩

theorem case_print : ∀ {c : CaseSpec}, (∀ a ∈ c.atoms, a.Ok) → CaseWritable c →
    CaseExact c (c.print ++ c!";")
  | .mk values d, h, hw => by
    simp only [CaseSpec.atoms, List.forall_mem_cons, List.forall_mem_append] at h
    simp only [CaseWritable] at hw
    simp only [CaseExact, CaseSpec.print]
    exact ⟨_, _, [], ne_of_body h.1, labels_print h.2.1, decl_print h.2.2 hw _, gap_nil, by simp⟩

theorem default_print : ∀ {d : Option Declaration}, (∀ a ∈ defaultAtoms d, a.Ok) →
    DefaultWritable d → DefaultExact d (defaultPrint d)
  | none, _, _ => by simp [DefaultExact, defaultPrint]
  | some d, h, hw => by
    simp only [defaultAtoms] at h
    simp only [DefaultWritable] at hw
    simp only [DefaultExact, defaultPrint]
    exact ⟨[], c!" ", [], c!" ", _, gap_nil, gap_space, gap_nil, gap_space, decl_print h hw _,
      by simp⟩
end

theorem typeOrVoid_print {ty : TypeSpecifier} (h : ∀ a ∈ procTypeAtoms ty, a.Ok)
    (hw : TypeWritable ty) : TypeOrVoidExact ty ty.print := by
  cases ty <;> first | exact type_print h hw | simp [TypeOrVoidExact, TypeSpecifier.print]

theorem typeOrVoid_unsigned {ty : TypeSpecifier} (h : TypeOrVoidExact ty ty.print) :
    ty.print ≠ c!"unsigned" := by
  cases ty <;> first | exact print_unsigned h | simp [TypeSpecifier.print]

theorem procedure_print {p : Procedure} (h : ∀ a ∈ p.atoms, a.Ok) (hw : ProcedureWritable p) :
    ∃ t, ProcedureExact p t ∧ p.print = t ++ c!" " := by
  simp only [Procedure.atoms, List.forall_mem_cons, List.forall_mem_append] at h
  have hr := typeOrVoid_print h.2.1.1 hw.1
  exact ⟨_, ⟨_, _, _, c!" ", [], [], p.req_ty.pad, c!" ", c!" ", [], hr,
    typeOrVoid_print h.2.1.2 hw.2.2, value_print h.2.2, h.1, blank1_space, by simp [Blank],
    by simp [Blank], pad_blank _, blank_space, blank_space, by simp [Blank], pad_keyword, hw.2.1,
    fun he => absurd he (typeOrVoid_unsigned hr), pad_short, rfl⟩, by simp [Procedure.print]⟩

theorem procedures_print {ps : List Procedure} (h : ∀ a ∈ ps.flatMap Procedure.atoms, a.Ok)
    (hw : ∀ p ∈ ps, ProcedureWritable p) : ProceduresExact ps (ps.flatMap Procedure.print) := by
  induction ps with
  | nil => rfl
  | cons p ps ih =>
    simp only [List.flatMap_cons, List.forall_mem_append] at h
    rw [List.forall_mem_cons] at hw
    obtain ⟨t, ht, hp⟩ := procedure_print h.1 hw.1
    exact ⟨t, c!" ", _, ht, blank_space, ih h.2 hw.2, by rw [List.flatMap_cons, hp]⟩

theorem version_print {x : Version} (h : ∀ a ∈ x.atoms, a.Ok)
    (hw : ∀ p ∈ x.procedures, ProcedureWritable p) : VersionExact x x.print := by
  simp only [Version.atoms, List.forall_mem_cons, List.forall_mem_append] at h
  exact ⟨_, _, c!" ", c!" ", c!" ", c!" ", c!" ", [], ne_of_body h.2.1, procedures_print h.2.2.1 hw,
    value_print h.2.2.2, h.1, blank1_space, blank_space, blank_space, blank_space, blank_space,
    by simp [Blank], by simp [Version.print]⟩

theorem versions_print {xs : List Version} (h : ∀ a ∈ xs.flatMap Version.atoms, a.Ok)
    (hw : ∀ x ∈ xs, ∀ p ∈ x.procedures, ProcedureWritable p) :
    VersionsExact xs (xs.flatMap Version.print) := by
  induction xs with
  | nil => rfl
  | cons x xs ih =>
    simp only [List.flatMap_cons, List.forall_mem_append] at h
    have hw := List.forall_mem_cons.1 hw
    exact ⟨_, _, version_print h.1 hw.1, ih h.2 hw.2, by simp⟩

theorem program_print {x : Program} (h : ∀ a ∈ x.atoms, a.Ok)
    (hw : ∀ v ∈ x.versions, ∀ p ∈ v.procedures, ProcedureWritable p) :
    ∃ t, ProgramExact x t ∧ x.print = t ++ c!"\n" := by
  simp only [Program.atoms, List.forall_mem_cons, List.forall_mem_append] at h
  exact ⟨_, ⟨_, _, c!" ", c!" ", c!" ", c!" ", c!" ", c!" ", [], ne_of_body h.2.1,
    versions_print h.2.2.1 hw, value_print h.2.2.2, h.1, blank1_space, blank_space, blank_space,
    blank_space, blank_space, blank_space, by simp [Blank], rfl⟩, by simp [Program.print]⟩

theorem typeDef_print {d : TypeDef} (h : ∀ a ∈ d.atoms, a.Ok) (hw : TypeDefWritable d) :
    ∃ t, TypeDefExact d t ∧ d.print = t ++ c!"\n" := by
  cases d with
  | declaration d =>
    exact ⟨_, ⟨c!" ", [], _, blank1_space, gap_nil, decl_print h hw _, rfl⟩, by simp [TypeDef.print]⟩
  | enum name body =>
    simp only [TypeDef.atoms, List.forall_mem_cons] at h
    exact ⟨_, ⟨c!" ", c!" ", [], _, blank1_space, gap_space, gap_nil, h.1, enum_print h.2, rfl⟩,
      by simp [TypeDef.print]⟩
  | struct name body =>
    simp only [TypeDef.atoms, List.forall_mem_cons] at h
    exact ⟨_, ⟨c!" ", c!" ", c!" ", [], _, blank1_space, gap_space, gap_space, gap_nil, h.1,
      ne_of_body h.2.1, decls_print h.2.2 hw, rfl⟩, by simp [TypeDef.print]⟩
  | union name body =>
    simp only [TypeDef.atoms, List.forall_mem_cons] at h
    exact ⟨_, ⟨c!" ", c!" ", [], _, blank1_space, gap_space, by simp, gap_nil, h.1,
      union_print h.2 hw, rfl⟩, by simp [TypeDef.print]⟩

theorem definition_print {d : Definition} (h : ∀ a ∈ d.atoms, a.Ok) (hw : DefinitionWritable d) :
    ∃ t g, DefinitionExact d t ∧ Gap g ∧ d.print = t ++ g := by
  cases d with
  | type d =>
    obtain ⟨t, ht, hp⟩ := typeDef_print h hw
    exact ⟨t, _, ht, gap_newline, hp⟩
  | constant a =>
    exact ⟨_, c!"\n", ⟨c!" ", [], _, blank1_space, gap_nil, assign_print h, rfl⟩, gap_newline,
      by simp [Definition.print]⟩
  | lineComment => exact ⟨c!"%\n", [], ⟨[], c!"\n", by simp, .inl rfl, rfl⟩, gap_nil, rfl⟩
  | program p =>
    obtain ⟨t, ht, hp⟩ := program_print h hw
    exact ⟨t, _, ht, gap_newline, hp⟩

theorem definitions_print {ds : List Definition} (h : WellFormed ds) (hw : Writable ds) :
    DefinitionsExact ds (printFile ds) := by
  induction ds with
  | nil => rfl
  | cons d ds ih =>
    simp only [WellFormed, atoms, List.flatMap_cons, List.forall_mem_append] at h
    have hw := List.forall_mem_cons.1 hw
    obtain ⟨t, g, ht, hg, hp⟩ := definition_print h.1 hw.1
    exact ⟨t, g, _, ht, hg, ih h.2 hw.2, by simp only [printFile, List.flatMap_cons, hp]⟩

/-- The printed text is a text of the tree. -/
theorem exact_printFile {ds : List Definition} (h : WellFormed ds) (hw : Writable ds) :
    FileExact ds (printFile ds) := by
  cases ds with
  | nil => exact .inl ⟨rfl, rfl⟩
  | cons d ds => exact .inr ⟨[], _, by simp, gap_nil, definitions_print h hw, rfl⟩

end Xdr.Rpcgen
