import Verif.RpcgenProofs.CompleteFile
/-!
# The exact language and the grammar of the RFC
-/

namespace Xdr.Rpcgen

/-! ## The exact language is part of the grammar, and its trees are writable -/

mutual
theorem type_of_exact : ∀ {ty : TypeSpecifier} {s : Str}, TypeExact ty s →
    TypeText ty s ∧ TypeWritable ty
  | .int true, _, h | .int false, _, h | .hyper true, _, h | .hyper false, _, h
  | .char true, _, h | .char false, _, h | .short true, _, h | .short false, _, h
  | .float, _, h | .double, _, h | .quadruple, _, h | .bool, _, h | .enum _, _, h
  | .identifier _, _, h => by
    simp only [TypeExact] at h
    simp only [TypeText, TypeWritable]
    exact ⟨h, trivial⟩
  | .void, _, h => by simp only [TypeExact] at h
  | .struct body, s, h => by
    simp only [TypeExact] at h
    simp only [TypeText, TypeWritable]
    obtain ⟨b, g, t, hb, hg, hne, ht, rfl⟩ := h
    exact ⟨⟨b, g, t, hb, hg, hne, (members_of_exact ht).1, rfl⟩, (members_of_exact ht).2⟩
  | .union body, s, h => by
    simp only [TypeExact] at h
    simp only [TypeText, TypeWritable]
    obtain ⟨b, t, hb, ht, rfl⟩ := h
    exact ⟨⟨b, t, hb, (union_of_exact ht).1, rfl⟩, (union_of_exact ht).2⟩

theorem decl_of_exact : ∀ {d : Declaration} {r s : Str}, DeclExact d r s →
    DeclText d s ∧ DeclWritable d
  | .void, _, _, h | .opaqueFixedArray _ _, _, _, h | .opaqueVariableArray _ _, _, _, h
  | .string _ _, _, _, h => by
    simp only [DeclExact] at h
    simp only [DeclText, DeclWritable]
    exact ⟨h, trivial⟩
  | .fixedArray ty name len, r, s, h => by
    simp only [DeclExact] at h
    simp only [DeclText, DeclWritable]
    obtain ⟨t, b, v, ht, h1, h2, hb, hn, hv, rfl⟩ := h
    exact ⟨⟨t, b, v, (type_of_exact ht).1, hb, hn, hv, rfl⟩, (type_of_exact ht).2, h1, h2⟩
  | .variableArray ty name len, r, s, h => by
    simp only [DeclExact] at h
    simp only [DeclText, DeclWritable]
    obtain ⟨t, b, v, ht, h1, h2, hb, hn, hv, rfl⟩ := h
    exact ⟨⟨t, b, v, (type_of_exact ht).1, hb, hn, hv, rfl⟩, (type_of_exact ht).2, h1, h2⟩
  | .optionVariable ty name, r, s, h => by
    simp only [DeclExact] at h
    simp only [DeclText, DeclWritable]
    obtain ⟨t, b, b', ht, h1, _, hb, hk, hb', hn, rfl⟩ := h
    exact ⟨⟨t, b, b', (type_of_exact ht).1, hb, hk, hb', hn, rfl⟩, (type_of_exact ht).2, h1⟩
  | .variable ty name, r, s, h => by
    simp only [DeclExact] at h
    simp only [DeclText, DeclWritable]
    obtain ⟨t, b, ht, h1, h2, hb, hn, _, rfl⟩ := h
    exact ⟨⟨t, b, (type_of_exact ht).1, hb, hn, rfl⟩, (type_of_exact ht).2, h1, h2⟩

theorem members_of_exact : ∀ {ds : List Declaration} {s : Str}, MembersExact ds s →
    MembersText ds s ∧ DeclsWritable ds
  | [], s, h => by
    simp only [MembersExact] at h
    simp only [MembersText, DeclsWritable]
    exact ⟨h, trivial⟩
  | d :: ds, s, h => by
    simp only [MembersExact] at h
    simp only [MembersText, DeclsWritable]
    obtain ⟨t, g1, g2, u, ht, hg1, hg2, hu, rfl⟩ := h
    exact ⟨⟨t, g1, g2, u, (decl_of_exact ht).1, hg1, hg2, (members_of_exact hu).1, rfl⟩,
      (decl_of_exact ht).2, (members_of_exact hu).2⟩

theorem union_of_exact : ∀ {b : UnionBody} {s : Str}, UnionExact b s →
    UnionText b s ∧ UnionWritable b
  | .mk cond specs default, s, h => by
    simp only [UnionExact] at h
    simp only [UnionText, UnionWritable]
    obtain ⟨g1, g2, g3, g4, g5, t, u, w, h1, h2, h3, h4, h5, ht, hne, hu, hw, rfl⟩ := h
    exact ⟨⟨g1, g2, g3, g4, g5, t, u, w, h1, h2, h3, h4, h5, (decl_of_exact ht).1, hne,
      (cases_of_exact hu).1, (default_of_exact hw).1, rfl⟩, (decl_of_exact ht).2,
      (cases_of_exact hu).2, (default_of_exact hw).2⟩

theorem cases_of_exact : ∀ {cs : List CaseSpec} {s : Str}, CasesExact cs s →
    CasesText cs s ∧ CasesWritable cs
  | [], s, h => by
    simp only [CasesExact] at h
    simp only [CasesText, CasesWritable]
    exact ⟨h, trivial⟩
  | c :: cs, s, h => by
    simp only [CasesExact] at h
    simp only [CasesText, CasesWritable]
    obtain ⟨t, g, u, ht, hg, hu, rfl⟩ := h
    exact ⟨⟨t, g, u, (case_of_exact ht).1, hg, (cases_of_exact hu).1, rfl⟩, (case_of_exact ht).2,
      (cases_of_exact hu).2⟩

theorem case_of_exact : ∀ {c : CaseSpec} {s : Str}, CaseExact c s → CaseText c s ∧ CaseWritable c
  | .mk values d, s, h => by
    simp only [CaseExact] at h
    simp only [CaseText, CaseWritable]
    obtain ⟨t, u, g, hne, ht, hu, hg, rfl⟩ := h
    exact ⟨⟨t, u, g, hne, ht, (decl_of_exact hu).1, hg, rfl⟩, (decl_of_exact hu).2⟩

theorem default_of_exact : ∀ {d : Option Declaration} {s : Str}, DefaultExact d s →
    DefaultText d s ∧ DefaultWritable d
  | none, s, h => by
    simp only [DefaultExact] at h
    simp only [DefaultText, DefaultWritable]
    exact ⟨h, trivial⟩
  | some d, s, h => by
    simp only [DefaultExact] at h
    simp only [DefaultText, DefaultWritable]
    obtain ⟨g1, g2, g3, g4, t, h1, h2, h3, h4, ht, rfl⟩ := h
    exact ⟨⟨g1, g2, g3, g4, t, h1, h2, h3, h4, (decl_of_exact ht).1, rfl⟩, (decl_of_exact ht).2⟩
end

theorem typeOrVoid_of_exact {ty : TypeSpecifier} {s : Str} (h : TypeOrVoidExact ty s) :
    TypeOrVoidText ty s ∧ TypeWritable ty := by
  cases ty <;> first
    | exact type_of_exact h
    | exact ⟨h, by simp only [TypeWritable]⟩

theorem procedure_of_exact {p : Procedure} {s : Str} (h : ProcedureExact p s) :
    ProcedureText p s ∧ ProcedureWritable p := by
  obtain ⟨t, u, v, b1, b2, b3, b4, b5, b6, b7, ht, hu, hv, hn, h1, h2, h3, h4, h5, h6, h7, hk, hs, _,
    _, rfl⟩ := h
  exact ⟨⟨t, u, v, b1, b2, b3, b4, b5, b6, b7, (typeOrVoid_of_exact ht).1, (typeOrVoid_of_exact hu).1,
    hv, hn, h1, h2, h3, h4, h5, h6, h7, hk, rfl⟩, (typeOrVoid_of_exact ht).2, hs,
    (typeOrVoid_of_exact hu).2⟩

theorem procedures_of_exact {ps : List Procedure} {s : Str} (h : ProceduresExact ps s) :
    ProceduresText ps s ∧ ∀ p ∈ ps, ProcedureWritable p := by
  induction ps generalizing s with
  | nil => exact ⟨h, by simp⟩
  | cons p ps ih =>
    obtain ⟨t, b, u, ht, hb, hu, rfl⟩ := h
    exact ⟨⟨t, b, u, (procedure_of_exact ht).1, hb, (ih hu).1, rfl⟩, List.forall_mem_cons.2
      ⟨(procedure_of_exact ht).2, (ih hu).2⟩⟩

theorem version_of_exact {x : Version} {s : Str} (h : VersionExact x s) :
    VersionText x s ∧ ∀ p ∈ x.procedures, ProcedureWritable p := by
  obtain ⟨t, v, b1, b2, b3, b4, b5, b6, hne, ht, hr⟩ := h
  exact ⟨⟨t, v, b1, b2, b3, b4, b5, b6, hne, (procedures_of_exact ht).1, hr⟩,
    (procedures_of_exact ht).2⟩

theorem versions_of_exact {xs : List Version} {s : Str} (h : VersionsExact xs s) :
    VersionsText xs s ∧ ∀ x ∈ xs, ∀ p ∈ x.procedures, ProcedureWritable p := by
  induction xs generalizing s with
  | nil => exact ⟨h, by simp⟩
  | cons x xs ih =>
    obtain ⟨t, u, ht, hu, rfl⟩ := h
    exact ⟨⟨t, u, (version_of_exact ht).1, (ih hu).1, rfl⟩, List.forall_mem_cons.2
      ⟨(version_of_exact ht).2, (ih hu).2⟩⟩

theorem program_of_exact {x : Program} {s : Str} (h : ProgramExact x s) :
    ProgramText x s ∧ ∀ v ∈ x.versions, ∀ p ∈ v.procedures, ProcedureWritable p := by
  obtain ⟨t, v, b1, b2, b3, b4, b5, b6, b7, hne, ht, hr⟩ := h
  exact ⟨⟨t, v, b1, b2, b3, b4, b5, b6, b7, hne, (versions_of_exact ht).1, hr⟩,
    (versions_of_exact ht).2⟩

theorem typeDef_of_exact {d : TypeDef} {s : Str} (h : TypeDefExact d s) :
    TypeDefText d s ∧ TypeDefWritable d := by
  cases d with
  | declaration d =>
    obtain ⟨b, g, t, hb, hg, ht, rfl⟩ := h
    exact ⟨⟨b, g, t, hb, hg, (decl_of_exact ht).1, rfl⟩, (decl_of_exact ht).2⟩
  | enum n body => exact ⟨h, trivial⟩
  | struct n body =>
    obtain ⟨b, g, g1, g', t, hb, hg, hg1, hg', hn, hne, ht, rfl⟩ := h
    exact ⟨⟨b, g, g1, g', t, hb, hg, hg1, hg', hn, hne, (members_of_exact ht).1, rfl⟩,
      (members_of_exact ht).2⟩
  | union n body =>
    obtain ⟨b, g, g', t, hb, hg, hne, hg', hn, ht, rfl⟩ := h
    exact ⟨⟨b, g, g', t, hb, hg, hne, hg', hn, (union_of_exact ht).1, rfl⟩, (union_of_exact ht).2⟩

theorem definition_of_exact {d : Definition} {s : Str} (h : DefinitionExact d s) :
    DefinitionText d s ∧ DefinitionWritable d := by
  cases d with
  | type d => exact typeDef_of_exact h
  | constant a => exact ⟨h, trivial⟩
  | lineComment => exact ⟨h, trivial⟩
  | program p => exact program_of_exact h

theorem definitions_of_exact {ds : List Definition} {s : Str} (h : DefinitionsExact ds s) :
    DefinitionsText ds s ∧ Writable ds := by
  induction ds generalizing s with
  | nil => exact ⟨h, fun d hd => by simp at hd⟩
  | cons d ds ih =>
    obtain ⟨t, g, u, ht, hg, hu, rfl⟩ := h
    exact ⟨⟨t, g, u, (definition_of_exact ht).1, hg, (ih hu).1, rfl⟩, List.forall_mem_cons.2
      ⟨(definition_of_exact ht).2, (ih hu).2⟩⟩

/-- What is in the exact language is in the grammar, and the tree is writable. -/
theorem file_of_exact {ds : List Definition} {s : Str} (h : FileExact ds s) :
    FileText ds s ∧ Writable ds := by
  rcases h with ⟨rfl, rfl⟩ | ⟨g, t, hne, hg, ht, rfl⟩
  · exact ⟨.inl ⟨rfl, rfl⟩, fun d hd => by simp at hd⟩
  · exact ⟨.inr ⟨g, t, hne, hg, (definitions_of_exact ht).1, rfl⟩, (definitions_of_exact ht).2⟩

/-- What `parse` accepts is a text of what it returns. -/
theorem parseWith_text {n : Nat} {i : Str} {ds : List Definition} (h : parseWith n i = .ok ds) :
    FileText ds i := (file_of_exact (parseWith_exact h)).1

/-! ## Without the ambiguous words, the grammar is the exact language -/

theorem notShort_of_readable {ty : TypeSpecifier} (h : TypeReadable ty) : ¬ ShortType ty := by
  cases ty with
  | identifier name =>
    simp only [TypeReadable] at h
    rintro (h' | h')
    · exact h.1 h'
    · exact h.2 h'
  | _ => exact False.elim

theorem int_of_unsigned {ty : TypeSpecifier} (h : TypeText ty c!"unsigned") : ty = .int false := by
  cases ty with
  | int b =>
    cases b with
    | true => simp only [TypeText] at h; exact absurd h (by decide)
    | false => rfl
  | hyper b =>
    cases b with
    | true => simp only [TypeText] at h; exact absurd h (by decide)
    | false =>
      simp only [TypeText] at h
      obtain ⟨b, hb, h⟩ := h
      exact absurd h.symm (unsigned_ne hb)
  | char b =>
    cases b with
    | true => simp only [TypeText] at h; exact absurd h (by decide)
    | false =>
      simp only [TypeText] at h
      obtain ⟨b, hb, h⟩ := h
      exact absurd h.symm (unsigned_ne hb)
  | short b =>
    cases b with
    | true => simp only [TypeText] at h; exact absurd h (by decide)
    | false =>
      simp only [TypeText] at h
      obtain ⟨b, hb, h⟩ := h
      exact absurd h.symm (unsigned_ne hb)
  | float => simp only [TypeText] at h; exact absurd h (by decide)
  | double => simp only [TypeText] at h; exact absurd h (by decide)
  | quadruple => simp only [TypeText] at h; exact absurd h (by decide)
  | bool => simp only [TypeText] at h; exact absurd h (by decide)
  | enum body =>
    simp only [TypeText] at h
    obtain ⟨b, t, _, _, h⟩ := h
    simp at h
  | struct body =>
    simp only [TypeText] at h
    obtain ⟨b, g, t, _, _, _, _, h⟩ := h
    simp at h
  | union body =>
    simp only [TypeText] at h
    obtain ⟨b, t, _, _, h⟩ := h
    simp at h
  | identifier name =>
    simp only [TypeText] at h
    obtain ⟨rfl, h⟩ := h
    exact absurd (by decide) h.2
  | void => simp [TypeText] at h

theorem name_of_readable {ty : TypeSpecifier} {t name : Str} (ht : TypeText ty t)
    (h : NameOk ty name) (hu : t = c!"unsigned") : ¬ ShortWord name := by
  subst hu
  rw [int_of_unsigned ht] at h
  simp only [NameOk] at h
  rintro (h' | h')
  · exact h.1 h'
  · exact h.2 h'

mutual
theorem type_exact : ∀ {ty : TypeSpecifier} {s : Str}, TypeText ty s → TypeReadable ty →
    TypeExact ty s
  | .int true, _, h, _ | .int false, _, h, _ | .hyper true, _, h, _ | .hyper false, _, h, _
  | .char true, _, h, _ | .char false, _, h, _ | .short true, _, h, _ | .short false, _, h, _
  | .float, _, h, _ | .double, _, h, _ | .quadruple, _, h, _ | .bool, _, h, _ | .enum _, _, h, _
  | .identifier _, _, h, _ => by
    simp only [TypeText] at h
    simp only [TypeExact]
    exact h
  | .void, _, h, _ => by simp only [TypeText] at h
  | .struct body, s, h, hr => by
    simp only [TypeText] at h
    simp only [TypeReadable] at hr
    simp only [TypeExact]
    obtain ⟨b, g, t, hb, hg, hne, ht, rfl⟩ := h
    exact ⟨b, g, t, hb, hg, hne, members_exact ht hr, rfl⟩
  | .union body, s, h, hr => by
    simp only [TypeText] at h
    simp only [TypeReadable] at hr
    simp only [TypeExact]
    obtain ⟨b, t, hb, ht, rfl⟩ := h
    exact ⟨b, t, hb, union_exact ht hr, rfl⟩

theorem decl_exact : ∀ {d : Declaration} {s : Str}, DeclText d s → DeclReadable d →
    ∀ r, DeclExact d r s
  | .void, _, h, _ | .opaqueFixedArray _ _, _, h, _ | .opaqueVariableArray _ _, _, h, _
  | .string _ _, _, h, _ => fun r => by
    simp only [DeclText] at h
    simp only [DeclExact]
    exact h
  | .fixedArray ty name len, s, h, hr => fun r => by
    simp only [DeclText] at h
    simp only [DeclReadable] at hr
    simp only [DeclExact]
    obtain ⟨t, b, v, ht, hb, hn, hv, rfl⟩ := h
    exact ⟨t, b, v, type_exact ht hr.1, hr.2.1, notShort_of_readable hr.1, hb, hn, hv, rfl⟩
  | .variableArray ty name len, s, h, hr => fun r => by
    simp only [DeclText] at h
    simp only [DeclReadable] at hr
    simp only [DeclExact]
    obtain ⟨t, b, v, ht, hb, hn, hv, rfl⟩ := h
    exact ⟨t, b, v, type_exact ht hr.1, hr.2.1, notShort_of_readable hr.1, hb, hn, hv, rfl⟩
  | .optionVariable ty name, s, h, hr => fun r => by
    simp only [DeclText] at h
    simp only [DeclReadable] at hr
    simp only [DeclExact]
    obtain ⟨t, b, b', ht, hb, hk, hb', hn, rfl⟩ := h
    exact ⟨t, b, b', type_exact ht hr.1, hr.2, fun h => absurd h (notShort_of_readable hr.1), hb, hk,
      hb', hn, rfl⟩
  | .variable ty name, s, h, hr => fun r => by
    simp only [DeclText] at h
    simp only [DeclReadable] at hr
    simp only [DeclExact]
    obtain ⟨t, b, ht, hb, hn, rfl⟩ := h
    exact ⟨t, b, type_exact ht hr.1, hr.2.1, notShort_of_readable hr.1, hb, hn,
      fun hu hw => absurd hw (name_of_readable ht hr.2.2 hu), rfl⟩

theorem members_exact : ∀ {ds : List Declaration} {s : Str}, MembersText ds s → DeclsReadable ds →
    MembersExact ds s
  | [], s, h, _ => by
    simp only [MembersText] at h
    simp only [MembersExact]
    exact h
  | d :: ds, s, h, hr => by
    simp only [MembersText] at h
    simp only [DeclsReadable] at hr
    simp only [MembersExact]
    obtain ⟨t, g1, g2, u, ht, hg1, hg2, hu, rfl⟩ := h
    exact ⟨t, g1, g2, u, decl_exact ht hr.1 _, hg1, hg2, members_exact hu hr.2, rfl⟩

theorem union_exact : ∀ {b : UnionBody} {s : Str}, UnionText b s → UnionReadable b →
    UnionExact b s
  | .mk cond specs default, s, h, hr => by
    simp only [UnionText] at h
    simp only [UnionReadable] at hr
    simp only [UnionExact]
    obtain ⟨g1, g2, g3, g4, g5, t, u, w, h1, h2, h3, h4, h5, ht, hne, hu, hw, rfl⟩ := h
    exact ⟨g1, g2, g3, g4, g5, t, u, w, h1, h2, h3, h4, h5, decl_exact ht hr.1 _, hne,
      cases_exact hu hr.2.1, default_exact hw hr.2.2, rfl⟩

theorem cases_exact : ∀ {cs : List CaseSpec} {s : Str}, CasesText cs s → CasesReadable cs →
    CasesExact cs s
  | [], s, h, _ => by
    simp only [CasesText] at h
    simp only [CasesExact]
    exact h
  | c :: cs, s, h, hr => by
    simp only [CasesText] at h
    simp only [CasesReadable] at hr
    simp only [CasesExact]
    obtain ⟨t, g, u, ht, hg, hu, rfl⟩ := h
    exact ⟨t, g, u, case_exact ht hr.1, hg, cases_exact hu hr.2, rfl⟩

theorem case_exact : ∀ {c : CaseSpec} {s : Str}, CaseText c s → CaseReadable c → CaseExact c s
  | .mk values d, s, h, hr => by
    simp only [CaseText] at h
    simp only [CaseReadable] at hr
    simp only [CaseExact]
    obtain ⟨t, u, g, hne, ht, hu, hg, rfl⟩ := h
    exact ⟨t, u, g, hne, ht, decl_exact hu hr _, hg, rfl⟩

theorem default_exact : ∀ {d : Option Declaration} {s : Str}, DefaultText d s → DefaultReadable d →
    DefaultExact d s
  | none, s, h, _ => by
    simp only [DefaultText] at h
    simp only [DefaultExact]
    exact h
  | some d, s, h, hr => by
    simp only [DefaultText] at h
    simp only [DefaultReadable] at hr
    simp only [DefaultExact]
    obtain ⟨g1, g2, g3, g4, t, h1, h2, h3, h4, ht, rfl⟩ := h
    exact ⟨g1, g2, g3, g4, t, h1, h2, h3, h4, decl_exact ht hr _, rfl⟩
end

theorem typeOrVoid_exact {ty : TypeSpecifier} {s : Str} (h : TypeOrVoidText ty s)
    (hr : TypeReadable ty) : TypeOrVoidExact ty s := by
  cases ty <;> first
    | exact type_exact h hr
    | exact h

theorem procedure_exact {p : Procedure} {s : Str} (h : ProcedureText p s)
    (hr : ProcedureReadable p) : ProcedureExact p s := by
  obtain ⟨t, u, v, b1, b2, b3, b4, b5, b6, b7, ht, hu, hv, hn, h1, h2, h3, h4, h5, h6, h7, hk,
    rfl⟩ := h
  refine ⟨t, u, v, b1, b2, b3, b4, b5, b6, b7, typeOrVoid_exact ht hr.1, typeOrVoid_exact hu hr.2.2,
    hv, hn, h1, h2, h3, h4, h5, h6, h7, hk, notShort_of_readable hr.1, ?_,
    fun h => absurd h (notShort_of_readable hr.2.2), rfl⟩
  intro hun hw
  refine absurd hw (name_of_readable (ty := p.res_ty) ?_ hr.2.1 hun)
  by_cases hv : p.res_ty = .void
  · rw [hv] at ht
    simp only [TypeOrVoidText] at ht
    rw [hun] at ht
    exact absurd ht (by decide)
  · generalize p.res_ty = ty at ht hv
    cases ty <;> first | exact ht | exact absurd rfl hv

theorem procedures_exact {ps : List Procedure} {s : Str} (h : ProceduresText ps s)
    (hr : ∀ p ∈ ps, ProcedureReadable p) : ProceduresExact ps s := by
  induction ps generalizing s with
  | nil => exact h
  | cons p ps ih =>
    obtain ⟨t, b, u, ht, hb, hu, rfl⟩ := h
    have hr := List.forall_mem_cons.1 hr
    exact ⟨t, b, u, procedure_exact ht hr.1, hb, ih hu hr.2, rfl⟩

theorem versions_exact {xs : List Version} {s : Str} (h : VersionsText xs s)
    (hr : ∀ x ∈ xs, ∀ p ∈ x.procedures, ProcedureReadable p) : VersionsExact xs s := by
  induction xs generalizing s with
  | nil => exact h
  | cons x xs ih =>
    obtain ⟨t, u, ht, hu, rfl⟩ := h
    have hr := List.forall_mem_cons.1 hr
    obtain ⟨t', v, b1, b2, b3, b4, b5, b6, hne, ht', hrest⟩ := ht
    exact ⟨t, u, ⟨t', v, b1, b2, b3, b4, b5, b6, hne, procedures_exact ht' hr.1, hrest⟩, ih hu hr.2,
      rfl⟩

theorem definition_exact {d : Definition} {s : Str} (h : DefinitionText d s)
    (hr : DefinitionReadable d) : DefinitionExact d s := by
  cases d with
  | type d =>
    cases d with
    | declaration d =>
      obtain ⟨b, g, t, hb, hg, ht, rfl⟩ := h
      exact ⟨b, g, t, hb, hg, decl_exact ht hr _, rfl⟩
    | enum n body => exact h
    | struct n body =>
      obtain ⟨b, g, g1, g', t, hb, hg, hg1, hg', hn, hne, ht, rfl⟩ := h
      exact ⟨b, g, g1, g', t, hb, hg, hg1, hg', hn, hne, members_exact ht hr, rfl⟩
    | union n body =>
      obtain ⟨b, g, g', t, hb, hg, hne, hg', hn, ht, rfl⟩ := h
      exact ⟨b, g, g', t, hb, hg, hne, hg', hn, union_exact ht hr, rfl⟩
  | constant a => exact h
  | lineComment => exact h
  | program p =>
    obtain ⟨t, v, b1, b2, b3, b4, b5, b6, b7, hne, ht, hrest⟩ := h
    exact ⟨t, v, b1, b2, b3, b4, b5, b6, b7, hne, versions_exact ht hr, hrest⟩

theorem definitions_exact {ds : List Definition} {s : Str} (h : DefinitionsText ds s)
    (hr : Readable ds) : DefinitionsExact ds s := by
  induction ds generalizing s with
  | nil => exact h
  | cons d ds ih =>
    obtain ⟨t, g, u, ht, hg, hu, rfl⟩ := h
    have hr := List.forall_mem_cons.1 hr
    exact ⟨t, g, u, definition_exact ht hr.1, hg, ih hu hr.2, rfl⟩

theorem file_exact {ds : List Definition} {s : Str} (h : FileText ds s) (hr : Readable ds) :
    FileExact ds s := by
  rcases h with ⟨rfl, rfl⟩ | ⟨g, t, hne, hg, ht, rfl⟩
  · exact .inl ⟨rfl, rfl⟩
  · exact .inr ⟨g, t, hne, hg, definitions_exact ht hr, rfl⟩

/-- Every text of a file without ambiguous words is read back. -/
theorem parse_of_text {ds : List Definition} {i : Str} (hr : Readable ds) (ht : FileText ds i) :
    parse i = .ok ds := parse_of_exact (file_exact ht hr)

end Xdr.Rpcgen
