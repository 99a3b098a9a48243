import Verif.RpcgenProofs.Print
/-!
# The names of a file are no longer than its text
-/

namespace Xdr.Rpcgen

/-- A name counts its characters, a number one. -/
def Atom.size : Atom → Nat
  | .ident s => s.length
  | .number _ => 1
  | .body _ => 0
  | .voidType => 0

/-- All names and numbers together. -/
def atomsSize : List Atom → Nat
  | [] => 0
  | a :: as => a.size + atomsSize as

theorem atomsSize_append (a b : List Atom) : atomsSize (a ++ b) = atomsSize a + atomsSize b := by
  induction a with
  | nil => simp [atomsSize]
  | cons x xs ih => simp only [List.cons_append, atomsSize, ih]; omega

theorem size_le_of_mem {a : Atom} {l : List Atom} (h : a ∈ l) : a.size ≤ atomsSize l := by
  induction l with
  | nil => cases h
  | cons x xs ih =>
    rw [atomsSize]
    rcases List.mem_cons.1 h with rfl | h
    · omega
    · have := ih h
      omega

theorem constant_size {c : Constant} {s : Str} (h : ConstantText c s) : 1 ≤ s.length := by
  cases c with
  | decimal d =>
    obtain ⟨rfl, rfl | ⟨c, ds, rfl | rfl, -⟩⟩ := h <;> simp
  | hex d => obtain ⟨rfl, -⟩ := h; simp
  | octal d => obtain ⟨rfl, -⟩ := h; simp

theorem value_size {v : Value} {s : Str} (h : ValueText v s) : atomsSize v.atoms ≤ s.length := by
  cases v with
  | constant c => simpa [Value.atoms, atomsSize, Atom.size] using constant_size h
  | identifier n => simp [Value.atoms, atomsSize, Atom.size, h.1]

theorem optValue_size {v : Option Value} {s : Str} (h : OptValueText v s) : atomsSize (optAtoms v) ≤ s.length := by
  cases v with
  | none => simp [optAtoms, atomsSize]
  | some v => exact value_size h

/-- Adds up sizes and lengths. -/
macro "sizes" : tactic => `(tactic| (
  simp only [atomsSize_append, atomsSize, Atom.size, List.length_append, List.length_cons, List.length_nil,
    List.flatMap_cons, List.flatMap_nil]
  omega))

theorem assign_size {a : Assign} {s : Str} (h : AssignText a s) : atomsSize a.atoms ≤ s.length := by
  obtain ⟨g1, g2, v, hn, _, _, hv, rfl⟩ := h
  have := value_size hv
  rw [Assign.atoms]
  sizes

theorem assigns_size {as : List Assign} {s : Str} (h : AssignsText as s) :
    atomsSize (as.flatMap Assign.atoms) ≤ s.length := by
  induction as generalizing s with
  | nil => simp [atomsSize]
  | cons a as ih =>
    obtain ⟨g1, g2, t, u, _, _, ht, hu, rfl⟩ := h
    have h1 := assign_size ht
    have h2 := ih hu
    sizes

theorem enum_size {as : List Assign} {s : Str} (h : EnumText as s) : atomsSize (enumAtoms as) ≤ s.length := by
  cases as with
  | nil => exact h.elim
  | cons a as =>
    obtain ⟨g1, g2, t, u, _, _, ht, hu, rfl⟩ := h
    have h1 := assign_size ht
    have h2 := assigns_size hu
    rw [enumAtoms]
    sizes

theorem labels_size {vs : List Value} {s : Str} (h : LabelsText vs s) :
    atomsSize (vs.flatMap Value.atoms) ≤ s.length := by
  induction vs generalizing s with
  | nil => simp [atomsSize]
  | cons a as ih =>
    obtain ⟨g1, g2, g3, t, u, _, _, _, ht, hu, rfl⟩ := h
    have h1 := value_size ht
    have h2 := ih hu
    sizes

mutual
theorem type_size : ∀ {ty : TypeSpecifier} {s : Str}, TypeText ty s → atomsSize ty.atoms ≤ s.length
  | .int _, _, _ | .hyper _, _, _ | .char _, _, _ | .short _, _, _ | .float, _, _ | .double, _, _
  | .quadruple, _, _ | .bool, _, _ => by simp [TypeSpecifier.atoms, atomsSize]
  | .enum body, s, h => by
    simp only [TypeText] at h
    obtain ⟨b, t, _, ht, rfl⟩ := h
    have := enum_size ht
    simp only [TypeSpecifier.atoms]
    sizes
  | .struct body, s, h => by
    simp only [TypeText] at h
    obtain ⟨b, g, t, _, _, hne, ht, rfl⟩ := h
    have := decls_size ht
    simp only [TypeSpecifier.atoms]
    sizes
  | .union body, s, h => by
    simp only [TypeText] at h
    obtain ⟨b, t, _, ht, rfl⟩ := h
    have := union_size ht
    simp only [TypeSpecifier.atoms]
    sizes
  | .identifier n, s, h => by
    simp only [TypeText] at h
    simp [TypeSpecifier.atoms, atomsSize, Atom.size, h.1]
  | .void, s, h => by simp [TypeText] at h

theorem decl_size : ∀ {d : Declaration} {s : Str}, DeclText d s → atomsSize d.atoms ≤ s.length
  | .void, _, _ => by simp [Declaration.atoms, atomsSize]
  | .opaqueFixedArray name len, s, h => by
    simp only [DeclText] at h
    obtain ⟨b, v, _, hn, hv, rfl⟩ := h
    have := value_size hv
    simp only [Declaration.atoms]
    sizes
  | .opaqueVariableArray name len, s, h => by
    simp only [DeclText] at h
    obtain ⟨b, v, _, hn, hv, rfl⟩ := h
    have := optValue_size hv
    simp only [Declaration.atoms]
    sizes
  | .string name len, s, h => by
    simp only [DeclText] at h
    obtain ⟨b, v, _, hn, hv, rfl⟩ := h
    have := optValue_size hv
    simp only [Declaration.atoms]
    sizes
  | .fixedArray ty name len, s, h => by
    simp only [DeclText] at h
    obtain ⟨t, b, v, ht, _, hn, hv, rfl⟩ := h
    have := value_size hv
    have := type_size ht
    simp only [Declaration.atoms]
    sizes
  | .variableArray ty name len, s, h => by
    simp only [DeclText] at h
    obtain ⟨t, b, v, ht, _, hn, hv, rfl⟩ := h
    have := optValue_size hv
    have := type_size ht
    simp only [Declaration.atoms]
    sizes
  | .optionVariable ty name, s, h => by
    simp only [DeclText] at h
    obtain ⟨t, b, b', ht, _, _, _, hn, rfl⟩ := h
    have := type_size ht
    simp only [Declaration.atoms]
    sizes
  | .variable ty name, s, h => by
    simp only [DeclText] at h
    obtain ⟨t, b, ht, _, hn, rfl⟩ := h
    have := type_size ht
    simp only [Declaration.atoms]
    sizes

theorem decls_size : ∀ {ds : List Declaration} {s : Str}, MembersText ds s → atomsSize (declsAtoms ds) ≤ s.length
  | [], _, _ => by simp [declsAtoms, atomsSize]
  | d :: ds, s, h => by
    simp only [MembersText] at h
    obtain ⟨t, g1, g2, u, ht, _, _, hu, rfl⟩ := h
    have := decl_size ht
    have := decls_size hu
    simp only [declsAtoms]
    sizes

theorem union_size : ∀ {b : UnionBody} {s : Str}, UnionText b s → atomsSize b.atoms ≤ s.length
  | .mk cond specs default, s, h => by
    simp only [UnionText] at h
    obtain ⟨_, _, _, _, _, t, u, w, _, _, _, _, _, ht, hne, hu, hw, rfl⟩ := h
    have := decl_size ht
    have := cases_size hu
    have := default_size hw
    simp only [UnionBody.atoms]
    sizes

theorem cases_size : ∀ {cs : List CaseSpec} {s : Str}, CasesText cs s → atomsSize (casesAtoms cs) ≤ s.length
  | [], _, _ => by simp [casesAtoms, atomsSize]
  | c :: cs, s, h => by
    simp only [CasesText] at h
    obtain ⟨t, g, u, ht, _, hu, rfl⟩ := h
    have := case_size ht
    have := cases_size hu
    simp only [casesAtoms]
    sizes

theorem case_size : ∀ {c : CaseSpec} {s : Str}, CaseText c s → atomsSize c.atoms ≤ s.length
  | .mk values d, s, h => by
    simp only [CaseText] at h
    obtain ⟨t, u, g, hne, ht, hu, _, rfl⟩ := h
    have := labels_size ht
    have := decl_size hu
    simp only [CaseSpec.atoms]
    sizes

theorem default_size : ∀ {d : Option Declaration} {s : Str}, DefaultText d s → atomsSize (defaultAtoms d) ≤ s.length
  | none, _, _ => by simp [defaultAtoms, atomsSize]
  | some d, s, h => by
    simp only [DefaultText] at h
    obtain ⟨_, _, _, _, t, _, _, _, _, ht, rfl⟩ := h
    have := decl_size ht
    simp only [defaultAtoms]
    sizes
end

theorem typeDef_size {d : TypeDef} {s : Str} (h : TypeDefText d s) : atomsSize d.atoms ≤ s.length := by
  cases d with
  | declaration d =>
    obtain ⟨b, g, t, _, _, ht, rfl⟩ := h
    have := decl_size ht
    simp only [TypeDef.atoms]
    sizes
  | enum name body =>
    obtain ⟨b, g, g', t, _, _, _, hn, ht, rfl⟩ := h
    have := enum_size ht
    simp only [TypeDef.atoms]
    sizes
  | struct name body =>
    obtain ⟨b, g, g1, g', t, _, _, _, _, hn, hne, ht, rfl⟩ := h
    have := decls_size ht
    simp only [TypeDef.atoms]
    sizes
  | union name body =>
    obtain ⟨b, g, g', t, _, _, _, _, hn, ht, rfl⟩ := h
    have := union_size ht
    simp only [TypeDef.atoms]
    sizes

theorem typeOrVoid_size {ty : TypeSpecifier} {s : Str} (h : TypeOrVoidText ty s) :
    atomsSize (procTypeAtoms ty) ≤ s.length := by
  cases ty <;> first | exact type_size h | simp [procTypeAtoms, atomsSize]

theorem procedure_size {p : Procedure} {s : Str} (h : ProcedureText p s) : atomsSize p.atoms ≤ s.length := by
  obtain ⟨t, u, v, _, _, _, _, _, _, _, ht, hu, hv, hn, _, _, _, _, _, _, _, _, rfl⟩ := h
  have := typeOrVoid_size ht
  have := typeOrVoid_size hu
  have := value_size hv
  simp only [Procedure.atoms]
  sizes

theorem procedures_size {ps : List Procedure} {s : Str} (h : ProceduresText ps s) :
    atomsSize (ps.flatMap Procedure.atoms) ≤ s.length := by
  induction ps generalizing s with
  | nil => simp [atomsSize]
  | cons p ps ih =>
    obtain ⟨t, b, u, ht, _, hu, rfl⟩ := h
    have := procedure_size ht
    have := ih hu
    sizes

theorem version_size {x : Version} {s : Str} (h : VersionText x s) : atomsSize x.atoms ≤ s.length := by
  obtain ⟨t, v, _, _, _, _, _, _, hne, ht, hv, hn, _, _, _, _, _, _, rfl⟩ := h
  have := procedures_size ht
  have := value_size hv
  simp only [Version.atoms]
  sizes

theorem versions_size {xs : List Version} {s : Str} (h : VersionsText xs s) :
    atomsSize (xs.flatMap Version.atoms) ≤ s.length := by
  induction xs generalizing s with
  | nil => simp [atomsSize]
  | cons p ps ih =>
    obtain ⟨t, u, ht, hu, rfl⟩ := h
    have := version_size ht
    have := ih hu
    sizes

theorem program_size {x : Program} {s : Str} (h : ProgramText x s) : atomsSize x.atoms ≤ s.length := by
  obtain ⟨t, v, _, _, _, _, _, _, _, hne, ht, hv, hn, _, _, _, _, _, _, _, rfl⟩ := h
  have := versions_size ht
  have := value_size hv
  simp only [Program.atoms]
  sizes

theorem definition_size {d : Definition} {s : Str} (h : DefinitionText d s) : atomsSize d.atoms ≤ s.length := by
  cases d with
  | type d => exact typeDef_size h
  | constant a =>
    obtain ⟨b, g, t, _, _, ht, rfl⟩ := h
    have := assign_size ht
    simp only [Definition.atoms]
    sizes
  | lineComment => simp [Definition.atoms, atomsSize]
  | program p => exact program_size h

theorem definitions_size {ds : List Definition} {s : Str} (h : DefinitionsText ds s) :
    atomsSize (atoms ds) ≤ s.length := by
  induction ds generalizing s with
  | nil => simp [atoms, atomsSize]
  | cons d ds ih =>
    obtain ⟨t, g, u, ht, _, hu, rfl⟩ := h
    have h1 := definition_size ht
    have h2 := ih hu
    rw [atoms] at h2 ⊢
    sizes

/-- The names and numbers of a file are no longer than its text. -/
theorem file_size {ds : List Definition} {s : Str} (h : FileText ds s) : atomsSize (atoms ds) ≤ s.length := by
  rcases h with ⟨rfl, rfl⟩ | ⟨g, t, _, _, ht, rfl⟩
  · simp [atoms, atomsSize]
  · have := definitions_size ht
    rw [List.length_append]
    omega

end Xdr.Rpcgen
