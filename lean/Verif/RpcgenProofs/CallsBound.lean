import Verif.RpcgenProofs.Calls
/-!
# The calls are bounded by the length of the text, if types do not nest deep
-/

namespace Xdr.Rpcgen

theorem four_pow_pos (k : Nat) : 1 ≤ 4 ^ k := Nat.one_le_pow _ _ (by decide)

theorem typeText_pos {ty : TypeSpecifier} {s : Str} (h : TypeText ty s) : 1 ≤ s.length := by
  cases ty with
  | int b => cases b <;> simp only [TypeText] at h
             · rcases h with rfl | ⟨b, _, rfl⟩ <;> simp
             · subst h; decide
  | hyper b => cases b <;> simp only [TypeText] at h
               · obtain ⟨b, _, rfl⟩ := h; simp
               · subst h; decide
  | char b => cases b <;> simp only [TypeText] at h
              · obtain ⟨b, _, rfl⟩ := h; simp
              · subst h; decide
  | short b => cases b <;> simp only [TypeText] at h
               · obtain ⟨b, _, rfl⟩ := h; simp
               · subst h; decide
  | float => simp only [TypeText] at h; subst h; decide
  | double => simp only [TypeText] at h; subst h; decide
  | quadruple => simp only [TypeText] at h; subst h; decide
  | bool => simp only [TypeText] at h; subst h; decide
  | enum body => simp only [TypeText] at h; obtain ⟨b, t, _, _, rfl⟩ := h; simp
  | struct body => simp only [TypeText] at h; obtain ⟨b, g, t, _, _, _, _, rfl⟩ := h; simp
  | union body => simp only [TypeText] at h; obtain ⟨b, t, _, _, rfl⟩ := h; simp
  | identifier name =>
    simp only [TypeText] at h
    obtain ⟨rfl, h⟩ := h
    obtain ⟨c, cs, rfl, _⟩ := ident_head h
    simp
  | void => simp only [TypeText] at h

/-- Multiply both sides. -/
theorem mul_len {c k n m : Nat} (h : c ≤ 4 ^ k * n) (hn : n ≤ m) : c ≤ 4 ^ k * m :=
  Nat.le_trans h (Nat.mul_le_mul_left _ hn)

theorem leaf_bound {k n : Nat} (h : 1 ≤ n) : 1 ≤ 4 ^ k * n :=
  Nat.le_trans h (Nat.le_mul_of_pos_left _ (four_pow_pos k))

mutual
theorem type_calls_le {k : Nat} : ∀ (ty : TypeSpecifier) {s : Str}, TypeText ty s → ty.depth ≤ k →
    ty.calls ≤ 4 ^ k * s.length
  | .struct body, s, h, hk => by
    simp only [TypeSpecifier.depth] at hk
    obtain ⟨k, rfl⟩ : ∃ j, k = j + 1 := ⟨k - 1, by omega⟩
    simp only [TypeText] at h
    obtain ⟨b, g, t, _, _, _, h, rfl⟩ := h
    have ih := decls_calls_le (k := k) body h (by omega)
    have := four_pow_pos (k + 1)
    simp only [TypeSpecifier.calls, List.length_append, List.length_cons, List.length_nil]
    refine Nat.le_trans ?_ (Nat.mul_le_mul_left (4 ^ (k + 1)) (show t.length + 5 ≤ _ by omega))
    rw [Nat.mul_add]
    omega
  | .union body, s, h, hk => by
    simp only [TypeSpecifier.depth] at hk
    obtain ⟨k, rfl⟩ : ∃ j, k = j + 1 := ⟨k - 1, by omega⟩
    simp only [TypeText] at h
    obtain ⟨b, t, _, h, rfl⟩ := h
    have ih := union_calls_le (k := k) body h (by omega)
    have := four_pow_pos (k + 1)
    simp only [TypeSpecifier.calls, List.length_append, List.length_cons, List.length_nil]
    refine Nat.le_trans ?_ (Nat.mul_le_mul_left (4 ^ (k + 1)) (show t.length + 5 ≤ _ by omega))
    rw [Nat.mul_add]
    omega
  | .int _, s, h, _ => leaf_bound (typeText_pos h)
  | .hyper _, s, h, _ => leaf_bound (typeText_pos h)
  | .char _, s, h, _ => leaf_bound (typeText_pos h)
  | .short _, s, h, _ => leaf_bound (typeText_pos h)
  | .float, s, h, _ => leaf_bound (typeText_pos h)
  | .double, s, h, _ => leaf_bound (typeText_pos h)
  | .quadruple, s, h, _ => leaf_bound (typeText_pos h)
  | .bool, s, h, _ => leaf_bound (typeText_pos h)
  | .enum _, s, h, _ => leaf_bound (typeText_pos h)
  | .identifier _, s, h, _ => leaf_bound (typeText_pos h)
  | .void, s, h, _ => leaf_bound (typeText_pos h)

theorem decl_calls_le {k : Nat} : ∀ (d : Declaration) {s : Str}, DeclText d s → d.depth ≤ k →
    d.calls ≤ 4 ^ (k + 1) * s.length
  | .fixedArray ty name len, s, h, hk => by
    simp only [DeclText] at h
    obtain ⟨t, b, v, ht, _, _, _, rfl⟩ := h
    have := type_calls_le ty ht hk
    simp only [Declaration.calls, List.length_append]
    refine mul_len (n := t.length) ?_ (by omega)
    rw [Nat.pow_succ, Nat.mul_comm (4 ^ k) 4, Nat.mul_assoc]; omega
  | .variableArray ty name max, s, h, hk => by
    simp only [DeclText] at h
    obtain ⟨t, b, v, ht, _, _, _, rfl⟩ := h
    have := type_calls_le ty ht hk
    simp only [Declaration.calls, List.length_append]
    refine mul_len (n := t.length) ?_ (by omega)
    rw [Nat.pow_succ, Nat.mul_comm (4 ^ k) 4, Nat.mul_assoc]; omega
  | .optionVariable ty name, s, h, hk => by
    simp only [DeclText] at h
    obtain ⟨t, b, v, ht, _, _, _, _, rfl⟩ := h
    have := type_calls_le ty ht hk
    simp only [Declaration.calls, List.length_append]
    refine mul_len (n := t.length) ?_ (by omega)
    rw [Nat.pow_succ, Nat.mul_comm (4 ^ k) 4, Nat.mul_assoc]; omega
  | .variable ty name, s, h, hk => by
    simp only [DeclText] at h
    obtain ⟨t, b, ht, _, _, rfl⟩ := h
    have := type_calls_le ty ht hk
    simp only [Declaration.calls, List.length_append]
    refine mul_len (n := t.length) ?_ (by omega)
    rw [Nat.pow_succ, Nat.mul_comm (4 ^ k) 4, Nat.mul_assoc]; omega
  | .opaqueFixedArray _ _, _, _, _ => Nat.zero_le _
  | .opaqueVariableArray _ _, _, _, _ => Nat.zero_le _
  | .string _ _, _, _, _ => Nat.zero_le _
  | .void, _, _, _ => Nat.zero_le _

theorem decls_calls_le {k : Nat} : ∀ (ds : List Declaration) {s : Str}, MembersText ds s →
    declsDepth ds ≤ k → declsCalls ds ≤ 4 ^ (k + 1) * s.length
  | [], _, _, _ => Nat.zero_le _
  | d :: ds, s, h, hk => by
    simp only [declsDepth] at hk
    simp only [MembersText] at h
    obtain ⟨t, g1, g2, u, ht, _, _, hu, rfl⟩ := h
    have h1 := decl_calls_le (k := k) d ht (by omega)
    have h2 := decls_calls_le (k := k) ds hu (by omega)
    simp only [declsCalls, List.length_append]
    refine mul_len (n := t.length + u.length) ?_ (by omega)
    rw [Nat.mul_add]; omega

theorem union_calls_le {k : Nat} : ∀ (b : UnionBody) {s : Str}, UnionText b s → b.depth ≤ k →
    b.calls ≤ 4 ^ (k + 1) * s.length
  | .mk cond specs default, s, h, hk => by
    simp only [UnionBody.depth] at hk
    simp only [UnionText] at h
    obtain ⟨g1, g2, g3, g4, g5, t, u, w, _, _, _, _, _, ht, _, hu, hw, rfl⟩ := h
    have h1 := decl_calls_le (k := k) cond ht (by omega)
    have h2 := cases_calls_le (k := k) specs hu (by omega)
    have h3 := default_calls_le (k := k) default hw (by omega)
    simp only [UnionBody.calls, List.length_append]
    refine mul_len (n := t.length + (u.length + w.length)) ?_ (by omega)
    rw [Nat.mul_add, Nat.mul_add]; omega

theorem cases_calls_le {k : Nat} : ∀ (cs : List CaseSpec) {s : Str}, CasesText cs s →
    casesDepth cs ≤ k → casesCalls cs ≤ 4 ^ (k + 1) * s.length
  | [], _, _, _ => Nat.zero_le _
  | c :: cs, s, h, hk => by
    simp only [casesDepth] at hk
    simp only [CasesText] at h
    obtain ⟨t, g, u, ht, _, hu, rfl⟩ := h
    have h1 := case_calls_le (k := k) c ht (by omega)
    have h2 := cases_calls_le (k := k) cs hu (by omega)
    simp only [casesCalls, List.length_append]
    refine mul_len (n := t.length + u.length) ?_ (by omega)
    rw [Nat.mul_add]; omega

theorem case_calls_le {k : Nat} : ∀ (c : CaseSpec) {s : Str}, CaseText c s → c.depth ≤ k →
    c.calls ≤ 4 ^ (k + 1) * s.length
  | .mk values d, s, h, hk => by
    simp only [CaseText] at h
    obtain ⟨t, u, g, _, _, hu, _, rfl⟩ := h
    simp only [CaseSpec.calls, List.length_append]
    exact mul_len (decl_calls_le (k := k) d hu hk) (by omega)

theorem default_calls_le {k : Nat} : ∀ (d : Option Declaration) {s : Str}, DefaultText d s →
    defaultDepth d ≤ k → defaultCalls d ≤ 4 ^ (k + 1) * s.length
  | none, _, _, _ => Nat.zero_le _
  | some d, s, h, hk => by
    simp only [DefaultText] at h
    obtain ⟨g1, g2, g3, g4, t, _, _, _, _, ht, rfl⟩ := h
    simp only [defaultCalls, List.length_append]
    exact mul_len (decl_calls_le (k := k) d ht hk) (by omega)
end

theorem typeDef_calls_le {k : Nat} {d : TypeDef} {s : Str} (h : TypeDefText d s) (hk : d.depth ≤ k) :
    d.calls ≤ 4 ^ (k + 1) * s.length := by
  cases d with
  | declaration d =>
    obtain ⟨b, g, t, _, _, ht, rfl⟩ := h
    simp only [TypeDef.calls, List.length_append]
    exact mul_len (decl_calls_le (k := k) d ht hk) (by omega)
  | enum name body => exact Nat.zero_le _
  | struct name body =>
    obtain ⟨b, g, g1, g', t, _, _, _, _, _, _, ht, rfl⟩ := h
    have := decls_calls_le (k := k) body ht hk
    have hp := four_pow_pos (k + 1)
    simp only [TypeDef.calls, List.length_append, List.length_cons, List.length_nil]
    refine mul_len (n := t.length + 4) ?_ (by omega)
    rw [Nat.mul_add]; omega
  | union name body =>
    obtain ⟨b, g, g', t, _, _, _, _, _, ht, rfl⟩ := h
    simp only [TypeDef.calls, List.length_append]
    exact mul_len (union_calls_le (k := k) body ht hk) (by omega)

theorem procType_calls_le {k : Nat} {ty : TypeSpecifier} {s : Str} (h : TypeOrVoidText ty s)
    (hk : ty.depth ≤ k) : ty.calls ≤ 4 ^ k * s.length := by
  cases ty with
  | void => simp only [TypeOrVoidText] at h; subst h; exact leaf_bound (by decide)
  | _ => exact type_calls_le _ h hk

theorem procedure_calls_le {k : Nat} {p : Procedure} {s : Str} (h : ProcedureText p s)
    (hk : p.res_ty.depth ≤ k ∧ p.req_ty.depth ≤ k) : p.calls ≤ 4 ^ k * s.length := by
  obtain ⟨t, u, v, b1, b2, b3, b4, b5, b6, b7, ht, hu, _, _, _, _, _, _, _, _, _, _, rfl⟩ := h
  have h1 := procType_calls_le ht hk.1
  have h2 := procType_calls_le hu hk.2
  simp only [Procedure.calls, List.length_append]
  refine mul_len (n := t.length + u.length) ?_ (by omega)
  rw [Nat.mul_add]; omega

theorem procedures_calls_le {k : Nat} : ∀ {ps : List Procedure} {s : Str}, ProceduresText ps s →
    (∀ q ∈ ps, q.res_ty.depth ≤ k ∧ q.req_ty.depth ≤ k) →
    (ps.map Procedure.calls).sum ≤ 4 ^ k * s.length
  | [], _, _, _ => Nat.zero_le _
  | p :: ps, s, h, hk => by
    obtain ⟨t, b, u, ht, _, hu, rfl⟩ := h
    have h1 := procedure_calls_le ht (hk p (by simp))
    have h2 := procedures_calls_le hu fun q hq => hk q (by simp [hq])
    simp only [List.map_cons, List.sum_cons, List.length_append]
    refine mul_len (n := t.length + u.length) ?_ (by omega)
    rw [Nat.mul_add]; omega

theorem versions_calls_le {k : Nat} : ∀ {vs : List Version} {s : Str}, VersionsText vs s →
    (∀ v ∈ vs, ∀ q ∈ v.procedures, q.res_ty.depth ≤ k ∧ q.req_ty.depth ≤ k) →
    (vs.map Version.calls).sum ≤ 4 ^ k * s.length
  | [], _, _, _ => Nat.zero_le _
  | x :: vs, s, h, hk => by
    obtain ⟨t, u, ht, hu, rfl⟩ := h
    obtain ⟨t', v, b1, b2, b3, b4, b5, b6, _, ht', _, _, _, _, _, _, _, _, rfl⟩ := ht
    have h1 := procedures_calls_le ht' (hk x (by simp))
    have h2 := versions_calls_le hu fun q hq => hk q (by simp [hq])
    have hp := four_pow_pos k
    simp only [List.map_cons, List.sum_cons, Version.calls, List.length_append, List.length_cons,
      List.length_nil]
    refine mul_len (n := t'.length + 1 + u.length) ?_ (by omega)
    rw [Nat.mul_add, Nat.mul_add]; omega

theorem definition_calls_le {k : Nat} {d : Definition} {s : Str} (h : DefinitionText d s)
    (hk : NestsWithin k [d]) : d.calls ≤ 4 ^ (k + 1) * s.length := by
  have hk := hk d (by simp)
  cases d with
  | type d => exact typeDef_calls_le h hk
  | constant a => exact Nat.zero_le _
  | lineComment => exact Nat.zero_le _
  | program p =>
    obtain ⟨t, v, b1, b2, b3, b4, b5, b6, b7, _, ht, _, _, _, _, _, _, _, _, _, rfl⟩ := h
    have h1 := versions_calls_le ht hk
    simp only [Definition.calls, List.length_append]
    refine mul_len (n := t.length) (Nat.le_trans h1 (Nat.mul_le_mul_right _ ?_)) (by omega)
    exact Nat.pow_le_pow_right (by decide) (by omega)

theorem definitions_calls_le {k : Nat} : ∀ {ds : List Definition} {s : Str}, DefinitionsText ds s →
    NestsWithin k ds → fileCalls ds ≤ 4 ^ (k + 1) * s.length
  | [], _, _, _ => Nat.zero_le _
  | d :: ds, s, h, hk => by
    obtain ⟨t, g, u, ht, _, hu, rfl⟩ := h
    have h1 := definition_calls_le ht fun x hx => hk x (by simp_all)
    have h2 := definitions_calls_le hu fun q hq => hk q (by simp [hq])
    simp only [fileCalls, List.map_cons, List.sum_cons, List.length_append] at h2 ⊢
    refine mul_len (n := t.length + u.length) ?_ (by omega)
    rw [Nat.mul_add]; omega

theorem file_calls_le {k : Nat} {ds : List Definition} {s : Str} (h : FileText ds s)
    (hk : NestsWithin k ds) : fileCalls ds ≤ 4 ^ (k + 1) * s.length := by
  rcases h with ⟨rfl, rfl⟩ | ⟨g, t, _, _, ht, rfl⟩
  · exact Nat.zero_le _
  · exact mul_len (definitions_calls_le ht hk) (by simp)

end Xdr.Rpcgen
