import Verif.RpcgenProofs.Returns
import Verif.RpcgenProofs.Accepted
/-!
# What holds of the types of declarations holds of the fields of variants
-/

namespace Xdr.Rpcgen

section
variable {ds : List Definition} {cfg : Config} {n : Nat} {arm dflt : Declaration → Prop}
  {sel : TypeSpecifier → Prop} {P : RTy → Prop} {A : Attr → Prop}

/-- What holds of the types of arms, default arms and discriminants. -/
structure EveryType (ds : List Definition) (cfg : Config) (n : Nat) (arm dflt : Declaration → Prop)
    (sel : TypeSpecifier → Prop) (P : RTy → Prop) (A : Attr → Prop) : Prop where
  decl : ∀ d, arm d ∨ dflt d → ∀ ty op,
    convert_type_token (setup_context ds cfg) n d = .ok (some (ty, op)) → P ty
  cond : ∀ ts ty, sel ts → condType (setup_context ds cfg) n ts = .ok ty → P ty
  bool : P .bool
  opaques : ∀ d, arm d → ∀ ty op, convert_type_token (setup_context ds cfg) n d = .ok (some (ty, op)) →
    op ≠ .none → P .variableArray ∧ A op.attr
  plain : A .none

/-- The attribute and the fields of a variant. -/
def Variant.Each (P : RTy → Prop) (A : Attr → Prop) (v : Variant) : Prop := A v.attr ∧ ∀ t ∈ v.fields, P t

/-- The same for what one case pushes. -/
def CaseStep.Each (P : RTy → Prop) (A : Attr → Prop) (st : CaseStep) : Prop := (∀ v ∈ st.variants, v.Each P A) ∧ P st.cond

theorem reserved_each (H : EveryType ds cfg n arm dflt sel P A) {v : Variant} (ha : v.attr = .none) (h : v.fields = []) :
    v.Each P A := by
  unfold Variant.Each
  rw [h, ha]
  exact ⟨H.plain, fun t ht => nomatch ht⟩

theorem case_each (H : EveryType ds cfg n arm dflt sel P A) {v : Value} {d : Declaration} (hin : arm d)
    {ts : TypeSpecifier} (hsel : sel ts) {c : CaseTok} (h : convert_case_token (setup_context ds cfg) n v d ts = .ok c) :
    c.value.Each P A ∧ P c.cond := by
  obtain ⟨o, -, hc, ho, -, h⟩ := convert_case_ok h
  have hct := H.cond _ _ hsel hc
  have hcf : ∀ t ∈ (if (setup_context ds cfg).config.union_impl_union then [c.cond] else []), P t := by
    intro t ht
    split at ht
    · rw [List.mem_singleton] at ht
      rw [ht]
      exact hct
    · cases ht
  refine ⟨?_, hct⟩
  rcases h with ⟨-, ha, hf⟩ | ⟨ty, op, rfl, ha, hf⟩
  · unfold Variant.Each
    rw [hf, ha]
    exact ⟨H.plain, hcf⟩
  · have h1 := H.decl d (.inl hin) _ _ ho
    have h2 := H.opaques d hin _ _ ho
    have key : A (armField (setup_context ds cfg).config ty op).1 ∧
        P (armField (setup_context ds cfg).config ty op).2 := by
      unfold armField
      split
      · next hw =>
        refine ⟨H.plain, (h2 ?_).1⟩
        rintro rfl
        simp at hw
      · refine ⟨?_, h1⟩
        by_cases hop : op = .none
        · rw [hop]
          exact H.plain
        · exact (h2 hop).2
    unfold Variant.Each
    rw [hf, ha]
    refine ⟨key.1, fun t hm => ?_⟩
    rcases List.mem_append.1 hm with hm | hm
    · exact hcf t hm
    · rw [List.mem_singleton] at hm
      rw [hm]
      exact key.2

theorem loop_each (H : EveryType ds cfg n arm dflt sel P A) {cond : TypeSpecifier} (hsel : sel cond)
    {l : List (Int × Declaration × Value)} (hl : ∀ p ∈ l, arm p.2.1) {s : Int} {steps : List CaseStep}
    (h : unionLoop (setup_context ds cfg) n cond l s = .ok steps) : ∀ st ∈ steps, st.Each P A := by
  induction l generalizing s steps with
  | nil =>
    cases h
    simp
  | cons p l ih =>
    obtain ⟨e, d, v⟩ := p
    simp only [unionLoop, GR.bind_eq_ok] at h
    obtain ⟨r, hr, c, hc, b, hb, h⟩ := h
    split at h
    · cases h
    · simp only [GR.bind_eq_ok] at h
      obtain ⟨steps', h', h⟩ := h
      cases h
      intro st hst
      rcases List.mem_cons.1 hst with rfl | hst
      · obtain ⟨h1, h2⟩ := case_each H (hl _ List.mem_cons_self) hsel hc
        refine ⟨fun w hw => ?_, h2⟩
        rcases List.mem_append.1 hw with hw | hw
        · split at hr
          · obtain ⟨k, -, hr⟩ := GR.mapM_mem hr hw
            simp only [GR.bind_eq_ok] at hr
            obtain ⟨i, hi, hr⟩ := hr
            cases hr
            exact reserved_each H rfl rfl
          · cases hr
            cases hw
        · rw [List.mem_singleton] at hw
          subst hw
          exact h1
      · exact ih (fun p hp => hl p (List.mem_cons_of_mem _ hp)) h' st hst

theorem bool_each (H : EveryType ds cfg n arm dflt sel P A) {cond : TypeSpecifier} (hsel : sel cond)
    {specs : List CaseSpec} (hl : ∀ sp ∈ specs, ∀ v ∈ sp.values, arm sp.declaration) {label : Value → Bool}
    {b : Bool} {st : CaseStep} (h : boolCase (setup_context ds cfg) n cond specs label b = .ok (some st)) :
    st.Each P A := by
  unfold boolCase at h
  split at h
  · cases h
  · next case_ hcase =>
    split at h
    · cases h
    · next v hv =>
      simp only [GR.bind_eq_ok] at h
      obtain ⟨c, hc, h⟩ := h
      cases h
      obtain ⟨h1, h2⟩ := case_each H
        (hl _ (List.mem_of_find?_eq_some hcase) v (List.mem_of_find?_eq_some hv)) hsel hc
      refine ⟨fun w hw => ?_, H.bool⟩
      rw [List.mem_singleton] at hw
      subst hw
      exact h1

theorem cases_each (H : EveryType ds cfg n arm dflt sel P A) {b : UnionBody}
    (hl : ∀ l ∈ b.labels, arm l.2) (hsel : ∀ ts nm, b.cond = .variable ts nm → sel ts) {ct : TypeSpecifier} {acc : UnionAcc}
    (h : unionCases (setup_context ds cfg) n b = .ok (ct, acc)) :
    (∀ v ∈ acc.variants, v.Each P A) ∧ (∀ c, acc.cond = some c → P c) := by
  have hl' : ∀ sp ∈ b.specs, ∀ v ∈ sp.values, arm sp.declaration := by
    intro sp hsp v hv
    exact hl (v, sp.declaration) (List.mem_flatMap.2 ⟨sp, hsp, List.mem_map.2 ⟨v, hv, rfl⟩⟩)
  have hloop : ∀ {cond values steps}, sel cond → unionIndexed (setup_context ds cfg) n b.specs = .ok values →
      unionLoop (setup_context ds cfg) n cond (sortByKey values) 0 = .ok steps →
      (∀ v ∈ (UnionAcc.ofSteps steps).variants, v.Each P A) ∧
        (∀ c, (UnionAcc.ofSteps steps).cond = some c → P c) := by
    intro cond values steps hc hv hs
    have hst := loop_each H hc (l := sortByKey values) (fun p hp => by
      have hp' := (sortByKey_perm values).mem_iff.1 hp
      obtain ⟨q, hq, h1⟩ := GR.mapM_mem hv hp'
      simp only [GR.bind_eq_ok, GR.ok.injEq] at h1
      obtain ⟨k, -, rfl⟩ := h1
      obtain ⟨sp, hsp, hq⟩ := List.mem_flatMap.1 hq
      obtain ⟨w, hw, rfl⟩ := List.mem_map.1 hq
      exact hl' sp hsp w hw) hs
    refine ⟨fun v hv => ?_, ?_⟩
    · obtain ⟨st, h1, h2⟩ := List.mem_flatMap.1 hv
      exact (hst st h1).1 v h2
    · intro c hc
      obtain ⟨st, h1, rfl⟩ := Option.map_eq_some_iff.1 hc
      exact (hst st (List.mem_of_getLast? h1)).2
  unfold unionCases at h
  split at h
  · next ct' nm hcond =>
    have hc := hsel _ _ hcond
    split at h
    · simp only [GR.bind_eq_ok] at h
      obtain ⟨values, hv, steps, hs, h⟩ := h
      cases h
      exact hloop hc hv hs
    · simp only [GR.bind_eq_ok] at h
      obtain ⟨values, hv, steps, hs, h⟩ := h
      cases h
      exact hloop hc hv hs
    · simp only [GR.bind_eq_ok] at h
      obtain ⟨f, hf, t, ht, h⟩ := h
      cases h
      have hbr : ∀ s, ∀ v ∈ boolReserved (setup_context ds cfg) s, v.Each P A := by
        intro s v hv
        unfold boolReserved at hv
        split at hv
        · rw [List.mem_singleton] at hv
          subst hv
          exact reserved_each H rfl rfl
        · cases hv
      refine ⟨fun v hv => ?_, fun c hc => ?_⟩
      · rcases List.mem_append.1 hv with hv | hv
        · cases f with
          | none => exact hbr _ v hv
          | some st => exact (bool_each H hc hl' hf).1 v hv
        · cases t with
          | none => exact hbr _ v hv
          | some st => exact (bool_each H hc hl' ht).1 v hv
      · cases hc
        exact H.bool
    · cases h
  · cases h
theorem union_each (H : EveryType ds cfg n arm dflt sel P A) {name : Str} {b : UnionBody}
    (hl : ∀ l ∈ b.labels, arm l.2) (hsel : ∀ ts nm, b.cond = .variable ts nm → sel ts)
    (hdf : ∀ d, b.default = some d → dflt d) {u : UnionItem}
    (h : convert_union_token (setup_context ds cfg) n name b = .ok u) : ∀ v ∈ u.variants, v.Each P A := by
  obtain ⟨ct, acc, df, -, ha, hd, -, -, hv, -, -⟩ := convert_union_ok h
  obtain ⟨h1, h2⟩ := cases_each H hl hsel ha
  have hdv : ∀ v, df.map (·.1) = some v → v.Each P A := by
    intro v hv
    cases hb : b.default with
    | none =>
      rw [hb] at hd
      cases hd
      cases hv
    | some d =>
      rw [hb] at hd
      obtain ⟨o, w, ho, hw, ha, hn, hf⟩ := unionDefault_some hd
      rw [hw] at hv
      cases hv
      refine ⟨by rw [ha]; exact H.plain, fun t hm => ?_⟩
      rw [hf] at hm
      rcases List.mem_append.1 hm with hm | hm
      · split at hm
        · exact h2 t (Option.mem_toList.1 hm)
        · cases hm
      · obtain ⟨⟨ty, op⟩, rfl, rfl⟩ := Option.map_eq_some_iff.1 (Option.mem_toList.1 hm)
        exact H.decl d (.inr (hdf d hb)) _ _ ho
  intro v hm
  rw [hv] at hm
  rcases List.mem_append.1 hm with hm | hm
  · exact h1 v hm
  · exact hdv v (Option.mem_toList.1 hm)

end

end Xdr.Rpcgen
