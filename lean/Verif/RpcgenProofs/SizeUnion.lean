import Verif.RpcgenProofs.SizeItems
/-!
# How long the unions of the generated source are
-/

namespace Xdr.Rpcgen

variable {ds : List Definition} {cfg : Config}

theorem cond_fits (hwf : WellFormed ds) {n : Nat} {ts : TypeSpecifier} {t : RTy}
    (hts : atomsSize ts.atoms ≤ atomsSize (atoms ds)) (h : condType (setup_context ds cfg) n ts = .ok t) :
    TyFits (typeBound ds) t := by
  unfold condType at h
  simp only [TyFits, typeBound]
  split at h
  · rename_i p hp
    cases h
    have h1 := primitive_weight' hp
    have h2 := chainSize_le_size (cfg := cfg) hwf
    simp only [RTy.weight] at h1
    omega
  · split at h
    · simp only [GR.bind_eq_ok] at h
      obtain ⟨i, hi, h⟩ := h
      cases h
      have := camel_length hi
      simp only [TypeSpecifier.atoms, atomsSize, Atom.size] at hts
      simp only [RTy.tokens]
      weigh []
      omega
    · cases h
  · cases h
  · cases h

theorem case_fits (hwf : WellFormed ds) {n : Nat} {v : Value} {d : Declaration} {ts : TypeSpecifier} {c : CaseTok}
    (hv : atomsSize v.atoms ≤ atomsSize (atoms ds)) (hd : atomsSize d.atoms ≤ atomsSize (atoms ds))
    (hts : atomsSize ts.atoms ≤ atomsSize (atoms ds))
    (h : convert_case_token (setup_context ds cfg) n v d ts = .ok c) :
    c.variant.Fits (nameBound ds) ∧ c.value.Fits (nameBound ds) (typeBound ds) ∧
      (c.default.1.Fits (nameBound ds) ∧ c.default.2 ≤ 2) ∧ TyFits (typeBound ds) c.cond := by
  unfold convert_case_token at h
  simp only [GR.bind_eq_ok] at h
  obtain ⟨t, ht, cond, hc, o, ho, h⟩ := h
  have h1 : t.Fits (nameBound ds) := value_fits ht (by simp only [nameBound]; omega)
  have h2 := cond_fits hwf hts hc
  have hva : TyFits (typeBound ds) .variableArray := by
    simp only [TyFits, typeBound, RTy.tokens]
    weigh []
    omega
  cases o with
  | none =>
    dsimp only at h
    split at h <;> cases h
    · exact ⟨h1, ⟨h1, by simp, by simpa using h2⟩, ⟨h1, by simp⟩, h2⟩
    · exact ⟨h1, ⟨h1, by simp, by simp⟩, ⟨h1, by simp⟩, h2⟩
  | some p =>
    obtain ⟨ty, op⟩ := p
    have h3 := convert_type_fits hwf hd ho
    have h3 : TyFits (typeBound ds) ty := by
      simp only [RTy.weight] at h3
      simp only [TyFits, typeBound]
      omega
    dsimp only at h
    split at h
    · cases h
      refine ⟨h1, ⟨h1, by simp, ?_⟩, ⟨h1, by simp⟩, h2⟩
      intro t ht
      simp only [List.mem_cons, List.not_mem_nil, or_false] at ht
      rcases ht with rfl | rfl
      · exact h2
      · split
        · exact hva
        · exact h3
    · cases h
      refine ⟨h1, ⟨h1, by simp, ?_⟩, ⟨h1, by simp⟩, h2⟩
      intro t ht
      simp only [List.mem_cons, List.not_mem_nil, or_false] at ht
      subst ht
      split
      · exact hva
      · exact h3

/-- What one case pushes. -/
structure CaseStep.Fits (n t b : Nat) (st : CaseStep) : Prop where
  variants : st.variants.length ≤ b + 1 ∧ ∀ v ∈ st.variants, v.Fits n t
  byIndex : Small st.byIndex.1 ∧ st.byIndex.2.Fits n
  index : st.index.1.Fits n ∧ Small st.index.2.2
  byValue : st.byValue.length ≤ 1 ∧ ∀ a ∈ st.byValue, a.1.Fits n ∧ a.2.Fits n
  default : st.default.1.Fits n ∧ st.default.2 ≤ 2
  cond : TyFits t st.cond

theorem caseByValue_fits {cxt : Context} {ts : TypeSpecifier} {k : Int} {v : Value} {t : Tok} {n : Nat} (hk : Small k)
    (hts : atomsSize ts.atoms ≤ n) (hv : atomsSize v.atoms ≤ n)
    (ht : t.Fits n) {l : List (Pat × Tok)} (h : caseByValue cxt ts k v t = .ok l) :
    l.length ≤ 1 ∧ ∀ a ∈ l, a.1.Fits n ∧ a.2.Fits n := by
  unfold caseByValue at h
  split at h
  · split at h
    · simp only [GR.bind_eq_ok] at h
      obtain ⟨i, hi, h⟩ := h
      split at h
      · simp only [GR.bind_eq_ok] at h
        obtain ⟨j, hj, h⟩ := h
        cases h
        refine ⟨by simp, fun a ha => ?_⟩
        simp only [List.mem_singleton] at ha
        subst ha
        have h1 := camel_length hi
        have h2 := camel_length hj
        simp only [Value.atoms, TypeSpecifier.atoms, atomsSize, Atom.size] at hts hv
        exact ⟨⟨by omega, by omega⟩, ht⟩
      · cases h; simp
    · cases h; simp
  · cases h
    refine ⟨by simp, fun a ha => ?_⟩
    simp only [List.mem_singleton] at ha
    subst ha
    exact ⟨hk, ht⟩

theorem small_asI32 {k : Int} (h : 0 ≤ k ∧ k ≤ 4294967295) : Small (asI32 k) := by
  unfold asI32
  split <;> exact Small.of_range (by omega) (by omega)

theorem unionLoop_fits (hwf : WellFormed ds) {b n : Nat} {cond : TypeSpecifier}
    (hts : atomsSize cond.atoms ≤ atomsSize (atoms ds)) {l : List (Int × Declaration × Value)} {s : Int}
    {steps : List CaseStep} (h : unionLoop (setup_context ds cfg) n cond l s = .ok steps)
    (hb : cfg.union_complement_index = true → ∀ p ∈ l, p.1 ≤ (b : Int))
    (hr : ∀ p ∈ l, 0 ≤ p.1 ∧ p.1 ≤ 4294967295)
    (hd : ∀ p ∈ l, atomsSize p.2.1.atoms ≤ atomsSize (atoms ds) ∧ atomsSize p.2.2.atoms ≤ atomsSize (atoms ds)) :
    steps.length = l.length ∧ ∀ st ∈ steps, st.Fits (nameBound ds) (typeBound ds) b := by
  induction l generalizing s steps with
  | nil =>
    cases h
    simp
  | cons p l ih =>
    obtain ⟨e, d, v⟩ := p
    simp only [unionLoop, GR.bind_eq_ok] at h
    obtain ⟨r, hr', c, hc, bv, hbv, h⟩ := h
    split at h
    · cases h
    · simp only [GR.bind_eq_ok] at h
      obtain ⟨steps', h', h⟩ := h
      cases h
      obtain ⟨h1, h2⟩ := ih h' (fun hc p hp => hb hc p (by simp [hp])) (fun p hp => hr p (by simp [hp]))
        (fun p hp => hd p (by simp [hp]))
      refine ⟨by simp [h1], fun st hst => ?_⟩
      rcases List.mem_cons.1 hst with rfl | hst
      · have he := hr (e, d, v) (by simp)
        have hdv := hd (e, d, v) (by simp)
        simp only at he hdv
        have hse : Small e := Small.of_range (by omega) (by omega)
        obtain ⟨h3, h4, h5, h6⟩ := case_fits hwf hdv.2 hdv.1 hts hc
        have hf : ∀ (k : Int) (x : Variant), ((reservedIdent k).bind fun r => GR.ok (⟨.none, .ident r, []⟩ : Variant)) = .ok x →
            ∃ i, reservedIdent k = .ok i ∧ x = ⟨.none, .ident i, []⟩ := by
          intro k x hx
          simp only [GR.bind_eq_ok, GR.ok.injEq] at hx
          obtain ⟨y, hy, rfl⟩ := hx
          exact ⟨y, hy, rfl⟩
        have hres : r.length ≤ b ∧ ∀ x ∈ r, x.Fits (nameBound ds) (typeBound ds) := by
          split at hr'
          · rename_i hcompl
            refine ⟨range_length hr' (fun k x hx => ?_) (hb hcompl (e, d, v) (by simp)), fun x hx => ?_⟩
            · obtain ⟨i, hi, -⟩ := hf k x hx
              exact reservedIdent_nonneg hi
            · obtain ⟨k, hk, hx⟩ := GR.mapM_mem hr' hx
              obtain ⟨i, hi, rfl⟩ := hf k x hx
              have h7 := reservedIdent_nonneg hi
              have h8 := mem_intRange.1 hk
              have h9 := reservedIdent_length hi (Small.of_range (by omega) (by omega))
              exact ⟨show i.text.length ≤ nameBound ds by simp only [nameBound]; omega, by simp, by simp⟩
          · cases hr'
            simp
        refine ⟨⟨?_, ?_⟩, ⟨small_asI32 he, h3⟩, ⟨h3, small_asI32 he⟩,
          caseByValue_fits hse (by simp only [nameBound]; omega) (by simp only [nameBound]; omega) h3 hbv, h5, h6⟩
        · simp only [List.length_append, List.length_cons, List.length_nil]
          omega
        · intro x hx
          rcases List.mem_append.1 hx with hx | hx
          · exact hres.2 x hx
          · simp only [List.mem_singleton] at hx
            subst hx
            exact h4
      · exact h2 st hst

theorem boolCase_fits (hwf : WellFormed ds) {b n : Nat} {cond : TypeSpecifier}
    (hts : atomsSize cond.atoms ≤ atomsSize (atoms ds)) {specs : List CaseSpec}
    (hd : ∀ s ∈ specs, atomsSize s.declaration.atoms ≤ atomsSize (atoms ds) ∧
      ∀ v ∈ s.values, atomsSize v.atoms ≤ atomsSize (atoms ds)) {label : Value → Bool}
    {bit : Bool} {st : CaseStep} (h : boolCase (setup_context ds cfg) n cond specs label bit = .ok (some st)) :
    st.Fits (nameBound ds) (typeBound ds) b := by
  unfold boolCase at h
  split at h
  · cases h
  · rename_i cs hcs
    split at h
    · cases h
    · rename_i v hv
      simp only [GR.bind_eq_ok] at h
      obtain ⟨c, hc, h⟩ := h
      cases h
      obtain ⟨h1, h2⟩ := hd cs (List.mem_of_find?_eq_some hcs)
      obtain ⟨h3, h4, h5, h6⟩ := case_fits hwf (h2 v (List.mem_of_find?_eq_some hv)) h1 hts hc
      have hs : Small (if bit then 1 else 0) := by split <;> exact Small.of_range (by omega) (by omega)
      refine ⟨⟨by simp, by simpa using h4⟩, ⟨hs, h3⟩, ⟨h3, hs⟩, ⟨by simp, by simpa [Pat.Fits] using h3⟩, h5, ?_⟩
      simp only [TyFits, typeBound, RTy.tokens]
      weigh []
      omega

/-- What the cases of a union come to. -/
structure UnionAcc.Fits (n t v w : Nat) (acc : UnionAcc) : Prop where
  variants : acc.variants.length ≤ v ∧ ∀ x ∈ acc.variants, x.Fits n t
  byIndex : acc.byIndex.length ≤ w ∧ ∀ a ∈ acc.byIndex, Small a.1 ∧ a.2.Fits n
  index : acc.index.length ≤ w ∧ ∀ a ∈ acc.index, a.1.Fits n ∧ Small a.2.2
  byValue : acc.byValue.length ≤ w ∧ ∀ a ∈ acc.byValue, a.1.Fits n ∧ a.2.Fits n
  default : ∀ d, acc.default = some d → d.1.Fits n ∧ d.2 ≤ 2
  cond : ∀ ty, acc.cond = some ty → TyFits t ty

theorem ofSteps_fits {steps : List CaseStep} {n t b : Nat} (h : ∀ st ∈ steps, st.Fits n t b) :
    (UnionAcc.ofSteps steps).Fits n t (steps.length * (b + 1)) steps.length := by
  have hbv : (steps.flatMap (·.byValue)).length ≤ steps.length := by
    have := flatMap_steps_length (b := 0) (l := steps) (f := (·.byValue)) fun st hst => (h st hst).byValue.1
    omega
  refine ⟨⟨flatMap_steps_length fun st hst => (h st hst).variants.1, ?_⟩, ⟨by simp [UnionAcc.ofSteps], ?_⟩,
    ⟨by simp [UnionAcc.ofSteps], ?_⟩, ⟨hbv, ?_⟩, ?_, ?_⟩ <;> simp only [UnionAcc.ofSteps]
  · intro v hv
    obtain ⟨st, hst, hv⟩ := List.mem_flatMap.1 hv
    exact (h st hst).variants.2 v hv
  · intro a ha
    obtain ⟨st, hst, rfl⟩ := List.mem_map.1 ha
    exact (h st hst).byIndex
  · intro a ha
    obtain ⟨st, hst, rfl⟩ := List.mem_map.1 ha
    exact (h st hst).index
  · intro a ha
    obtain ⟨st, hst, ha⟩ := List.mem_flatMap.1 ha
    exact (h st hst).byValue.2 a ha
  · intro d hd
    obtain ⟨st, hst, rfl⟩ := Option.map_eq_some_iff.1 hd
    exact (h st (List.mem_of_head? hst)).default
  · intro t ht
    obtain ⟨st, hst, rfl⟩ := Option.map_eq_some_iff.1 ht
    exact (h st (List.mem_of_getLast? hst)).cond

theorem boolReserved_fits {cxt : Context} {s : Str} {n t : Nat} (h : s.length ≤ n) :
    (boolReserved cxt s).length ≤ 1 ∧ ∀ v ∈ boolReserved cxt s, v.Fits n t := by
  unfold boolReserved
  split
  · refine ⟨by simp, fun v hv => ?_⟩
    simp only [List.mem_singleton] at hv
    subst hv
    exact ⟨show (RIdent.text ⟨false, s⟩).length ≤ n by simpa [RIdent.text] using h, by simp, by simp⟩
  · simp

theorem acc_mono {n t v v' w w' : Nat} {acc : UnionAcc} (h : acc.Fits n t v w) (hv : v ≤ v') (hw : w ≤ w') :
    acc.Fits n t v' w' :=
  ⟨⟨Nat.le_trans h.variants.1 hv, h.variants.2⟩, ⟨Nat.le_trans h.byIndex.1 hw, h.byIndex.2⟩,
    ⟨Nat.le_trans h.index.1 hw, h.index.2⟩, ⟨Nat.le_trans h.byValue.1 hw, h.byValue.2⟩, h.default, h.cond⟩

/-- The labels of a union. -/
abbrev labelCount (b : UnionBody) : Nat := (b.specs.flatMap CaseSpec.values).length

theorem unionCases_fits (hwf : WellFormed ds) {b n : Nat}
    (hb : cfg.union_complement_index = true → ∀ c, .number c ∈ atoms ds → c.number ≤ (b : Int)) {u : Str}
    {body : UnionBody} (hm : .type (.union u body) ∈ ds) {ct : TypeSpecifier} {acc : UnionAcc}
    (h : unionCases (setup_context ds cfg) n body = .ok (ct, acc)) :
    acc.Fits (nameBound ds) (typeBound ds) (labelCount body * (b + 1) + 2) (labelCount body + 2) := by
  have h0 := def_size hm
  obtain ⟨cond, specs, dflt⟩ := body
  simp only [Definition.atoms, TypeDef.atoms, UnionBody.atoms, atomsSize, Atom.size, atomsSize_append] at h0
  have hspec : ∀ s ∈ specs, atomsSize s.declaration.atoms ≤ atomsSize (atoms ds) ∧
      ∀ v ∈ s.values, atomsSize v.atoms ≤ atomsSize (atoms ds) := by
    intro s hs
    have h1 := atomsSize_flatMap_mem (f := CaseSpec.atoms) hs
    rw [← casesAtoms_eq] at h1
    obtain ⟨vs, d⟩ := s
    simp only [CaseSpec.atoms, atomsSize, Atom.size, atomsSize_append] at h1
    refine ⟨by simp only [CaseSpec.declaration]; omega, fun v hv => ?_⟩
    have := atomsSize_flatMap_mem (f := Value.atoms) (l := vs) hv
    omega
  have hnum : ∀ {cond_type : TypeSpecifier} {values : List (Int × Declaration × Value)} {steps : List CaseStep},
      atomsSize cond_type.atoms ≤ atomsSize (atoms ds) →
      unionIndexed (setup_context ds cfg) n specs = .ok values →
      unionLoop (setup_context ds cfg) n cond_type (sortByKey values) 0 = .ok steps →
      (UnionAcc.ofSteps steps).Fits (nameBound ds) (typeBound ds)
        (labelCount (.mk cond specs dflt) * (b + 1) + 2) (labelCount (.mk cond specs dflt) + 2) := by
    intro cond_type values steps hts hv hs
    have hv' := GR.mapM_ok.1 hv
    have hmem : ∀ p ∈ values, (∃ s ∈ specs, p.2.1 = s.declaration ∧ p.2.2 ∈ s.values) ∧
        (setup_context ds cfg).resolve_value .u32 n p.2.2 = .ok p.1 := by
      intro p hp
      obtain ⟨⟨d, v⟩, ha, h⟩ := forall₂_mem_right hv' hp
      simp only [GR.bind_eq_ok, GR.ok.injEq] at h
      obtain ⟨k, hk, rfl⟩ := h
      obtain ⟨s, hs, ha⟩ := List.mem_flatMap.1 ha
      obtain ⟨v', hv', ha⟩ := List.mem_map.1 ha
      cases ha
      exact ⟨⟨s, hs, rfl, hv'⟩, hk⟩
    have hval : ∀ p ∈ values, ∃ c, .number c ∈ atoms ds ∧ c.number = p.1 ∧ IntTy.u32.min ≤ p.1 ∧ p.1 ≤ IntTy.u32.max := by
      intro p hp
      obtain ⟨⟨s, hs, h1, h2⟩, h3⟩ := hmem p hp
      have h4 : ∀ a ∈ p.2.2.atoms, a ∈ atoms ds := fun a ha =>
        mem_atoms_case (s := s) hm hs (spec_case_atoms h2 ha)
      obtain ⟨c, hc, h5, h6⟩ := resolve_value_ends hwf h4 h3
      exact ⟨c, ends_number_atom hc h4, h5, h6⟩
    obtain ⟨h1, h2⟩ := unionLoop_fits hwf (b := b) hts hs
      (fun hc p hp => by
        obtain ⟨c, h1, h2, -⟩ := hval p (mem_sortByKey.1 hp)
        rw [← h2]
        exact hb hc c h1)
      (fun p hp => by
        obtain ⟨c, -, -, h1, h2⟩ := hval p (mem_sortByKey.1 hp)
        exact ⟨h1, h2⟩)
      (fun p hp => by
        obtain ⟨⟨s, hs, h1, h2⟩, -⟩ := hmem p (mem_sortByKey.1 hp)
        rw [h1]
        exact ⟨(hspec s hs).1, (hspec s hs).2 _ h2⟩)
    have hlen : steps.length = labelCount (.mk cond specs dflt) := by
      rw [h1, (sortByKey_perm values).length_eq, ← hv'.length_eq]
      simp [labelCount, UnionBody.specs, List.length_flatMap]
    rw [← hlen]
    exact acc_mono (ofSteps_fits h2) (by omega) (by omega)
  unfold unionCases at h
  simp only [UnionBody.cond, UnionBody.specs] at h
  cases cond with
  | «variable» cond_type cname =>
    have hts : atomsSize cond_type.atoms ≤ atomsSize (atoms ds) := by
      simp only [Declaration.atoms, atomsSize] at h0
      omega
    cases cond_type with
    | int _ | identifier _ =>
      simp only [GR.bind_eq_ok] at h
      obtain ⟨values, hv, steps, hs, h⟩ := h
      cases h
      exact hnum hts hv hs
    | bool =>
      simp only [GR.bind_eq_ok] at h
      obtain ⟨f, hf, t, ht, h⟩ := h
      cases h
      have hst : ∀ st ∈ f.toList ++ t.toList, st.Fits (nameBound ds) (typeBound ds) 0 := by
        intro st hst
        simp only [List.mem_append, Option.mem_toList] at hst
        rcases hst with rfl | rfl
        · exact boolCase_fits hwf hts hspec hf
        · exact boolCase_fits hwf hts hspec ht
      have hft : (f.toList ++ t.toList).length ≤ 2 := by
        cases f <;> cases t <;> simp
      have hfv : (match f with
          | some s => s.variants
          | none => boolReserved (setup_context ds cfg) c!"_Reserved0").length ≤ 1 ∧ ∀ x ∈ (match f with
          | some s => s.variants
          | none => boolReserved (setup_context ds cfg) c!"_Reserved0"), x.Fits (nameBound ds) (typeBound ds) := by
        cases f with
        | none => exact boolReserved_fits (by simp only [nameBound, List.length_cons, List.length_nil]; omega)
        | some st => exact (hst st (by simp)).variants
      have htv : (match t with
          | some s => s.variants
          | none => boolReserved (setup_context ds cfg) c!"_Reserved1").length ≤ 1 ∧ ∀ x ∈ (match t with
          | some s => s.variants
          | none => boolReserved (setup_context ds cfg) c!"_Reserved1"), x.Fits (nameBound ds) (typeBound ds) := by
        cases t with
        | none => exact boolReserved_fits (by simp only [nameBound, List.length_cons, List.length_nil]; omega)
        | some st => exact (hst st (by simp)).variants
      refine ⟨⟨?_, ?_⟩, ⟨?_, ?_⟩, ⟨?_, ?_⟩, ⟨?_, ?_⟩, ?_, ?_⟩
      · rw [List.length_append]
        have h1 := hfv.1
        have h2 := htv.1
        exact Nat.le_trans (Nat.add_le_add h1 h2) (by omega)
      · intro x hx
        rcases List.mem_append.1 hx with hx | hx
        · exact hfv.2 x hx
        · exact htv.2 x hx
      · rw [List.length_map]
        omega
      · intro a ha
        obtain ⟨st, hm, rfl⟩ := List.mem_map.1 ha
        exact (hst st hm).byIndex
      · rw [List.length_map]
        omega
      · intro a ha
        obtain ⟨st, hm, rfl⟩ := List.mem_map.1 ha
        exact (hst st hm).index
      · have := flatMap_steps_length (b := 0) (l := f.toList ++ t.toList) (f := (·.byValue))
          fun st hm => (hst st hm).byValue.1
        dsimp only
        omega
      · intro a ha
        obtain ⟨st, hm, ha⟩ := List.mem_flatMap.1 ha
        exact (hst st hm).byValue.2 a ha
      · intro d hd
        obtain ⟨st, hx, rfl⟩ := Option.map_eq_some_iff.1 hd
        refine (hst st ?_).default
        cases f with
        | none => simp only [Option.none_or] at hx; simp [hx]
        | some y => cases hx; simp
      · rintro ty ⟨⟩
        simp only [TyFits, typeBound, RTy.tokens]
        weigh []
        omega
    | _ => cases h
  | _ => cases h

theorem default_fits (hwf : WellFormed ds) {n : Nat} {cond : Option RTy}
    (hc : ∀ t, cond = some t → TyFits (typeBound ds) t) {d : Option Declaration}
    (hd : ∀ e, d = some e → atomsSize e.atoms ≤ atomsSize (atoms ds))
    {r : Option (Variant × (Tok × Nat))} (h : unionDefault (setup_context ds cfg) n cond d = .ok r) :
    ∀ p, r = some p → p.1.Fits (nameBound ds) (typeBound ds) ∧ (p.2.1.Fits (nameBound ds) ∧ p.2.2 ≤ 2) := by
  rintro p rfl
  have hdt : defaultTok.Fits (nameBound ds) := by
    show (RIdent.text ⟨false, c!"Default"⟩).length ≤ nameBound ds
    simp only [RIdent.text, Bool.false_eq_true, if_false, List.length_cons, List.length_nil, nameBound]
    omega
  cases d with
  | none => cases h
  | some d =>
    simp only [unionDefault, GR.bind_eq_ok] at h
    obtain ⟨o, ho, h⟩ := h
    cases h
    refine ⟨⟨hdt, ?_, ?_⟩, hdt, ?_⟩
    · dsimp only
      have h1 : (if (setup_context ds cfg).config.union_impl_union then cond.toList else []).length ≤ 1 := by
        split
        · cases cond <;> simp
        · simp
      rw [List.length_append]
      cases o with
      | none => simpa using Nat.le_succ_of_le h1
      | some p => simpa using h1
    · intro t ht
      rcases List.mem_append.1 ht with ht | ht
      · split at ht
        · exact hc t (by simpa using ht)
        · cases ht
      · cases o with
        | none => cases ht
        | some p =>
          simp only [List.mem_singleton] at ht
          subst ht
          have h3 := convert_type_fits hwf (hd d rfl) ho
          simp only [RTy.weight] at h3
          simp only [TyFits, typeBound]
          omega
    · dsimp only
      cases o <;> split <;> simp

theorem union_fits (hwf : WellFormed ds) {b n : Nat}
    (hb : cfg.union_complement_index = true → ∀ c, .number c ∈ atoms ds → c.number ≤ (b : Int)) {name : Str}
    {body : UnionBody} (hm : .type (.union name body) ∈ ds) {u : UnionItem}
    (h : convert_union_token (setup_context ds cfg) n name body = .ok u) :
    u.Fits (nameBound ds) (typeBound ds) (labelCount body * (b + 1) + 3) (labelCount body + 2) ∧
      labelCount body + 1 ≤ atomsSize (TypeDef.union name body).atoms := by
  have h0 := def_size hm
  have hw := wf_def hwf hm
  have hn : Ident name := hw (.ident name) (by simp [Definition.atoms, TypeDef.atoms])
  have hnl := ident_pos hn
  have hdef : ∀ e, body.default = some e → atomsSize e.atoms ≤ atomsSize (atoms ds) := by
    intro e he
    obtain ⟨cond, specs, dflt⟩ := body
    cases he
    simp only [Definition.atoms, TypeDef.atoms, UnionBody.atoms, defaultAtoms, atomsSize, Atom.size,
      atomsSize_append] at h0
    omega
  have hnb : name.length ≤ atomsSize (atoms ds) := by
    simp only [Definition.atoms, TypeDef.atoms, atomsSize, Atom.size] at h0
    omega
  refine ⟨?_, ?_⟩
  · unfold convert_union_token at h
    simp only [GR.bind_eq_ok] at h
    obtain ⟨i, hi, ⟨ct, acc⟩, ha, dflt, hd, h⟩ := h
    dsimp only at h hd
    have h1 := unionCases_fits hwf hb hm ha
    have h2 := default_fits hwf h1.cond hdef hd
    split at h
    · cases h
    · rename_i dv hdv
      cases h
      refine ⟨?_, ⟨?_, ?_⟩, ?_, ?_, ?_, ?_, ?_⟩
      · have := camel_length hi
        simp only [nameBound]
        omega
      · have h3 := h1.variants.1
        rw [List.length_append]
        have h4 : (dflt.map (·.1)).toList.length ≤ 1 := by cases dflt <;> simp
        exact Nat.le_trans (Nat.add_le_add h3 h4) (by omega)
      · intro v hv
        rcases List.mem_append.1 hv with hv | hv
        · exact h1.variants.2 v hv
        · cases dflt with
          | none => cases hv
          | some p =>
            simp only [Option.map_some, Option.toList_some, List.mem_singleton] at hv
            subst hv
            exact (h2 p rfl).1
      · cases dflt with
        | none => exact h1.default dv (by simpa using hdv)
        | some p =>
          cases hdv
          exact (h2 p rfl).2
      · intro ix hix
        dsimp only at hix
        split at hix
        · cases hix
          exact h1.byIndex
        · cases hix
      · intro ix hix
        dsimp only at hix
        split at hix
        · cases hix
          exact h1.index
        · cases hix
      · intro un hun
        dsimp only at hun
        split at hun
        · cases hun
          exact h1.cond
        · cases hun
      · intro un hun
        dsimp only at hun
        split at hun
        · cases hun
          exact h1.byValue
        · cases hun
  · have h3 : labelCount body ≤ atomsSize (casesAtoms body.specs) := by
      have : ∀ (l : List CaseSpec), (∀ s ∈ l, ∀ a ∈ s.atoms, a.Ok) →
          (l.flatMap CaseSpec.values).length ≤ atomsSize (casesAtoms l) := by
        intro l hl
        induction l with
        | nil => simp
        | cons s l ih =>
          have h4 := ih fun s hs => hl s (by simp [hs])
          have h5 := atomsSize_flatMap_length (l := s.values) (f := Value.atoms) fun v hv =>
            value_pos fun a ha => hl s (by simp) a (spec_case_atoms hv ha)
          obtain ⟨vs, d⟩ := s
          simp only [CaseSpec.values] at h5
          simp only [List.flatMap_cons, List.length_append, casesAtoms, CaseSpec.atoms, atomsSize, Atom.size,
            atomsSize_append, CaseSpec.values]
          omega
      exact this _ fun s hs a ha => hwf a (mem_atoms_case hm hs ha)
    obtain ⟨cond, specs, dflt⟩ := body
    simp only [UnionBody.specs] at h3
    simp only [TypeDef.atoms, UnionBody.atoms, atomsSize, Atom.size, atomsSize_append]
    omega

end Xdr.Rpcgen
