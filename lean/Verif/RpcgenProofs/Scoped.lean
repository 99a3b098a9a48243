import Verif.RpcgenProofs.LexFile
/-!
# Names a generated file uses are names it defines
-/

namespace Xdr.Rpcgen

structure EnumItem.Scoped (e : EnumItem) : Prop where
  default : e.default ∈ e.variants.map (·.1)
  asRef : ∀ arms, e.asRef = some arms → ∀ a ∈ arms, a.1 ∈ e.variants.map (·.1)
  tryFrom : ∀ arms, e.tryFrom = some arms → arms ≠ [] ∧ ∀ a ∈ arms, a.2 ∈ e.variants.map (·.1)
  indexer : ∀ ix, e.indexer = some ix → ix.byIndex ≠ [] ∧ ix.index ≠ [] ∧ (∀ a ∈ ix.byIndex, a.2 ∈ e.variants.map (·.1)) ∧
    ix.otherwise ∈ e.variants.map (·.1) ∧ ∀ a ∈ ix.index, a.1 ∈ e.variants.map (·.1)

structure UnionItem.Scoped (u : UnionItem) : Prop where
  unit : ∀ v ∈ u.variants, v.fields = [] → v.attr = .none
  default : u.default.1 ∈ u.variants.map (·.name)
  indexer : ∀ ix, u.indexer = some ix → u.derive = .indexer ∧ (∀ a ∈ ix.byIndex, a.2 ∈ u.variants.map (·.name)) ∧
    ∀ a ∈ ix.index, ∃ v ∈ u.variants, v.name = a.1 ∧ v.fields.length = if a.2.1 then 1 else 0
  union : ∀ un, u.union = some un → u.derive = .union ∧ ∀ a ∈ un.byValue, a.2 ∈ u.variants.map (·.name)

def Item.Scoped (f : RustFile) : Item → Prop
  | .alias _ _ => True
  | .enum e => e.Scoped ∧ (e.deriveIndexer = true → f.useIndexer = true ∧ f.useTuple = true)
  | .struct _ => True
  | .union u => u.Scoped ∧ (u.derive = .indexer → f.useIndexer = true ∧ f.useTuple = true) ∧
    (u.derive = .union → f.useUnion = true ∧ f.useTuple = true)

structure RustFile.Scoped (f : RustFile) : Prop where
  constants : ∀ c ∈ f.constants, c.ty = .u32 ∨ c.ty = .u64
  names : ∀ i ∈ f.types, ∀ c, i.name.name.head? = some c → isLower c = false
  types : ∀ i ∈ f.types, i.Scoped f

theorem camel_head {s : Str} {c : Char} (h : (upper_camel_case s).head? = some c) : isLower c = false := by
  unfold upper_camel_case at h
  split at h
  · generalize splitUnderscore s = l at h
    induction l with
    | nil => simp at h
    | cons p l ih =>
      rw [List.flatMap_cons] at h
      cases p with
      | nil => exact ih h
      | cons x xs =>
        simp only [capitalize, List.cons_append, List.head?_cons, Option.some.injEq] at h
        subst h
        exact isLower_toUpper x
  · split at h
    · simp at h
    · simp only [List.head?_cons, Option.some.injEq] at h
      subst h
      exact isLower_toUpper _

theorem camel_ident_head {s : Str} {i : RIdent} (h : upper_camel_case_ident s = .ok i) {c : Char}
    (hc : i.name.head? = some c) : isLower c = false := by
  unfold upper_camel_case_ident mkIdent at h
  split at h
  · rename_i s' heq
    exfalso
    have := camel_head (s := s) (c := 'r') (by rw [heq]; rfl)
    exact absurd this (by decide)
  · split at h
    · cases h
      exact camel_head hc
    · cases h

theorem convert_enum_Scoped {cxt : Context} {n : Nat} {name : Str} {as : List Assign} {e : EnumItem}
    (h : convert_enum_token cxt n name as = .ok e) : e.Scoped := by
  obtain ⟨indexed, steps, -, -, -, ⟨st, hst, hd⟩, -, hv, ha, ht, hi⟩ := convert_enum_ok h
  have hmem : ∀ s ∈ steps, s.2.1 ∈ e.variants.map (·.1) := by
    intro s hs
    rw [hv]
    exact List.mem_map.2 ⟨s.2, List.mem_flatMap.2 ⟨s, hs, by simp⟩, rfl⟩
  have hne : steps ≠ [] := by
    rintro rfl
    cases hst
  have hdm : e.default ∈ e.variants.map (·.1) := by
    rw [hd]
    exact hmem st (List.mem_of_head? hst)
  refine ⟨hdm, ?_, ?_, ?_⟩
  · intro arms h1 a ham
    rw [ha] at h1
    split at h1
    · cases h1
      obtain ⟨s, hs, rfl⟩ := List.mem_map.1 ham
      exact hmem s hs
    · cases h1
  · intro arms h1
    rw [ht] at h1
    split at h1
    · cases h1
      refine ⟨by simpa using hne, fun a ham => ?_⟩
      obtain ⟨s, hs, rfl⟩ := List.mem_map.1 ham
      exact hmem s hs
    · cases h1
  · intro ix h1
    rw [hi] at h1
    split at h1
    · cases h1
      refine ⟨by simpa using hne, by simpa using hne, ?_, hdm, ?_⟩
      · intro a ham
        obtain ⟨s, hs, rfl⟩ := List.mem_map.1 ham
        exact hmem s hs
      · intro a ham
        obtain ⟨s, hs, rfl⟩ := List.mem_map.1 ham
        exact hmem s hs
    · cases h1

theorem convert_case_Scoped {cxt : Context} {n : Nat} {v : Value} {d : Declaration} {ts : TypeSpecifier} {c : CaseTok}
    (h : convert_case_token cxt n v d ts = .ok c) :
    c.value.name = c.variant ∧ c.default.1 = c.variant ∧ (c.value.fields = [] → c.value.attr = .none) ∧
    (cxt.config.union_impl_union = false → c.value.fields.length = if c.arm then 1 else 0) := by
  unfold convert_case_token at h
  simp only [GR.bind_eq_ok] at h
  obtain ⟨t, ht, cond, hc, o, ho, h⟩ := h
  cases o with
  | none =>
    dsimp only at h
    split at h <;> cases h
    · rename_i hcfg
      exact ⟨rfl, rfl, by simp, by simp [hcfg]⟩
    · exact ⟨rfl, rfl, by simp, by simp⟩
  | some p =>
    dsimp only at h
    split at h <;> cases h
    · rename_i hcfg
      exact ⟨rfl, rfl, by simp, by simp [hcfg]⟩
    · exact ⟨rfl, rfl, by simp, by simp⟩

structure CaseStep.Scoped (cfg : Config) (st : CaseStep) : Prop where
  unit : ∀ v ∈ st.variants, v.fields = [] → v.attr = .none
  byIndex : st.byIndex.2 ∈ st.variants.map (·.name)
  index : cfg.union_impl_union = false →
    ∃ v ∈ st.variants, v.name = st.index.1 ∧ v.fields.length = if st.index.2.1 then 1 else 0
  byValue : ∀ a ∈ st.byValue, a.2 ∈ st.variants.map (·.name)
  default : st.default.1 ∈ st.variants.map (·.name)

theorem caseByValue_tok {cxt : Context} {ts : TypeSpecifier} {k : Int} {v : Value} {t : Tok}
    {l : List (Pat × Tok)} (h : caseByValue cxt ts k v t = .ok l) : ∀ a ∈ l, a.2 = t := by
  unfold caseByValue at h
  intro a ha
  split at h
  · split at h
    · simp only [GR.bind_eq_ok] at h
      obtain ⟨i, hi, h⟩ := h
      split at h
      · simp only [GR.bind_eq_ok] at h
        obtain ⟨j, hj, h⟩ := h
        cases h
        simp only [List.mem_singleton] at ha
        subst ha
        rfl
      · cases h; cases ha
    · cases h; cases ha
  · cases h
    simp only [List.mem_singleton] at ha
    subst ha
    rfl

theorem caseStep_Scoped {cfg : Config} {c : CaseTok} {vs : List Variant} {i j : Int} {l : List (Pat × Tok)} {cond : RTy}
    (hv : ∀ v ∈ vs, v.attr = .none) (hl : ∀ a ∈ l, a.2 = c.variant)
    (h : c.value.name = c.variant ∧ c.default.1 = c.variant ∧ (c.value.fields = [] → c.value.attr = .none) ∧
      (cfg.union_impl_union = false → c.value.fields.length = if c.arm then 1 else 0)) :
    CaseStep.Scoped cfg ⟨vs ++ [c.value], (i, c.variant), (c.variant, c.arm, j), l, c.default, cond⟩ := by
  obtain ⟨h1, h2, h3, h4⟩ := h
  have hm : c.variant ∈ (vs ++ [c.value]).map (·.name) := by simp [h1]
  refine ⟨?_, hm, fun hc => ⟨c.value, by simp, h1, h4 hc⟩, fun a ha => by rw [hl a ha]; exact hm, by rw [h2]; exact hm⟩
  intro v hmem
  rcases List.mem_append.1 hmem with hmem | hmem
  · exact fun _ => hv v hmem
  · simp only [List.mem_singleton] at hmem
    subst hmem
    exact h3

theorem unionLoop_Scoped {cxt : Context} {n : Nat} {cond : TypeSpecifier} {l : List (Int × Declaration × Value)} {s : Int}
    {steps : List CaseStep} (h : unionLoop cxt n cond l s = .ok steps) : ∀ st ∈ steps, st.Scoped cxt.config := by
  induction l generalizing s steps with
  | nil =>
    cases h
    simp
  | cons p l ih =>
    obtain ⟨e, d, v⟩ := p
    simp only [unionLoop, GR.bind_eq_ok] at h
    obtain ⟨r, hr, c, hc, b, hb, h⟩ := h
    split at h
    · cases h
    · simp only [GR.bind_eq_ok] at h
      obtain ⟨steps', h', h⟩ := h
      cases h
      intro st hst
      rcases List.mem_cons.1 hst with rfl | hst
      · refine caseStep_Scoped (fun x hx => ?_) (caseByValue_tok hb) (convert_case_Scoped hc)
        split at hr
        · obtain ⟨k, -, hr⟩ := GR.mapM_mem hr hx
          simp only [GR.bind_eq_ok] at hr
          obtain ⟨i, hi, hr⟩ := hr
          cases hr
          rfl
        · cases hr
          cases hx
      · exact ih h' st hst

theorem boolCase_Scoped {cxt : Context} {n : Nat} {cond : TypeSpecifier} {specs : List CaseSpec} {label : Value → Bool}
    {b : Bool} {st : CaseStep} (h : boolCase cxt n cond specs label b = .ok (some st)) : st.Scoped cxt.config := by
  unfold boolCase at h
  split at h
  · cases h
  · split at h
    · cases h
    · simp only [GR.bind_eq_ok] at h
      obtain ⟨c, hc, h⟩ := h
      cases h
      exact caseStep_Scoped (vs := []) (by simp) (by simp) (convert_case_Scoped hc)

structure UnionAcc.Scoped (cfg : Config) (acc : UnionAcc) : Prop where
  unit : ∀ v ∈ acc.variants, v.fields = [] → v.attr = .none
  byIndex : ∀ a ∈ acc.byIndex, a.2 ∈ acc.variants.map (·.name)
  index : cfg.union_impl_union = false → ∀ a ∈ acc.index,
    ∃ v ∈ acc.variants, v.name = a.1 ∧ v.fields.length = if a.2.1 then 1 else 0
  byValue : ∀ a ∈ acc.byValue, a.2 ∈ acc.variants.map (·.name)
  default : ∀ d, acc.default = some d → d.1 ∈ acc.variants.map (·.name)

/-- Steps whose variants are all in the union. -/
theorem acc_Scoped {cfg : Config} {steps : List CaseStep} {vs : List Variant} (h : ∀ st ∈ steps, st.Scoped cfg)
    (hu : ∀ v ∈ vs, v.fields = [] → v.attr = .none)
    (hs : ∀ st ∈ steps, ∀ v ∈ st.variants, v ∈ vs) {d : Option (Tok × Nat)} {c : Option RTy}
    (hd : ∀ x, d = some x → ∃ st ∈ steps, st.default = x) :
    UnionAcc.Scoped cfg ⟨vs, steps.map (·.byIndex), steps.map (·.index), steps.flatMap (·.byValue), d, c⟩ := by
  have hn : ∀ st ∈ steps, ∀ t, t ∈ st.variants.map (·.name) → t ∈ vs.map (·.name) := by
    intro st hst t ht
    obtain ⟨v, hv, rfl⟩ := List.mem_map.1 ht
    exact List.mem_map_of_mem (hs st hst v hv)
  refine ⟨hu, ?_, ?_, ?_, ?_⟩
  · intro a ha
    obtain ⟨st, hst, rfl⟩ := List.mem_map.1 ha
    exact hn st hst _ (h st hst).byIndex
  · intro hc a ha
    obtain ⟨st, hst, rfl⟩ := List.mem_map.1 ha
    obtain ⟨v, hv, h1⟩ := (h st hst).index hc
    exact ⟨v, hs st hst v hv, h1⟩
  · intro a ha
    obtain ⟨st, hst, ha⟩ := List.mem_flatMap.1 ha
    exact hn st hst _ ((h st hst).byValue a ha)
  · intro x hx
    obtain ⟨st, hst, rfl⟩ := hd x hx
    exact hn st hst _ (h st hst).default

theorem ofSteps_Scoped {cfg : Config} {steps : List CaseStep} (h : ∀ st ∈ steps, st.Scoped cfg) :
    (UnionAcc.ofSteps steps).Scoped cfg := by
  refine acc_Scoped h ?_ ?_ ?_
  · intro v hv
    obtain ⟨st, hst, hv⟩ := List.mem_flatMap.1 hv
    exact (h st hst).unit v hv
  · exact fun st hst v hv => List.mem_flatMap.2 ⟨st, hst, hv⟩
  · intro x hx
    obtain ⟨st, hst, rfl⟩ := Option.map_eq_some_iff.1 hx
    exact ⟨st, List.mem_of_head? hst, rfl⟩

theorem unionCases_Scoped {cxt : Context} {n : Nat} {b : UnionBody} {ct : TypeSpecifier} {acc : UnionAcc}
    (h : unionCases cxt n b = .ok (ct, acc)) : acc.Scoped cxt.config := by
  unfold unionCases at h
  split at h
  · split at h
    · simp only [GR.bind_eq_ok] at h
      obtain ⟨values, -, steps, hs, h⟩ := h
      cases h
      exact ofSteps_Scoped (unionLoop_Scoped hs)
    · simp only [GR.bind_eq_ok] at h
      obtain ⟨values, -, steps, hs, h⟩ := h
      cases h
      exact ofSteps_Scoped (unionLoop_Scoped hs)
    · simp only [GR.bind_eq_ok] at h
      obtain ⟨f, hf, t, ht, h⟩ := h
      cases h
      have hbr : ∀ s, ∀ v ∈ boolReserved cxt s, v.attr = .none := by
        intro s v hv
        unfold boolReserved at hv
        split at hv
        · simp only [List.mem_singleton] at hv
          subst hv
          rfl
        · cases hv
      refine acc_Scoped ?_ ?_ ?_ ?_
      · intro st hst
        simp only [List.mem_append, Option.mem_toList] at hst
        rcases hst with rfl | rfl
        · exact boolCase_Scoped hf
        · exact boolCase_Scoped ht
      · intro v hv
        rcases List.mem_append.1 hv with hv | hv
        · cases f with
          | none => exact fun _ => hbr _ v hv
          | some st => exact (boolCase_Scoped hf).unit v hv
        · cases t with
          | none => exact fun _ => hbr _ v hv
          | some st => exact (boolCase_Scoped ht).unit v hv
      · intro st hst v hv
        simp only [List.mem_append, Option.mem_toList] at hst ⊢
        rcases hst with rfl | rfl
        · exact .inl hv
        · exact .inr hv
      · intro x hx
        obtain ⟨st, hst, rfl⟩ := Option.map_eq_some_iff.1 hx
        refine ⟨st, ?_, rfl⟩
        cases f with
        | none => simp only [Option.none_or] at hst; simp [hst]
        | some x => cases hst; simp
    · cases h
  · cases h

theorem convert_union_Scoped {cxt : Context} {n : Nat} {name : Str} {b : UnionBody} {u : UnionItem}
    (hcfg : cxt.config.union_impl_indexer = true → cxt.config.union_impl_union = false)
    (h : convert_union_token cxt n name b = .ok u) : u.Scoped := by
  obtain ⟨ct, acc, dflt, -, ha, hd, hdv, hder, hv, hix, hun⟩ := convert_union_ok h
  have h1 := unionCases_Scoped ha
  have hn : ∀ t, t ∈ acc.variants.map (·.name) → t ∈ u.variants.map (·.name) := by
    intro t ht
    rw [hv, List.map_append]
    exact List.mem_append_left _ ht
  have hdf : ∀ p, dflt = some p → p.1.attr = .none ∧ p.1.name = p.2.1 := by
    rintro p rfl
    cases hb : b.default with
    | none =>
      rw [hb] at hd
      cases hd
    | some d =>
      rw [hb] at hd
      simp only [unionDefault, GR.bind_eq_ok] at hd
      obtain ⟨o, ho, hd⟩ := hd
      cases hd
      exact ⟨rfl, rfl⟩
  refine ⟨?_, ?_, ?_, ?_⟩
  · intro v hm
    rw [hv] at hm
    rcases List.mem_append.1 hm with hm | hm
    · exact h1.unit v hm
    · cases dflt with
      | none => cases hm
      | some p =>
        simp only [Option.map_some, Option.toList_some, List.mem_singleton] at hm
        subst hm
        exact fun _ => (hdf p rfl).1
  · cases dflt with
    | none => exact hn _ (h1.default _ (by simpa using hdv))
    | some p =>
      simp only [Option.map_some, Option.some_or, Option.some.injEq] at hdv
      rw [hv, ← hdv, ← (hdf p rfl).2]
      simp
  · intro ix h2
    rw [hix] at h2
    split at h2
    · rename_i hc
      cases h2
      refine ⟨by rw [hder, if_pos hc], fun a ham => hn _ (h1.byIndex a ham), fun a ham => ?_⟩
      obtain ⟨v, hvm, h3⟩ := h1.index (hcfg hc) a ham
      exact ⟨v, by rw [hv]; exact List.mem_append_left _ hvm, h3⟩
    · cases h2
  · intro un h2
    rw [hun] at h2
    split at h2
    · rename_i hc
      cases h2
      refine ⟨?_, fun a ham => hn _ (h1.byValue a ham)⟩
      rw [hder, if_neg, if_pos hc]
      intro hi
      rw [hcfg hi] at hc
      cases hc
    · cases h2

theorem constants_ty {cxt : Context} {cs : List ConstItem} (h : constants_token cxt = .ok cs) {c : ConstItem}
    (hc : c ∈ cs) : c.ty = .u32 ∨ c.ty = .u64 := by
  obtain ⟨⟨name, v⟩, -, h⟩ := GR.mapM_mem h hc
  simp only [GR.bind_eq_ok] at h
  obtain ⟨i, hi, h⟩ := h
  split at h
  · cases h
    exact .inl rfl
  · simp only [GR.bind_eq_ok] at h
    obtain ⟨w, hw, h⟩ := h
    cases h
    exact .inr rfl
  · cases h
  · cases h

theorem gen_code_Scoped {n : Nat} {ds : List Definition} {cfg : Config} {file : RustFile}
    (hcfg : cfg.union_impl_indexer = true → cfg.union_impl_union = false)
    (h : gen_code n ds cfg = .ok file) : file.Scoped := by
  obtain ⟨h1, h2, h3, h4, h5⟩ := gen_code_ok.1 h
  refine ⟨fun c hc => constants_ty h1 hc, fun i hi => ?_, fun i hi => ?_⟩
  · intro c hc
    obtain ⟨name, d, l, -, hl, hi⟩ := types_token_mem h2 hi
    cases d with
    | declaration d =>
      simp only [typeToken] at hl
      split at hl
      · cases hl
        cases hi
      · simp only [GR.bind_eq_ok] at hl
        obtain ⟨o, ho, p, hp, hl⟩ := hl
        split at hl
        · cases hl
        · simp only [GR.bind_eq_ok] at hl
          obtain ⟨j, hj, hl⟩ := hl
          cases hl
          simp only [List.mem_singleton] at hi
          subst hi
          exact camel_ident_head hj hc
    | enum _ as =>
      simp only [typeToken, GR.bind_eq_ok] at hl
      obtain ⟨e, he, hl⟩ := hl
      cases hl
      simp only [List.mem_singleton] at hi
      subst hi
      obtain ⟨_, _, _, hn, _⟩ := convert_enum_ok he
      exact camel_ident_head hn hc
    | struct _ ms =>
      simp only [typeToken, GR.bind_eq_ok] at hl
      obtain ⟨e, he, hl⟩ := hl
      cases hl
      simp only [List.mem_singleton] at hi
      subst hi
      exact camel_ident_head (convert_struct_ok he).1 hc
    | union _ b =>
      simp only [typeToken, GR.bind_eq_ok] at hl
      obtain ⟨e, he, hl⟩ := hl
      cases hl
      simp only [List.mem_singleton] at hi
      subst hi
      obtain ⟨_, _, _, hn, _⟩ := convert_union_ok he
      exact camel_ident_head hn hc
  · obtain ⟨name, d, l, -, hl, hi⟩ := types_token_mem h2 hi
    cases d with
    | declaration d =>
      simp only [typeToken] at hl
      split at hl
      · cases hl
        cases hi
      · simp only [GR.bind_eq_ok] at hl
        obtain ⟨o, ho, p, hp, hl⟩ := hl
        split at hl
        · cases hl
        · simp only [GR.bind_eq_ok] at hl
          obtain ⟨j, hj, hl⟩ := hl
          cases hl
          simp only [List.mem_singleton] at hi
          subst hi
          trivial
    | enum _ as =>
      simp only [typeToken, GR.bind_eq_ok] at hl
      obtain ⟨e, he, hl⟩ := hl
      cases hl
      simp only [List.mem_singleton] at hi
      subst hi
      refine ⟨convert_enum_Scoped he, fun hd => ?_⟩
      obtain ⟨_, _, _, _, _, _, hder, _⟩ := convert_enum_ok he
      rw [hder] at hd
      have hd : cfg.enum_impl_indexer = true := hd
      rw [h3, h4]
      simp [hd]
    | struct _ ms =>
      simp only [typeToken, GR.bind_eq_ok] at hl
      obtain ⟨e, he, hl⟩ := hl
      cases hl
      simp only [List.mem_singleton] at hi
      subst hi
      trivial
    | union _ b =>
      simp only [typeToken, GR.bind_eq_ok] at hl
      obtain ⟨u, he, hl⟩ := hl
      cases hl
      simp only [List.mem_singleton] at hi
      subst hi
      obtain ⟨_, _, _, _, _, _, _, hder, _⟩ := convert_union_ok he
      have hder : u.derive = (if cfg.union_impl_indexer then .indexer
        else if cfg.union_impl_union then .union else .serde) := hder
      refine ⟨convert_union_Scoped hcfg he, fun hd => ?_, fun hd => ?_⟩
      · rw [hder] at hd
        have hc : cfg.union_impl_indexer = true := by
          by_contra hc
          rw [if_neg hc] at hd
          split at hd <;> cases hd
        rw [h3, h4]
        simp [hc]
      · rw [hder] at hd
        have hc : cfg.union_impl_union = true := by
          by_contra hc
          rw [if_neg hc] at hd
          split at hd <;> cases hd
        rw [h3, h5]
        simp [hc]

end Xdr.Rpcgen
