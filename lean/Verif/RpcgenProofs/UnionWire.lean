import Verif.RpcgenProofs.Union
import Verif.Props.Enums
/-!
# Generated unions as definitions of the program
-/

namespace Xdr.Rpcgen

theorem casesAtoms_mem {specs : List CaseSpec} {a : Atom} :
    a ∈ casesAtoms specs ↔ ∃ s ∈ specs, a ∈ s.atoms := by
  induction specs with
  | nil => simp [casesAtoms]
  | cons s ss ih => simp [casesAtoms, ih]

theorem declsAtoms_mem {ds : List Declaration} {a : Atom} :
    a ∈ declsAtoms ds ↔ ∃ s ∈ ds, a ∈ s.atoms := by
  induction ds with
  | nil => simp [declsAtoms]
  | cons s ss ih => simp [declsAtoms, ih]

/-- Labels of unions are well formed. -/
theorem labels_ok {ds : List Definition} (hwf : WellFormed ds) {name : Str} {body : UnionBody}
    (hm : .type (.union name body) ∈ ds) : ∀ l ∈ body.labels, ∀ a ∈ l.1.atoms, a.Ok := by
  intro l hl a ha
  refine hwf a (List.mem_flatMap.2 ⟨_, hm, ?_⟩)
  obtain ⟨s, hs, hl⟩ := List.mem_flatMap.1 hl
  obtain ⟨v, hv, rfl⟩ := List.mem_map.1 hl
  cases body with
  | mk cond specs dflt =>
    simp only [Definition.atoms, TypeDef.atoms, UnionBody.atoms, List.mem_cons, List.mem_append]
    refine .inr (.inr (.inl (.inr (casesAtoms_mem.2 ⟨s, hs, ?_⟩))))
    cases s with
    | mk values d =>
      simp only [CaseSpec.atoms, List.mem_cons, List.mem_append, List.mem_flatMap]
      exact .inr (.inl ⟨v, hv, ha⟩)

/-- The last arm of `name_by_value`. -/
def unionOtherwise : TypeSpecifier → Bool → Otherwise
  | .bool, _ => .none
  | _, dflt => if dflt then .default else .err

/-- A generated union, its cases and its definition. -/
theorem union_item {ds : List Definition} (hwf : WellFormed ds) (hu : Unambiguous ds) {cfg : Config}
    {n : Nat} {file : RustFile} (hg : gen_code n ds cfg = .ok file) {defs : List (String × Def)}
    (hd : file.defs = some defs) {name : Str} {body : UnionBody} (hm : .type (.union name body) ∈ ds)
    {cond : TypeSpecifier} {nm : Str} {ks : List Int} (hcond : body.cond = .variable cond nm)
    (hlab : Labelled ds cond body.labels ks) :
    ∃ u acc cs dflt d, .union u ∈ file.types ∧ upper_camel_case_ident name = .ok u.name ∧
      Cases (setup_context ds cfg) n cond body.labels ks acc cs ∧
      unionDefault (setup_context ds cfg) n acc.cond body.default = .ok dflt ∧
      u.derive = (if cfg.union_impl_indexer then .indexer
        else if cfg.union_impl_union then .union else .serde) ∧
      u.variants = acc.variants ++ (dflt.map (·.1)).toList ∧
      u.indexer = (if cfg.union_impl_indexer then some {
          byIndex := acc.byIndex
          otherwise := body.default.isSome
          index := acc.index
          indexOtherwise := body.default.isSome } else none) ∧
      u.union = (if cfg.union_impl_union then some {
          cond := acc.cond
          byValue := acc.byValue
          otherwise := unionOtherwise cond body.default.isSome } else none) ∧
      u.meaning file.constants file.enums = some d ∧ Xdr.program defs u.name.str = some d := by
  obtain ⟨u, hconv, hmem⟩ := gen_code_union hg hm
  obtain ⟨ct, acc, dflt, h1, h2, h3, -, h5, h6, h7, h8⟩ := convert_union_ok hconv
  obtain ⟨rfl, cs, hcs⟩ := union_cases hwf hu hcond hlab (labels_ok hwf hm) h2
  obtain ⟨d, hd1, hd2⟩ := defs_lookup hd hmem
  refine ⟨u, acc, cs, dflt, d, hmem, h1, hcs, h3, h5, h6, h7, h8.trans ?_, hd1, hd2⟩
  cases ct <;> rfl

theorem tok_name {t : Tok} {i : RIdent} (h : t.name? = some i) : t = .ident i ∧ i.usable = true := by
  cases t with
  | lit _ _ => cases h
  | ident j =>
    simp only [Tok.name?] at h
    split at h
    · next hu =>
      cases h
      exact ⟨rfl, hu⟩
    · cases h

/-- Variants and their meanings, one by one. -/
theorem variantsMeaning_ok {α : Type} {f : Variant → Option α} {vs : List Variant} {r : List (String × α)}
    (h : variantsMeaning f vs = some r) :
    List.Forall₂ (fun v p => ∃ i, v.name = .ident i ∧ i.usable = true ∧ p.1 = i.str ∧ f v = some p.2) vs r := by
  induction vs generalizing r with
  | nil =>
    cases h
    exact .nil
  | cons v vs ih =>
    unfold variantsMeaning at h
    split at h
    · next i a r' h1 h2 h3 =>
      cases h
      refine .cons ?_ (ih h3)
      obtain ⟨h4, h5⟩ := tok_name h1
      exact ⟨i, h4, h5, rfl, h2⟩
    · cases h

theorem forall₂_get {α β : Type} {R : α → β → Prop} {l : List α} {r : List β} (h : List.Forall₂ R l r)
    {i : Nat} {a : α} (ha : l[i]? = some a) : ∃ b, r[i]? = some b ∧ R a b := by
  induction h generalizing i with
  | nil => simp at ha
  | cons h1 _ ih =>
    cases i with
    | zero =>
      simp only [List.getElem?_cons_zero, Option.some.injEq] at ha
      subst ha
      exact ⟨_, rfl, h1⟩
    | succ i =>
      simp only [List.getElem?_cons_succ] at ha ⊢
      exact ih ha

theorem forall₂_get_right {α β : Type} {R : α → β → Prop} {l : List α} {r : List β}
    (h : List.Forall₂ R l r) {i : Nat} {b : β} (hb : r[i]? = some b) : ∃ a, l[i]? = some a ∧ R a b := by
  induction h generalizing i with
  | nil => simp at hb
  | cons h1 _ ih =>
    cases i with
    | zero =>
      simp only [List.getElem?_cons_zero, Option.some.injEq] at hb
      subst hb
      exact ⟨_, rfl, h1⟩
    | succ i =>
      simp only [List.getElem?_cons_succ] at hb ⊢
      exact ih hb

/-- The label a case with a usable name comes from. -/
theorem case_label {v : Value} {tok : Tok} (h : convert_value_token .u32 v true = .ok tok) {id : RIdent}
    (ht : tok = .ident id) : ∃ a, v = .identifier a ∧ upper_camel_case_ident a = .ok id := by
  subst ht
  cases v with
  | constant c =>
    simp only [convert_value_token, GR.bind_eq_ok, GR.ok.injEq] at h
    obtain ⟨_, _, h⟩ := h
    cases h
  | identifier a =>
    simp only [convert_value_token, if_true, GR.bind_eq_ok, GR.ok.injEq, Tok.ident.injEq] at h
    obtain ⟨i, hi, rfl⟩ := h
    exact ⟨a, rfl, hi⟩

theorem convert_type_none {cxt : Context} {n : Nat} {d : Declaration}
    (h : convert_type_token cxt n d = .ok none) : d = .void := by
  cases n with
  | zero => cases h
  | succ n =>
    simp only [convert_type_token] at h
    cases d with
    | void => rfl
    | variableArray _ _ _ =>
      simp only [convertTypeWith, GR.bind_eq_ok] at h
      obtain ⟨⟨_, _⟩, _, h⟩ := h
      simp only at h
      split at h <;> cases h
    | _ =>
      simp only [convertTypeWith, GR.bind_eq_ok, GR.ok.injEq, reduceCtorEq, and_false, exists_false,
        Option.some_ne_none] at h

theorem convert_type_void {cxt : Context} {n : Nat} {o : Option (RTy × OpaqueType)}
    (h : convert_type_token cxt n .void = .ok o) : o = none := by
  cases n with
  | zero => cases h
  | succ n =>
    cases h
    rfl

/-! ## Positions: serde's derives -/

theorem camel_text {a : Str} {id : RIdent} (h : upper_camel_case_ident a = .ok id) :
    id.text = upper_camel_case a := by
  unfold upper_camel_case_ident at h
  rcases mkIdent_ok h with ⟨h1, h2⟩ | ⟨h1, h2⟩
  · simp [RIdent.text, h1, h2]
  · simp [RIdent.text, h1, h2]

/-- `Default` and labels are not reserved names. -/
theorem reserved_ne_camel {v : Variant} (h : Reserved v) {a : Str} {id : RIdent}
    (hid : upper_camel_case_ident a = .ok id) : v.name.str ≠ id.str := by
  obtain ⟨-, -, r, hr, hraw, s, hs⟩ := h
  rw [hr]
  simp only [Tok.str, RIdent.str]
  intro e
  have e' : r.text = id.text := String.ofList_injective e
  rw [camel_text hid] at e'
  have : '_' ∈ r.text := by simp [RIdent.text, hraw, hs]
  rw [e'] at this
  exact upper_camel_case_no a this

/-- What `UnionItem.meaning` requires and gives, with serde's derives. -/
theorem union_meaning_serde {cs : List ConstItem} {enums : List EnumItem} {u : UnionItem} {d : Def}
    (h : u.meaning cs enums = some d) (hs : u.derive = .serde) :
    (u.variants.map (·.name.str)).Nodup ∧
    ∃ vars, variantsMeaning (·.shape cs enums) u.variants = some vars ∧ d = .enum vars := by
  unfold UnionItem.meaning at h
  split at h
  · next hn =>
    rw [hs] at h
    simp only [Option.map_eq_some_iff] at h
    obtain ⟨vars, h1, rfl⟩ := h
    exact ⟨hn, vars, h1, rfl⟩
  · cases h

/-- The same with `XdrIndexer`. -/
theorem union_meaning_indexer {cs : List ConstItem} {enums : List EnumItem} {u : UnionItem} {d : Def}
    (h : u.meaning cs enums = some d) (hs : u.derive = .indexer) :
    (u.variants.map (·.name.str)).Nodup ∧
    ∃ ix vars, u.indexer = some ix ∧ variantsMeaning (·.types cs) u.variants = some vars ∧
      d = .indexer vars (unionIndexerImpl u.variants ix) := by
  unfold UnionItem.meaning at h
  split at h
  · next hn =>
    rw [hs] at h
    simp only at h
    split at h
    · next ix vars h1 h2 =>
      split at h
      · cases h
        exact ⟨hn, ix, vars, h1, h2, rfl⟩
      · cases h
    · cases h
  · cases h

/-- The same with `XdrUnion`. -/
theorem union_meaning_union {cs : List ConstItem} {enums : List EnumItem} {u : UnionItem} {d : Def}
    (h : u.meaning cs enums = some d) (hs : u.derive = .union) :
    (u.variants.map (·.name.str)).Nodup ∧
    ∃ un vars c disc, u.union = some un ∧ variantsMeaning (·.types cs) u.variants = some vars ∧
      un.cond = some c ∧ (∀ p ∈ un.byValue, p.1.fits enums c = true) ∧
      (un.otherwise = .none → Pat.bool true ∈ un.byValue.map (·.1) ∧
        Pat.bool false ∈ un.byValue.map (·.1)) ∧
      c.meaning cs = some disc ∧ d = .union disc vars (unionUnionImpl enums un) := by
  unfold UnionItem.meaning at h
  split at h
  · next hn =>
    rw [hs] at h
    simp only at h
    split at h
    · next un vars h1 h2 =>
      split at h
      · next c hc =>
        split at h
        · next hcond =>
          simp only [Option.map_eq_some_iff] at h
          obtain ⟨disc, h3, rfl⟩ := h
          exact ⟨hn, un, vars, c, disc, h1, h2, hc, hcond.1, hcond.2.2.1, h3, rfl⟩
        · cases h
      · cases h
    · cases h
  · cases h

theorem names_nodup {α : Type} {f : Variant → Option α} {vs : List Variant} {r : List (String × α)}
    (h : variantsMeaning f vs = some r) (hnd : (vs.map (·.name.str)).Nodup) : (r.map (·.1)).Nodup := by
  have : r.map (·.1) = vs.map (·.name.str) := by
    have hf := variantsMeaning_ok h
    clear h hnd
    induction hf with
    | nil => rfl
    | cons hx _ ih =>
      obtain ⟨i, h1, -, h2, -⟩ := hx
      simp [ih, h1, h2, Tok.str]
  rw [this]
  exact hnd

/-- What the arm of a case becomes: no field, or one. -/
def ArmTypes (cxt : Context) (n : Nat) (cs : List ConstItem) (enums : List EnumItem) (d : Declaration)
    (ts : List Ty) : Prop :=
  (d = .void ∧ ts = []) ∨ ∃ ty op t, convert_type_token cxt n d = .ok (some (ty, op)) ∧
    fieldMeaning cs enums (armField cxt.config ty op).1 (armField cxt.config ty op).2 = some t ∧ ts = [t]

theorem ArmTypes.length {cxt : Context} {n : Nat} {cs : List ConstItem} {enums : List EnumItem}
    {d : Declaration} {ts : List Ty} (h : ArmTypes cxt n cs enums d ts) :
    (d = .void ↔ ts = []) ∧ ts.length ≤ 1 := by
  rcases h with ⟨rfl, rfl⟩ | ⟨ty, op, t, h1, -, rfl⟩
  · simp
  · refine ⟨⟨?_, by simp⟩, by simp⟩
    rintro rfl
    cases convert_type_void h1

theorem unionDefault_some {cxt : Context} {n : Nat} {cond : Option RTy} {d : Declaration}
    {dflt : Option (Variant × (Tok × Nat))} (h : unionDefault cxt n cond (some d) = .ok dflt) :
    ∃ o v, convert_type_token cxt n d = .ok o ∧ dflt.map (·.1) = some v ∧ v.attr = .none ∧
      v.name = defaultTok ∧ v.fields = (if cxt.config.union_impl_union then cond.toList else []) ++
        (o.map (·.1)).toList := by
  simp only [unionDefault, GR.bind_eq_ok, GR.ok.injEq] at h
  obtain ⟨o, ho, rfl⟩ := h
  refine ⟨o, _, ho, rfl, rfl, rfl, ?_⟩
  cases o <;> rfl

/-- What the default arm becomes: no field, or one without attribute. -/
def DefaultTypes (cxt : Context) (n : Nat) (cs : List ConstItem) (d : Declaration) (ts : List Ty) : Prop :=
  (d = .void ∧ ts = []) ∨ ∃ ty op t, convert_type_token cxt n d = .ok (some (ty, op)) ∧
    ty.meaning cs = some t ∧ ts = [t]

/-- A case of a union with serde's derives. -/
theorem serde_case {ds : List Definition} (hwf : WellFormed ds) (hu : Unambiguous ds) {cfg : Config}
    (hc : cfg.union_complement_index = true) {n : Nat} {file : RustFile}
    (hg : gen_code n ds cfg = .ok file) {defs : List (String × Def)}
    (hd : file.defs = some defs) {name : Str} {body : UnionBody} (hm : .type (.union name body) ∈ ds)
    {cond : TypeSpecifier} {nm : Str} {ks : List Int} (hcond : body.cond = .variable cond nm)
    (hlab : Labelled ds cond body.labels ks) :
    ∃ (ty : RIdent) (vars : List (String × Shape)), upper_camel_case_ident name = .ok ty ∧
      Xdr.program defs ty.str = some (.enum vars) ∧ (vars.map (·.1)).Nodup ∧
      (∀ l k, (l, k) ∈ body.labels.zip ks → ∃ a id sh, l.1 = .identifier a ∧
        upper_camel_case_ident a = .ok id ∧ vars[k.toNat]? = some (id.str, sh) ∧
        (sh = .unit ∨ ∃ t, sh = .newtype t) ∧
        ArmTypes (setup_context ds cfg) n file.constants file.enums l.2 sh.types) ∧
      ∃ m : Nat, (∀ i : Nat, i < m → (i : Int) ∉ ks → ∃ vn, vars[i]? = some (vn, .unit) ∧
          ∀ a id, upper_camel_case_ident a = .ok id → vn ≠ id.str) ∧
        (∀ i : Nat, i < m → (∃ k ∈ ks, (i : Int) ≤ k) ∨ cond = .bool ∧ i < 2) ∧
        (∀ k ∈ ks, k.toNat < m) ∧
        (body.default = none → vars.length = m) ∧
        (∀ d, body.default = some d → vars.length = m + 1 ∧ ∃ sh, vars[m]? = some ("Default", sh) ∧
          ((d = .void ↔ sh.types = []) ∧ sh.types.length ≤ 1) ∧ (sh = .unit ∨ ∃ t, sh = .newtype t) ∧
          DefaultTypes (setup_context ds cfg) n file.constants d sh.types) := by
  obtain ⟨u, acc, cs, dflt, d, hmem, h1, hcs, h2, h3, h4, -, -, hd1, hd2⟩ :=
    union_item hwf hu hg hd hm hcond hlab
  have hc' : (setup_context ds cfg).config.union_complement_index = true := hc
  have hci : cfg.union_impl_indexer = false ∧ cfg.union_impl_union = false := by
    simpa [Config.union_complement_index] using hc
  have hs : u.derive = .serde := by simp [h3, hci]
  obtain ⟨hnd, vars, hvars, rfl⟩ := union_meaning_serde hd1 hs
  have hf := variantsMeaning_ok hvars
  have hlen : vars.length = acc.variants.length + (dflt.map (·.1)).toList.length := by
    rw [← hf.length_eq, h4, List.length_append]
  have hun : (setup_context ds cfg).config.union_impl_union = false := hci.2
  refine ⟨u.name, vars, h1, hd2, names_nodup hvars hnd, ?_, acc.variants.length, ?_, ?_, ?_, ?_, ?_⟩
  · intro l k hlk
    obtain ⟨c, hck, hcv⟩ := hcs.all l k hlk
    have hp := hcs.positions hc' c k hck
    have hp' : u.variants[k.toNat]? = some c.value := by
      rw [h4, List.getElem?_append_left (List.getElem?_eq_some_iff.1 hp).1]
      exact hp
    obtain ⟨⟨vn, sh⟩, hv, id, hid1, -, hid2, hsh⟩ := forall₂_get hf hp'
    simp only at hid2 hsh
    subst hid2
    obtain ⟨o, g1, g2, g3, g4, g5⟩ := convert_case_ok hcv
    rw [g4] at hid1
    obtain ⟨a, ha1, ha2⟩ := case_label g1 hid1
    refine ⟨a, id, sh, ha1, ha2, hv, ?_⟩
    simp only [Variant.shape] at hsh
    rcases g5 with ⟨rfl, -, hfl⟩ | ⟨ty, op, rfl, hat, hfl⟩
    · rw [hfl, hun] at hsh
      simp only [Bool.false_eq_true, if_false, Option.some.injEq] at hsh
      subst hsh
      exact ⟨.inl rfl, .inl ⟨convert_type_none g3, rfl⟩⟩
    · rw [hfl, hun] at hsh
      simp only [Bool.false_eq_true, if_false, List.nil_append, Option.map_eq_some_iff] at hsh
      obtain ⟨t, ht, rfl⟩ := hsh
      rw [hat] at ht
      exact ⟨.inr ⟨t, rfl⟩, .inr ⟨ty, op, t, g3, ht, rfl⟩⟩
  · intro i hi hn
    obtain ⟨v, hv⟩ : ∃ v, acc.variants[i]? = some v := ⟨_, List.getElem?_eq_getElem hi⟩
    have hres := (hcs.reserved hc' i v hv hn).reserved
    have hv' : u.variants[i]? = some v := by
      rw [h4, List.getElem?_append_left hi]
      exact hv
    obtain ⟨⟨vn, sh⟩, hr, id, hid1, -, hid2, hsh⟩ := forall₂_get hf hv'
    simp only at hid2 hsh
    refine ⟨vn, ?_, fun a ida hida => ?_⟩
    · simp only [Variant.shape, hres.2.1, Option.some.injEq] at hsh
      subst hsh
      exact hr
    · have := reserved_ne_camel hres hida
      rw [hid1] at this
      rw [hid2]
      exact this
  · intro i hi
    exact hcs.length hc' i hi
  · intro k hk
    obtain ⟨l, hl⟩ := zip_mem_right hlab.selects.length_eq hk
    obtain ⟨c, hck, -⟩ := hcs.all l k hl
    exact (List.getElem?_eq_some_iff.1 (hcs.positions hc' c k hck)).1
  · intro hdn
    rw [hdn] at h2
    cases h2
    simpa using hlen
  · intro dd hdd
    rw [hdd] at h2
    obtain ⟨o, v, ho, hv, hva, hvn, hvf⟩ := unionDefault_some h2
    rw [hv] at h4 hlen
    refine ⟨by simpa using hlen, ?_⟩
    have hv' : u.variants[acc.variants.length]? = some v := by
      rw [h4]
      simp
    obtain ⟨⟨vn, sh⟩, hr, id, hid1, -, hid2, hsh⟩ := forall₂_get hf hv'
    simp only at hid2 hsh
    rw [hvn] at hid1
    simp only [defaultTok, Tok.ident.injEq] at hid1
    subst hid1
    refine ⟨sh, ?_, ?_⟩
    · rw [hr, hid2]
      rfl
    · simp only [Variant.shape, hvf, hun] at hsh
      cases o with
      | none =>
        have := convert_type_none ho
        subst this
        simp only [Bool.false_eq_true, if_false, Option.map_none, Option.toList_none, List.append_nil,
          Option.some.injEq] at hsh
        subst hsh
        exact ⟨by simp [Shape.types], .inl rfl, .inl ⟨rfl, rfl⟩⟩
      | some p =>
        simp only [Bool.false_eq_true, if_false, List.nil_append, Option.map_some, Option.toList_some,
          Option.map_eq_some_iff] at hsh
        obtain ⟨t, ht, rfl⟩ := hsh
        rw [hva] at ht
        refine ⟨⟨⟨?_, by simp [Shape.types]⟩, by simp [Shape.types]⟩, .inr ⟨t, rfl⟩,
          .inr ⟨p.1, p.2, t, ho, ht, rfl⟩⟩
        rintro rfl
        cases convert_type_void ho

/-! ## Numbers: `XdrIndexer` -/

/-- The fields of a case without serde's derives. -/
theorem case_types {cxt : Context} {n : Nat} {v : Value} {d : Declaration} {cond : TypeSpecifier}
    {c : CaseTok} (h : convert_case_token cxt n v d cond = .ok c)
    (hnc : cxt.config.union_complement_index = false) {cs : List ConstItem} (enums : List EnumItem)
    {fs : Option (List Ty)} (ht : c.value.types cs = some fs) :
    ∃ ts, ArmTypes cxt n cs enums d ts ∧
      if cxt.config.union_impl_union then ∃ disc, c.cond.meaning cs = some disc ∧ fs = some (disc :: ts)
      else fieldTypes fs = ts := by
  obtain ⟨o, -, -, g3, -, g5⟩ := convert_case_ok h
  simp only [Variant.types] at ht
  split at ht
  swap
  · cases ht
  next hattr =>
  rcases g5 with ⟨rfl, -, hfl⟩ | ⟨ty, op, rfl, hat, hfl⟩
  · refine ⟨[], .inl ⟨convert_type_none g3, rfl⟩, ?_⟩
    rw [hfl] at ht
    cases hu : cxt.config.union_impl_union with
    | false =>
      simp only [hu, Bool.false_eq_true, if_false, Option.some.injEq] at ht ⊢
      subst ht
      rfl
    | true =>
      simp only [hu, if_true, tysMeaning] at ht ⊢
      split at ht
      · next t ts' h1 h2 =>
        cases h2
        simp only [Option.map_some, Option.some.injEq] at ht
        exact ⟨t, h1, ht.symm⟩
      · simp at ht
  · have hna : (armField cxt.config ty op).1 = .none := by rw [← hat]; exact hattr
    rw [hfl] at ht
    cases hu : cxt.config.union_impl_union with
    | false =>
      simp only [hu, Bool.false_eq_true, if_false, List.nil_append, tysMeaning] at ht ⊢
      split at ht
      · next t ts' h1 h2 =>
        cases h2
        simp only [Option.map_some, Option.some.injEq] at ht
        refine ⟨[t], .inr ⟨ty, op, t, g3, by rw [hna]; exact h1, rfl⟩, ?_⟩
        rw [← ht]
        rfl
      · simp at ht
    | true =>
      simp only [hu, if_true, List.singleton_append, tysMeaning] at ht ⊢
      cases h1 : c.cond.meaning cs with
      | none => simp [h1] at ht
      | some disc =>
        cases h2 : (armField cxt.config ty op).2.meaning cs with
        | none => simp [h2] at ht
        | some t =>
          simp only [h1, h2, Option.map_some, Option.some.injEq] at ht
          exact ⟨[t], .inr ⟨ty, op, t, g3, by rw [hna]; exact h2, rfl⟩, disc, rfl, ht.symm⟩

/-- The fields of the default variant: never with an attribute. -/
theorem default_types {cs : List ConstItem} {v : Variant} {fs : Option (List Ty)}
    (ht : v.types cs = some fs) {fields : List RTy} (hf : v.fields = fields) :
    ∃ ts, tysMeaning cs fields = some ts ∧ fieldTypes fs = ts ∧ (fields ≠ [] → fs = some ts) := by
  subst hf
  simp only [Variant.types] at ht
  split at ht
  swap
  · cases ht
  split at ht
  · next h =>
    cases ht
    exact ⟨[], by rw [h]; rfl, rfl, fun h' => absurd h h'⟩
  · simp only [Option.map_eq_some_iff] at ht
    obtain ⟨ts, h1, rfl⟩ := ht
    exact ⟨ts, h1, rfl, fun _ => rfl⟩

theorem DefaultTypes.length {cxt : Context} {n : Nat} {cs : List ConstItem}
    {d : Declaration} {ts : List Ty} (h : DefaultTypes cxt n cs d ts) :
    (d = .void ↔ ts = []) ∧ ts.length ≤ 1 := by
  rcases h with ⟨rfl, rfl⟩ | ⟨ty, op, t, h1, -, rfl⟩
  · simp
  · refine ⟨⟨?_, by simp⟩, by simp⟩
    rintro rfl
    cases convert_type_void h1

theorem defaultTypes_of {cxt : Context} {n : Nat} {cs : List ConstItem} {d : Declaration}
    {o : Option (RTy × OpaqueType)} (ho : convert_type_token cxt n d = .ok o) {ts : List Ty}
    (ht : tysMeaning cs (o.map (·.1)).toList = some ts) : DefaultTypes cxt n cs d ts := by
  cases o with
  | none =>
    cases ht
    exact .inl ⟨convert_type_none ho, rfl⟩
  | some p =>
    obtain ⟨ty, op⟩ := p
    simp only [Option.map_some, Option.toList_some, tysMeaning] at ht
    cases h1 : ty.meaning cs with
    | none => simp [h1] at ht
    | some t =>
      simp only [h1, Option.some.injEq] at ht
      exact .inr ⟨ty, op, t, ho, h1, ht.symm⟩

theorem asI32_range {k : Int} (h : 0 ≤ k ∧ k ≤ 4294967295) :
    -2147483648 ≤ asI32 k ∧ asI32 k ≤ 2147483647 := by
  unfold asI32
  split <;> omega

theorem asI32_inj {j k : Int} (hj : 0 ≤ j ∧ j ≤ 4294967295) (hk : 0 ≤ k ∧ k ≤ 4294967295)
    (h : asI32 j = asI32 k) : j = k := by
  unfold asI32 at h
  split at h <;> split at h <;> omega

theorem asI32_signed {k : Int} (h : 0 ≤ k ∧ k ≤ 4294967295) :
    Rfc.signed 4 (asI32 k) = some (Rfc.beBytes 4 k.toNat) := by
  have := asI32_range h
  have e : (2 ^ (8 * 4 - 1) : Int) = 2147483648 := by decide
  have e' : (2 ^ (8 * 4) : Int) = 4294967296 := by decide
  unfold Rfc.signed
  rw [e, e', if_pos (by omega)]
  have : asI32 k % 4294967296 = k := by
    unfold asI32
    split <;> omega
  rw [this]

/-- The names of the cases are the names of their variants. -/
theorem Cases.names {cxt : Context} {n : Nat} {cond : TypeSpecifier} {ls : List (Value × Declaration)}
    {ks : List Int} {acc : UnionAcc} {cs : List (CaseTok × Int)} (h : Cases cxt n cond ls ks acc cs) :
    cs.map (·.1.value.name) = cs.map (·.1.variant) := by
  refine List.map_congr_left fun c hc => ?_
  obtain ⟨l, -, hl⟩ := h.from_label c.1 c.2 hc
  obtain ⟨o, -, -, -, g4, -⟩ := convert_case_ok hl
  exact g4

theorem tok_nodup {vs : List Variant} (h : (vs.map (·.name.str)).Nodup) : (vs.map (·.name)).Nodup := by
  refine List.Nodup.of_map Tok.str ?_
  simpa [List.map_map, Function.comp_def] using h

theorem Cases.numbers {cxt : Context} {n : Nat} {cond : TypeSpecifier} {ls : List (Value × Declaration)}
    {ks : List Int} {acc : UnionAcc} {cs : List (CaseTok × Int)} (h : Cases cxt n cond ls ks acc cs)
    (hr : ∀ k ∈ ks, 0 ≤ k ∧ k ≤ 4294967295) : (cs.map fun c => asI32 c.2).Nodup := by
  refine List.pairwise_map.2 (List.Pairwise.imp_of_mem ?_ h.sorted)
  intro a b ha hb hab e
  obtain ⟨l, hl, -⟩ := h.from_label a.1 a.2 ha
  obtain ⟨l', hl', -⟩ := h.from_label b.1 b.2 hb
  have := asI32_inj (hr _ (List.of_mem_zip hl).2) (hr _ (List.of_mem_zip hl').2) e
  omega

/-- The cases of a union with `XdrIndexer`. -/
theorem indexer_case {ds : List Definition} (hwf : WellFormed ds) (hu : Unambiguous ds) {cfg : Config}
    (hci : cfg.union_impl_indexer = true) (hcu : cfg.union_impl_union = false) {n : Nat} {file : RustFile}
    (hg : gen_code n ds cfg = .ok file) {defs : List (String × Def)}
    (hd : file.defs = some defs) {name : Str} {body : UnionBody} (hm : .type (.union name body) ∈ ds)
    {cond : TypeSpecifier} {nm : Str} {ks : List Int} (hcond : body.cond = .variable cond nm)
    (hlab : Labelled ds cond body.labels ks) :
    ∃ (ty : RIdent) (vars : List (String × Option (List Ty))) (impl : IndexerImpl),
      upper_camel_case_ident name = .ok ty ∧
      Xdr.program defs ty.str = some (.indexer vars impl) ∧ (vars.map (·.1)).Nodup ∧
      (∀ l k, (l, k) ∈ body.labels.zip ks → ∃ (a : Str) (id : RIdent) (fs : Option (List Ty)) (i : Nat),
        l.1 = .identifier a ∧ upper_camel_case_ident a = .ok id ∧ vars[i]? = some (id.str, fs) ∧
        ArmTypes (setup_context ds cfg) n file.constants file.enums l.2 (fieldTypes fs) ∧
        (∀ vs, impl.index i vs = .ok (Int32.ofInt (asI32 k))) ∧
        impl.name_by_index (Int32.ofInt (asI32 k)) = .ok id.str) ∧
      (∀ j, 0 ≤ j ∧ j ≤ 4294967295 → j ∉ ks → impl.name_by_index (Int32.ofInt (asI32 j)) =
        if body.default.isSome then .ok "Default" else .err .convert) ∧
      (∀ d, body.default = some d → ∃ (i : Nat) (fs : Option (List Ty)), vars[i]? = some ("Default", fs) ∧
        DefaultTypes (setup_context ds cfg) n file.constants d (fieldTypes fs) ∧
        ∀ vs, impl.index i vs = .panic .unimplemented) := by
  obtain ⟨u, acc, cs, dflt, d, hmem, h1, hcs, h2, h3, h4, h5, -, hd1, hd2⟩ :=
    union_item hwf hu hg hd hm hcond hlab
  have hnc : (setup_context ds cfg).config.union_complement_index = false := by
    show cfg.union_complement_index = false
    simp [Config.union_complement_index, hci]
  have hun : (setup_context ds cfg).config.union_impl_union = false := hcu
  have hs : u.derive = .indexer := by simp [h3, hci]
  obtain ⟨hnd, ix, vars, hix, hvars, rfl⟩ := union_meaning_indexer hd1 hs
  rw [if_pos hci] at h5
  rw [h5] at hix
  cases hix
  have hf := variantsMeaning_ok hvars
  have hav := hcs.variants hnc
  have hnt := tok_nodup hnd
  have hia : acc.index.map (·.1) = cs.map (·.1.variant) := by
    rw [hcs.index, List.map_map]
    rfl
  have hin : u.variants.map (·.name) = acc.index.map (·.1) ++ (dflt.map (·.1)).toList.map (·.name) := by
    rw [h4, List.map_append, hav, List.map_map, hia, ← hcs.names]
    rfl
  rw [hin] at hnt
  have hn1 : (acc.index.map (·.1)).Nodup := (List.nodup_append.1 hnt).1
  have hb1 : (acc.byIndex.map (·.1)).Nodup := by
    rw [hcs.byIndex, List.map_map]
    exact hcs.numbers hlab.range
  refine ⟨u.name, vars, _, h1, hd2, names_nodup hvars hnd, ?_, ?_, ?_⟩
  · intro l k hlk
    have hkr := hlab.range k (List.of_mem_zip hlk).2
    obtain ⟨c, hck, hcv⟩ := hcs.all l k hlk
    obtain ⟨i, hi⟩ := List.mem_iff_getElem?.1 hck
    have hi' : acc.variants[i]? = some c.value := by
      rw [hav, List.getElem?_map, hi]
      rfl
    have hiu : u.variants[i]? = some c.value := by
      rw [h4, List.getElem?_append_left (List.getElem?_eq_some_iff.1 hi').1]
      exact hi'
    obtain ⟨⟨vn, fs⟩, hv, id, hid1, -, hid2, hsh⟩ := forall₂_get hf hiu
    simp only at hid2 hsh
    subst hid2
    obtain ⟨o, g1, -, -, g4, -⟩ := convert_case_ok hcv
    rw [g4] at hid1
    obtain ⟨a, ha1, ha2⟩ := case_label g1 hid1
    obtain ⟨ts, hts1, hts2⟩ := case_types hcv hnc file.enums hsh
    rw [hun] at hts2
    simp only [Bool.false_eq_true, if_false] at hts2
    subst hts2
    refine ⟨a, id, fs, i, ha1, ha2, hv, hts1, fun vs => ?_, ?_⟩
    · simp only [unionIndexerImpl, hiu, Option.bind_some, g4]
      rw [arm_of_mem hn1 (v := (c.arm, asI32 k)) (by
        rw [hcs.index]
        exact List.mem_map.2 ⟨_, hck, rfl⟩)]
    · simp only [unionIndexerImpl, toInt_ofInt (asI32_range hkr)]
      rw [arm_of_mem hb1 (v := c.variant) (by
        rw [hcs.byIndex]
        exact List.mem_map.2 ⟨_, hck, rfl⟩)]
      simp only [hid1, Tok.str]
  · intro j hj hjk
    simp only [unionIndexerImpl, toInt_ofInt (asI32_range hj)]
    rw [arm_of_not_mem]
    · cases body.default <;> rfl
    · rw [hcs.byIndex, List.map_map, List.mem_map]
      rintro ⟨⟨c, k⟩, hck, he⟩
      obtain ⟨l, hl, -⟩ := hcs.from_label c k hck
      have hk := (List.of_mem_zip hl).2
      have := asI32_inj (hlab.range k hk) hj he
      subst this
      exact hjk hk
  · intro dd hdd
    rw [hdd] at h2
    obtain ⟨o, v, ho, hv, hva, hvn, hvf⟩ := unionDefault_some h2
    rw [hv] at h4 hnt
    have hv' : u.variants[acc.variants.length]? = some v := by
      rw [h4]
      simp
    obtain ⟨⟨vn, fs⟩, hr, id, hid1, -, hid2, hsh⟩ := forall₂_get hf hv'
    simp only at hid2 hsh
    rw [hvn] at hid1
    simp only [defaultTok, Tok.ident.injEq] at hid1
    subst hid1
    rw [hun] at hvf
    simp only [Bool.false_eq_true, if_false, List.nil_append] at hvf
    obtain ⟨ts, hts, hfs, -⟩ := default_types hsh hvf
    refine ⟨acc.variants.length, fs, ?_, ?_, fun vs => ?_⟩
    · rw [hr, hid2]
      rfl
    · rw [hfs]
      exact defaultTypes_of ho hts
    · simp only [unionIndexerImpl, hv', Option.bind_some]
      rw [arm_of_not_mem]
      · simp [hdd]
      · intro hx
        exact (List.nodup_append.1 hnt).2.2 _ hx _ (by simp) rfl

/-! ## Discriminants: `XdrUnion` -/

/-- The number of a discriminant: the value of an unsigned integer, 0 and 1 for `false` and `true`, or the
number a generated enum's variant has in its declaration. -/
def IsNumber (file : RustFile) : Ty → Val → Int → Prop
  | .u32, .u32 x, k => (x.toNat : Int) = k
  | .bool, .bool b, k => k = if b then 1 else 0
  | .named s, .variant i _, k => ∃ e id, .enum e ∈ file.types ∧ e.name.str = s ∧ e.variants[i]? = some (id, k)
  | _, _, _ => False

/-- A match whose patterns stand for different numbers. -/
theorem find_number {cs : List (CaseTok × Int)} {byValue : List (Pat × Tok)} {m : Pat → Bool} {k : Int}
    (hs : cs.Pairwise fun a b => a.2 < b.2)
    (h : List.Forall₂ (fun (c : CaseTok × Int) (p : Pat × Tok) => p.2 = c.1.variant ∧
      (m p.1 = true ↔ c.2 = k)) cs byValue) :
    (∀ c, (c, k) ∈ cs → ∃ p, (byValue.find? fun p => m p.1) = some p ∧ p.2 = c.variant) ∧
    (k ∉ cs.map (·.2) → (byValue.find? fun p => m p.1) = none) := by
  induction h with
  | nil => simp
  | @cons c p cs byValue h1 _ ih =>
    obtain ⟨hs1, hs2⟩ := List.pairwise_cons.1 hs
    obtain ⟨ih1, ih2⟩ := ih hs2
    by_cases hk : c.2 = k
    · have hm := h1.2.2 hk
      constructor
      · intro c' hc'
        rcases List.mem_cons.1 hc' with rfl | hc'
        · exact ⟨p, by simp [List.find?_cons, hm], h1.1⟩
        · have := hs1 _ hc'
          simp only at this
          omega
      · intro hn
        exact absurd (by simp [hk]) hn
    · have hm : m p.1 = false := by
        cases hx : m p.1 with
        | false => rfl
        | true => exact absurd (h1.2.1 hx) hk
      constructor
      · intro c' hc'
        rcases List.mem_cons.1 hc' with rfl | hc'
        · exact absurd rfl hk
        · simpa [List.find?_cons, hm] using ih1 c' hc'
      · intro hn
        simp only [List.map_cons, List.mem_cons, not_or] at hn
        simpa [List.find?_cons, hm] using ih2 hn.2

/-- All the enums of the file have numbers. -/
def NumberedEnums (ds : List Definition) : Prop :=
  ∀ name as, .type (.enum name as) ∈ ds → ∃ ks, Numbered ds as ks

/-- Names and numbers of the variants of a generated enum are different. -/
theorem enum_meaning_nodup {e : EnumItem} {d : Def} (h : e.meaning = some d) :
    (e.variants.map (·.1)).Nodup ∧ (e.variants.map (·.2)).Nodup := by
  unfold EnumItem.meaning at h
  split at h
  · next hn => exact ⟨nodup_of_str hn.1, hn.2.1⟩
  · cases h

theorem get_unique {α β : Type} {f : α → β} {l : List α} (h : (l.map f).Nodup) {x y : α} (hx : x ∈ l)
    (hy : y ∈ l) (he : f x = f y) : x = y :=
  List.inj_on_of_nodup_map h hx hy he

/-- A pattern of `name_by_value` matches the values of its number. -/
theorem pat_matches {ds : List Definition} (hwf : WellFormed ds) (hu : Unambiguous ds)
    (hen : NumberedEnums ds) {cfg : Config} {n : Nat} {file : RustFile}
    (hg : gen_code n ds cfg = .ok file) {defs : List (String × Def)}
    (hd : file.defs = some defs) {cond : TypeSpecifier} {v : Value} {k j : Int} {p : Pat} {c : RTy}
    (hs : Selects ds cond v k) (hp : IsPat (setup_context ds cfg) cond v k p)
    (hf : p.fits file.enums c = true) {disc : Ty} (hdisc : c.meaning file.constants = some disc)
    {dv : Val} (hn : IsNumber file disc dv j) :
    p.matches file.enums dv = true ↔ k = j := by
  unfold IsPat at hp
  split at hp
  · next he =>
    obtain ⟨cn, a, ci, vi, rfl, rfl, hci, hvi, rfl⟩ := hp
    obtain ⟨name, as, hname, hm⟩ := is_enum_type_ok he
    cases hname
    simp only [Pat.fits] at hf
    split at hf
    swap
    · cases hf
    next e hfind =>
    simp only [decide_eq_true_eq] at hf
    obtain ⟨rfl, hve⟩ := hf
    simp only [RTy.meaning, Option.some.injEq] at hdisc
    subst hdisc
    have hnames := (defs_ok hd).1
    obtain ⟨ks, hks⟩ := hen _ _ hm
    obtain ⟨e', hconv, hmem⟩ := gen_code_enum hg hm
    obtain ⟨ms, h1, -, -, -, h5, -, -, -, h8, -⟩ :=
      enum_members hwf (members_ok hwf hm) hks.stands hks.distinct hks.range hconv
    rw [hci] at h8
    have hnm := GR.ok.inj h8
    have he' := enums_find hnames hmem
    rw [← hnm, hfind] at he'
    cases he'
    obtain ⟨d, hd1, -⟩ := defs_lookup hd hmem
    obtain ⟨hnd1, hnd2⟩ := enum_meaning_nodup hd1
    obtain ⟨a', ha', haid, hst⟩ := selects_enum hu hm hs
    obtain ⟨k', hk'⟩ := zip_mem_left hks.stands.length_eq ha'
    have hkk : k' = k := stands_unique (forall₂_zip hks.stands hk') hst
    subst hkk
    obtain ⟨id, hid, hidm⟩ := h1 _ hk'
    cases haid
    rw [hvi] at hid
    cases GR.ok.inj hid
    have hv := h5 _ hidm
    cases dv with
    | variant i vs =>
      simp only [IsNumber] at hn
      obtain ⟨e2, id2, he2, hs2, hi2⟩ := hn
      have he2' := enums_find hnames he2
      have hee : e2.name = e.name := by
        obtain ⟨i1, hi1⟩ := List.mem_iff_getElem?.1 he2
        have hinj := List.inj_on_of_nodup_map (namesOk_iff.1 hnames).1 he2 hmem
          (by simp only [Item.name]; rw [hs2, hnm])
        cases hinj
        rfl
      rw [hee] at he2'
      have hx := enums_find hnames hmem
      rw [he2'] at hx
      cases hx
      simp only [Pat.matches, hfind, hi2, Option.map_some, Option.some.injEq, decide_eq_true_eq]
      have hmem2 := List.mem_of_getElem? hi2
      constructor
      · rintro rfl
        have := get_unique hnd1 hmem2 hv rfl
        cases this
        rfl
      · rintro rfl
        have := get_unique hnd2 hmem2 hv rfl
        cases this
        rfl
    | _ => simp [IsNumber] at hn
  · split at hp
    · next hb =>
      subst hp
      simp only [Pat.fits, decide_eq_true_eq] at hf
      subst hf
      simp only [RTy.meaning, Option.some.injEq] at hdisc
      subst hdisc
      have hc : cond = .bool := by
        cases cond <;> first | rfl | cases hb
      subst hc
      cases dv with
      | bool b => 
        simp only [IsNumber] at hn
        subst hn
        cases hs <;> cases b <;> simp [Pat.matches]
      | _ => simp [IsNumber] at hn
    · subst hp
      simp only [Pat.fits, decide_eq_true_eq] at hf
      subst hf
      simp only [RTy.meaning, Option.some.injEq] at hdisc
      subst hdisc
      cases dv with
      | u32 x =>
        simp only [IsNumber] at hn
        subst hn
        simp only [Pat.matches, decide_eq_true_eq]
        exact eq_comm
      | _ => simp [IsNumber] at hn

theorem forall₂_mem_and {α β : Type} {R : α → β → Prop} {l : List α} {r : List β}
    (h : List.Forall₂ R l r) : List.Forall₂ (fun a b => b ∈ r ∧ R a b) l r := by
  induction h with
  | nil => exact .nil
  | cons a b ih =>
    exact .cons ⟨List.mem_cons_self, a⟩ (ih.imp fun _ _ h => ⟨List.mem_cons_of_mem _ h.1, h.2⟩)

/-- The cases of a union with `XdrUnion`. -/
theorem union_case {ds : List Definition} (hwf : WellFormed ds) (hu : Unambiguous ds)
    (hen : NumberedEnums ds) {cfg : Config}
    (hci : cfg.union_impl_indexer = false) (hcu : cfg.union_impl_union = true) {n : Nat} {file : RustFile}
    (hg : gen_code n ds cfg = .ok file) {defs : List (String × Def)}
    (hd : file.defs = some defs) {name : Str} {body : UnionBody} (hm : .type (.union name body) ∈ ds)
    {cond : TypeSpecifier} {nm : Str} {ks : List Int} (hcond : body.cond = .variable cond nm)
    (hlab : Labelled ds cond body.labels ks) :
    ∃ (ty : RIdent) (vars : List (String × Option (List Ty))) (impl : UnionImpl) (disc : Ty) (rc : RTy),
      upper_camel_case_ident name = .ok ty ∧
      Xdr.program defs ty.str = some (.union disc vars impl) ∧ (vars.map (·.1)).Nodup ∧
      (body.labels ≠ [] → condType (setup_context ds cfg) n cond = .ok rc ∧
        (rc = .u32 ∨ rc = .bool ∨ ∃ e, .enum e ∈ file.types ∧ rc = .path e.name)) ∧
      rc.meaning file.constants = some disc ∧
      (∀ l k, (l, k) ∈ body.labels.zip ks → ∃ (a : Str) (id : RIdent) (ts : List Ty) (i : Nat),
        l.1 = .identifier a ∧ upper_camel_case_ident a = .ok id ∧
        vars[i]? = some (id.str, some (disc :: ts)) ∧
        ArmTypes (setup_context ds cfg) n file.constants file.enums l.2 ts ∧
        ∀ dv, IsNumber file disc dv k → impl.name_by_value dv = .ok id.str) ∧
      (∀ j, j ∉ ks → ∀ dv, IsNumber file disc dv j → impl.name_by_value dv =
        if body.default.isSome then .ok "Default" else .err .convert) ∧
      (∀ d, body.default = some d → ∃ (i : Nat) (ts : List Ty), vars[i]? = some ("Default", some (disc :: ts)) ∧
        DefaultTypes (setup_context ds cfg) n file.constants d ts) := by
  obtain ⟨u, acc, cs, dflt, d, hmem, h1, hcs, h2, h3, h4, -, h5, hd1, hd2⟩ :=
    union_item hwf hu hg hd hm hcond hlab
  have hnc : (setup_context ds cfg).config.union_complement_index = false := by
    show cfg.union_complement_index = false
    simp [Config.union_complement_index, hcu]
  have hun : (setup_context ds cfg).config.union_impl_union = true := hcu
  have hs : u.derive = .union := by simp [h3, hci, hcu]
  obtain ⟨hnd, un, vars, rc, disc, hix, hvars, hrc, hfits, hbool, hdisc, rfl⟩ := union_meaning_union hd1 hs
  rw [if_pos hcu] at h5
  rw [h5] at hix
  cases hix
  simp only at hrc hfits hbool
  have hf := variantsMeaning_ok hvars
  have hav := hcs.variants hnc
  have hfind : ∀ j dv, IsNumber file disc dv j →
      (∀ c, (c, j) ∈ cs → ∃ p, (acc.byValue.find? fun p => p.1.matches file.enums dv) = some p ∧
        p.2 = c.variant) ∧
      (j ∉ cs.map (·.2) → (acc.byValue.find? fun p => p.1.matches file.enums dv) = none) := by
    intro j dv hj
    refine find_number (m := fun p => p.matches file.enums dv) hcs.sorted ?_
    have hbv := hcs.byValue
    have hbv' : List.Forall₂ (fun (c : CaseTok × Int) (p : Pat × Tok) => p ∈ acc.byValue ∧ (p.2 = c.1.variant ∧
      ∃ l, (l, c.2) ∈ body.labels.zip ks ∧
        convert_case_token (setup_context ds cfg) n l.1 l.2 cond = .ok c.1 ∧
        IsPat (setup_context ds cfg) cond l.1 c.2 p.1)) cs acc.byValue := by
      exact forall₂_mem_and hbv
    refine hbv'.imp fun c p hh => ?_
    obtain ⟨hpm, h6, l, hl, -, hpat⟩ := hh
    refine ⟨h6, ?_⟩
    exact pat_matches hwf hu hen hg hd (forall₂_zip hlab.selects hl) hpat (hfits p hpm) hdisc hj
  refine ⟨u.name, vars, _, disc, rc, h1, hd2, names_nodup hvars hnd, ?_, hdisc, ?_, ?_, ?_⟩
  · intro hne
    obtain ⟨l, hl⟩ := List.exists_mem_of_ne_nil _ hne
    obtain ⟨k, hk⟩ := zip_mem_left hlab.selects.length_eq hl
    obtain ⟨c, hck, hcv⟩ := hcs.all l k hk
    have := hcs.cond_ty _ hck
    rw [hrc] at this
    cases this
    obtain ⟨o, -, g2, -⟩ := convert_case_ok hcv
    refine ⟨g2, ?_⟩
    obtain ⟨p, hp, -⟩ := forall₂_mem_left hcs.byValue hck
    have hf := hfits p hp
    cases hp1 : p.1 with
    | path c v =>
      rw [hp1] at hf
      simp only [Pat.fits] at hf
      split at hf
      · next e he =>
        simp only [decide_eq_true_eq] at hf
        have hmem := List.mem_of_find?_eq_some he
        have hname := List.find?_some he
        simp only [decide_eq_true_eq] at hname
        refine .inr (.inr ⟨e, ?_, by rw [hf.1, hname]⟩)
        simp only [RustFile.enums, List.mem_filterMap] at hmem
        obtain ⟨it, hit, hie⟩ := hmem
        cases it <;> simp_all
      · cases hf
    | lit k =>
      rw [hp1] at hf
      exact .inl (by simpa [Pat.fits] using hf)
    | bool b =>
      rw [hp1] at hf
      exact .inr (.inl (by simpa [Pat.fits] using hf))
  · intro l k hlk
    obtain ⟨c, hck, hcv⟩ := hcs.all l k hlk
    obtain ⟨i, hi⟩ := List.mem_iff_getElem?.1 hck
    have hi' : acc.variants[i]? = some c.value := by
      rw [hav, List.getElem?_map, hi]
      rfl
    have hiu : u.variants[i]? = some c.value := by
      rw [h4, List.getElem?_append_left (List.getElem?_eq_some_iff.1 hi').1]
      exact hi'
    obtain ⟨⟨vn, fs⟩, hv, id, hid1, -, hid2, hsh⟩ := forall₂_get hf hiu
    simp only at hid2 hsh
    subst hid2
    obtain ⟨o, g1, -, -, g4, -⟩ := convert_case_ok hcv
    rw [g4] at hid1
    obtain ⟨a, ha1, ha2⟩ := case_label g1 hid1
    obtain ⟨ts, hts1, hts2⟩ := case_types hcv hnc file.enums hsh
    rw [hun] at hts2
    simp only [if_true] at hts2
    obtain ⟨disc', hdisc', rfl⟩ := hts2
    have := hcs.cond_ty _ hck
    rw [hrc] at this
    cases this
    rw [hdisc] at hdisc'
    cases hdisc'
    refine ⟨a, id, ts, i, ha1, ha2, hv, hts1, fun dv hdv => ?_⟩
    obtain ⟨p, hp1, hp2⟩ := (hfind k dv hdv).1 c hck
    obtain ⟨p1, p2⟩ := p
    simp only at hp2
    simp only [unionUnionImpl, hp1, hp2, hid1, Tok.str]
  · intro j hjk dv hdv
    have hnone := (hfind j dv hdv).2 (by
      rw [List.mem_map]
      rintro ⟨⟨c, k⟩, hck, rfl⟩
      obtain ⟨l, hl, -⟩ := hcs.from_label c k hck
      exact hjk (List.of_mem_zip hl).2)
    simp only [unionUnionImpl, hnone]
    cases cond with
    | bool =>
      exfalso
      have hb := hbool rfl
      have hcb : disc = .bool := by
        obtain ⟨p, hp, hpe⟩ := List.mem_map.1 hb.1
        have hx := hfits p hp
        rw [hpe] at hx
        simp only [Pat.fits, decide_eq_true_eq] at hx
        subst hx
        cases hdisc
        rfl
      subst hcb
      cases dv with
      | bool b =>
        have hmem : Pat.bool b ∈ acc.byValue.map (·.1) := by
          cases b
          · exact hb.2
          · exact hb.1
        obtain ⟨p, hp, hpe⟩ := List.mem_map.1 hmem
        have := List.find?_eq_none.1 hnone p hp
        rw [hpe] at this
        simp [Pat.matches] at this
      | _ => simp [IsNumber] at hdv
    | _ => cases body.default <;> rfl
  · intro dd hdd
    rw [hdd] at h2
    obtain ⟨o, v, ho, hv, hva, hvn, hvf⟩ := unionDefault_some h2
    rw [hv] at h4
    have hv' : u.variants[acc.variants.length]? = some v := by
      rw [h4]
      simp
    obtain ⟨⟨vn, fs⟩, hr, id, hid1, -, hid2, hsh⟩ := forall₂_get hf hv'
    simp only at hid2 hsh
    rw [hvn] at hid1
    simp only [defaultTok, Tok.ident.injEq] at hid1
    subst hid1
    rw [hun, hrc] at hvf
    simp only [if_true, Option.toList_some] at hvf
    obtain ⟨ts, hts, -, hfs⟩ := default_types hsh hvf
    have hfs := hfs (by simp)
    simp only [List.singleton_append, tysMeaning, hdisc] at hts
    split at hts
    · next t ts' e1 e2 =>
      cases e1
      cases hts
      refine ⟨acc.variants.length, ts', ?_, defaultTypes_of ho e2⟩
      rw [hr, hid2, hfs]
      rfl
    · cases hts

end Xdr.Rpcgen
