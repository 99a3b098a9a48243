import Verif.RpcgenProofs.Needed
/-!
# What source that compiles says about the interface: each condition
-/

namespace Xdr.Rpcgen

/-! ## Constants -/

theorem eval_of_constValue {cs : List ConstItem} {t : IntTy} {n : Nat} {tok : Tok} {v : Int}
    (h : constValue cs t n tok = some v) : ConstEval cs t tok v := by
  induction n generalizing tok with
  | zero => cases h
  | succ n ih =>
    cases tok with
    | lit t' k =>
      simp only [constValue] at h
      split at h
      · next ht =>
        cases h
        subst ht
        exact .lit
      · cases h
    | ident i =>
      simp only [constValue] at h
      split at h
      · next c hc =>
        split at h
        · next ht =>
          subst ht
          exact .name hc (ih h)
        · cases h
      · cases h

section
variable {ds : List Definition} {cfg : Config} {n : Nat} {file : RustFile} {defs : List (String × Def)} {src : Str}

theorem needed_distinct (hd : List.Forall₂ DeclaredAs (constants ds) file.constants)
    (hdefs : file.defs = some defs) : ((constants ds).map (·.identifier)).Nodup := by
  have hc := (constantsOk_iff.1 (namesOk_iff.1 (defs_ok hdefs).1).2.2.2).1
  have he : file.constants.map (·.name.str) = ((constants ds).map (·.identifier)).map String.ofList := by
    clear hc
    generalize constants ds = l at hd
    generalize file.constants = cs at hd
    induction hd with
    | nil => rfl
    | cons h _ ih =>
      simp only [List.map_cons, ih]
      rw [declared_name h]
      rfl
  rw [he] at hc
  exact hc.of_map

theorem needed_constants (hd : List.Forall₂ DeclaredAs (constants ds) file.constants)
    (hdefs : file.defs = some defs) : ∀ a ∈ constants ds, rust_reserved a.identifier = false ∧ a.identifier ≠ c!"_" ∧
    ∃ k, ThroughConstants ds a.value k ∧ ((∃ name, a.value = .identifier name) → k < 2 ^ 32) := by
  intro a ha
  obtain ⟨c, hc, hac⟩ := forall₂_mem_left hd ha
  obtain ⟨h1, h2⟩ := (constantsOk_iff.1 (namesOk_iff.1 (defs_ok hdefs).1).2.2.2).2 c hc
  obtain ⟨k, hk⟩ := Option.isSome_iff_exists.1 h2
  rw [declared_name hac] at h1
  simp only [RIdent.usable, Bool.false_or, Bool.and_eq_true, Bool.not_eq_true', bne_iff_ne] at h1
  exact ⟨h1.1, h1.2, k, (eval_iff hd hac).1 (eval_of_constValue hk)⟩

/-! ## Lengths -/

theorem taken_len {ty : RTy} {len : Tok} {cast : Bool} (h : Taken file (.array ty len cast)) :
    ∃ k, arrayLen file.constants len cast = some k ∧ k ≤ 32 := by
  obtain ⟨⟨t, ht⟩, -⟩ := h
  simp only [RTy.meaning, Option.bind_eq_some_iff, arrayTy] at ht
  obtain ⟨_, _, ht⟩ := ht
  split at ht
  · next k hk =>
    split at ht
    · next hle => exact ⟨k, hk, hle⟩
    · cases ht
  · cases ht

theorem used_sub {b : UnionBody} {l : Value × Declaration} (h : l ∈ b.used) : l ∈ b.labels := by
  unfold UnionBody.used at h
  split at h
  · rcases List.mem_append.1 h with h | h <;>
      exact List.mem_of_find?_eq_some (Option.mem_toList.1 h)
  · exact h

theorem Shown.declIn {d : Declaration} (h : Shown ds cfg d) : DeclIn ds d := by
  cases h with
  | member h => exact .inr (.inl h)
  | arm hm hl _ _ => exact .inr (.inr (.inl ⟨_, _, _, hm, used_sub hl⟩))
  | default h _ => exact .inr (.inr (.inr (.inl h)))
  | typedef _ _ ht _ => exact typedefIn_of ht

theorem shown_literal (hwf : WellFormed ds) {d : Declaration} (h : Shown ds cfg d) {c : Constant}
    (hc : .number c ∈ d.atoms) : ∃ s, ConstantText c s :=
  hwf (.number c) (declIn_atoms h.declIn _ hc)

theorem needed_lengths (hp : parse src = .ok ds) (hrt : cfg.remove_typedef = true) (hg : gen_code n ds cfg = .ok file)
    (hdefs : file.defs = some defs) : ∀ ts nm v, Shown ds cfg (.fixedArray ts nm v) →
      ∃ c, v = .constant c ∧ c.number ≤ 32 := by
  intro ts nm v h
  obtain ⟨ty, op, hd, ht⟩ := shown_taken hp hrt hg hdefs h
  cases hd with
  | fixedArray hs hl =>
    obtain ⟨k, hk, hle⟩ := taken_len ht
    cases v with
    | identifier i =>
      cases hl
      simp [arrayLen] at hk
    | constant c =>
      rw [len_literal hl (shown_literal (wellFormed_parse hp) h (by simp [Declaration.atoms, Value.atoms]))] at hk
      cases hk
      exact ⟨c, rfl, by omega⟩

theorem needed_opaqueLengths (hp : parse src = .ok ds) (hrt : cfg.remove_typedef = true)
    (hg : gen_code n ds cfg = .ok file) (hdecl : List.Forall₂ DeclaredAs (constants ds) file.constants)
    (hdefs : file.defs = some defs) : ∀ nm v, Shown ds cfg (.opaqueFixedArray nm v) →
      ∃ k, ThroughConstants ds v k ∧ k ≤ 32 := by
  intro nm v h
  obtain ⟨ty, op, hd, ht⟩ := shown_taken hp hrt hg hdefs h
  cases hd with
  | opaqueFixed hl =>
    obtain ⟨k, hk, hle⟩ := taken_len ht
    cases v with
    | identifier i =>
      cases hl with
      | @name _ id hid =>
        simp only [arrayLen, if_true] at hk
        split at hk
        · next c hc =>
          simp only [Option.map_eq_some_iff] at hk
          obtain ⟨k', hk', rfl⟩ := hk
          have hcn := List.find?_some hc
          simp only [decide_eq_true_eq] at hcn
          obtain ⟨a, ha, hac⟩ := forall₂_mem_right hdecl (List.mem_of_find?_eq_some hc)
          have hidn : id = ⟨false, i⟩ := by
            rcases mkIdent_ok hid with ⟨h1, -⟩ | ⟨h1, h2⟩
            · rw [← hcn, declared_name hac] at h1
              cases h1
            · cases id
              simp only at h1 h2
              rw [h1, h2]
          subst hidn
          have hf := declared_find hdecl i
          split at hf
          · rw [hf] at hc
            cases hc
          · next b hb =>
            obtain ⟨c', h1, h2⟩ := hf
            rw [hc] at h1
            cases h1
            refine ⟨k', .name ?_ ((eval_iff hdecl h2).1 (eval_of_constValue hk')).1, by omega⟩
            rw [constOf_find, hb]
            rfl
        · cases hk
    | constant c =>
      rw [len_literal hl (shown_literal (wellFormed_parse hp) h (by simp [Declaration.atoms, Value.atoms]))] at hk
      cases hk
      exact ⟨_, .literal c, by omega⟩

/-! ## Opaque data -/

theorem IsOpaque.plain {d : Declaration} (h : IsOpaque ds d) : ∀ {ty}, DeclType ds true d ty .variable →
    PlainOpaque ds d := by
  induction h with
  | fixed =>
    intro ty hd
    cases hd
  | «variable» =>
    intro ty hd
    exact .direct
  | typedef ht _ ih =>
    intro ty hd
    cases hd with
    | «variable» hs => exact .typedef ht (ih (spec_typedef ht hs))

theorem fieldMeaning_opaque {cs : List ConstItem} {enums : List EnumItem} {op : OpaqueType} {t : RTy} {ty : Ty}
    (h : fieldMeaning cs enums op.attr t = some ty) (hop : op ≠ .none) :
    (op = .fixed ∧ ∃ len cast, t = .array .u8 len cast) ∨ (op = .variable ∧ t = .vec .u8) := by
  generalize ha : op.attr = a at h
  unfold fieldMeaning at h
  split at h
  · cases op <;> cases ha
    exact absurd rfl hop
  · cases op <;> cases ha
    exact .inl ⟨rfl, _, _, rfl⟩
  · cases op <;> cases ha
    exact .inr ⟨rfl, rfl⟩
  · cases op <;> cases ha
  · cases h

theorem needed_fixedArrays (hp : parse src = .ok ds) (hrt : cfg.remove_typedef = true)
    (hg : gen_code n ds cfg = .ok file) (hdefs : file.defs = some defs) :
    ∀ ts nm v, Marked ds cfg (.fixedArray ts nm v) → ¬ IsOpaque ds (.variable ts nm) := by
  intro ts nm v h ho
  obtain ⟨ty, op, hd, ht⟩ := marked_taken hp hrt hg hdefs h
  cases hd with
  | fixedArray hs hl =>
    have hop := ho.op (.variable hs)
    obtain ⟨t, ht⟩ := ht hop
    rcases fieldMeaning_opaque ht hop with ⟨-, len, cast, he⟩ | ⟨-, he⟩
    · exact hop (SpecType.u8 hs (RTy.array.inj he).1)
    · cases he

theorem needed_pointers (hp : parse src = .ok ds) (hrt : cfg.remove_typedef = true)
    (hg : gen_code n ds cfg = .ok file) (hdefs : file.defs = some defs) :
    ∀ ts nm, Marked ds cfg (.optionVariable ts nm) → ¬ IsOpaque ds (.variable ts nm) := by
  intro ts nm h ho
  obtain ⟨ty, op, hd, ht⟩ := marked_taken hp hrt hg hdefs h
  cases hd with
  | option hs =>
    have hop := ho.op (.variable hs)
    obtain ⟨t, ht⟩ := ht hop
    rcases fieldMeaning_opaque ht hop with ⟨-, len, cast, he⟩ | ⟨-, he⟩ <;> cases he

theorem needed_arrays (hp : parse src = .ok ds) (hrt : cfg.remove_typedef = true)
    (hg : gen_code n ds cfg = .ok file) (hdefs : file.defs = some defs) :
    ∀ ts nm m, Marked ds cfg (.variableArray ts nm m) → IsOpaque ds (.variable ts nm) →
      PlainOpaque ds (.variable ts nm) := by
  intro ts nm m h ho
  obtain ⟨ty, op, hd, ht⟩ := marked_taken hp hrt hg hdefs h
  cases hd with
  | variableArray hs hne =>
    have hop := ho.op (.variable hs)
    obtain ⟨t, ht⟩ := ht hop
    rcases fieldMeaning_opaque ht hop with ⟨-, len, cast, he⟩ | ⟨he, -⟩
    · cases he
    · exact absurd he hne
  | opaqueArray hs => exact ho.plain (.variable hs)

theorem needed_enumMembers (hrt : cfg.remove_typedef = true)
    (hg : gen_code n ds cfg = .ok file) (hdefs : file.defs = some defs) (hstd : cfg.enum_impl_std_trait = true) :
    ∀ d name e as, MemberIn ds d → d.element = some (.identifier name) → typeOf ds name = some (.enum e as) →
    ∃ nm, d = .variable (.identifier name) nm := by
  rintro d name e as ⟨sn, ms, hm, hd⟩ hel ht
  obtain ⟨s, hs, hmem⟩ := gen_code_struct hg hm
  obtain ⟨-, hfs⟩ := convert_struct_ok hs
  obtain ⟨r, hr, h1⟩ := forall₂_mem_left hfs hd
  obtain ⟨f, ts, ty, op, hf, hts, hty, -, hr2, hr1⟩ := convertField_ok h1
  obtain ⟨-, -, t, htk⟩ := (struct_taken hdefs hmem).2 r hr
  have hdt : DeclType ds true d ty op := hrt ▸ decl_sound hty
  have hname : e = name := by
    have := (typeOf_mem ht).2
    cases this
    rfl
  subst hname
  have htse : ts = .identifier e := by
    cases d <;> simp_all [Declaration.element, Declaration.type_specifier]
  subst htse
  have hspec : ∀ {ty' op'}, SpecType ds true (.identifier e) ty' op' → op' = .none := by
    intro ty' op' h
    cases h with
    | typedef _ h' _ =>
      rw [ht] at h'
      cases h'
    | name => rfl
  have hisen : (setup_context ds cfg).is_enum_type (.identifier e) = true := by
    simp only [Context.is_enum_type, List.any_eq_true]
    exact ⟨_, mem_typedefs_enum (typeOf_mem ht).1, by simp⟩
  have hpath : op = .none → ∃ i, r.2.2 = .path i := by
    rintro rfl
    rw [hr1] at htk
    simp only [show (setup_context ds cfg).config = cfg from rfl, hstd, hisen, Bool.and_self, if_true] at htk
    unfold fieldMeaning at htk
    split at htk
    all_goals first | contradiction | cases htk | skip
    next i heq => exact ⟨_, heq⟩
  cases hdt with
  | «variable» hs =>
    cases hel
    exact ⟨_, rfl⟩
  | fixedArray hs _ =>
    cases hel
    obtain ⟨i, hi⟩ := hpath (hspec hs)
    rw [hr2] at hi
    split at hi <;> cases hi
  | variableArray hs _ =>
    cases hel
    obtain ⟨i, hi⟩ := hpath (hspec hs)
    rw [hr2] at hi
    split at hi <;> cases hi
  | opaqueArray hs =>
    cases hel
    exact absurd (hspec hs) (by simp)
  | option hs =>
    cases hel
    obtain ⟨i, hi⟩ := hpath (hspec hs)
    rw [hr2] at hi
    split at hi <;> cases hi
  | opaqueFixed _ => cases hel
  | opaqueVar => cases hel
  | string => cases hel

/-! ## Names -/

theorem needed_types (hrt : cfg.remove_typedef = true) (hg : gen_code n ds cfg = .ok file)
    (hdefs : file.defs = some defs) : ((itemNames ds).map upper_camel_case).Nodup := by
  have h := (namesOk_iff.1 (defs_ok hdefs).1).1
  have he : file.types.map (·.name.str) = (file.types.map Item.name).map RIdent.str := by
    rw [List.map_map]
    rfl
  rw [he] at h
  have h := h.of_map
  rw [file_names hrt hg] at h
  exact h.of_map

theorem item_of_name (hrt : cfg.remove_typedef = true) (hg : gen_code n ds cfg = .ok file) {name : Str}
    (h : name ∈ itemNames ds) : ∃ i ∈ file.types, i.name = ⟨false, upper_camel_case name⟩ := by
  have : (⟨false, upper_camel_case name⟩ : RIdent) ∈ file.types.map Item.name := by
    rw [file_names hrt hg]
    exact List.mem_map_of_mem (List.mem_map_of_mem h)
  exact List.mem_map.1 this

theorem needed_shadow (hrt : cfg.remove_typedef = true) (hg : gen_code n ds cfg = .ok file)
    (hdefs : file.defs = some defs) : ∀ name ∈ itemNames ds, upper_camel_case name ≠ c!"Self" ∧
      upper_camel_case name ∉ importedNames := by
  intro name h
  obtain ⟨i, hi, hin⟩ := item_of_name hrt hg h
  obtain ⟨h1, h2⟩ := (namesOk_iff.1 (defs_ok hdefs).1).2.1 i hi
  rw [hin] at h1 h2
  refine ⟨fun he => ?_, h2⟩
  rw [he] at h1
  revert h1
  decide +kernel

theorem needed_defined (hp : parse src = .ok ds) (hrt : cfg.remove_typedef = true) (hg : gen_code n ds cfg = .ok file)
    (hdefs : file.defs = some defs) : ∀ d name, Shown ds cfg d → d.element = some (.identifier name) →
      typeOf ds name = none → ∃ other ∈ itemNames ds, upper_camel_case other = upper_camel_case name := by
  intro d name h he hn
  obtain ⟨ty, op, hd, ht⟩ := shown_taken hp hrt hg hdefs h
  have hspec : ∀ {ty' op'}, SpecType ds true (.identifier name) ty' op' →
      op' = .none ∧ ty' = .path ⟨false, upper_camel_case name⟩ := by
    intro ty' op' h
    cases h with
    | typedef _ h' _ =>
      rw [hn] at h'
      cases h'
    | name _ hid => exact ⟨rfl, by rw [camel_plain hid]⟩
  have key : (⟨false, upper_camel_case name⟩ : RIdent) ∈ ty.paths → ∃ other ∈ itemNames ds,
      upper_camel_case other = upper_camel_case name := by
    intro hm
    obtain ⟨other, h1, h2⟩ := item_camel hrt hg (ht.2 _ hm)
    exact ⟨other, h1, h2.symm⟩
  refine key ?_
  cases hd with
  | «variable» hs | fixedArray hs _ | variableArray hs _ | option hs =>
    cases he
    rw [(hspec hs).2]
    simp [RTy.paths]
  | opaqueArray hs =>
    cases he
    exact absurd (hspec hs).1 (by simp)
  | opaqueFixed _ => cases he
  | opaqueVar => cases he
  | string => cases he

end

end Xdr.Rpcgen
