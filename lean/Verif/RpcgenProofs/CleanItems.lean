import Verif.RpcgenProofs.CleanNames
import Verif.RpcgenProofs.Bare
/-!
# Enums and structures of a file whose source compiles
-/

namespace Xdr.Rpcgen

/-! ## Enums -/

theorem enumLoop_each {c : Bool} {l : List (Int × Assign)} {s : Int}
    {steps : List (List (RIdent × Int) × RIdent × Int)} (h : enumLoop c l s = .ok steps) :
    ∀ v ∈ steps.flatMap fun st => st.1 ++ [st.2],
      (∃ p ∈ l, upper_camel_case_ident p.2.identifier = .ok v.1 ∧ v.2 = p.1) ∨
      v.1 = ⟨false, c!"_Reserved" ++ intToString v.2⟩ := by
  induction l generalizing s steps with
  | nil =>
    cases h
    simp
  | cons p l ih =>
    obtain ⟨e, a⟩ := p
    simp only [enumLoop, GR.bind_eq_ok] at h
    obtain ⟨r, hr, i, hi, h⟩ := h
    split at h
    · cases h
    · simp only [GR.bind_eq_ok, GR.ok.injEq] at h
      obtain ⟨rest, hrest, rfl⟩ := h
      intro v hv
      rw [List.flatMap_cons, List.mem_append, List.mem_append] at hv
      rcases hv with (hv | hv) | hv
      · right
        split at hr
        · obtain ⟨j, -, hj⟩ := forall₂_mem_right (GR.mapM_ok.1 hr) hv
          simp only [GR.bind_eq_ok, GR.ok.injEq] at hj
          obtain ⟨q, hq, rfl⟩ := hj
          obtain ⟨h5, h6⟩ := reservedIdent_ok hq
          cases q
          simp only at h5 h6 ⊢
          rw [h5, h6]
        · cases hr
          cases hv
      · left
        simp only [List.mem_singleton] at hv
        subst hv
        exact ⟨_, List.mem_cons_self, hi, rfl⟩
      · rcases ih hrest v hv with ⟨p, hp, h1⟩ | h1
        · exact .inl ⟨p, List.mem_cons_of_mem _ hp, h1⟩
        · exact .inr h1

theorem consecutive_nodup {s : Int} {l : List Int} (h : Consecutive s l) : l.Nodup := by
  rw [List.nodup_iff_injective_getElem]
  intro i j hij
  simp only at hij
  have h1 := h i _ (List.getElem?_eq_getElem i.2)
  have h2 := h j _ (List.getElem?_eq_getElem j.2)
  ext
  omega

/-- An enum whose members have different names and numbers. -/
theorem clean_enum {ds : List Definition} (hwf : WellFormed ds) {cfg : Config} {n : Nat} {name : Str}
    {as : List Assign} {e : EnumItem} (hm : .type (.enum name as) ∈ ds) {ks : List Int} (hks : Numbered ds as ks)
    (hl : LabelNames false (as.map (·.identifier)))
    (h : convert_enum_token (setup_context ds cfg) n name as = .ok e) : e.meaning.isSome := by
  have hok := members_ok hwf hm
  have hr : ∀ k ∈ ks, IntTy.i32.min ≤ k ∧ k ≤ IntTy.i32.max := hks.range
  obtain ⟨ms, -, -, hsort, -, -, hcons, -, hnoc, -, hder, -, -, hix, -⟩ :=
    enum_members hwf hok hks.stands hks.distinct hr h
  have hnum : (e.variants.map (·.2)).Nodup := by
    cases hcx : cfg.enum_complement_index with
    | false =>
      rw [hnoc hcx]
      exact pairwise_lt_nodup hsort
    | true =>
      by_cases hneg : ∃ k ∈ ks, k < 0
      · obtain ⟨k, hk, hk0⟩ := hneg
        obtain ⟨lo, -, -, -, hlo⟩ := enum_consecutive_neg hwf hok hks.stands hks.distinct hr h hcx hk hk0
        exact consecutive_nodup hlo
      · exact consecutive_nodup (hcons hcx fun k hk => by
          by_contra hk0
          exact hneg ⟨k, hk, by omega⟩)
  obtain ⟨indexed, steps, h1, -, h3, -, -, h5, -⟩ := convert_enum_ok h
  have hidx := enumIndexed_numbers hwf hok hks.stands hr h1
  subst hidx
  have hlen := hks.stands.length_eq
  have heach : ∀ v ∈ e.variants, (∃ p ∈ ks.zip as, v = (⟨false, upper_camel_case p.2.identifier⟩, p.1)) ∨
      v.1 = ⟨false, c!"_Reserved" ++ intToString v.2⟩ := by
    intro v hv
    rw [h5] at hv
    rcases enumLoop_each h3 v hv with ⟨p, hp, hc, hk⟩ | h
    · refine .inl ⟨p, mem_sortByKey.1 hp, ?_⟩
      cases v
      simp only at hc hk
      rw [camel_plain hc, hk]
    · exact .inr h
  have hzip : ((ks.zip as).map fun p => upper_camel_case p.2.identifier).Nodup := by
    have h6 := hl.distinct
    have : (ks.zip as).map (fun p => upper_camel_case p.2.identifier) =
        (((ks.zip as).map Prod.snd).map (·.identifier)).map upper_camel_case := by
      simp [List.map_map, Function.comp_def]
    rw [this, List.map_snd_zip (by omega)]
    exact h6
  have hnames : (e.variants.map (·.1.str)).Nodup := by
    refine nodup_by hnum fun x hx y hy he => ?_
    rcases heach x hx with ⟨p, hp, rfl⟩ | hx' <;> rcases heach y hy with ⟨q, hq, rfl⟩ | hy'
    · have := List.inj_on_of_nodup_map hzip hp hq (plain_str.1 he)
      rw [this]
    · rw [hy'] at he
      exact absurd he.symm reserved_camel
    · rw [hx'] at he
      exact absurd he reserved_camel
    · rw [hx', hy'] at he
      exact reserved_str he
  have huse : ∀ v ∈ e.variants, v.1.usable = true := by
    intro v hv
    rw [h5] at hv
    rcases enumLoop_each h3 v hv with ⟨p, hp, hc, -⟩ | hc
    · refine camel_usable hc (hl.keyword _ (List.mem_map_of_mem ?_))
      exact (List.of_mem_zip (mem_sortByKey.1 hp)).2
    · rw [hc]
      exact reserved_usable _
  unfold EnumItem.meaning
  rw [if_pos ⟨hnames, hnum, huse⟩]
  split
  · next hd =>
    rw [hder] at hd
    rw [hix, if_pos hd]
    rfl
  · rfl

/-! ## Structures -/

theorem word_hash {s : Str} (h : ∀ c ∈ s, isWord c = true) : '#' ∉ snake_case s := by
  intro hs
  have h1 : '#' ∈ (snake_case s).filter (· ≠ '_') := List.mem_filter.2 ⟨hs, by decide⟩
  rw [snake_case_letters] at h1
  obtain ⟨c, hc, he⟩ := List.mem_map.1 h1
  have hw := h c (List.mem_filter.1 hc).1
  have : toLower c ≠ '#' := by
    intro he
    have h2 := congrArg Char.toNat he
    rw [toLower_toNat] at h2
    have h35 : ('#').toNat = 35 := rfl
    split at h2
    · next hu =>
      have := isUpper_iff.1 hu
      omega
    · have : c = '#' := Char.toNat_inj.1 h2
      rw [this] at hw
      exact absurd hw (by decide)
  exact this he

/-- The name of a field. -/
theorem field_text {f : Str} (hf : Ident f) {i : RIdent} (h : fieldIdent f = .ok i) :
    (rust_reserved f = true ∧ i.raw = true ∧ ∃ s, i.name = s ∧ snake_case (c!"r#" ++ f) = 'r' :: '#' :: s) ∨
    (rust_reserved f = false ∧ i = ⟨false, snake_case f⟩) := by
  cases hr : rust_reserved f with
  | true =>
    left
    unfold rust_reserved at hr
    have hraw := keyword_raw (List.contains_iff_mem.1 hr) h
    unfold fieldIdent snake_case_ident at h
    unfold rust_reserved at h
    rw [if_pos hr] at h
    rcases mkIdent_ok h with ⟨-, h2⟩ | ⟨h1, -⟩
    · exact ⟨rfl, hraw, _, rfl, h2⟩
    · rw [hraw] at h1
      cases h1
  | false =>
    right
    unfold fieldIdent snake_case_ident at h
    rw [hr] at h
    rcases mkIdent_ok h with ⟨-, h2⟩ | ⟨h1, h2⟩
    · exfalso
      exact word_hash (ident_words hf) (by rw [if_neg (by simp)] at h2; rw [h2]; simp)
    · refine ⟨rfl, ?_⟩
      cases i
      simp only at h1 h2
      rw [h1, h2, if_neg (by simp)]

theorem keywords_snake {f g : Str} (hf : rust_reserved f = true) (hg : rust_reserved g = true)
    (h : snake_case (c!"r#" ++ f) = snake_case (c!"r#" ++ g)) : snake_case f = snake_case g := by
  have : (KEYWORDS_RUST.all fun f => KEYWORDS_RUST.all fun g =>
    decide (snake_case (c!"r#" ++ f) = snake_case (c!"r#" ++ g) → snake_case f = snake_case g)) = true := by
    decide +kernel
  unfold rust_reserved at hf hg
  have := List.all_eq_true.1 (List.all_eq_true.1 this f (List.contains_iff_mem.1 hf)) g (List.contains_iff_mem.1 hg)
  simp only [decide_eq_true_eq] at this
  exact this h

theorem field_str {f g : Str} (hf : Ident f) (hg : Ident g) {i j : RIdent} (hi : fieldIdent f = .ok i)
    (hj : fieldIdent g = .ok j) (h : i.str = j.str) : snake_case f = snake_case g := by
  have h' : i.text = j.text := String.ofList_injective h
  rcases field_text hf hi with ⟨h1, h2, s, h3, h4⟩ | ⟨h1, rfl⟩ <;>
    rcases field_text hg hj with ⟨g1, g2, t, g3, g4⟩ | ⟨g1, rfl⟩
  · refine keywords_snake h1 g1 ?_
    rw [h4, g4, ← h3, ← g3]
    simpa [RIdent.text, h2, g2] using h'
  · exfalso
    refine word_hash (ident_words hg) ?_
    have : snake_case g = i.text := by rw [h']; rfl
    rw [this]
    simp [RIdent.text, h2]
  · exfalso
    refine word_hash (ident_words hf) ?_
    have : snake_case f = j.text := by rw [← h']; rfl
    rw [this]
    simp [RIdent.text, g2]
  · exact h'

theorem fieldsMeaning_isSome {cs : List ConstItem} {enums : List EnumItem} {fs : List (Attr × RIdent × RTy)}
    (h : ∀ f ∈ fs, f.2.1.usable = true ∧ (fieldMeaning cs enums f.1 f.2.2).isSome) :
    (fieldsMeaning cs enums fs).isSome := by
  induction fs with
  | nil => rfl
  | cons f fs ih =>
    obtain ⟨a, i, t⟩ := f
    obtain ⟨h1, h2⟩ := h _ List.mem_cons_self
    obtain ⟨x, hx⟩ := Option.isSome_iff_exists.1 h2
    obtain ⟨y, hy⟩ := Option.isSome_iff_exists.1 (ih fun f hf => h f (List.mem_cons_of_mem _ hf))
    simp only at h1 hx
    simp only [fieldsMeaning, h1, if_true, hx, hy]
    rfl

/-- The members of a structure are declarations of the file. -/
theorem member_in {ds : List Definition} {s : Str} {ms : List Declaration} (hm : .type (.struct s ms) ∈ ds)
    {d : Declaration} (hd : d ∈ ms) : MemberIn ds d := ⟨s, ms, hm, hd⟩

theorem member_ident {ds : List Definition} (hwf : WellFormed ds) {s : Str} {ms : List Declaration}
    (hm : .type (.struct s ms) ∈ ds) {d : Declaration} (hd : d ∈ ms) {f : Str} (hf : d.name = some f) : Ident f := by
  have : Atom.ident f ∈ d.atoms := by
    cases d <;> simp_all [Declaration.name, Declaration.atoms]
  exact hwf _ (mem_atoms_struct hm hd this)

theorem spec_struct_op {ds : List Definition} {s : Str} {nm : Str} {ms : List Declaration}
    (ht : typeOf ds s = some (.struct nm ms)) {ty : RTy} {op : OpaqueType}
    (h : SpecType ds true (.identifier s) ty op) : op = .none := by
  cases h with
  | typedef _ h1 _ =>
    rw [ht] at h1
    cases h1
  | name _ _ => rfl

theorem isName_iff {ts : TypeSpecifier} {s : Str} : ts.isName s = true ↔ ts = .identifier s := by
  cases ts <;> simp [TypeSpecifier.isName]

/-- A structure with members of different names. -/
theorem clean_struct {ds : List Definition} (hwf : WellFormed ds) {cfg : Config} (hc : Clean ds cfg)
    (hrt : cfg.remove_typedef = true) {n : Nat} {file : RustFile} (hg : gen_code n ds cfg = .ok file)
    (hd : List.Forall₂ DeclaredAs (constants ds) file.constants) (hok : file.namesOk = true) {name : Str} {ms : List Declaration} {s : StructItem}
    (hm : .type (.struct name ms) ∈ ds)
    (h : convert_struct_token (setup_context ds cfg) n name ms = .ok s) :
    (s.meaning file.constants file.enums).isSome := by
  obtain ⟨-, hfs⟩ := convert_struct_ok h
  have hfields := hc.fields name ms hm
  -- the names
  have hnames : (s.fields.map (·.2.1.str)).Nodup := by
    obtain ⟨hnd, -⟩ := hfields
    have hid : ∀ d ∈ ms, ∀ f, d.name = some f → Ident f := fun d hd f hf => member_ident hwf hm hd hf
    clear hd h hok
    generalize s.fields = fs at hfs
    clear hm
    induction hfs with
    | nil => exact List.nodup_nil
    | @cons d r ms rs h1 h2 ih =>
      obtain ⟨f, _, _, _, hf, -, -, hi, -⟩ := convertField_ok h1
      rw [List.filterMap_cons, hf, List.map_cons, List.nodup_cons] at hnd
      rw [List.map_cons, List.nodup_cons]
      refine ⟨fun hx => hnd.1 ?_, ih hnd.2 fun d hd => hid d (List.mem_cons_of_mem _ hd)⟩
      obtain ⟨r', hr', he⟩ := List.mem_map.1 hx
      obtain ⟨d', hd', h3⟩ := forall₂_mem_right h2 hr'
      obtain ⟨f', _, _, _, hf', -, -, hi', -⟩ := convertField_ok h3
      have := field_str (hid d' (List.mem_cons_of_mem _ hd') f' hf') (hid d List.mem_cons_self f hf) hi' hi he
      rw [← this]
      exact List.mem_map_of_mem (List.mem_filterMap.2 ⟨d', hd', hf'⟩)
  have hall : ∀ f ∈ s.fields, f.2.1.usable = true ∧
      (fieldMeaning file.constants file.enums f.1 f.2.2).isSome := by
    intro r hr
    obtain ⟨d, hdm, h1⟩ := forall₂_mem_right hfs hr
    obtain ⟨f, ts, ty, op, hf, hts, hty, hi, hr2, hr1⟩ := convertField_ok h1
    have hdt : DeclType ds true d ty op := hrt ▸ decl_sound hty
    have hin : DeclIn ds d := .inr (.inl (member_in hm hdm))
    refine ⟨?_, ?_⟩
    · obtain ⟨g1, g2⟩ := hfields.2 f (List.mem_filterMap.2 ⟨d, hdm, hf⟩)
      rcases field_text (member_ident hwf hm hdm hf) hi with ⟨-, h2, -⟩ | ⟨h2, h3⟩
      · simp [RIdent.usable, h2]
      · rw [h3]
        have : rust_reserved (snake_case f) = false := by
          cases hk : rust_reserved (snake_case f) with
          | false => rfl
          | true =>
            rw [g2 hk] at h2
            cases h2
        simp [RIdent.usable, this, g1]
    · have hfm := DeclType.field hwf hc hd hdt hin file.enums
      have hcfg : (setup_context ds cfg).config = cfg := rfl
      rw [hcfg] at hr1
      have htn := typeOf_of_mem hc.unambiguous hm (name := name) rfl
      by_cases hbox : ts.isName name = true
      · -- a structure with itself as a member
        have hts' := isName_iff.1 hbox
        subst hts'
        have hne : name ≠ c!"u8" := by
          rintro rfl
          exact hc.u8 _ hm
        have hop : op = .none := by
          cases hdt with
          | «variable» hs | fixedArray hs _ | variableArray hs _ | option hs =>
            cases hts
            exact spec_struct_op htn hs
          | opaqueArray _ => rfl
          | string => rfl
          | opaqueFixed _ =>
            cases hts
            exact absurd rfl hne
          | opaqueVar =>
            cases hts
            exact absurd rfl hne
        subst hop
        have hne : (setup_context ds cfg).is_enum_type (.identifier name) = false := by
          cases he : (setup_context ds cfg).is_enum_type (.identifier name) with
          | false => rfl
          | true =>
            obtain ⟨e, as, hee, hem⟩ := is_enum_type_ok he
            cases hee
            rw [typeOf_of_mem hc.unambiguous hem (name := name) rfl] at htn
            cases htn
        rw [hr1, hr2, hne, if_pos hbox]
        simpa [fieldMeaning, RTy.meaning, OpaqueType.attr] using hfm
      · rw [hr2, if_neg hbox, hr1]
        cases op with
        | fixed => exact hfm
        | «variable» => exact hfm
        | none =>
          simp only
          split
          · next hen =>
            rw [Bool.and_eq_true] at hen
            obtain ⟨e, as, hee, hem⟩ := is_enum_type_ok hen.2
            subst hee
            have hte := typeOf_of_mem hc.unambiguous hem (name := e) rfl
            obtain ⟨nm, rfl⟩ := hc.enumMembers hen.1 d e e as (member_in hm hdm) hts hte
            obtain ⟨en, hconv, hmem⟩ := gen_code_enum hg hem
            cases hdt with
            | «variable» hs =>
              cases hs with
              | typedef _ h1 _ =>
                rw [hte] at h1
                cases h1
              | name _ hid =>
                obtain ⟨_, _, -, h2, -, -, -, -, h3, h4, -⟩ := convert_enum_ok hconv
                rw [hid] at h2
                cases h2
                rw [hcfg, if_pos hen.1] at h3 h4
                simp only [fieldMeaning, enums_find hok hmem, h3, h4]
                rfl
          · exact hfm
  unfold StructItem.meaning
  rw [if_pos hnames]
  simpa using fieldsMeaning_isSome hall

end Xdr.Rpcgen
