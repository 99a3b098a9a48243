import Verif.RpcgenProofs.NeededFile
/-!
# What source that compiles says about the interface: structures, enums and unions
-/

namespace Xdr.Rpcgen

section
variable {ds : List Definition} {cfg : Config} {n : Nat} {file : RustFile} {defs : List (String × Def)} {src : Str}

/-! ## Structures -/

theorem reserved_snake {f : Str} (hf : rust_reserved f = true) :
    rust_reserved (snake_case f) = true ∧ snake_case f ≠ c!"_" := by
  have : (KEYWORDS_RUST.all fun f => decide (rust_reserved (snake_case f) = true ∧ snake_case f ≠ c!"_")) = true := by
    decide +kernel
  unfold rust_reserved at hf
  have := List.all_eq_true.1 this f (List.contains_iff_mem.1 hf)
  simpa only [decide_eq_true_eq] using this

theorem snake_keywords {f g : Str} (hf : rust_reserved f = true) (hg : rust_reserved g = true)
    (h : snake_case f = snake_case g) : snake_case (c!"r#" ++ f) = snake_case (c!"r#" ++ g) := by
  have : (KEYWORDS_RUST.all fun f => KEYWORDS_RUST.all fun g =>
    decide (snake_case f = snake_case g → snake_case (c!"r#" ++ f) = snake_case (c!"r#" ++ g))) = true := by
    decide +kernel
  unfold rust_reserved at hf hg
  have := List.all_eq_true.1 (List.all_eq_true.1 this f (List.contains_iff_mem.1 hf)) g (List.contains_iff_mem.1 hg)
  simp only [decide_eq_true_eq] at this
  exact this h

/-- Fields whose names can stand have the same name if they have the same name in snake case. -/
theorem field_same {f g : Str} (hf : Ident f) (hg : Ident g) {i j : RIdent} (hi : fieldIdent f = .ok i)
    (hj : fieldIdent g = .ok j) (hiu : i.usable = true) (hju : j.usable = true) (h : snake_case f = snake_case g) :
    i = j := by
  have hplain : ∀ {s : Str}, (RIdent.mk false s).usable = true → rust_reserved s = false := by
    intro s hs
    simp only [RIdent.usable, Bool.false_or, Bool.and_eq_true, Bool.not_eq_true'] at hs
    exact hs.1
  rcases field_text hf hi with ⟨h1, -⟩ | ⟨h1, rfl⟩ <;> rcases field_text hg hj with ⟨g1, -⟩ | ⟨g1, rfl⟩
  · unfold fieldIdent snake_case_ident at hi hj
    rw [h1, if_pos rfl] at hi
    rw [g1, if_pos rfl, ← snake_keywords h1 g1 h, hi] at hj
    cases hj
    rfl
  · have h2 := (reserved_snake h1).1
    rw [h, hplain hju] at h2
    cases h2
  · have h2 := (reserved_snake g1).1
    rw [← h, hplain hiu] at h2
    cases h2
  · rw [h]

theorem needed_fields (hp : parse src = .ok ds) (hg : gen_code n ds cfg = .ok file) (hdefs : file.defs = some defs) :
    ∀ s ms, .type (.struct s ms) ∈ ds → ((ms.filterMap Declaration.name).map snake_case).Nodup ∧
    ∀ f ∈ ms.filterMap Declaration.name, snake_case f ≠ c!"_" ∧
      (rust_reserved (snake_case f) = true → rust_reserved f = true) := by
  intro sn ms hm
  obtain ⟨s, hs, hmem⟩ := gen_code_struct hg hm
  obtain ⟨-, hfs⟩ := convert_struct_ok hs
  obtain ⟨hnd, hall⟩ := struct_taken hdefs hmem
  have hall : ∀ f ∈ s.fields, f.2.1.usable = true := fun f hf => (hall f hf).1
  have hid : ∀ d ∈ ms, ∀ f, d.name = some f → Ident f :=
    fun d hd f hf => member_ident (wellFormed_parse hp) hm hd hf
  clear hs hmem hm
  generalize s.fields = fs at hfs hnd hall
  constructor
  · induction hfs with
    | nil => exact List.nodup_nil
    | @cons d r ms rs h1 h2 ih =>
      obtain ⟨f, _, _, _, hf, -, -, hi, -⟩ := convertField_ok h1
      rw [List.map_cons, List.nodup_cons] at hnd
      rw [List.filterMap_cons, hf, List.map_cons, List.nodup_cons]
      refine ⟨fun hx => hnd.1 ?_, ih (fun d hd => hid d (List.mem_cons_of_mem _ hd)) hnd.2
        fun f hf => hall f (List.mem_cons_of_mem _ hf)⟩
      obtain ⟨f', hx, he⟩ := List.mem_map.1 hx
      obtain ⟨d', hd', hf'⟩ := List.mem_filterMap.1 hx
      obtain ⟨r', hr', h3⟩ := forall₂_mem_left h2 hd'
      obtain ⟨f'', _, _, _, hf'', -, -, hi', -⟩ := convertField_ok h3
      rw [hf'] at hf''
      cases hf''
      have := field_same (hid d' (List.mem_cons_of_mem _ hd') f' hf') (hid d List.mem_cons_self f hf) hi' hi
        (hall r' (List.mem_cons_of_mem _ hr')) (hall r List.mem_cons_self) he
      rw [← this]
      exact List.mem_map.2 ⟨r', hr', rfl⟩
  · intro f hf
    obtain ⟨d, hd, hdn⟩ := List.mem_filterMap.1 hf
    obtain ⟨r, hr, h1⟩ := forall₂_mem_left hfs hd
    obtain ⟨f', _, _, _, hf', -, -, hi, -⟩ := convertField_ok h1
    rw [hdn] at hf'
    cases hf'
    have hu := hall r hr
    rcases field_text (hid d hd f hdn) hi with ⟨h1, -⟩ | ⟨h1, h2⟩
    · exact ⟨(reserved_snake h1).2, fun _ => h1⟩
    · rw [h2] at hu
      simp only [RIdent.usable, Bool.false_or, Bool.and_eq_true, Bool.not_eq_true', bne_iff_ne] at hu
      exact ⟨hu.2, fun h => by rw [hu.1] at h; cases h⟩

/-! ## Enums -/

theorem enumLoop_steps {c : Bool} {l : List (Int × Assign)} {s : Int}
    {steps : List (List (RIdent × Int) × RIdent × Int)} (h : enumLoop c l s = .ok steps) :
    steps.map (·.2) = l.map fun p => (⟨false, upper_camel_case p.2.identifier⟩, p.1) := by
  induction l generalizing s steps with
  | nil =>
    cases h
    rfl
  | cons p l ih =>
    obtain ⟨e, a⟩ := p
    simp only [enumLoop, GR.bind_eq_ok] at h
    obtain ⟨r, hr, i, hi, h⟩ := h
    split at h
    · cases h
    · simp only [GR.bind_eq_ok, GR.ok.injEq] at h
      obtain ⟨rest, hrest, rfl⟩ := h
      simp only [List.map_cons, ih hrest, camel_plain hi]

theorem steps_sublist (steps : List (List (RIdent × Int) × RIdent × Int)) :
    (steps.map (·.2)).Sublist (steps.flatMap fun s => s.1 ++ [s.2]) := by
  induction steps with
  | nil => exact .slnil
  | cons s l ih =>
    simp only [List.map_cons, List.flatMap_cons, List.append_assoc, List.singleton_append]
    exact (ih.cons_cons _).trans (List.sublist_append_right _ _)

/-- An enum of the source, with its members. -/
theorem enum_taken (hp : parse src = .ok ds) (hg : gen_code n ds cfg = .ok file) (hdefs : file.defs = some defs)
    {name : Str} {as : List Assign} (hm : .type (.enum name as) ∈ ds) :
    ∃ e ks, .enum e ∈ file.types ∧ convert_enum_token (setup_context ds cfg) n name as = .ok e ∧
      List.Forall₂ (fun (a : Assign) k => Outcome ds (-2147483648) 2147483647 a.value (some k)) as ks ∧
      (∀ a ∈ as, ∃ k, (⟨false, upper_camel_case a.identifier⟩, k) ∈ e.variants) ∧
      ks.Nodup ∧ (as.map fun a => upper_camel_case a.identifier).Nodup ∧ ∀ v ∈ e.variants, v.1.usable = true := by
  obtain ⟨e, he, hmem⟩ := gen_code_enum hg hm
  obtain ⟨d, hd, -⟩ := defs_lookup hdefs hmem
  simp only [Item.meaning, EnumItem.meaning] at hd
  split at hd
  · next hok =>
    obtain ⟨hn1, hn2, husable⟩ := hok
    obtain ⟨indexed, steps, h1, -, h3, -, -, hvar, -⟩ := convert_enum_ok he
    have hst := enumLoop_steps h3
    have hsub := steps_sublist steps
    rw [hst, ← hvar] at hsub
    have hfa := GR.mapM_ok.1 h1
    have hks : List.Forall₂ (fun (a : Assign) k => Outcome ds (-2147483648) 2147483647 a.value (some k)) as
        (indexed.map (·.1)) ∧ indexed.map (·.2) = as := by
      have hvo : ∀ a ∈ as, ValueOk a.value := by
        rintro a ha c hc
        exact members_ok (wellFormed_parse hp) hm a ha (.number c) (by rw [hc]; simp [Value.atoms])
      clear h1 h3 he hm hst hsub
      induction hfa with
      | nil => exact ⟨.nil, rfl⟩
      | @cons a p as ps h _ ih =>
        simp only [GR.bind_eq_ok, GR.ok.injEq] at h
        obtain ⟨k, hk, rfl⟩ := h
        obtain ⟨ih1, ih2⟩ := ih fun a ha => hvo a (List.mem_cons_of_mem _ ha)
        refine ⟨.cons ?_ ih1, by rw [List.map_cons, ih2]⟩
        exact outcome_of_resolve (wellFormed_parse hp) n (hvo a List.mem_cons_self) (t := .i32) (cfg := cfg)
          (by rw [hk]; rfl)
    have hperm := sortByKey_perm indexed
    refine ⟨e, indexed.map (·.1), hmem, he, hks.1, ?_, ?_, ?_, husable⟩
    · intro a ha
      rw [← hks.2] at ha
      obtain ⟨p, hp, rfl⟩ := List.mem_map.1 ha
      exact ⟨p.1, hsub.subset (List.mem_map.2 ⟨p, mem_sortByKey.2 hp, rfl⟩)⟩
    · have := hn2.sublist (hsub.map (·.2))
      rw [List.map_map] at this
      exact ((hperm.map _).nodup_iff.1 this)
    · have := (hn1.sublist (hsub.map (·.1.str)))
      rw [List.map_map] at this
      have h2 := ((hperm.map _).nodup_iff.1 this)
      have he : indexed.map ((fun x : RIdent × Int => x.1.str) ∘
          fun p : Int × Assign => (⟨false, upper_camel_case p.2.identifier⟩, p.1)) =
          (as.map fun a => upper_camel_case a.identifier).map fun s => (RIdent.mk false s).str := by
        rw [← hks.2, List.map_map, List.map_map]
        rfl
      rw [he] at h2
      exact h2.of_map
  · cases hd

theorem usable_self {s : Str} (h : (RIdent.mk false s).usable = true) : s ≠ c!"Self" := by
  rintro rfl
  revert h
  decide +kernel

theorem needed_enums (hp : parse src = .ok ds) (hg : gen_code n ds cfg = .ok file) (hdefs : file.defs = some defs) :
    ∀ e as, .type (.enum e as) ∈ ds →
    (∃ ks : List Int, List.Forall₂ (fun (a : Assign) k => Outcome ds (-2147483648) 2147483647 a.value (some k)) as ks ∧
      ks.Nodup) ∧
    LabelNames false (as.map (·.identifier)) := by
  intro name as hm
  obtain ⟨e, ks, -, -, h1, h2, h3, h4, h5⟩ := enum_taken hp hg hdefs hm
  refine ⟨⟨ks, h1, h3⟩, by rw [List.map_map]; exact h4, fun f hf => ?_, nofun⟩
  obtain ⟨a, ha, rfl⟩ := List.mem_map.1 hf
  obtain ⟨k, hk⟩ := h2 a ha
  exact usable_self (h5 _ hk)

/-! ## Unions -/

/-- A union of the source, with its labels. -/
theorem union_labels (hp : parse src = .ok ds) (hg : gen_code n ds cfg = .ok file) (hdefs : file.defs = some defs)
    {name : Str} {b : UnionBody} (hm : .type (.union name b) ∈ ds) :
    ∃ u names, .union u ∈ file.types ∧ convert_union_token (setup_context ds cfg) n name b = .ok u ∧
      b.used.map (·.1) = names.map Value.identifier ∧
      (∀ a ∈ names, ∃ v ∈ u.variants, v.name = .ident ⟨false, upper_camel_case a⟩) ∧
      LabelNames b.default.isSome names := by
  obtain ⟨u, hu, hmem⟩ := gen_code_union hg hm
  obtain ⟨u', cond, nm, ct, cases_, vs, res, dflt, hmem', hn', -, -, hvar, hperm, hvs, -, -, hdf⟩ :=
    C66_variants_partial hp hg hm
  have huu : Item.union u' = Item.union u := by
    have hnd := (namesOk_iff.1 (defs_ok hdefs).1).1
    refine List.inj_on_of_nodup_map hnd hmem' hmem ?_
    obtain ⟨_, _, _, hn, -⟩ := convert_union_ok hu
    show u'.name.str = u.name.str
    rw [camel_plain hn, camel_plain hn']
  cases huu
  obtain ⟨hnd, hall⟩ := union_taken hdefs hmem
  have hin : ∀ v ∈ vs, v ∈ u.variants := by
    intro v hv
    rw [hvar]
    exact List.mem_append_left _ (hperm.mem_iff.2 (List.mem_append_left _ hv))
  have hnd' : ((vs ++ dflt).map (·.name.str)).Nodup := by
    have hp1 : u.variants.Perm (vs ++ (res ++ dflt)) := by
      rw [hvar, ← List.append_assoc]
      exact hperm.append_right _
    have h1 := (hp1.map (·.name.str)).nodup_iff.1 hnd
    refine h1.sublist (List.Sublist.map _ ?_)
    exact (List.sublist_append_right _ _).append_left vs
  have hnames : ∃ names : List Str, b.used.map (·.1) = names.map Value.identifier ∧
      vs.map (·.name) = names.map fun a => .ident ⟨false, upper_camel_case a⟩ := by
    clear hnd' hperm hvar
    generalize b.used = ls at hvs
    induction hvs with
    | nil => exact ⟨[], rfl, rfl⟩
    | @cons l v ls vs h _ ih =>
      obtain ⟨names, h1, h2⟩ := ih fun v hv => hin v (List.mem_cons_of_mem _ hv)
      obtain ⟨⟨id, hid, -⟩, -⟩ := hall v (hin v List.mem_cons_self)
      have hcn := h.name
      obtain ⟨lv, ld⟩ := l
      simp only at hcn
      rw [hid] at hcn
      cases hcn with
      | @name a _ hc =>
        refine ⟨a :: names, by simp [h1], ?_⟩
        rw [List.map_cons, hid, h2, camel_plain hc]
        rfl
  obtain ⟨names, hn1, hn2⟩ := hnames
  have hv : ∀ a ∈ names, ∃ v ∈ vs, v.name = .ident ⟨false, upper_camel_case a⟩ := by
    intro a ha
    have : (Tok.ident ⟨false, upper_camel_case a⟩) ∈ vs.map (·.name) := by
      rw [hn2]
      exact List.mem_map.2 ⟨a, ha, rfl⟩
    exact List.mem_map.1 this
  refine ⟨u, names, hmem, hu, hn1, fun a ha => ?_, ?_, ?_, ?_⟩
  · obtain ⟨v, h1, h2⟩ := hv a ha
    exact ⟨v, hin v h1, h2⟩
  · have h1 := hnd'.sublist (List.Sublist.map _ (List.sublist_append_left vs dflt))
    have he : vs.map (·.name.str) = (names.map upper_camel_case).map fun s => (RIdent.mk false s).str := by
      have : vs.map (·.name.str) = (vs.map (·.name)).map Tok.str := by
        rw [List.map_map]
        rfl
      rw [this, hn2, List.map_map, List.map_map]
      rfl
    rw [he] at h1
    exact h1.of_map
  · intro a ha
    obtain ⟨v, h1, h2⟩ := hv a ha
    obtain ⟨⟨id, hid, hus⟩, -⟩ := hall v (hin v h1)
    rw [h2] at hid
    cases hid
    exact usable_self hus
  · intro hd a ha he
    obtain ⟨v, h1, h2⟩ := hv a ha
    have hdv : ∃ w, dflt = [w] ∧ w.name = .ident ⟨false, c!"Default"⟩ := by
      cases hb : b.default with
      | none =>
        rw [hb] at hd
        cases hd
      | some d =>
        rw [hb] at hdf
        cases hdf with
        | void => exact ⟨_, rfl, rfl⟩
        | some _ => exact ⟨_, rfl, rfl⟩
    obtain ⟨w, rfl, hw⟩ := hdv
    rw [List.map_append, List.nodup_append] at hnd'
    refine hnd'.2.2 _ (List.mem_map.2 ⟨v, h1, rfl⟩) _ (List.mem_map.2 ⟨w, List.mem_singleton.2 rfl, rfl⟩) ?_
    rw [h2, hw, he]

/-! ## Sizes -/

mutual
theorem SpecType.holds : ∀ {ts ty op}, SpecType ds true ts ty op → ∀ {d b}, Inside ds d b → d.inPlace = some ts →
    op = .none ∧ ⟨false, upper_camel_case b⟩ ∈ ty.inline
  | _, _, _, .typedef _ ht h, _, _, hi, hd => by
    cases hi with
    | item h1 h2 h3 =>
      rw [hd] at h1
      cases h1
      rw [ht] at h2
      cases h2
      cases h3
    | typedef h1 h2 h3 =>
      rw [hd] at h1
      cases h1
      rw [ht] at h2
      cases h2
      exact DeclType.holds h h3
  | _, _, _, .name hn hid, _, _, hi, hd => by
    cases hi with
    | item h1 h2 h3 =>
      rw [hd] at h1
      cases h1
      rw [camel_plain hid]
      exact ⟨rfl, by simp [RTy.inline]⟩
    | typedef h1 h2 h3 =>
      rw [hd] at h1
      cases h1
      exact absurd h2 (hn rfl _)
  | _, _, _, .int, _, _, hi, hd | _, _, _, .uint, _, _, hi, hd | _, _, _, .hyper, _, _, hi, hd
  | _, _, _, .uhyper, _, _, hi, hd | _, _, _, .float, _, _, hi, hd | _, _, _, .double, _, _, hi, hd
  | _, _, _, .bool, _, _, hi, hd | _, _, _, .char, _, _, hi, hd | _, _, _, .uchar, _, _, hi, hd
  | _, _, _, .short, _, _, hi, hd | _, _, _, .ushort, _, _, hi, hd => by
    cases hi with
    | item h1 | typedef h1 =>
      rw [hd] at h1
      cases h1

/-- What is inside a declaration is inside its Rust type. -/
theorem DeclType.holds : ∀ {d ty op}, DeclType ds true d ty op → ∀ {b}, Inside ds d b →
    op = .none ∧ ⟨false, upper_camel_case b⟩ ∈ ty.inline
  | _, _, _, .variable hs, _, hi => SpecType.holds hs hi rfl
  | _, _, _, .fixedArray hs _, _, hi => SpecType.holds hs hi rfl
  | _, _, _, .option hs, _, hi => SpecType.holds hs hi rfl
  | _, _, _, .variableArray _ _, _, hi => by cases hi with | item h | typedef h => cases h
  | _, _, _, .opaqueArray _, _, hi => by cases hi with | item h | typedef h => cases h
  | _, _, _, .opaqueFixed _, _, hi => by cases hi with | item h | typedef h => cases h
  | _, _, _, .opaqueVar, _, hi => by cases hi with | item h | typedef h => cases h
  | _, _, _, .string, _, hi => by cases hi with | item h | typedef h => cases h
end

theorem keeps_holds (hp : parse src = .ok ds) (hrt : cfg.remove_typedef = true) (hg : gen_code n ds cfg = .ok file)
    {a b : Str} (h : Keeps ds a b) :
    file.Holds ⟨false, upper_camel_case a⟩ ⟨false, upper_camel_case b⟩ := by
  cases h with
  | @member ms d hm hd hne hi =>
    obtain ⟨s, hs, hmem⟩ := gen_code_struct hg hm
    obtain ⟨hn, hfs⟩ := convert_struct_ok hs
    obtain ⟨r, hr, h1⟩ := forall₂_mem_left hfs hd
    obtain ⟨f, ts, ty, op, hf, hts, hty, -, hr2, hr1⟩ := convertField_ok h1
    refine ⟨_, hmem, camel_plain hn, List.mem_flatMap.2 ⟨r, hr, ?_⟩⟩
    have hin := (DeclType.holds (hrt ▸ decl_sound hty) hi).2
    rw [hr2]
    split
    · next hname =>
      exfalso
      have := isName_iff.1 hname
      subst this
      cases hi with
      | item h | typedef h =>
        have := inPlace_specifier h hts
        rw [← this] at h
        exact hne h
    · exact hin
  | @arm body l hm hl hi =>
    obtain ⟨u, cond, nm, ct, cases_, vs, res, dflt, hmem, hn, -, -, hvar, hperm, hvs, -, -, -⟩ :=
      C66_variants_partial hp hg hm
    obtain ⟨v, hvm, hvo⟩ := forall₂_mem_left hvs hl
    have hvu : v ∈ u.variants := by
      rw [hvar]
      exact List.mem_append_left _ (hperm.mem_iff.2 (List.mem_append_left _ hvm))
    refine ⟨_, hmem, camel_plain hn, List.mem_flatMap.2 ⟨v, hvu, ?_⟩⟩
    obtain ⟨ts, harm, hf⟩ := hvo.arm
    rw [hf]
    generalize l.2 = d at *
    generalize v.attr = at_ at *
    cases harm with
    | void => cases hi with | item h | typedef h => cases h
    | plain hdt | fixed hdt _ | «variable» hdt _ =>
      exact List.mem_flatMap.2 ⟨_, mem_withCond List.mem_cons_self, (DeclType.holds (hrt ▸ hdt) hi).2⟩
    | wrapped hdt hop _ => exact absurd (DeclType.holds (hrt ▸ hdt) hi).1 hop
  | @default body d hm hb hi =>
    obtain ⟨u, cond, nm, ct, cases_, vs, res, dflt, hmem, hn, -, -, hvar, -, -, -, -, hdf⟩ :=
      C66_variants_partial hp hg hm
    rw [hb] at hdf
    cases hdf with
    | void => cases hi with | item h | typedef h => cases h
    | @some _ ty _ hdt =>
      have hw := List.mem_append_right cases_
        (List.mem_singleton_self (⟨.none, .ident ⟨false, c!"Default"⟩, withCond cfg ct [ty]⟩ : Variant))
      rw [← hvar] at hw
      refine ⟨_, hmem, camel_plain hn, List.mem_flatMap.2 ⟨_, hw, ?_⟩⟩
      exact List.mem_flatMap.2 ⟨_, mem_withCond List.mem_cons_self, (DeclType.holds (hrt ▸ hdt) hi).2⟩

theorem needed_sized (hp : parse src = .ok ds) (hrt : cfg.remove_typedef = true) (hg : gen_code n ds cfg = .ok file)
    (hs : file.Sized) : ∀ a, ¬ Relation.TransGen (Keeps ds) a a := by
  have key : ∀ {a b}, Relation.TransGen (Keeps ds) a b →
      Relation.TransGen file.Holds ⟨false, upper_camel_case a⟩ ⟨false, upper_camel_case b⟩ := by
    intro a b h
    induction h with
    | single h => exact .single (keeps_holds hp hrt hg h)
    | tail _ h ih => exact ih.tail (keeps_holds hp hrt hg h)
  intro a h
  exact hs _ (key h)

/-! ## Names that are taken -/

theorem apart_iff : file.apart = true ↔
    (∀ i ∈ file.types, ∀ c ∈ file.constants, i.bars c.name.name = false) ∧ (∀ i ∈ file.types, i.apart = true) := by
  simp [RustFile.apart]

theorem const_of (hd : List.Forall₂ DeclaredAs (constants ds) file.constants) {a : Assign} (ha : a ∈ constants ds) :
    ∃ c ∈ file.constants, c.name.name = a.identifier := by
  obtain ⟨c, hc, hac⟩ := forall₂_mem_left hd ha
  exact ⟨c, hc, by rw [declared_name hac]⟩

theorem needed_underscores (hg : gen_code n ds cfg = .ok file)
    (hd : List.Forall₂ DeclaredAs (constants ds) file.constants) (hap : file.apart = true) :
    (∃ s ms, .type (.struct s ms) ∈ ds) ∨ ((∃ e as, .type (.enum e as) ∈ ds) ∧ cfg.enum_impl_indexer = false) →
    ∀ a ∈ constants ds, ¬ c!"__" <+: a.identifier := by
  intro h a ha hpre
  obtain ⟨c, hc, hcn⟩ := const_of hd ha
  rcases h with ⟨s, ms, hm⟩ | ⟨⟨e, as, hm⟩, hix⟩
  · obtain ⟨s, hs, hmem⟩ := gen_code_struct hg hm
    have := (apart_iff.1 hap).1 _ hmem c hc
    simp only [Item.bars, decide_eq_false_iff_not] at this
    exact this (.inl (hcn ▸ hpre))
  · obtain ⟨e, he, hmem⟩ := gen_code_enum hg hm
    obtain ⟨indexed, steps, -, -, -, -, hder, -⟩ := convert_enum_ok he
    have := (apart_iff.1 hap).1 _ hmem c hc
    simp only [Item.bars, decide_eq_false_iff_not] at this
    exact this (.inr ⟨hder.trans hix, hcn ▸ hpre⟩)

theorem needed_enumLocals (hg : gen_code n ds cfg = .ok file)
    (hd : List.Forall₂ DeclaredAs (constants ds) file.constants) (hap : file.apart = true) :
    ∀ e as, .type (.enum e as) ∈ ds → ∀ a ∈ constants ds,
    (cfg.enum_impl_std_trait = true → a.identifier ∉ [c!"v", c!"Ok", c!"Err"]) ∧
    (cfg.enum_impl_indexer = true → a.identifier ∉ [c!"serializer", c!"index", c!"ser", c!"deserializer", c!"formatter",
      c!"seq", c!"variant", c!"Ok"]) := by
  intro e as hm a ha
  obtain ⟨c, hc, hcn⟩ := const_of hd ha
  obtain ⟨e, he, hmem⟩ := gen_code_enum hg hm
  obtain ⟨indexed, steps, -, -, -, -, hder, -, -, htf, -⟩ := convert_enum_ok he
  have := (apart_iff.1 hap).1 _ hmem c hc
  simp only [Item.bars, decide_eq_false_iff_not, not_or, hcn] at this
  have hno := this.1
  simp only [EnumItem.locals, List.mem_append, not_or] at hno
  constructor
  · intro hstd hmem
    have h1 := hno.1.1
    rw [htf, show (setup_context ds cfg).config = cfg from rfl, hstd, if_pos rfl, Option.isSome_some, if_pos rfl] at h1
    exact h1 hmem
  · intro hix hmem
    have h1 := hno.2
    rw [hder, show (setup_context ds cfg).config = cfg from rfl, hix, if_pos rfl] at h1
    exact h1 hmem

theorem needed_enumIndexer (hp : parse src = .ok ds) (hg : gen_code n ds cfg = .ok file) (hdefs : file.defs = some defs)
    (hap : file.apart = true) (hix : cfg.enum_impl_indexer = true) :
    ∀ e as, .type (.enum e as) ∈ ds → upper_camel_case e ∉ genericNames ∧
      ∀ a ∈ as, upper_camel_case a.identifier ≠ c!"Error" := by
  intro name as hm
  obtain ⟨e, ks, hmem, he, -, h2, -⟩ := enum_taken hp hg hdefs hm
  obtain ⟨indexed, steps, -, hn, -, -, hder, -⟩ := convert_enum_ok he
  have := (apart_iff.1 hap).2 _ hmem
  simp only [Item.apart, decide_eq_true_eq] at this
  obtain ⟨h3, h4⟩ := this (.inl (hder.trans hix))
  rw [camel_plain hn] at h3
  refine ⟨h3, fun a ha hae => ?_⟩
  obtain ⟨k, hk⟩ := h2 a ha
  exact h4 _ hk (by rw [hae])

theorem needed_unionIndexer (hp : parse src = .ok ds) (hg : gen_code n ds cfg = .ok file) (hdefs : file.defs = some defs)
    (hap : file.apart = true) (hix : cfg.union_impl_indexer = true ∨ cfg.union_impl_union = true) :
    ∀ u b, .type (.union u b) ∈ ds → upper_camel_case u ∉ genericNames ∧
      ∀ a d, (.identifier a, d) ∈ b.used → upper_camel_case a ≠ c!"Error" := by
  intro name b hm
  obtain ⟨u, names, hmem, hu, h1, h2, -⟩ := union_labels hp hg hdefs hm
  obtain ⟨_, _, _, hn, -, -, -, hder, -⟩ := convert_union_ok hu
  have := (apart_iff.1 hap).2 _ hmem
  simp only [Item.apart, decide_eq_true_eq] at this
  have hne : u.derive ≠ .serde := by
    rw [hder, show (setup_context ds cfg).config = cfg from rfl]
    rcases hix with h | h
    · simp [h]
    · rw [h]
      split <;> simp
  obtain ⟨h3, -, h4⟩ := this (.inl hne)
  rw [camel_plain hn] at h3
  refine ⟨h3, fun a d ha hae => ?_⟩
  have : (Value.identifier a) ∈ names.map Value.identifier := by
    rw [← h1]
    exact List.mem_map.2 ⟨_, ha, rfl⟩
  obtain ⟨a', ha', hav⟩ := List.mem_map.1 this
  cases hav
  obtain ⟨v, hv, hvn⟩ := h2 a ha'
  exact h4 v hv (by rw [hvn, hae])

end

end Xdr.Rpcgen
