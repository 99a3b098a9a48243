import Verif.RpcgenProofs.CleanUnion
import Verif.Rpcgen.Rustc
/-!
# Sizes and names in the generated source
-/

namespace Xdr.Rpcgen

section
variable {ds : List Definition} {cfg : Config}

mutual
theorem SpecType.inside (hc : Clean ds cfg) : ∀ {ts ty op}, SpecType ds true ts ty op →
    (∀ name, ts = .identifier name → typeOf ds name ≠ none) → ∀ {d : Declaration}, d.inPlace = some ts →
    ∀ i ∈ ty.inline, ∃ name, Inside ds d name ∧ upper_camel_case_ident name = .ok i
  | _, _, _, .int, _, _, _ | _, _, _, .uint, _, _, _ | _, _, _, .hyper, _, _, _ | _, _, _, .uhyper, _, _, _
  | _, _, _, .float, _, _, _ | _, _, _, .double, _, _, _ | _, _, _, .bool, _, _, _ | _, _, _, .char, _, _, _
  | _, _, _, .uchar, _, _, _ | _, _, _, .short, _, _, _ | _, _, _, .ushort, _, _, _ => by simp [RTy.inline]
  | _, _, _, .typedef _ ht h, _, _, hd => fun i hi => by
    obtain ⟨name, h1, h2⟩ := DeclType.inside hc h (typedefIn_of ht) i hi
    exact ⟨name, .typedef hd ht h1, h2⟩
  | _, _, _, .name (name := name) hn hid, hdef, _, hd => by
    intro i hi
    simp only [RTy.inline, List.mem_singleton] at hi
    subst hi
    obtain ⟨t, ht⟩ := Option.ne_none_iff_exists'.1 (hdef name rfl)
    refine ⟨name, .item hd ht ?_, hid⟩
    have := (typeOf_mem ht).2
    cases t with
    | declaration d => exact absurd ht (hn rfl d)
    | _ => exact this

/-- What the Rust type of a declaration holds in place, the declaration does. -/
theorem DeclType.inside (hc : Clean ds cfg) : ∀ {d ty op}, DeclType ds true d ty op → DeclIn ds d →
    ∀ i ∈ ty.inline, ∃ name, Inside ds d name ∧ upper_camel_case_ident name = .ok i
  | _, _, _, .variable h, hin => SpecType.inside hc h (fun name hn => hc.defined _ name hin (by rw [hn]; rfl)) rfl
  | _, _, _, .fixedArray h _, hin => by
    simp only [RTy.inline]
    exact SpecType.inside hc h (fun name hn => hc.defined _ name hin (by rw [hn]; rfl)) rfl
  | _, _, _, .variableArray h _, hin => by simp [RTy.inline]
  | _, _, _, .opaqueArray h, _ => by simp [RTy.inline]
  | _, _, _, .opaqueFixed _, _ => by simp [RTy.inline]
  | _, _, _, .opaqueVar, _ => by simp [RTy.inline]
  | _, _, _, .string, _ => by simp [RTy.inline]
  | _, _, _, .option h, hin => by
    simp only [RTy.inline]
    exact SpecType.inside hc h (fun name hn => hc.defined _ name hin (by rw [hn]; rfl)) rfl
end

theorem Inside.itemName {d : Declaration} {name : Str} (h : Inside ds d name) : name ∈ itemNames ds := by
  induction h with
  | item _ ht hn => exact List.mem_filterMap.2 ⟨_, (typeOf_mem ht).1, hn⟩
  | typedef _ _ _ ih => exact ih

theorem Contains.left {a b : Str} (h : Contains ds a b) : a ∈ itemNames ds := by
  cases h with
  | member h _ _ _ | cond h _ | arm h _ _ | default h _ _ => exact List.mem_filterMap.2 ⟨_, h, rfl⟩

theorem Contains.right {a b : Str} (h : Contains ds a b) : b ∈ itemNames ds := by
  cases h with
  | member _ _ _ h | cond _ h | arm _ _ h | default _ _ h => exact h.itemName

theorem inPlace_specifier {d : Declaration} {ts ts' : TypeSpecifier} (h : d.inPlace = some ts)
    (h' : d.type_specifier = some ts') : ts' = ts := by
  cases d <;> simp_all [Declaration.inPlace, Declaration.type_specifier]

/-- The fields of the variants of a union, with the declarations they come from. -/
theorem CleanUnion.declared {n : Nat} {b : UnionBody} {u : UnionItem} {names : List Str} {ks : List Int}
    {cond : TypeSpecifier} {ct : RTy} {acc : UnionAcc} {cs : List (CaseTok × Int)}
    (h : CleanUnion ds cfg n b u names ks cond ct acc cs) :
    ∀ v ∈ u.variants, v.fields = [] ∨
      ∃ d ts, ((∃ l ∈ b.labels, l.2 = d) ∨ b.default = some d) ∧ v.fields = withCond cfg ct ts ∧
      (ArmType ds cfg d v.attr ts ∨ v.attr = .none ∧ (ts = [] ∨ ∃ ty op, ts = [ty] ∧ DeclType ds true d ty op)) := by
  intro v hv
  obtain ⟨dv, hvs, hdv⟩ := h.variants
  rw [hvs, List.mem_append] at hv
  rcases hv with hv | hv
  · rcases h.acc_variants v hv with ⟨c, k, hck, rfl⟩ | ⟨hx, k, hk⟩
    · obtain ⟨l, a, id, hl, hv'⟩ := h.each c k hck
      obtain ⟨ts, h1, h2⟩ := hv'.arm
      exact .inr ⟨_, ts, .inl ⟨l, (List.of_mem_zip hl).1, rfl⟩, h2, .inl h1⟩
    · rw [hk]
      exact .inl rfl
  · rcases hdv with ⟨-, rfl⟩ | ⟨d, w, hbd, rfl, hdf⟩
    · cases hv
    · simp only [List.mem_singleton] at hv
      subst hv
      obtain ⟨ts, h1, h2⟩ := hdf.fields
      exact .inr ⟨d, ts, .inr hbd, h1, .inr ⟨hdf.attr, h2⟩⟩

/-- What an item holds, its definition contains. -/
theorem holds_contains (hwf : WellFormed ds) (hc : Clean ds cfg) (hrt : cfg.remove_typedef = true) {n : Nat}
    {file : RustFile} (hg : gen_code n ds cfg = .ok file) {i j : RIdent} (h : file.Holds i j) :
    ∃ a b, Contains ds a b ∧ upper_camel_case_ident a = .ok i ∧ upper_camel_case_ident b = .ok j := by
  obtain ⟨item, hi, rfl, hj⟩ := h
  rcases item_origin hrt hg hi with ⟨name, as, e, hm, rfl, h⟩ | ⟨name, ms, s, hm, rfl, h⟩ | ⟨name, b, u, hm, rfl, h⟩
  · cases hj
  · obtain ⟨hn, hfs⟩ := convert_struct_ok h
    simp only [Item.inline, List.mem_flatMap] at hj
    obtain ⟨r, hr, hp⟩ := hj
    obtain ⟨d, hdm, h1⟩ := forall₂_mem_right hfs hr
    obtain ⟨f, ts, ty, op, hf, hts, hty, -, hr2, hr1⟩ := convertField_ok h1
    rw [hr2] at hp
    split at hp
    · simp [RTy.inline] at hp
    · next hno =>
      obtain ⟨b, h2, h3⟩ := DeclType.inside hc (hrt ▸ decl_sound hty) (.inr (.inl (member_in hm hdm))) j hp
      refine ⟨name, b, .member hm hdm ?_ h2, hn, h3⟩
      intro he
      exact hno (isName_iff.2 (inPlace_specifier he hts))
  · obtain ⟨cond, nm, ks, names, hb, hlab, hlabels, hln, hmt⟩ := hc.unions name b hm
    obtain ⟨ct, acc, cs, H⟩ := clean_union_cases hwf hc.unambiguous hrt hm hb hlab hlabels h
    obtain ⟨-, -, -, hn, -⟩ := convert_union_ok h
    have hin : DeclIn ds (.variable cond nm) := .inr (.inr (.inr (.inr ⟨name, b, hm, hb⟩)))
    have hct : ∀ i ∈ ct.inline, ∃ m, Inside ds b.cond m ∧ upper_camel_case_ident m = .ok i := by
      have hdef : ∀ name, cond = .identifier name → typeOf ds name ≠ none :=
        fun name hn => hc.defined _ name hin (by rw [hn]; rfl)
      rcases H.cond_ty with ⟨op, hs⟩ | ⟨hno, -⟩
      · rw [hb]
        exact SpecType.inside hc hs hdef rfl
      · obtain ⟨⟨c, k⟩, hck⟩ := List.exists_mem_of_ne_nil _ H.nonempty
        obtain ⟨l, _, _, hl, -⟩ := H.each c k hck
        obtain ⟨ty, op, hs⟩ := selects_spec hg (forall₂_zip hlab.selects hl)
        exact absurd hs (hno ty op)
    simp only [Item.inline, List.mem_flatMap] at hj
    obtain ⟨v, hv, ty, hty, hj⟩ := hj
    rcases H.declared v hv with hf | ⟨d, ts, hd, hf, harm⟩
    · rw [hf] at hty
      cases hty
    · rw [hf] at hty
      have hdin : DeclIn ds d := by
        rcases hd with ⟨l, hl, rfl⟩ | hd
        · exact .inr (.inr (.inl ⟨name, b, l.1, hm, hl⟩))
        · exact .inr (.inr (.inr (.inl ⟨name, b, hm, hd⟩)))
      have hcon : ∀ {m}, Inside ds d m → Contains ds name m := by
        intro m hm'
        rcases hd with ⟨l, hl, rfl⟩ | hd
        · exact .arm hm hl hm'
        · exact .default hm hd hm'
      have hty : ty = ct ∨ ty ∈ ts := by
        unfold withCond at hty
        split at hty
        · exact List.mem_cons.1 hty
        · exact .inr hty
      rcases hty with rfl | hty
      · obtain ⟨m, h1, h2⟩ := hct j hj
        exact ⟨name, m, .cond hm h1, hn, h2⟩
      · have : ∃ op, DeclType ds true d ty op ∨ ty = .variableArray := by
          rcases harm with harm | ⟨-, rfl | ⟨ty', op, rfl, hdt⟩⟩
          · generalize v.attr = at_ at harm
            cases harm with
            | void => cases hty
            | plain hdt | fixed hdt _ | «variable» hdt _ =>
              simp only [List.mem_singleton] at hty
              subst hty
              exact ⟨_, .inl (hrt ▸ hdt)⟩
            | wrapped =>
              simp only [List.mem_singleton] at hty
              exact ⟨.none, .inr hty⟩
          · cases hty
          · simp only [List.mem_singleton] at hty
            subst hty
            exact ⟨_, .inl hdt⟩
        obtain ⟨op, hdt | rfl⟩ := this
        · obtain ⟨m, h1, h2⟩ := DeclType.inside hc hdt hdin j hj
          exact ⟨name, m, hcon h1, hn, h2⟩
        · cases hj

theorem item_names_inj (hc : Clean ds cfg) {a b : Str} (ha : a ∈ itemNames ds) (hb : b ∈ itemNames ds) {i : RIdent}
    (hai : upper_camel_case_ident a = .ok i) (hbi : upper_camel_case_ident b = .ok i) : a = b := by
  refine List.inj_on_of_nodup_map hc.types ha hb ?_
  have := (camel_plain hai).symm.trans (camel_plain hbi)
  exact (RIdent.mk.inj this).2

/-- Every type of the source has a finite size. -/
theorem clean_sized (hwf : WellFormed ds) (hc : Clean ds cfg) (hrt : cfg.remove_typedef = true) {n : Nat}
    {file : RustFile} (hg : gen_code n ds cfg = .ok file) : file.Sized := by
  have key : ∀ {i j}, Relation.TransGen file.Holds i j → ∃ a b, Relation.TransGen (Contains ds) a b ∧
      a ∈ itemNames ds ∧ b ∈ itemNames ds ∧ upper_camel_case_ident a = .ok i ∧ upper_camel_case_ident b = .ok j := by
    intro i j h
    induction h with
    | single h =>
      obtain ⟨a, b, h1, h2, h3⟩ := holds_contains hwf hc hrt hg h
      exact ⟨a, b, .single h1, h1.left, h1.right, h2, h3⟩
    | tail _ h ih =>
      obtain ⟨a, b, h1, h2, h3, h4, h5⟩ := ih
      obtain ⟨b', c, g1, g2, g3⟩ := holds_contains hwf hc hrt hg h
      cases item_names_inj hc h3 g1.left h5 g2
      exact ⟨a, c, h1.tail g1, h2, g1.right, h4, g3⟩
  intro i h
  obtain ⟨a, b, h1, h2, h3, h4, h5⟩ := key h
  cases item_names_inj hc h2 h3 h4 h5
  exact hc.sized a h1

/-! ## Names -/

theorem enum_locals (e : EnumItem) : ∀ c ∈ e.locals, c ∈ localNames := by
  intro c hc
  unfold EnumItem.locals at hc
  simp only [List.mem_append] at hc
  rcases hc with (hc | hc) | hc
  all_goals
    split at hc
    · revert c
      decide +kernel
    · cases hc

theorem field_locals {v : Variant} (h : v.fields.length ≤ 2) : ∀ c ∈ fieldLocals v, c ∈ localNames := by
  intro c hc
  unfold fieldLocals at hc
  generalize v.fields.length = k at h hc
  revert c
  match k, h with
  | 0, _ => decide +kernel
  | 1, _ => decide +kernel
  | 2, _ => decide +kernel

theorem union_locals {u : UnionItem} (h : ∀ v ∈ u.variants, v.fields.length ≤ 2) : ∀ c ∈ u.locals, c ∈ localNames := by
  intro c hc
  unfold UnionItem.locals at hc
  simp only [List.mem_append] at hc
  rcases hc with (hc | hc) | hc
  · split at hc
    · split at hc <;> (revert c; decide +kernel)
    · cases hc
  · split at hc
    · split at hc <;> (revert c; decide +kernel)
    · cases hc
  · split at hc
    · cases hc
    all_goals
      rcases List.mem_append.1 hc with h' | hc
      · clear hc
        revert c
        decide +kernel
      · obtain ⟨v, hv, hc⟩ := List.mem_flatMap.1 hc
        exact field_locals (h v hv) c hc

/-- The name of a constant of the file. -/
theorem const_origin {file : RustFile} (hd : List.Forall₂ DeclaredAs (constants ds) file.constants) {c : ConstItem}
    (hm : c ∈ file.constants) : ∃ a ∈ constants ds, c.name.name = a.identifier := by
  obtain ⟨a, ha, h⟩ := forall₂_mem_right hd hm
  refine ⟨a, ha, ?_⟩
  cases h <;> rfl

theorem union_width {n : Nat} {b : UnionBody} {u : UnionItem} {names : List Str} {ks : List Int}
    {cond : TypeSpecifier} {ct : RTy} {acc : UnionAcc} {cs : List (CaseTok × Int)}
    (h : CleanUnion ds cfg n b u names ks cond ct acc cs) : ∀ v ∈ u.variants, v.fields.length ≤ 2 := by
  intro v hv
  rcases h.declared v hv with hf | ⟨d, ts, -, hf, harm⟩
  · simp [hf]
  · have : ts.length ≤ 1 := by
      rcases harm with harm | ⟨-, rfl | ⟨ty', op, rfl, hdt⟩⟩
      · generalize v.attr = at_ at harm
        cases harm <;> simp
      · simp
      · simp
    rw [hf]
    unfold withCond
    split
    · simpa using this
    · omega

/-- The name of an item, and those of the types in it. -/
theorem item_camel (hrt : cfg.remove_typedef = true) {n : Nat} {file : RustFile} (hg : gen_code n ds cfg = .ok file)
    {p : RIdent} (hp : p ∈ file.types.map Item.name) : ∃ name ∈ itemNames ds, p.name = upper_camel_case name := by
  rw [file_names hrt hg, List.map_map] at hp
  obtain ⟨name, hn, rfl⟩ := List.mem_map.1 hp
  exact ⟨name, hn, rfl⟩

theorem field_generics : ∀ c ∈ fieldGenerics, c ∈ genericNames := by decide +kernel

/-- No name of the source is taken for another. -/
theorem clean_apart (hwf : WellFormed ds) (hc : Clean ds cfg) (hrt : cfg.remove_typedef = true) {n : Nat}
    {file : RustFile} (hg : gen_code n ds cfg = .ok file)
    (hd : List.Forall₂ DeclaredAs (constants ds) file.constants) : file.apart = true := by
  simp only [RustFile.apart, decide_eq_true_eq]
  have hpaths := clean_paths hwf hc hrt hg
  constructor
  · intro item hi c hcm
    obtain ⟨a, ha, hca⟩ := const_origin hd hcm
    obtain ⟨h1, h2⟩ := hc.locals a ha
    rw [hca]
    have hF : a.identifier ≠ c!"FIELDS" := fun h => h1 (h ▸ by decide +kernel)
    have hV : a.identifier ≠ c!"VARIANTS" := fun h => h1 (h ▸ by decide +kernel)
    rcases item_origin hrt hg hi with ⟨name, as, e, hm, rfl, h⟩ | ⟨name, ms, s, hm, rfl, h⟩ | ⟨name, b, u, hm, rfl, h⟩
    · simp only [Item.bars, decide_eq_false_iff_not]
      rintro (h | ⟨-, h⟩)
      · exact h1 (enum_locals e _ h)
      · exact h2 h
    · simp only [Item.bars, decide_eq_false_iff_not]
      rintro (h | ⟨h, -⟩)
      · exact h2 h
      · exact hF h
    · obtain ⟨cond, nm, ks, names, hb, hlab, hlabels, hln, hmt⟩ := hc.unions name b hm
      obtain ⟨ct, acc, cs, H⟩ := clean_union_cases hwf hc.unambiguous hrt hm hb hlab hlabels h
      simp only [Item.bars, decide_eq_false_iff_not]
      rintro (h | ⟨-, h | ⟨h, -⟩⟩)
      · exact h1 (union_locals (union_width H) _ h)
      · exact h2 h
      · exact hV h
  · intro item hi
    obtain ⟨nm, hnm, hne⟩ := item_camel hrt hg (List.mem_map_of_mem hi)
    have hreserved : ∀ {a : Str} {k : Int} {v : RIdent}, v = ⟨false, c!"_Reserved" ++ intToString k⟩ →
        v ≠ ⟨false, c!"Error"⟩ := by
      rintro a k v rfl h
      simp at h
    rcases item_origin hrt hg hi with ⟨name, as, e, hm, rfl, h⟩ | ⟨name, ms, s, hm, rfl, h⟩ | ⟨name, b, u, hm, rfl, h⟩
    · obtain ⟨indexed, steps, h1, -, h3, -, hder, hvar, -, -, hix⟩ := convert_enum_ok h
      simp only [Item.apart, decide_eq_true_eq]
      intro hor
      have hcfg : cfg.enum_impl_indexer = true := by
        rcases hor with h | h
        · exact hder ▸ h
        · cases hb : cfg.enum_impl_indexer with
          | true => rfl
          | false =>
            rw [hix, show (setup_context ds cfg).config = cfg from rfl, hb] at h
            cases h
      refine ⟨?_, ?_⟩
      · show (Item.enum e).name.name ∉ _
        rw [hne]
        exact hc.generics (.inl hcfg) nm hnm
      · intro v hv he
        rw [hvar] at hv
        rcases enumLoop_each h3 v hv with ⟨p, hp, hid, -⟩ | hr
        · have hpa : p.2 ∈ as := by
            obtain ⟨ks, hks⟩ := (hc.enums name as hm).1
            have hidx := enumIndexed_numbers hwf (members_ok hwf hm) hks.stands hks.range h1
            subst hidx
            exact (List.of_mem_zip (mem_sortByKey.1 hp)).2
          rw [camel_plain hid] at he
          exact hc.enumError hcfg name as hm p.2 hpa (RIdent.mk.inj he).2
        · exact hreserved (a := []) hr he
    · rfl
    · obtain ⟨cond, cn, ks, names, hb, hlab, hlabels, hln, hmt⟩ := hc.unions name b hm
      obtain ⟨ct, acc, cs, H⟩ := clean_union_cases hwf hc.unambiguous hrt hm hb hlab hlabels h
      simp only [Item.apart, decide_eq_true_eq]
      intro hor
      have hcfg : cfg.union_impl_indexer = true ∨ cfg.union_impl_union = true := by
        have h1 := H.derive
        have h2 := H.indexer
        have h3 := H.union
        cases hx : cfg.union_impl_indexer <;> cases hy : cfg.union_impl_union <;> simp_all
      refine ⟨?_, ?_, ?_⟩
      · show (Item.union u).name.name ∉ _
        rw [hne]
        exact hc.generics (.inr hcfg) nm hnm
      · intro v hv t ht p hp hbad
        have : p ∈ (Item.union u).paths := List.mem_flatMap.2 ⟨v, hv, List.mem_flatMap.2 ⟨t, ht, hp⟩⟩
        obtain ⟨q, hq, hqe⟩ := item_camel hrt hg (hpaths _ hi p this)
        rw [hqe] at hbad
        exact hc.generics (.inr hcfg) q hq (field_generics _ hbad)
      · intro v hv he
        obtain ⟨dv, hvs, hdv⟩ := H.variants
        rw [hvs, List.mem_append] at hv
        rcases hv with hv | hv
        · rcases H.acc_variants v hv with ⟨c, k, hck, rfl⟩ | ⟨-, k, hk⟩
          · obtain ⟨l, a, id, hl, hv'⟩ := H.each c k hck
            rw [hv'.name, camel_plain hv'.ident] at he
            refine hc.unionError hcfg name b hm a l.2 ?_ (RIdent.mk.inj (Tok.ident.inj he)).2
            have := (List.of_mem_zip hl).1
            rw [← hv'.label]
            exact this
          · rw [hk] at he
            simp at he
        · rcases hdv with ⟨-, rfl⟩ | ⟨d, w, hbd, rfl, hdf⟩
          · cases hv
          · simp only [List.mem_singleton] at hv
            subst hv
            rw [hdf.name] at he
            simp [defaultTok] at he

/-- The source of a clean file compiles. -/
theorem clean_compiles (hwf : WellFormed ds) (hc : Clean ds cfg) (hrt : cfg.remove_typedef = true) {n : Nat}
    {file : RustFile} (hg : gen_code n ds cfg = .ok file)
    (hd : List.Forall₂ DeclaredAs (constants ds) file.constants) : file.Compiles :=
  ⟨clean_defs hwf hc hrt hg hd, clean_sized hwf hc hrt hg, clean_apart hwf hc hrt hg hd⟩

end

end Xdr.Rpcgen
