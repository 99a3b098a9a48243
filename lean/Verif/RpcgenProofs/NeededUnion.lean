import Verif.RpcgenProofs.NeededItems
/-!
# What source that compiles says about the interface: discriminants
-/

namespace Xdr.Rpcgen

section
variable {ds : List Definition} {cfg : Config} {n : Nat} {file : RustFile} {defs : List (String × Def)} {src : Str}

theorem unionLoop_byValue {cxt : Context} {cond : TypeSpecifier} {l : List (Int × Declaration × Value)} {s : Int}
    {steps : List CaseStep} (h : unionLoop cxt n cond l s = .ok steps) :
    ∀ p ∈ l, ∃ tok bv, caseByValue cxt cond p.1 p.2.2 tok = .ok bv ∧ ∀ x ∈ bv, x ∈ steps.flatMap (·.byValue) := by
  induction l generalizing s steps with
  | nil => simp
  | cons q l ih =>
    obtain ⟨e, d, v⟩ := q
    simp only [unionLoop, GR.bind_eq_ok] at h
    obtain ⟨r, hr, c, hc, bv, hbv, h⟩ := h
    split at h
    · cases h
    · simp only [GR.bind_eq_ok, GR.ok.injEq] at h
      obtain ⟨rest, hrest, rfl⟩ := h
      intro p hp
      rcases List.mem_cons.1 hp with rfl | hp
      · exact ⟨_, bv, hbv, fun x hx => by simp [hx]⟩
      · obtain ⟨tok, bv', h1, h2⟩ := ih hrest p hp
        exact ⟨tok, bv', h1, fun x hx => by
          rw [List.flatMap_cons]
          exact List.mem_append_right _ (h2 x hx)⟩

theorem unionIndexed_label {cxt : Context} {b : UnionBody} {values : List (Int × Declaration × Value)}
    (h : unionIndexed cxt n b.specs = .ok values) {l : Value × Declaration} (hl : l ∈ b.labels) :
    ∃ k, (k, l.2, l.1) ∈ values := by
  obtain ⟨sp, hsp, hl⟩ := List.mem_flatMap.1 hl
  obtain ⟨v, hv, rfl⟩ := List.mem_map.1 hl
  have hm : (sp.declaration, v) ∈ b.specs.flatMap fun spec => spec.values.map fun v => (spec.declaration, v) :=
    List.mem_flatMap.2 ⟨sp, hsp, List.mem_map.2 ⟨v, hv, rfl⟩⟩
  obtain ⟨r, hr, h1⟩ := forall₂_mem_left (GR.mapM_ok.1 h) hm
  simp only [GR.bind_eq_ok, GR.ok.injEq] at h1
  obtain ⟨k, -, rfl⟩ := h1
  exact ⟨k, hr⟩

/-- The type `u32` is `unsigned int`. -/
theorem SpecType.unsigned {ts : TypeSpecifier} {ty : RTy} {op : OpaqueType} (h : SpecType ds true ts ty op) :
    ty = .u32 → IsUnsigned ds ts := by
  refine SpecType.rec (motive_1 := fun ts ty _ _ => ty = .u32 → IsUnsigned ds ts)
    (motive_2 := fun d ty _ _ => ty = .u32 → ∃ ts nm, d = .variable ts nm ∧ IsUnsigned ds ts)
    ?_ ?_ ?_ ?_ ?_ ?_ ?_ ?_ ?_ ?_ ?_ ?_ ?_ ?_ ?_ ?_ ?_ ?_ ?_ ?_ ?_ h
  all_goals try (intros; contradiction)
  · intro _
    exact .uint
  · intro name d ty op _ ht _ ih he
    obtain ⟨ts, nm, rfl, h1⟩ := ih he
    exact .typedef ht h1
  · intro ts nm ty op _ ih he
    exact ⟨ts, nm, rfl, ih he⟩

/-- The patterns of a union that rustc takes have the type of the discriminant. -/
theorem union_fits_taken (hdefs : file.defs = some defs) {u : UnionItem} (hu : .union u ∈ file.types)
    (hder : u.derive = .union) : ∃ un cond, u.union = some un ∧ un.cond = some cond ∧
      (∀ p ∈ un.byValue, p.1.fits file.enums cond = true) ∧
      (∀ v ∈ u.variants, v.fields = [] ∨ v.fields.head? = some cond) ∧
      (un.otherwise = .none → Pat.bool true ∈ un.byValue.map (·.1) ∧ Pat.bool false ∈ un.byValue.map (·.1)) := by
  obtain ⟨d, hd, -⟩ := defs_lookup hdefs hu
  simp only [Item.meaning] at hd
  have h1 := (union_variants hd).1
  unfold UnionItem.meaning at hd
  rw [if_pos h1, hder] at hd
  simp only at hd
  split at hd
  · next un vs hun hvs =>
    split at hd
    · next cond hcond =>
      split at hd
      · next hok => exact ⟨un, cond, hun, hcond, hok.1, hok.2.1, hok.2.2.1⟩
      · cases hd
    · cases hd
  · cases hd

/-- The members of an enum of the source are those of its definition, apart from reserved ones. -/
theorem enum_variant (hg : gen_code n ds cfg = .ok file)
    (hdefs : file.defs = some defs) {name : Str} {as : List Assign} (hm : .type (.enum name as) ∈ ds) {e : EnumItem}
    (he : e ∈ file.enums) (hn : e.name = ⟨false, upper_camel_case name⟩) {a : Str}
    (ha : ⟨false, upper_camel_case a⟩ ∈ e.variants.map (·.1)) :
    ∃ m ∈ as, upper_camel_case m.identifier = upper_camel_case a := by
  obtain ⟨e', he', hmem⟩ := gen_code_enum hg hm
  have hmem' : Item.enum e ∈ file.types := by
    unfold RustFile.enums at he
    obtain ⟨i, hi, hie⟩ := List.mem_filterMap.1 he
    cases i <;> cases hie
    exact hi
  have hee : Item.enum e = Item.enum e' := by
    refine List.inj_on_of_nodup_map (namesOk_iff.1 (defs_ok hdefs).1).1 hmem' hmem ?_
    obtain ⟨_, _, -, hn', -⟩ := convert_enum_ok he'
    show e.name.str = e'.name.str
    rw [hn, camel_plain hn']
  cases hee
  obtain ⟨indexed, steps, h1, -, h3, -, -, hvar, -⟩ := convert_enum_ok he'
  obtain ⟨v, hv, hva⟩ := List.mem_map.1 ha
  rw [hvar] at hv
  rcases enumLoop_each h3 v hv with ⟨p, hp, hc, -⟩ | hr
  · have hp := mem_sortByKey.1 hp
    obtain ⟨m, hm', hmr⟩ := forall₂_mem_right (GR.mapM_ok.1 h1) hp
    simp only [GR.bind_eq_ok, GR.ok.injEq] at hmr
    obtain ⟨k, -, rfl⟩ := hmr
    refine ⟨m, hm', ?_⟩
    have := (camel_plain hc).symm.trans hva
    exact (RIdent.mk.inj this).2
  · exfalso
    refine reserved_camel (k := v.2) (a := a) ?_
    rw [← hr, hva]

theorem needed_matched (hp : parse src = .ok ds) (hrt : cfg.remove_typedef = true) (hg : gen_code n ds cfg = .ok file)
    (hdefs : file.defs = some defs) {name : Str} {b : UnionBody} (hm : .type (.union name b) ∈ ds) {u : UnionItem}
    (hmem : .union u ∈ file.types) (hu : convert_union_token (setup_context ds cfg) n name b = .ok u) {names : List Str}
    (hnames : b.used.map (·.1) = names.map Value.identifier) (hun : cfg.union_impl_union = true)
    (hix : cfg.union_impl_indexer = false) : ∃ cond nm, b.cond = .variable cond nm ∧ Matched ds cond names := by
  have hcfg : (setup_context ds cfg).config = cfg := rfl
  obtain ⟨cond, acc, dflt, hname, hcases, -, -, hder, hvars, -, hunion⟩ := convert_union_ok hu
  rw [hcfg, hix, hun] at hder
  rw [hcfg, hun] at hunion
  obtain ⟨un, ct, h1, h2, hfit, hhead, hoth⟩ := union_fits_taken hdefs hmem (by simpa using hder)
  rw [if_pos rfl] at hunion
  rw [hunion] at h1
  cases h1
  simp only at hfit hoth h2
  have hin : ∀ {a d}, (Value.identifier a, d) ∈ b.used → a ∈ names := by
    intro a d h
    have : (Value.identifier a) ∈ names.map Value.identifier := by
      rw [← hnames]
      exact List.mem_map.2 ⟨_, h, rfl⟩
    obtain ⟨a', ha', he⟩ := List.mem_map.1 this
    cases he
    exact ha'
  have hback : ∀ {a}, a ∈ names → ∃ d, (Value.identifier a, d) ∈ b.used := by
    intro a h
    have : (Value.identifier a) ∈ b.used.map (·.1) := by
      rw [hnames]
      exact List.mem_map.2 ⟨_, h, rfl⟩
    obtain ⟨⟨v, d⟩, hl, he⟩ := List.mem_map.1 this
    cases he
    exact ⟨d, hl⟩
  unfold unionCases at hcases
  cases hb : b.cond with
  | «variable» ts nm =>
    rw [hb] at hcases
    refine ⟨ts, nm, rfl, ?_⟩
    have loop : ts ≠ .bool → (∃ values steps, unionIndexed (setup_context ds cfg) n b.specs = .ok values ∧
        unionLoop (setup_context ds cfg) n ts (sortByKey values) 0 = .ok steps ∧
        (ts, UnionAcc.ofSteps steps) = (cond, acc)) → Matched ds ts names := by
      rintro hnb ⟨values, steps, g1, g2, g3⟩
      obtain ⟨rfl, rfl⟩ := Prod.mk.inj g3
      have hused : b.used = b.labels := by
        unfold UnionBody.used
        rw [hb]
        split
        · next h => cases h; exact absurd rfl hnb
        · rfl
      have hne := body_nonempty (wellFormed_parse hp) hm
      obtain ⟨ct', vs, res, k1, k2, -, -, -, -⟩ := loop_union hne g1 g2
      rw [k2] at h2
      cases h2
      have hpat : ∀ {a d}, (Value.identifier a, d) ∈ b.labels → ∃ k tok bv,
          caseByValue (setup_context ds cfg) ts k (.identifier a) tok = .ok bv ∧
          ∀ x ∈ bv, x.1.fits file.enums ct = true := by
        intro a d hl
        obtain ⟨k, hk⟩ := unionIndexed_label g1 hl
        obtain ⟨tok, bv, j1, j2⟩ := unionLoop_byValue g2 _ (mem_sortByKey.2 hk)
        exact ⟨k, tok, bv, j1, fun x hx => hfit x (j2 x hx)⟩
      cases hen : (setup_context ds cfg).is_enum_type ts with
      | true =>
        obtain ⟨en, as, rfl, hem⟩ := is_enum_type_ok hen
        refine .enum hem fun a ha => ?_
        obtain ⟨d, hl⟩ := hback ha
        rw [hused] at hl
        obtain ⟨k, tok, bv, j1, j2⟩ := hpat hl
        simp only [caseByValue, hen, if_true, GR.bind_eq_ok, GR.ok.injEq] at j1
        obtain ⟨c, hc, v, hv, rfl⟩ := j1
        have := j2 _ List.mem_cons_self
        simp only [Pat.fits] at this
        split at this
        · next e hfe =>
          simp only [Bool.decide_and, Bool.and_eq_true, decide_eq_true_eq] at this
          have hname := List.find?_some hfe
          simp only [decide_eq_true_eq] at hname
          refine enum_variant hg hdefs hem (List.mem_of_find?_eq_some hfe) ?_ ?_
          · rw [hname, camel_plain hc]
          · rw [← camel_plain hv]
            exact this.2
        · cases this
      | false =>
        obtain ⟨⟨v, d⟩, hl⟩ := List.exists_mem_of_ne_nil _ hne
        have hv : ∃ a, v = .identifier a := by
          have : v ∈ names.map Value.identifier := by
            rw [← hnames, hused]
            exact List.mem_map.2 ⟨_, hl, rfl⟩
          obtain ⟨a, -, ha⟩ := List.mem_map.1 this
          exact ⟨a, ha.symm⟩
        obtain ⟨a, rfl⟩ := hv
        obtain ⟨k, tok, bv, j1, j2⟩ := hpat hl
        simp only [caseByValue, hen] at j1
        cases j1
        have := j2 _ List.mem_cons_self
        simp only [Pat.fits, decide_eq_true_eq] at this
        subst this
        rw [hrt] at k1
        rcases k1 with ⟨op, hs⟩ | ⟨-, _, _, -, -, h⟩
        · exact .unsigned (hs.unsigned rfl)
        · cases h
    cases ts with
    | int sg =>
      simp only [GR.bind_eq_ok, GR.ok.injEq] at hcases
      obtain ⟨values, h1, steps, h2, h3⟩ := hcases
      exact loop nofun ⟨values, steps, h1, h2, h3⟩
    | identifier i =>
      simp only [GR.bind_eq_ok, GR.ok.injEq] at hcases
      obtain ⟨values, h1, steps, h2, h3⟩ := hcases
      exact loop nofun ⟨values, steps, h1, h2, h3⟩
    | bool =>
      simp only [GR.bind_eq_ok, GR.ok.injEq] at hcases
      obtain ⟨f, hf, t, ht, h3⟩ := hcases
      obtain ⟨rfl, rfl⟩ := Prod.mk.inj h3
      obtain ⟨ho1, ho2⟩ := hoth rfl
      have hused : b.used = (b.labels.find? fun l => l.1.is_false).toList ++
          (b.labels.find? fun l => l.1.is_true).toList := by
        unfold UnionBody.used
        rw [hb]
        simp only [isFalse_iff, isTrue_iff]
      have hsome : f ≠ none ∧ t ≠ none := by
        rcases boolCase_ok hf with ⟨rfl, -⟩ | ⟨c, rfl, -⟩ <;> rcases boolCase_ok ht with ⟨rfl, -⟩ | ⟨c', rfl, -⟩ <;>
          simp [boolStep] at ho1 ho2 ⊢
      have hfalse : ∃ l ∈ b.labels, l.1.is_false = true := by
        rcases boolCase_ok hf with ⟨rfl, -⟩ | ⟨c, -, l, hl, h, -⟩
        · exact absurd rfl hsome.1
        · exact ⟨l, hl, h⟩
      have htrue : ∃ l ∈ b.labels, l.1.is_true = true := by
        rcases boolCase_ok ht with ⟨rfl, -⟩ | ⟨c, -, l, hl, h, -⟩
        · exact absurd rfl hsome.2
        · exact ⟨l, hl, h⟩
      refine .bool ?_ ?_
      · obtain ⟨x, hx⟩ := Option.isSome_iff_exists.1 ((List.find?_isSome (p := fun l : Value × Declaration => l.1.is_true)).2 htrue)
        have h1 := List.find?_some hx
        simp only [isTrue_iff, decide_eq_true_eq] at h1
        obtain ⟨v, d⟩ := x
        simp only at h1
        subst h1
        exact hin (d := d) (by rw [hused, hx]; simp)
      · obtain ⟨x, hx⟩ := Option.isSome_iff_exists.1 ((List.find?_isSome (p := fun l : Value × Declaration => l.1.is_false)).2 hfalse)
        have h1 := List.find?_some hx
        simp only [isFalse_iff, decide_eq_true_eq] at h1
        obtain ⟨v, d⟩ := x
        simp only at h1
        subst h1
        exact hin (d := d) (by rw [hused, hx]; simp)
    | _ => cases hcases
  | _ => rw [hb] at hcases; cases hcases

end

end Xdr.Rpcgen
