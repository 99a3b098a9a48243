import Verif.RpcgenProofs.CleanItems
import Verif.RpcgenProofs.Variants
import Verif.RpcgenProofs.UnionWire
import Verif.RpcgenProofs.Arms
import Verif.RpcgenProofs.EndToEndRep
import Verif.Props.Items
/-!
# Unions of a file whose source compiles
-/

namespace Xdr.Rpcgen

theorem variantsMeaning_isSome {α : Type} {f : Variant → Option α} {vs : List Variant}
    (h : ∀ v ∈ vs, (∃ i, v.name = .ident i ∧ i.usable = true) ∧ (f v).isSome) : (variantsMeaning f vs).isSome := by
  induction vs with
  | nil => rfl
  | cons v vs ih =>
    obtain ⟨⟨i, hi, hu⟩, h2⟩ := h _ List.mem_cons_self
    obtain ⟨x, hx⟩ := Option.isSome_iff_exists.1 h2
    obtain ⟨y, hy⟩ := Option.isSome_iff_exists.1 (ih fun v hv => h v (List.mem_cons_of_mem _ hv))
    have hn : v.name.name? = some i := by rw [hi]; simp [Tok.name?, hu]
    simp only [variantsMeaning, hn, hx, hy]
    rfl

theorem tysMeaning_isSome {cs : List ConstItem} {ts : List RTy} (h : ∀ t ∈ ts, (t.meaning cs).isSome) :
    (tysMeaning cs ts).isSome := by
  induction ts with
  | nil => rfl
  | cons t ts ih =>
    obtain ⟨x, hx⟩ := Option.isSome_iff_exists.1 (h _ List.mem_cons_self)
    obtain ⟨y, hy⟩ := Option.isSome_iff_exists.1 (ih fun t ht => h t (List.mem_cons_of_mem _ ht))
    simp only [tysMeaning, hx, hy]
    rfl

theorem types_isSome {cs : List ConstItem} {v : Variant} (ha : v.attr = .none)
    (h : ∀ t ∈ v.fields, (t.meaning cs).isSome) : (v.types cs).isSome := by
  unfold Variant.types
  rw [if_pos ha]
  split
  · rfl
  · simpa using tysMeaning_isSome h

/-- The key of a label: its name in camel case. -/
def Value.camel : Value → Str
  | .identifier a => upper_camel_case a
  | .constant _ => []

theorem labels_unique {ls : List (Value × Declaration)} {ks : List Int} (hlen : ls.length = ks.length)
    {names : List Str} (hn : ls.map (·.1) = names.map Value.identifier)
    (hd : (names.map upper_camel_case).Nodup) {l l' : Value × Declaration} {k k' : Int} (h1 : (l, k) ∈ ls.zip ks)
    (h2 : (l', k') ∈ ls.zip ks) (he : l.1.camel = l'.1.camel) : k = k' := by
  have hz : ((ls.zip ks).map fun p => p.1.1.camel).Nodup := by
    have e1 : (ls.zip ks).map (fun p => p.1.1.camel) = (((ls.zip ks).map Prod.fst).map (·.1)).map Value.camel := by
      simp [List.map_map, Function.comp_def]
    have e2 : (names.map Value.identifier).map Value.camel = names.map upper_camel_case := by
      simp [List.map_map, Function.comp_def, Value.camel]
    rw [e1, List.map_fst_zip (by omega), hn, e2]
    exact hd
  have := List.inj_on_of_nodup_map hz h1 h2 he
  exact congrArg Prod.snd this

/-- `unsigned int` is `u32`. -/
theorem unsigned_type {ds : List Definition} {ts : TypeSpecifier} (h : IsUnsigned ds ts) :
    SpecType ds true ts .u32 .none ∧ ∀ ty op, SpecType ds true ts ty op → ty = .u32 := by
  induction h with
  | uint => exact ⟨.uint, fun ty op h => by cases h; rfl⟩
  | typedef ht _ ih =>
    refine ⟨.typedef rfl ht (.variable ih.1), fun ty op h => ?_⟩
    cases h with
    | typedef _ h1 h2 =>
      rw [ht] at h1
      cases h1
      cases h2 with
      | «variable» h3 => exact ih.2 _ _ h3
    | name h1 _ => exact absurd ht (h1 rfl _)

theorem unsigned_cond {ds : List Definition} {ts : TypeSpecifier} (h : IsUnsigned ds ts) {ct : RTy}
    (hc : CondType ds true ts ct) : ct = .u32 := by
  rcases hc with ⟨op, hs⟩ | ⟨hn, -⟩
  · exact (unsigned_type h).2 _ _ hs
  · exact absurd (unsigned_type h).1 (hn _ _)

theorem enum_cond {ds : List Definition} {name e : Str} {as : List Assign} (h : typeOf ds name = some (.enum e as))
    {ct : RTy} (hc : CondType ds true (.identifier name) ct) :
    ∃ id, upper_camel_case_ident name = .ok id ∧ ct = .path id := by
  rcases hc with ⟨op, hs⟩ | ⟨-, nm, id, h1, h2, h3⟩
  · cases hs with
    | typedef _ h1 _ =>
      rw [h] at h1
      cases h1
    | name _ hid => exact ⟨_, hid, rfl⟩
  · cases h1
    exact ⟨id, h2, h3⟩

/-- A discriminant with a label has a type. -/
theorem selects_spec {n : Nat} {ds : List Definition} {cfg : Config} {file : RustFile}
    (hg : gen_code n ds cfg = .ok file) {ts : TypeSpecifier} {v : Value} {k : Int} (h : Selects ds ts v k) :
    ∃ ty op, SpecType ds true ts ty op := by
  induction h with
  | @int signed _ _ _ =>
    cases signed
    · exact ⟨_, _, .uint⟩
    · exact ⟨_, _, .int⟩
  | false => exact ⟨_, _, .bool⟩
  | true => exact ⟨_, _, .bool⟩
  | @enum name e as a k ht _ _ =>
    have hm := typeOf_mem ht
    cases hm.2
    obtain ⟨_, hce, -⟩ := gen_code_enum hg hm.1
    obtain ⟨_, _, _, hname, -⟩ := convert_enum_ok hce
    exact ⟨_, _, .name (fun _ d hd => by rw [ht] at hd; cases hd) hname⟩
  | typedef ht _ _ ih =>
    obtain ⟨ty, op, ih⟩ := ih
    exact ⟨_, _, .typedef rfl ht (.variable ih)⟩

/-- The variant of a case. -/
structure CaseVariant (ds : List Definition) (cfg : Config) (names : List Str) (ct : RTy)
    (l : Value × Declaration) (t : Tok) (v : Variant) (a : Str) (id : RIdent) : Prop where
  mem : a ∈ names
  label : l.1 = .identifier a
  ident : upper_camel_case_ident a = .ok id
  tok : t = .ident id
  name : v.name = .ident id
  arm : ∃ ts, ArmType ds cfg l.2 v.attr ts ∧ v.fields = withCond cfg ct ts
  decl : DeclIn ds l.2

/-- The variant of the default arm. -/
structure DefVariant (ds : List Definition) (cfg : Config) (ct : RTy) (d : Declaration) (v : Variant) : Prop where
  attr : v.attr = .none
  name : v.name = defaultTok
  fields : ∃ ts, v.fields = withCond cfg ct ts ∧ (ts = [] ∨ ∃ ty op, ts = [ty] ∧ DeclType ds true d ty op)
  decl : DeclIn ds d

/-- What the proofs below need of a union. -/
structure CleanUnion (ds : List Definition) (cfg : Config) (n : Nat) (b : UnionBody) (u : UnionItem)
    (names : List Str) (ks : List Int) (cond : TypeSpecifier) (ct : RTy) (acc : UnionAcc)
    (cs : List (CaseTok × Int)) : Prop where
  cases : Cases (setup_context ds cfg) n cond b.labels ks acc cs
  nonempty : cs ≠ []
  len : b.labels.length = ks.length
  acc_cond : acc.cond = some ct
  cond_ty : CondType ds true cond ct
  each : ∀ c k, (c, k) ∈ cs → ∃ l a id, (l, k) ∈ b.labels.zip ks ∧ CaseVariant ds cfg names ct l c.variant c.value a id
  variants : ∃ dv, u.variants = acc.variants ++ dv ∧
    ((b.default = none ∧ dv = []) ∨ ∃ d v, b.default = some d ∧ dv = [v] ∧ DefVariant ds cfg ct d v)
  acc_variants : ∀ v ∈ acc.variants, (∃ c k, (c, k) ∈ cs ∧ v = c.value) ∨
    (cfg.union_complement_index = true ∧ ∃ k, ReservedAt k v)
  derive : u.derive = (if cfg.union_impl_indexer then .indexer
        else if cfg.union_impl_union then .union else .serde)
  indexer : u.indexer = (if cfg.union_impl_indexer then some {
          byIndex := acc.byIndex
          otherwise := b.default.isSome
          index := acc.index
          indexOtherwise := b.default.isSome } else none)
  union : u.union = (if cfg.union_impl_union then some {
          cond := acc.cond
          byValue := acc.byValue
          otherwise := match (generalizing := false) cond with
            | .bool => .none
            | _ => if b.default.isSome then .default else .err } else none)

theorem clean_union_cases {ds : List Definition} (hwf : WellFormed ds) {cfg : Config} (hu : Unambiguous ds)
    (hrt : cfg.remove_typedef = true) {n : Nat} {name : Str}
    {b : UnionBody} {u : UnionItem} (hm : .type (.union name b) ∈ ds) {cond : TypeSpecifier} {nm : Str} {ks : List Int}
    {names : List Str} (hb : b.cond = .variable cond nm) (hlab : Labelled ds cond b.labels ks)
    (hlabels : b.labels.map (·.1) = names.map Value.identifier)
    (h : convert_union_token (setup_context ds cfg) n name b = .ok u) :
    ∃ ct acc cs, CleanUnion ds cfg n b u names ks cond ct acc cs := by
  obtain ⟨ct, acc, dflt, hname, hcases, hdflt, -, hder, hvars, hix, hun⟩ := convert_union_ok h
  obtain ⟨rfl, cs, hcs⟩ := union_cases hwf hu hb hlab (labels_ok hwf hm) hcases
  have hcfg : (setup_context ds cfg).config = cfg := rfl
  rw [hcfg] at hder hix hun
  have hlen := hlab.selects.length_eq
  -- a first case
  obtain ⟨l0, hl0⟩ := List.exists_mem_of_ne_nil _ (body_nonempty hwf hm)
  obtain ⟨k0, hk0⟩ := zip_mem_left hlen hl0
  obtain ⟨c0, hc0, hcv0⟩ := hcs.all l0 k0 hk0
  have hacc : acc.cond = some c0.cond := hcs.cond_ty _ hc0
  refine ⟨c0.cond, acc, cs, hcs, List.ne_nil_of_mem hc0, hlen, hacc, hrt ▸ condType_sound (variant_of hcv0).2, ?_, ?_, ?_,
    hder, hix, hun⟩
  · -- every case
    intro c k hck
    obtain ⟨l, hl, hcv⟩ := hcs.from_label c k hck
    have hlm := (List.of_mem_zip hl).1
    have : l.1 ∈ names.map Value.identifier := by
      rw [← hlabels]
      exact List.mem_map_of_mem hlm
    obtain ⟨a, ha, hla⟩ := List.mem_map.1 this
    obtain ⟨o, g1, -, -, g4, -⟩ := convert_case_ok hcv
    obtain ⟨hv, -⟩ := variant_of hcv
    rw [← condType_unique hcv hcv0]
    have hcn := caseName_of g1
    rw [← hla] at hcn
    generalize hct : c.variant = t at hcn
    cases hcn with
    | name hid =>
      exact ⟨l, a, _, hl, ha, hla.symm, hid, rfl, by rw [g4, hct], hv.arm,
        .inr (.inr (.inl ⟨name, b, l.1, hm, hlm⟩))⟩
  · -- the default arm
    refine ⟨_, hvars, ?_⟩
    cases hbd : b.default with
    | none =>
      rw [hbd] at hdflt
      cases hdflt
      exact .inl ⟨rfl, rfl⟩
    | some d =>
      rw [hbd] at hdflt
      obtain ⟨o, v, h1, h2, h3, h4, h5⟩ := unionDefault_some hdflt
      refine .inr ⟨d, v, rfl, by rw [h2]; rfl, h3, h4, ?_, .inr (.inr (.inr (.inl ⟨name, b, hm, hbd⟩)))⟩
      rw [hacc, hcfg] at h5
      refine ⟨(o.map (·.1)).toList, ?_, ?_⟩
      · rw [h5]
        unfold withCond
        split <;> rfl
      · cases o with
        | none => exact .inl rfl
        | some p => exact .inr ⟨p.1, p.2, rfl, hrt ▸ decl_sound h1⟩
  · -- every variant
    intro v hv
    cases hcx : cfg.union_complement_index with
    | false =>
      rw [hcs.variants hcx] at hv
      obtain ⟨⟨c, k⟩, hck, rfl⟩ := List.mem_map.1 hv
      exact .inl ⟨c, k, hck, rfl⟩
    | true =>
      obtain ⟨i, hi⟩ := List.mem_iff_getElem?.1 hv
      by_cases hik : (i : Int) ∈ ks
      · obtain ⟨l, hl⟩ := zip_mem_right hlen hik
        obtain ⟨c, hck, -⟩ := hcs.all l _ hl
        have := hcs.positions hcx c _ hck
        rw [Int.toNat_natCast, hi] at this
        exact .inl ⟨c, _, hck, Option.some.inj this⟩
      · exact .inr ⟨rfl, _, hcs.reserved hcx i v hi hik⟩

section
variable {ds : List Definition} {cfg : Config} {n : Nat} {b : UnionBody} {u : UnionItem}
  {names : List Str} {ks : List Int} {cond : TypeSpecifier} {ct : RTy} {acc : UnionAcc} {cs : List (CaseTok × Int)}

/-- The names of the variants are different. -/
theorem CleanUnion.names_nodup (h : CleanUnion ds cfg n b u names ks cond ct acc cs)
    (hlabels : b.labels.map (·.1) = names.map Value.identifier) (hln : LabelNames b.default.isSome names) :
    (u.variants.map (·.name.str)).Nodup := by
  -- two cases with the same name
  have hsame : ∀ c k c' k', (c, k) ∈ cs → (c', k') ∈ cs → c.value.name.str = c'.value.name.str → k = k' := by
    intro c k c' k' h1 h2 he
    obtain ⟨l, a, id, hl, hv⟩ := h.each c k h1
    obtain ⟨l', a', id', hl', hv'⟩ := h.each c' k' h2
    refine labels_unique h.len hlabels hln.distinct hl hl' ?_
    rw [hv.name, hv'.name, camel_plain hv.ident, camel_plain hv'.ident] at he
    rw [hv.label, hv'.label]
    exact plain_str.1 he
  have hres : ∀ c k j v, (c, k) ∈ cs → ReservedAt j v → v.name.str ≠ c.value.name.str := by
    intro c k j v h1 hv he
    obtain ⟨l, a, id, hl, hv'⟩ := h.each c k h1
    rw [hv, hv'.name, camel_plain hv'.ident] at he
    exact reserved_camel he
  have hacc : (acc.variants.map (·.name.str)).Nodup := by
    cases hcx : cfg.union_complement_index with
    | false =>
      rw [h.cases.variants hcx, List.map_map]
      refine nodup_by (g := fun c : CaseTok × Int => c.2) ?_ ?_
      · exact List.pairwise_map.2 (h.cases.sorted.imp fun hab => by omega)
      · rintro ⟨c, k⟩ h1 ⟨c', k'⟩ h2 he
        exact hsame c k c' k' h1 h2 he
    | true =>
      rw [List.nodup_iff_injective_getElem]
      rintro ⟨i, hi⟩ ⟨j, hj⟩ hij
      simp only [List.getElem_map, Fin.mk.injEq] at hij ⊢
      simp only [List.length_map] at hi hj
      have hvi : acc.variants[i]? = some acc.variants[i] := List.getElem?_eq_getElem hi
      have hvj : acc.variants[j]? = some acc.variants[j] := List.getElem?_eq_getElem hj
      have hat : ∀ (i : Nat) v, acc.variants[i]? = some v → (i : Int) ∈ ks → ∃ c, (c, (i : Int)) ∈ cs ∧ v = c.value := by
        intro i v hv hik
        obtain ⟨l, hl⟩ := zip_mem_right h.len hik
        obtain ⟨c, hck, -⟩ := h.cases.all l _ hl
        have := h.cases.positions hcx c _ hck
        rw [Int.toNat_natCast, hv] at this
        exact ⟨c, hck, Option.some.inj this⟩
      by_cases hik : (i : Int) ∈ ks <;> by_cases hjk : (j : Int) ∈ ks
      · obtain ⟨c, h1, h2⟩ := hat i _ hvi hik
        obtain ⟨c', h1', h2'⟩ := hat j _ hvj hjk
        rw [h2, h2'] at hij
        have := hsame _ _ _ _ h1 h1' hij
        omega
      · obtain ⟨c, h1, h2⟩ := hat i _ hvi hik
        rw [h2] at hij
        exact absurd hij.symm (hres _ _ _ _ h1 (h.cases.reserved hcx j _ hvj hjk))
      · obtain ⟨c, h1, h2⟩ := hat j _ hvj hjk
        rw [h2] at hij
        exact absurd hij (hres _ _ _ _ h1 (h.cases.reserved hcx i _ hvi hik))
      · have h1 : acc.variants[i] = _ := h.cases.reserved hcx i _ hvi hik
        have h2 : acc.variants[j] = _ := h.cases.reserved hcx j _ hvj hjk
        rw [h1, h2] at hij
        have := reserved_str hij
        omega
  obtain ⟨dv, hv, hdv⟩ := h.variants
  rw [hv, List.map_append]
  rcases hdv with ⟨-, rfl⟩ | ⟨d, v, hbd, rfl, hdf⟩
  · simpa using hacc
  · rw [List.nodup_append]
    refine ⟨hacc, by simp, ?_⟩
    intro x hx y hy
    simp only [List.map_cons, List.map_nil, List.mem_singleton] at hy
    subst hy
    obtain ⟨w, hw, rfl⟩ := List.mem_map.1 hx
    rw [hdf.name]
    rcases h.acc_variants w hw with ⟨c, k, hck, rfl⟩ | ⟨-, k, hk⟩
    · obtain ⟨l, a, id, hl, hv'⟩ := h.each c k hck
      rw [hv'.name, camel_plain hv'.ident]
      intro he
      exact hln.default (by rw [hbd]; rfl) a hv'.mem (plain_str.1 he)
    · rw [hk]
      intro he
      have := plain_str.1 he
      exact absurd this (by simp)

/-- The names of the variants can be used. -/
theorem CleanUnion.usable (h : CleanUnion ds cfg n b u names ks cond ct acc cs)
    (hln : LabelNames b.default.isSome names) : ∀ v ∈ u.variants, ∃ i, v.name = .ident i ∧ i.usable = true := by
  intro v hv
  obtain ⟨dv, hvs, hdv⟩ := h.variants
  rw [hvs, List.mem_append] at hv
  rcases hv with hv | hv
  · rcases h.acc_variants v hv with ⟨c, k, hck, rfl⟩ | ⟨-, k, hk⟩
    · obtain ⟨l, a, id, hl, hv'⟩ := h.each c k hck
      exact ⟨id, hv'.name, camel_usable hv'.ident (hln.keyword a hv'.mem)⟩
    · rw [hk]
      exact ⟨_, rfl, reserved_usable k⟩
  · rcases hdv with ⟨-, rfl⟩ | ⟨d, w, hbd, rfl, hdf⟩
    · cases hv
    · simp only [List.mem_singleton] at hv
      subst hv
      exact ⟨_, hdf.name, by decide⟩

/-- The fields of the variants. -/
theorem CleanUnion.fields (h : CleanUnion ds cfg n b u names ks cond ct acc cs) :
    ∀ v ∈ u.variants, (cfg.union_complement_index = true ∧ v.attr = .none ∧ v.fields = []) ∨
      ∃ d ts, DeclIn ds d ∧ v.fields = withCond cfg ct ts ∧
      (ArmType ds cfg d v.attr ts ∨ v.attr = .none ∧ (ts = [] ∨ ∃ ty op, ts = [ty] ∧ DeclType ds true d ty op)) := by
  intro v hv
  obtain ⟨dv, hvs, hdv⟩ := h.variants
  rw [hvs, List.mem_append] at hv
  rcases hv with hv | hv
  · rcases h.acc_variants v hv with ⟨c, k, hck, rfl⟩ | ⟨hx, k, hk⟩
    · obtain ⟨l, a, id, hl, hv'⟩ := h.each c k hck
      obtain ⟨ts, h1, h2⟩ := hv'.arm
      exact .inr ⟨_, ts, hv'.decl, h2, .inl h1⟩
    · rw [hk]
      exact .inl ⟨hx, rfl, rfl⟩
  · rcases hdv with ⟨-, rfl⟩ | ⟨d, w, hbd, rfl, hdf⟩
    · cases hv
    · simp only [List.mem_singleton] at hv
      subst hv
      obtain ⟨ts, h1, h2⟩ := hdf.fields
      exact .inr ⟨d, ts, hdf.decl, h1, .inr ⟨hdf.attr, h2⟩⟩

/-- The types of a union that are names. -/
theorem CleanUnion.paths (h : CleanUnion ds cfg n b u names ks cond ct acc cs) (hc : Clean ds cfg)
    (hrt : cfg.remove_typedef = true) {file : RustFile} (hg : gen_code n ds cfg = .ok file)
    (hlab : Labelled ds cond b.labels ks) {nm : Str} (hin : DeclIn ds (.variable cond nm)) :
    ∀ i ∈ (Item.union u).paths,
      ∃ name t, typeOf ds name = some t ∧ t.itemName = some name ∧ upper_camel_case_ident name = .ok i := by
  have hct : ∀ i ∈ ct.paths, ∃ name t, typeOf ds name = some t ∧ t.itemName = some name ∧
      upper_camel_case_ident name = .ok i := by
    have hdef : ∀ name, cond = .identifier name → typeOf ds name ≠ none :=
      fun name hn => hc.defined _ name hin (by rw [hn]; rfl)
    rcases h.cond_ty with ⟨op, hs⟩ | ⟨hno, -⟩
    · exact SpecType.items hc hs hdef
    · obtain ⟨⟨c, k⟩, hck⟩ := List.exists_mem_of_ne_nil _ h.nonempty
      obtain ⟨l, _, _, hl, -⟩ := h.each c k hck
      obtain ⟨ty, op, hs⟩ := selects_spec hg (forall₂_zip hlab.selects hl)
      exact absurd hs (hno ty op)
  intro i hi
  simp only [Item.paths, List.mem_flatMap] at hi
  obtain ⟨v, hv, ty, hty, hi⟩ := hi
  rcases h.fields v hv with ⟨-, -, hf⟩ | ⟨d, ts, hd, hf, harm⟩
  · rw [hf] at hty
    cases hty
  · rw [hf] at hty
    have hty : ty = ct ∨ ty ∈ ts := by
      unfold withCond at hty
      split at hty
      · exact List.mem_cons.1 hty
      · exact .inr hty
    rcases hty with rfl | hty
    · exact hct i hi
    · rcases harm with harm | ⟨-, rfl | ⟨ty', op, rfl, hdt⟩⟩
      · generalize v.attr = at_ at harm
        cases harm with
        | void => cases hty
        | plain hdt | fixed hdt _ | «variable» hdt _ =>
          simp only [List.mem_singleton] at hty
          subst hty
          exact DeclType.items hc (hrt ▸ hdt) hd i hi
        | wrapped =>
          simp only [List.mem_singleton] at hty
          subst hty
          cases hi
      · cases hty
      · simp only [List.mem_singleton] at hty
        subst hty
        exact DeclType.items hc hdt hd i hi

/-- The type of the discriminant has a meaning. -/
theorem CleanUnion.cond_means (h : CleanUnion ds cfg n b u names ks cond ct acc cs) (hwf : WellFormed ds)
    (hc : Clean ds cfg) {consts : List ConstItem} (hd : List.Forall₂ DeclaredAs (constants ds) consts) :
    (ct.meaning consts).isSome := by
  rcases h.cond_ty with ⟨op, hs⟩ | ⟨-, name, id, -, -, rfl⟩
  · exact SpecType.means hwf hc hd hs
  · rfl

/-- Without positions, the variants have no attributes and fields of known types. -/
theorem CleanUnion.types_some (h : CleanUnion ds cfg n b u names ks cond ct acc cs) (hwf : WellFormed ds)
    (hc : Clean ds cfg) (hrt : cfg.remove_typedef = true) (hx : cfg.union_complement_index = false)
    {consts : List ConstItem} (hd : List.Forall₂ DeclaredAs (constants ds) consts) :
    ∀ v ∈ u.variants, (v.types consts).isSome := by
  intro v hv
  rcases h.fields v hv with ⟨hx', -⟩ | ⟨d, ts, hin, hf, harm⟩
  · rw [hx] at hx'
    cases hx'
  · have key : v.attr = .none ∧ ∀ t ∈ ts, (t.meaning consts).isSome := by
      rcases harm with harm | ⟨ha, rfl | ⟨ty', op, rfl, hdt⟩⟩
      · generalize v.attr = at_ at harm
        cases harm with
        | void => exact ⟨rfl, nofun⟩
        | plain hdt =>
          refine ⟨rfl, fun t ht => ?_⟩
          simp only [List.mem_singleton] at ht
          subst ht
          exact DeclType.means hwf hc hd (hrt ▸ hdt) hin
        | fixed _ hx' | «variable» _ hx' =>
          rw [hx] at hx'
          cases hx'
        | wrapped =>
          refine ⟨rfl, fun t ht => ?_⟩
          simp only [List.mem_singleton] at ht
          subst ht
          rfl
      · exact ⟨ha, nofun⟩
      · refine ⟨ha, fun t ht => ?_⟩
        simp only [List.mem_singleton] at ht
        subst ht
        exact DeclType.means hwf hc hd hdt hin
    refine types_isSome key.1 fun t ht => ?_
    rw [hf] at ht
    unfold withCond at ht
    split at ht
    · rcases List.mem_cons.1 ht with rfl | ht
      · exact h.cond_means hwf hc hd
      · exact key.2 t ht
    · exact key.2 t ht

/-- With positions, the variants have one field or none. -/
theorem CleanUnion.shapes (h : CleanUnion ds cfg n b u names ks cond ct acc cs) (hwf : WellFormed ds)
    (hc : Clean ds cfg) (hrt : cfg.remove_typedef = true) (hx : cfg.union_complement_index = true)
    {consts : List ConstItem} (hd : List.Forall₂ DeclaredAs (constants ds) consts) (enums : List EnumItem) :
    ∀ v ∈ u.variants, (v.shape consts enums).isSome := by
  have hun : cfg.union_impl_union = false := by
    simp only [Config.union_complement_index] at hx
    revert hx
    cases cfg.union_impl_union <;> simp
  intro v hv
  unfold Variant.shape
  rcases h.fields v hv with ⟨-, -, hf⟩ | ⟨d, ts, hin, hf, harm⟩
  · rw [hf]
    rfl
  · rw [hf]
    have : withCond cfg ct ts = ts := by
      unfold withCond
      rw [hun]
      rfl
    rw [this]
    rcases harm with harm | ⟨ha, rfl | ⟨ty', op, rfl, hdt⟩⟩
    · generalize v.attr = at_ at harm
      cases harm with
      | void => rfl
      | plain hdt =>
        simpa [OpaqueType.attr] using DeclType.field hwf hc hd (hrt ▸ hdt) hin enums
      | fixed hdt =>
        simpa [OpaqueType.attr] using DeclType.field hwf hc hd (hrt ▸ hdt) hin enums
      | «variable» hdt =>
        simpa [OpaqueType.attr] using DeclType.field hwf hc hd (hrt ▸ hdt) hin enums
      | wrapped _ _ hx' =>
        rw [hx] at hx'
        cases hx'
    · rfl
    · rw [ha]
      simpa [fieldMeaning] using DeclType.means hwf hc hd hdt hin

/-- The patterns of `name_by_value` have the type of the discriminant. -/
theorem CleanUnion.fits (h : CleanUnion ds cfg n b u names ks cond ct acc cs) (hu : Unambiguous ds)
    {file : RustFile} (hg : gen_code n ds cfg = .ok file) (hok : file.namesOk = true)
    (hlab : Labelled ds cond b.labels ks) (hmt : Matchable ds cond names) :
    ∀ p ∈ acc.byValue, p.1.fits file.enums ct = true := by
  intro p hp
  obtain ⟨⟨c, k⟩, hck, -, l, hl, -, hpat⟩ := forall₂_mem_right h.cases.byValue hp
  unfold IsPat at hpat
  split at hpat
  · rename_i he
    obtain ⟨name, as, rfl, hme⟩ := is_enum_type_ok he
    obtain ⟨_, a, ci, vi, h1, h2, h3, h4, h5⟩ := hpat
    cases h1
    have hte := typeOf_of_mem hu hme (name := name) rfl
    obtain ⟨id, hid, rfl⟩ := enum_cond hte h.cond_ty
    rw [h3] at hid
    cases hid
    obtain ⟨e, hce, hef⟩ := gen_code_enum hg hme
    obtain ⟨_, _, _, hname, -⟩ := convert_enum_ok hce
    rw [h3] at hname
    have hname : ci = e.name := GR.ok.inj hname
    subst hname
    have hsel := forall₂_zip hlab.selects hl
    obtain ⟨m, hma, hml, -⟩ := selects_enum hu hme hsel
    simp only [h2, Value.identifier.injEq] at hml
    subst hml
    obtain ⟨ms, res, hperm, hf2, -⟩ := member_variants hce
    obtain ⟨v, hvm, hvi⟩ := forall₂_mem_left hf2 hma
    rw [h4] at hvi
    rw [h5]
    simp only [Pat.fits, enums_find hok hef, true_and, decide_eq_true_eq]
    rw [GR.ok.inj hvi]
    exact List.mem_map_of_mem (hperm.mem_iff.2 (List.mem_append_left _ hvm))
  · rename_i he
    split at hpat
    · rename_i hb
      have : cond = .bool := by
        revert hb
        cases cond <;> simp [IsPat.isBool]
      subst this
      have : ct = .bool := by
        rcases h.cond_ty with ⟨op, hs⟩ | ⟨-, _, _, h0, -⟩
        · cases hs
          rfl
        · cases h0
      rw [hpat, this]
      rfl
    · rename_i hb
      have : ct = .u32 := by
        cases hmt with
        | unsigned hu => exact unsigned_cond hu h.cond_ty
        | enum hte =>
          exact absurd (is_enum_type_of hte) he
        | bool => exact absurd rfl hb
      rw [hpat, this]
      rfl

end

/-- A union with names as labels. -/
theorem clean_union {ds : List Definition} (hwf : WellFormed ds) {cfg : Config} (hc : Clean ds cfg)
    (hrt : cfg.remove_typedef = true) {n : Nat} {file : RustFile} (hg : gen_code n ds cfg = .ok file)
    (hd : List.Forall₂ DeclaredAs (constants ds) file.constants) (hok : file.namesOk = true) {name : Str}
    {b : UnionBody} {u : UnionItem} (hm : .type (.union name b) ∈ ds)
    (h : convert_union_token (setup_context ds cfg) n name b = .ok u) :
    (u.meaning file.constants file.enums).isSome := by
  obtain ⟨cond, nm, ks, names, hb, hlab, hlabels, hln, hmt⟩ := hc.unions name b hm
  obtain ⟨ct, acc, cs, H⟩ := clean_union_cases hwf hc.unambiguous hrt hm hb hlab hlabels h
  have hus := H.usable hln
  unfold UnionItem.meaning
  rw [if_pos (H.names_nodup hlabels hln), H.derive, H.indexer, H.union]
  cases hi : cfg.union_impl_indexer with
  | true =>
    have hx : cfg.union_complement_index = false := by simp [Config.union_complement_index, hi]
    obtain ⟨vs, hvs⟩ := Option.isSome_iff_exists.1 (variantsMeaning_isSome (f := (·.types file.constants))
      fun v hv => ⟨hus v hv, H.types_some hwf hc hrt hx hd v hv⟩)
    simp only [if_true, hvs]
    rw [if_pos]
    · rfl
    · refine ⟨?_, ?_, ?_⟩
      · obtain ⟨dv, hv, ⟨-, rfl⟩ | ⟨d, v, hbd, -⟩⟩ := H.variants
        · right
          intro v hvm
          rw [hv, List.append_nil, H.cases.variants hx] at hvm
          obtain ⟨⟨c, k⟩, hck, rfl⟩ := List.mem_map.1 hvm
          obtain ⟨l, a, id, -, hcv⟩ := H.each c k hck
          rw [H.cases.index, hcv.name, ← hcv.tok, List.map_map]
          exact List.mem_map.2 ⟨_, hck, rfl⟩
        · left
          rw [hbd]
          rfl
      · rw [H.cases.byIndex]
        simpa using H.nonempty
      · rw [H.cases.index]
        simpa using H.nonempty
  | false =>
    cases hun : cfg.union_impl_union with
    | true =>
      have hx : cfg.union_complement_index = false := by simp [Config.union_complement_index, hun]
      obtain ⟨vs, hvs⟩ := Option.isSome_iff_exists.1 (variantsMeaning_isSome (f := (·.types file.constants))
        fun v hv => ⟨hus v hv, H.types_some hwf hc hrt hx hd v hv⟩)
      have hlenv := H.cases.byValue.length_eq
      have hhead : ∀ v ∈ u.variants, v.fields.head? = some ct := by
        intro v hv
        rcases H.fields v hv with ⟨hx', -⟩ | ⟨d, ts, -, hf, -⟩
        · rw [hx] at hx'
          cases hx'
        · rw [hf, withCond, if_pos hun]
          rfl
      simp only [if_true, Bool.false_eq_true, if_false, hvs, H.acc_cond]
      rw [if_pos]
      · simpa using H.cond_means hwf hc hd
      · refine ⟨H.fits hc.unambiguous hg hok hlab (hmt hun), fun v hv => .inr (hhead v hv), ?_, ?_, ?_⟩
        · intro ho
          have hcb : cond = .bool := by
            revert ho
            cases cond <;> first | (intro; rfl) | (cases b.default.isSome <;> simp)
          subst hcb
          have hmt := hmt hun
          have hboth : ∀ a ∈ names, ∀ k : Int, Selects ds .bool (.identifier a) k →
              Pat.bool (k = 1) ∈ acc.byValue.map (·.1) := by
            intro a ha k hsel
            have : Value.identifier a ∈ b.labels.map (·.1) := by
              rw [hlabels]
              exact List.mem_map_of_mem ha
            obtain ⟨l, hl, hla⟩ := List.mem_map.1 this
            obtain ⟨k', hk'⟩ := zip_mem_left H.len hl
            obtain ⟨c, hck, -⟩ := H.cases.all l k' hk'
            obtain ⟨p, hp, -, l', hl', -, hpat⟩ := forall₂_mem_left H.cases.byValue hck
            have hll := zip_unique hlab.distinct hk' hl'
            subst hll
            have hs' := forall₂_zip hlab.selects hk'
            have hkk : k' = k := by
              rw [hla] at hs'
              rcases selects_bool hsel with ⟨e1, f1, f2⟩ | ⟨e1, f1, f2⟩ <;>
                rcases selects_bool hs' with ⟨e2, g1, g2⟩ | ⟨e2, g1, g2⟩
              · rw [e1, e2]
              · rw [f2] at g1
                cases g1
              · rw [f2] at g1
                cases g1
              · rw [e1, e2]
            have : p.1 = .bool (k' = 1) := by
              unfold IsPat at hpat
              rwa [if_neg (by simp [Context.is_enum_type]), if_pos (by rfl)] at hpat
            rw [← hkk, ← this]
            exact List.mem_map_of_mem hp
          cases hmt with
          | unsigned h => cases h
          | bool ht hf => exact ⟨hboth _ ht 1 .true, hboth _ hf 0 .false⟩
        · obtain ⟨⟨c, k⟩, hck⟩ := List.exists_mem_of_ne_nil _ H.nonempty
          have hcv : c.value ∈ u.variants := by
            obtain ⟨dv, hv, -⟩ := H.variants
            rw [hv, H.cases.variants hx]
            exact List.mem_append_left _ (List.mem_map.2 ⟨_, hck, rfl⟩)
          refine ⟨_, hcv, fun h0 => ?_⟩
          have := hhead _ hcv
          rw [h0] at this
          cases this
        · intro h0
          rw [h0] at hlenv
          exact H.nonempty (List.length_eq_zero_iff.1 hlenv)
    | false =>
      have hx : cfg.union_complement_index = true := by simp [Config.union_complement_index, hun, hi]
      simpa using variantsMeaning_isSome (f := (·.shape file.constants file.enums))
        fun v hv => ⟨hus v hv, H.shapes hwf hc hrt hx hd file.enums v hv⟩

/-- The types in the items are items. -/
theorem clean_paths {ds : List Definition} (hwf : WellFormed ds) {cfg : Config} (hc : Clean ds cfg)
    (hrt : cfg.remove_typedef = true) {n : Nat} {file : RustFile} (hg : gen_code n ds cfg = .ok file) :
    ∀ i ∈ file.types, ∀ p ∈ i.paths, p ∈ file.types.map Item.name := by
  intro item hi p hp
  suffices ∃ name t, typeOf ds name = some t ∧ t.itemName = some name ∧ upper_camel_case_ident name = .ok p by
    obtain ⟨name, t, h1, h2, h3⟩ := this
    exact item_exists hrt hg h1 h2 h3
  rcases item_origin hrt hg hi with ⟨name, as, e, hm, rfl, h⟩ | ⟨name, ms, s, hm, rfl, h⟩ | ⟨name, b, u, hm, rfl, h⟩
  · cases hp
  · obtain ⟨-, hfs⟩ := convert_struct_ok h
    simp only [Item.paths, List.mem_flatMap] at hp
    obtain ⟨r, hr, hp⟩ := hp
    obtain ⟨d, hdm, h1⟩ := forall₂_mem_right hfs hr
    obtain ⟨f, ts, ty, op, hf, hts, hty, hi, hr2, hr1⟩ := convertField_ok h1
    refine DeclType.items hc (hrt ▸ decl_sound hty) (.inr (.inl (member_in hm hdm))) p ?_
    rw [hr2] at hp
    split at hp
    · simpa [RTy.paths] using hp
    · exact hp
  · obtain ⟨cond, nm, ks, names, hb, hlab, hlabels, hln, hmt⟩ := hc.unions name b hm
    obtain ⟨ct, acc, cs, H⟩ := clean_union_cases hwf hc.unambiguous hrt hm hb hlab hlabels h
    exact H.paths hc hrt hg hlab (nm := nm) (.inr (.inr (.inr (.inr ⟨name, b, hm, hb⟩)))) p hp

/-- The names of the file can stand. -/
theorem clean_namesOk {ds : List Definition} (hwf : WellFormed ds) {cfg : Config} (hc : Clean ds cfg)
    (hrt : cfg.remove_typedef = true) {n : Nat} {file : RustFile} (hg : gen_code n ds cfg = .ok file)
    (hd : List.Forall₂ DeclaredAs (constants ds) file.constants) : file.namesOk = true :=
  namesOk_iff.2 ⟨(clean_names hc hrt hg).1, (clean_names hc hrt hg).2, clean_paths hwf hc hrt hg,
    clean_constants hc hd⟩

theorem itemsMeaning_isSome {cs : List ConstItem} {enums : List EnumItem} {items : List Item}
    (h : ∀ i ∈ items, (i.meaning cs enums).isSome) : (itemsMeaning cs enums items).isSome := by
  induction items with
  | nil => rfl
  | cons i is ih =>
    obtain ⟨x, hx⟩ := Option.isSome_iff_exists.1 (h _ List.mem_cons_self)
    obtain ⟨y, hy⟩ := Option.isSome_iff_exists.1 (ih fun i hi => h i (List.mem_cons_of_mem _ hi))
    simp only [itemsMeaning, hx, hy]
    rfl

/-- Every item has a meaning. -/
theorem clean_defs {ds : List Definition} (hwf : WellFormed ds) {cfg : Config} (hc : Clean ds cfg)
    (hrt : cfg.remove_typedef = true) {n : Nat} {file : RustFile} (hg : gen_code n ds cfg = .ok file)
    (hd : List.Forall₂ DeclaredAs (constants ds) file.constants) : ∃ defs, file.defs = some defs := by
  have hok := clean_namesOk hwf hc hrt hg hd
  have hall : ∀ i ∈ file.types, (i.meaning file.constants file.enums).isSome := by
    intro item hi
    rcases item_origin hrt hg hi with ⟨name, as, e, hm, rfl, h⟩ | ⟨name, ms, s, hm, rfl, h⟩ | ⟨name, b, u, hm, rfl, h⟩
    · obtain ⟨⟨ks, hks⟩, hl⟩ := hc.enums name as hm
      exact clean_enum hwf hm hks hl h
    · exact clean_struct hwf hc hrt hg hd hok hm h
    · exact clean_union hwf hc hrt hg hd hok hm h
  obtain ⟨l, hl⟩ := Option.isSome_iff_exists.1 (itemsMeaning_isSome hall)
  exact ⟨_, by rw [RustFile.defs, if_pos hok, hl]; rfl⟩

end Xdr.Rpcgen
