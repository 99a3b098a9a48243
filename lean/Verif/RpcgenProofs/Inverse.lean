import Verif.Proofs.Inverse
import Verif.RpcgenProofs.Consistent
import Verif.RpcgenProofs.Panics
/-! # The functions of a generated program give back what they are given -/

namespace Xdr.Rpcgen

section
variable {ds : List Definition} {cfg : Config} {n : Nat} {file : RustFile} {defs : List (String × Def)}
  {dflt : Bool}

theorem meaning_inv (env : Env) {cs : List ConstItem} {rty : RTy} {t : Ty}
    (h : rty.meaning cs = some t) : t.Inv env := by
  induction rty generalizing t with
  | array ty len c ih =>
    simp only [RTy.meaning, Option.bind_eq_some_iff, arrayTy] at h
    obtain ⟨t', h1, h2⟩ := h
    split at h2
    · split at h2
      · cases h2
        simpa [Ty.Inv] using ih h1
      · cases h2
    · cases h2
  | vec ty ih =>
    simp only [RTy.meaning, Option.map_eq_some_iff] at h
    obtain ⟨t', h1, rfl⟩ := h
    simpa [Ty.Inv] using ih h1
  | option ty ih =>
    simp only [RTy.meaning, Option.map_eq_some_iff] at h
    obtain ⟨t', h1, rfl⟩ := h
    simpa [Ty.Inv] using ih h1
  | box ty ih => exact ih h
  | _ =>
    cases h
    trivial

theorem field_inv (R : Run ds cfg n file defs dflt) {attr : Attr} {rty : RTy} {t : Ty}
    (h : fieldMeaning file.constants file.enums attr rty = some t) :
    t.Inv (Xdr.program defs) := by
  cases attr with
  | none => exact meaning_inv _ h
  | fixed =>
    unfold fieldMeaning at h
    split at h <;> try cases h
    · simp_all
    · simp only [arrayTy] at h
      split at h
      · split at h
        · cases h
          trivial
        · cases h
      · cases h
    · simp_all
    · simp_all
  | «variable» =>
    unfold fieldMeaning at h
    split at h <;> try cases h
    · simp_all
    · simp_all
    · trivial
    · simp_all
  | signed32 =>
    unfold fieldMeaning at h
    split at h <;> try cases h
    · simp_all
    · simp_all
    · simp_all
    · next i _ =>
      split at h
      · next e he =>
        split at h
        · next a tr ha htr =>
          cases h
          have hname := List.find?_some he
          simp only [decide_eq_true_eq] at hname
          subst hname
          have hmem := mem_enums.1 (List.mem_of_find?_eq_some he)
          obtain ⟨name, as, ks, hm, hnum, hpos, hconv⟩ := enum_origin R hmem
          obtain ⟨ms, h1, h2, h3, h4, h5, h6, -, h7, h8, h9, h10, h11, h12, -⟩ :=
            enum_members R.wf (members_ok R.wf hm) hnum.stands hnum.distinct hnum.range hconv
          have hst : cfg.enum_impl_std_trait = true := by
            by_contra hst
            simp [hst] at h10
            rw [h10] at ha
            cases ha
          have hni : cfg.enum_impl_indexer = false := by
            by_contra hni
            exact R.enumTraits ⟨by simpa using hni, hst⟩
          have hv := h7 (by simp [Config.enum_complement_index, hst])
          rw [hst] at h10 h11
          simp only [if_true] at h10 h11
          rw [h10] at ha
          rw [h11] at htr
          simp only [Option.some.injEq] at ha htr
          subst ha htr
          obtain ⟨d, hd1, hd2⟩ := defs_lookup R.defs hmem
          obtain ⟨hnd, hdef⟩ := enum_meaning_ok hd1
          have hn1 : (ms.map (·.1)).Nodup := by
            rw [← hv]
            exact nodup_of_str hnd
          have hk1 := pairwise_lt_nodup h3
          intro vars p vn sh hvars hp
          simp only [Item.name] at hd2
          rw [hd2] at hvars
          rcases hdef with ⟨-, rfl⟩ | ⟨hix, -⟩
          · cases hvars
            rw [hv, List.getElem?_map, Option.map_eq_some_iff] at hp
            obtain ⟨m, hp, -⟩ := hp
            have hmm := List.mem_of_getElem? hp
            have hmk : m.2 ∈ ks := by
              obtain ⟨a, ha, -⟩ := h2 m hmm
              exact (List.of_mem_zip ha).2
            obtain ⟨g1, g2⟩ := signed32Of_member hn1 hk1 hp (hnum.range _ hmk)
            rw [hv, g1, g2]
          · rw [h9, hni] at hix
            cases hix
        · cases h
      · cases h

theorem fields_inv (R : Run ds cfg n file defs dflt) {fields : List (Attr × RIdent × RTy)}
    {fs : List (String × Ty)} (h : fieldsMeaning file.constants file.enums fields = some fs) :
    InvAll (Xdr.program defs) (fs.map (·.2)) := by
  induction fields generalizing fs with
  | nil =>
    cases h
    trivial
  | cons f fields ih =>
    obtain ⟨attr, i, rty⟩ := f
    simp only [fieldsMeaning] at h
    split at h
    · split at h
      · next t fs' ht hfs =>
        cases h
        exact ⟨field_inv R ht, ih hfs⟩
      · cases h
    · cases h

theorem tys_inv (env : Env) {cs : List ConstItem} {rs : List RTy} {ts : List Ty}
    (h : tysMeaning cs rs = some ts) : InvAll env ts ∧ ts.length = rs.length := by
  induction rs generalizing ts with
  | nil =>
    cases h
    exact ⟨trivial, rfl⟩
  | cons r rs ih =>
    simp only [tysMeaning] at h
    split at h
    · next t ts' ht hts =>
      cases h
      exact ⟨⟨meaning_inv env ht, (ih hts).1⟩, by simp [(ih hts).2]⟩
    · cases h

theorem types_inv (env : Env) {cs : List ConstItem} {v : Variant} {fs : Option (List Ty)}
    (h : v.types cs = some fs) : InvAll env (fs.getD []) ∧ (fs.getD []).length = v.fields.length := by
  unfold Variant.types at h
  split at h
  · split at h
    · next hf =>
      cases h
      simp [InvAll, hf]
    · rw [Option.map_eq_some_iff] at h
      obtain ⟨ts, hts, rfl⟩ := h
      exact tys_inv env hts
  · cases h

theorem shape_inv (R : Run ds cfg n file defs dflt) {v : Variant} {sh : Shape}
    (h : v.shape file.constants file.enums = some sh) : InvAll (Xdr.program defs) sh.types := by
  unfold Variant.shape at h
  split at h
  · cases h
    trivial
  · rw [Option.map_eq_some_iff] at h
    obtain ⟨t, ht, rfl⟩ := h
    exact ⟨field_inv R ht, trivial⟩
  · cases h

theorem struct_inv (R : Run ds cfg n file defs dflt) {s : StructItem} {d : Def}
    (h : s.meaning file.constants file.enums = some d) : d.Inv (Xdr.program defs) := by
  unfold StructItem.meaning at h
  split at h
  · rw [Option.map_eq_some_iff] at h
    obtain ⟨fs, hfs, rfl⟩ := h
    exact ⟨fields_inv R hfs, trivial⟩
  · cases h

theorem enum_inv (R : Run ds cfg n file defs dflt) {e : EnumItem} (he : .enum e ∈ file.types) {d : Def}
    (h : e.meaning = some d) : d.Inv (Xdr.program defs) := by
  obtain ⟨hnd, hdef⟩ := enum_meaning_ok h
  rcases hdef with ⟨-, rfl⟩ | ⟨hix, ix, hix', rfl⟩
  · refine ⟨?_, trivial⟩
    rw [invAll_iff]
    intro t ht
    simp only [Def.types, List.mem_flatMap, List.mem_map] at ht
    obtain ⟨_, ⟨v, -, rfl⟩, ht⟩ := ht
    cases ht
  · refine ⟨?_, ?_, ?_, ?_⟩
    · rw [invAll_iff]
      intro t ht
      simp only [Def.types, List.mem_flatMap, List.mem_map] at ht
      obtain ⟨_, ⟨v, -, rfl⟩, ht⟩ := ht
      cases ht
    · simpa [List.map_map, Function.comp_def] using hnd
    · intro v hv
      obtain ⟨w, -, rfl⟩ := List.mem_map.1 hv
      simp
    · obtain ⟨name, as, ks, hm, hnum, hpos, hconv⟩ := enum_origin R he
      obtain ⟨ms, h1, h2, h3, h4, h5, h6, -, h7, h8, h9, h10, h11, h12, -⟩ :=
        enum_members R.wf (members_ok R.wf hm) hnum.stands hnum.distinct hnum.range hconv
      rw [h9] at hix
      have hv := h7 (by simp [Config.enum_complement_index, hix])
      rw [h12, hix] at hix'
      simp only [if_true, Option.some.injEq] at hix'
      have hn1 : (ms.map (·.1)).Nodup := by
        rw [← hv]
        exact nodup_of_str hnd
      have hk1 := pairwise_lt_nodup h3
      intro p vn fields hp vs idx hidx
      rw [hv, List.getElem?_map, Option.map_eq_some_iff] at hp
      obtain ⟨m, hp, hvn⟩ := hp
      cases hvn
      have hmm := List.mem_of_getElem? hp
      have hmk : m.2 ∈ ks := by
        obtain ⟨a, ha, -⟩ := h2 m hmm
        exact (List.of_mem_zip ha).2
      obtain ⟨g1, g2⟩ := enumIndexer_member (otherwise := e.default) hn1 hk1 hp (hnum.range _ hmk)
      rw [← hix', hv] at hidx ⊢
      cases g1.symm.trans hidx
      exact g2

theorem union_inv (R : Run ds cfg n file defs dflt) {u : UnionItem}
    (hu : .union u ∈ file.types) {d : Def} (h : u.meaning file.constants file.enums = some d) :
    d.Inv (Xdr.program defs) := by
  rcases item_origin R.rt R.gen hu with ⟨_, _, _, _, h1, _⟩ | ⟨_, _, _, _, h1, _⟩ | ⟨name, b, u', hm, h1, hconv⟩
  · cases h1
  · cases h1
  cases h1
  have harm := (union_armed (text := true) (.inl rfl) hm hconv).few
  obtain ⟨cond, nm, ks, hcond, hlab, -⟩ := R.ok.unions name b hm
  have hcfg : (setup_context ds cfg).config = cfg := rfl
  by_cases hi : cfg.union_impl_indexer = true
  · have hnu : cfg.union_impl_union = false := by
      by_contra hnu
      exact R.unionTraits ⟨hi, by simpa using hnu⟩
    obtain ⟨ty, vars, impl, h1, h2, hnd, h3, -, h5⟩ :=
      indexer_case R.wf R.ok.unambiguous hi hnu R.gen R.defs hm hcond hlab
    obtain ⟨ct, acc, df, hc1, hc2, hc3, -, hder, hvs, -⟩ := convert_union_ok hconv
    rw [hc1] at h1
    cases h1
    obtain ⟨d', hd1, hd2⟩ := defs_lookup R.defs hu
    simp only [Item.meaning] at hd1
    rw [h] at hd1
    cases hd1
    simp only [Item.name] at hd2
    rw [h2] at hd2
    cases hd2
    rw [hcfg, hi] at hder
    obtain ⟨-, ix, vars', -, hvars, he⟩ := union_meaning_indexer h hder
    cases he
    have hf := variantsMeaning_ok hvars
    obtain ⟨rfl, cs, hcs⟩ := union_cases R.wf R.ok.unambiguous hcond hlab (labels_ok R.wf hm) hc2
    refine ⟨?_, hnd, ?_, ?_⟩
    · rw [invAll_iff]
      intro t ht
      simp only [Def.types, List.mem_flatMap] at ht
      obtain ⟨v, hv, ht⟩ := ht
      obtain ⟨v', -, i, -, -, -, hty⟩ := forall₂_mem_right hf hv
      exact (invAll_iff _ _).1 (types_inv _ hty).1 t ht
    · intro v hv
      obtain ⟨v', hv', i, -, -, -, hty⟩ := forall₂_mem_right hf hv
      rw [(types_inv (Xdr.program defs) hty).2]
      have := harm v' hv'
      omega
    · intro i vn fields hget vs idx hidx
      obtain ⟨var, hvar, id, hvid, -, hvn, -⟩ := forall₂_at hf hget
      simp only at hvn
      have hmem := List.mem_of_getElem? hvar
      rw [hvs, List.mem_append] at hmem
      rcases hmem with hmem | hmem
      · rw [hcs.variants (by simp [Config.union_complement_index, hcfg, hi])] at hmem
        obtain ⟨⟨ck, k⟩, hck, hvc⟩ := List.mem_map.1 hmem
        obtain ⟨l, hl, hconv'⟩ := hcs.from_label _ _ hck
        obtain ⟨a, id', fs, i', ha, hid', hv', -, g1, g2⟩ := h3 l k hl
        obtain ⟨o, ho, -, -, hn, -⟩ := convert_case_ok hconv'
        simp only at hvc
        rw [ha] at ho
        simp only [convert_value_token, if_true, hid', GR.bind, GR.ok.injEq] at ho
        have : id = id' := by
          have h' := hvid
          rw [← hvc, hn, ← ho] at h'
          cases h'
          rfl
        subst this
        rw [hvn] at hget ⊢
        obtain ⟨rfl, -⟩ := at_unique hnd hget hv'
        rw [g1 vs] at hidx
        cases hidx
        exact g2
      · cases hbd : b.default with
        | none =>
          rw [hbd] at hc3
          cases hc3
          cases hmem
        | some dd =>
          obtain ⟨i', fs, g1, -, g2⟩ := h5 dd hbd
          rw [hbd] at hc3
          obtain ⟨o, v', -, hdf, -, hn, -⟩ := unionDefault_some hc3
          rw [hdf] at hmem
          rw [Option.toList_some, List.mem_singleton] at hmem
          subst hmem
          rw [hn] at hvid
          have hd : id.str = "Default" := by
            cases hvid
            rfl
          rw [hvn, hd] at hget
          obtain ⟨rfl, -⟩ := at_unique hnd hget g1
          rw [g2 vs] at hidx
          cases hidx
  · have hi' : cfg.union_impl_indexer = false := by simpa using hi
    obtain ⟨ct, acc, df, hc1, hc2, hc3, -, hder, hvs, -, hun⟩ := convert_union_ok hconv
    rw [hcfg, hi'] at hder
    by_cases hcu : cfg.union_impl_union = true
    · rw [hcu] at hder
      simp only [Bool.false_eq_true, if_false, if_true] at hder
      obtain ⟨hnd, un, vars, c, disc, hun', hvars, hc, -, -, hdisc, rfl⟩ := union_meaning_union h hder
      rw [hcfg, hcu] at hun
      simp only [if_true] at hun
      rw [hun] at hun'
      cases hun'
      simp only at hc
      obtain ⟨rfl, cs, hcs⟩ := union_cases R.wf R.ok.unambiguous hcond hlab (labels_ok R.wf hm) hc2
      have hf := variantsMeaning_ok hvars
      refine ⟨?_, ?_, ?_⟩
      · rw [invAll_iff]
        intro t ht
        simp only [Def.types, List.mem_cons, List.mem_flatMap] at ht
        rcases ht with rfl | ⟨v, hv, ht⟩
        · exact meaning_inv _ hdisc
        · obtain ⟨v', -, i, -, -, -, hty⟩ := forall₂_mem_right hf hv
          exact (invAll_iff _ _).1 (types_inv _ hty).1 t ht
      · exact names_nodup hvars hnd
      · intro v hv
        obtain ⟨var, hmem, id, -, -, -, hty⟩ := forall₂_mem_right hf hv
        have hlen := harm var hmem
        have hfields : ∃ rest, var.fields = c :: rest := by
          rw [hvs, List.mem_append] at hmem
          rcases hmem with hmem | hmem
          · rw [hcs.variants (by simp [Config.union_complement_index, hcfg, hcu])] at hmem
            obtain ⟨⟨ck, k⟩, hck, rfl⟩ := List.mem_map.1 hmem
            have hcc := hcs.cond_ty _ hck
            rw [hc] at hcc
            cases hcc
            obtain ⟨l, -, hl⟩ := hcs.from_label _ _ hck
            obtain ⟨o, -, -, -, -, ho⟩ := convert_case_ok hl
            rcases ho with ⟨-, -, hf⟩ | ⟨ty, op, -, -, hf⟩
            · exact ⟨[], by rw [hf, hcfg, hcu]; rfl⟩
            · exact ⟨_, by rw [hf, hcfg, hcu]; rfl⟩
          · cases hbd : b.default with
            | none =>
              rw [hbd] at hc3
              cases hc3
              cases hmem
            | some dd =>
              rw [hbd] at hc3
              obtain ⟨o, v', -, hdf, -, -, hff⟩ := unionDefault_some hc3
              rw [hdf] at hmem
              rw [Option.toList_some, List.mem_singleton] at hmem
              subst hmem
              rw [hff, hcfg, hcu, hc]
              exact ⟨_, rfl⟩
        obtain ⟨rest, hr⟩ := hfields
        have hl2 := (types_inv (Xdr.program defs) hty).2
        unfold Variant.types at hty
        split at hty
        · rw [hr] at hty
          simp only [Option.map_eq_some_iff, tysMeaning, hdisc] at hty
          obtain ⟨ts, hts, he⟩ := hty
          split at hts
          · next h1 _ =>
            cases h1
            cases hts
            rw [← he] at hl2
            simp only [Option.getD_some, List.length_cons] at hl2
            exact ⟨_, he.symm, by omega⟩
          · cases hts
        · cases hty
    · have hcu' : cfg.union_impl_union = false := by simpa using hcu
      rw [hcu'] at hder
      simp only [Bool.false_eq_true, if_false] at hder
      obtain ⟨-, vars, hvars, rfl⟩ := union_meaning_serde h hder
      refine ⟨?_, trivial⟩
      rw [invAll_iff]
      intro t ht
      simp only [Def.types, List.mem_flatMap] at ht
      obtain ⟨v, hv, ht⟩ := ht
      obtain ⟨v', -, i, -, -, -, hty⟩ := forall₂_mem_right (variantsMeaning_ok hvars) hv
      exact (invAll_iff _ _).1 (shape_inv R hty) t ht

theorem gen_inv (R : Run ds cfg n file defs dflt) : EnvInv (Xdr.program defs) := by
  intro name d h
  rcases program_origin R.defs h with ⟨-, rfl⟩ | ⟨i, hi, -, hm⟩
  · exact ⟨⟨trivial, trivial⟩, trivial⟩
  · cases i with
    | «alias» _ _ => cases hm
    | enum e => exact enum_inv R hi hm
    | struct s => exact struct_inv R hm
    | union u => exact union_inv R hi hm

end
end Xdr.Rpcgen
