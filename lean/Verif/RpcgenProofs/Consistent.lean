import Verif.RpcgenProofs.EndToEndRep
import Verif.RpcgenProofs.CleanNames
import Verif.Proofs.Decoded
/-!
# The conversions of a generated program are consistent
-/

namespace Xdr.Rpcgen

section
variable {ds : List Definition} {cfg : Config} {n : Nat} {file : RustFile} {defs : List (String × Def)}
  {dflt : Bool}

/-- What a program defines is an item of the file, or serde-xdr's `VariableArray`. -/
theorem program_origin (hd : file.defs = some defs) {name : String} {d : Def}
    (h : Xdr.program defs name = some d) :
    (name = variableArrayName ∧ d = variableArrayDef) ∨
    ∃ i ∈ file.types, i.name.str = name ∧ i.meaning file.constants file.enums = some d := by
  obtain ⟨hn, l, hl, rfl⟩ := defs_ok hd
  clear hd
  unfold Xdr.program at h
  rw [Option.map_eq_some_iff] at h
  obtain ⟨e, h1, h2⟩ := h
  have h3 := List.find?_some h1
  have h5 := List.mem_of_find?_eq_some h1
  simp only [beq_iff_eq] at h3
  subst h2 h3
  rcases List.mem_append.1 h5 with h4 | h4
  · right
    clear h1 hn h5
    generalize file.types = items at hl
    induction items generalizing l with
    | nil =>
      cases hl
      cases h4
    | cons i is ih =>
      simp only [itemsMeaning] at hl
      split at hl
      · next d r hd hr =>
        cases hl
        rcases List.mem_cons.1 h4 with rfl | h4
        · exact ⟨i, List.mem_cons_self, rfl, hd⟩
        · obtain ⟨j, hj, h⟩ := ih _ h4 hr
          exact ⟨j, List.mem_cons_of_mem _ hj, h⟩
      · cases hl
  · left
    rw [List.mem_singleton] at h4
    subst h4
    exact ⟨rfl, rfl⟩

/-- A type without attribute has no conversions. -/
theorem meaning_consistent (env : Env) {cs : List ConstItem} {rty : RTy} {t : Ty}
    (h : rty.meaning cs = some t) : t.Consistent env false := by
  induction rty generalizing t with
  | array ty len c ih =>
    simp only [RTy.meaning, Option.bind_eq_some_iff, arrayTy] at h
    obtain ⟨t', h1, h2⟩ := h
    split at h2
    · split at h2
      · cases h2
        simpa [Ty.Consistent] using ih h1
      · cases h2
    · cases h2
  | vec ty ih =>
    simp only [RTy.meaning, Option.map_eq_some_iff] at h
    obtain ⟨t', h1, rfl⟩ := h
    simpa [Ty.Consistent] using ih h1
  | option ty ih =>
    simp only [RTy.meaning, Option.map_eq_some_iff] at h
    obtain ⟨t', h1, rfl⟩ := h
    simpa [Ty.Consistent] using ih h1
  | box ty ih => exact ih h
  | _ =>
    cases h
    trivial

/-- The enum of an item. -/
theorem enum_origin (R : Run ds cfg n file defs dflt) {e : EnumItem} (he : .enum e ∈ file.types) :
    ∃ name as ks, .type (.enum name as) ∈ ds ∧ Numbered ds as ks ∧
      (cfg.enum_complement_index = true → ∀ k ∈ ks, 0 ≤ k) ∧
      convert_enum_token (setup_context ds cfg) n name as = .ok e := by
  rcases item_origin R.rt R.gen he with ⟨name, as, e', hm, h1, h2⟩ | ⟨_, _, _, _, h1, _⟩ | ⟨_, _, _, _, h1, _⟩
  · cases h1
    obtain ⟨ks, hk, hp⟩ := R.ok.enums name as hm
    exact ⟨name, as, ks, hm, hk, hp, h2⟩
  · cases h1
  · cases h1

theorem arm_some {α β : Type} [DecidableEq α] {k : α} {l : List (α × β)} {b : β} (h : arm k l = some b) :
    (k, b) ∈ l := by
  unfold arm at h
  rw [Option.map_eq_some_iff] at h
  obtain ⟨p, h1, rfl⟩ := h
  have h2 := List.find?_some h1
  simp only [decide_eq_true_eq] at h2
  subst h2
  exact List.mem_of_find?_eq_some h1

/-- The conversions of a field's type. -/
theorem field_consistent (R : Run ds cfg n file defs dflt) {attr : Attr} {rty : RTy} {t : Ty}
    (h : fieldMeaning file.constants file.enums attr rty = some t) :
    t.Consistent (Xdr.program defs) false := by
  cases attr with
  | none => exact meaning_consistent _ h
  | fixed =>
    unfold fieldMeaning at h
    split at h <;> try cases h
    · simp_all
    · simp only [arrayTy] at h
      split at h
      · split at h
        · cases h
          trivial
        · cases h
      · cases h
    · simp_all
    · simp_all
  | «variable» =>
    unfold fieldMeaning at h
    split at h <;> try cases h
    · simp_all
    · simp_all
    · trivial
    · simp_all
  | signed32 =>
    unfold fieldMeaning at h
    split at h <;> try cases h
    · simp_all
    · simp_all
    · simp_all
    · next i _ =>
      split at h
      · next e he =>
        split at h
        · next a tr ha htr =>
          cases h
          have hname := List.find?_some he
          simp only [decide_eq_true_eq] at hname
          subst hname
          have hmem := mem_enums.1 (List.mem_of_find?_eq_some he)
          obtain ⟨name, as, ks, hm, hnum, hpos, hconv⟩ := enum_origin R hmem
          obtain ⟨ms, h1, h2, h3, h4, h5, h6, -, h7, h8, h9, h10, h11, h12, -⟩ :=
            enum_members R.wf (members_ok R.wf hm) hnum.stands hnum.distinct hnum.range hconv
          have hst : cfg.enum_impl_std_trait = true := by
            by_contra hst
            simp [hst] at h10
            rw [h10] at ha
            cases ha
          have hni : cfg.enum_impl_indexer = false := by
            by_contra hni
            exact R.enumTraits ⟨by simpa using hni, hst⟩
          have hv := h7 (by simp [Config.enum_complement_index, hst])
          rw [hst] at h10 h11
          simp only [if_true] at h10 h11
          rw [h10] at ha
          rw [h11] at htr
          simp only [Option.some.injEq] at ha htr
          subst ha htr
          obtain ⟨d, hd1, hd2⟩ := defs_lookup R.defs hmem
          obtain ⟨hnd, hdef⟩ := enum_meaning_ok hd1
          have hn1 : (ms.map (·.1)).Nodup := by
            rw [← hv]
            exact nodup_of_str hnd
          have hk1 := pairwise_lt_nodup h3
          intro j v hj
          rw [hv] at hj ⊢
          simp only [signed32Of] at hj
          split at hj
          · next id hid =>
            have := arm_some hid
            rw [List.mem_map] at this
            obtain ⟨m, hmm, hme⟩ := this
            simp only [Prod.mk.injEq] at hme
            obtain ⟨hme1, rfl⟩ := hme
            obtain ⟨p, hp⟩ := List.mem_iff_getElem?.1 hmm
            have hmk : m.2 ∈ ks := by
              obtain ⟨a, ha, -⟩ := h2 m hmm
              exact (List.of_mem_zip ha).2
            obtain ⟨g1, g2⟩ := signed32Of_member hn1 hk1 hp (hnum.range _ hmk)
            rw [variantPos_of hn1 hp] at hj
            cases hj
            refine ⟨by rw [g1]; exact g2, ?_⟩
            rcases hdef with ⟨-, rfl⟩ | ⟨hix, -⟩
            · exact ⟨_, p, m.1.str, hd2, by rw [hv]; simp [hp], rfl⟩
            · rw [h9, hni] at hix
              cases hix
          · cases hj
        · cases h
      · cases h

theorem fields_consistent (R : Run ds cfg n file defs dflt) {fields : List (Attr × RIdent × RTy)}
    {fs : List (String × Ty)} (h : fieldsMeaning file.constants file.enums fields = some fs) :
    ConsistentAll (Xdr.program defs) false (fs.map (·.2)) := by
  induction fields generalizing fs with
  | nil =>
    cases h
    trivial
  | cons f fields ih =>
    obtain ⟨attr, i, rty⟩ := f
    simp only [fieldsMeaning] at h
    split at h
    · split at h
      · next t fs' ht hfs =>
        cases h
        exact ⟨field_consistent R ht, ih hfs⟩
      · cases h
    · cases h

theorem tys_consistent (env : Env) {cs : List ConstItem} {rs : List RTy} {ts : List Ty}
    (h : tysMeaning cs rs = some ts) : ConsistentAll env false ts := by
  induction rs generalizing ts with
  | nil =>
    cases h
    trivial
  | cons r rs ih =>
    simp only [tysMeaning] at h
    split at h
    · next t ts' ht hts =>
      cases h
      exact ⟨meaning_consistent env ht, ih hts⟩
    · cases h

theorem types_consistent (env : Env) {cs : List ConstItem} {v : Variant} {fs : Option (List Ty)}
    (h : v.types cs = some fs) : ConsistentAll env false (fs.getD []) := by
  unfold Variant.types at h
  split at h
  · split at h
    · cases h
      trivial
    · rw [Option.map_eq_some_iff] at h
      obtain ⟨ts, hts, rfl⟩ := h
      exact tys_consistent env hts
  · cases h

theorem shape_consistent (R : Run ds cfg n file defs dflt) {v : Variant} {sh : Shape}
    (h : v.shape file.constants file.enums = some sh) :
    ConsistentAll (Xdr.program defs) false sh.types := by
  unfold Variant.shape at h
  split at h
  · cases h
    trivial
  · rw [Option.map_eq_some_iff] at h
    obtain ⟨t, ht, rfl⟩ := h
    exact ⟨field_consistent R ht, trivial⟩
  · cases h

/-- The conversions of a struct. -/
theorem struct_consistent (R : Run ds cfg n file defs dflt) {s : StructItem} {d : Def}
    (h : s.meaning file.constants file.enums = some d) : d.Consistent (Xdr.program defs) false := by
  unfold StructItem.meaning at h
  split at h
  · rw [Option.map_eq_some_iff] at h
    obtain ⟨fs, hfs, rfl⟩ := h
    exact ⟨fields_consistent R hfs, trivial⟩
  · cases h

theorem at_unique {α : Type} {vs : List (String × α)} (h : (vs.map (·.1)).Nodup) {i j : Nat} {s : String} {a b : α}
    (hi : vs[i]? = some (s, a)) (hj : vs[j]? = some (s, b)) : i = j ∧ a = b := by
  have : i = j := by
    rcases Nat.lt_trichotomy i j with hl | he | hl
    · exact (first_of_nodup h hj i hl _ hi rfl).elim
    · exact he
    · exact (first_of_nodup h hi j hl _ hj rfl).elim
  subst this
  rw [hi] at hj
  cases hj
  exact ⟨rfl, rfl⟩

/-- The conversions of an enum. -/
theorem enum_consistent (R : Run ds cfg n file defs dflt) {e : EnumItem} (he : .enum e ∈ file.types) {d : Def}
    (h : e.meaning = some d) : d.Consistent (Xdr.program defs) false := by
  obtain ⟨hnd, hdef⟩ := enum_meaning_ok h
  rcases hdef with ⟨-, rfl⟩ | ⟨hix, ix, hix', rfl⟩
  · refine ⟨?_, trivial⟩
    rw [consistentAll_iff]
    intro t ht
    simp only [Def.types, List.mem_flatMap, List.mem_map] at ht
    obtain ⟨_, ⟨v, -, rfl⟩, ht⟩ := ht
    cases ht
  · refine ⟨?_, ?_⟩
    · rw [consistentAll_iff]
      intro t ht
      simp only [Def.types, List.mem_flatMap, List.mem_map] at ht
      obtain ⟨_, ⟨v, -, rfl⟩, ht⟩ := ht
      cases ht
    · obtain ⟨name, as, ks, hm, hnum, hpos, hconv⟩ := enum_origin R he
      obtain ⟨ms, h1, h2, h3, h4, h5, h6, -, h7, h8, h9, h10, h11, h12, -⟩ :=
        enum_members R.wf (members_ok R.wf hm) hnum.stands hnum.distinct hnum.range hconv
      rw [h9] at hix
      have hv := h7 (by simp [Config.enum_complement_index, hix])
      rw [h12, hix] at hix'
      simp only [if_true, Option.some.injEq] at hix'
      have hn1 : (ms.map (·.1)).Nodup := by
        rw [← hv]
        exact nodup_of_str hnd
      have hk1 := pairwise_lt_nodup h3
      intro idx vn hidx i fields hi vs
      have hmem : ∃ m ∈ ms, vn = m.1.str := by
        rw [← hix'] at hidx
        simp only [enumIndexerImpl] at hidx
        split at hidx
        · next id hid =>
          have := arm_some hid
          rw [List.mem_map] at this
          obtain ⟨m, hmm, hme⟩ := this
          simp only [Prod.mk.injEq] at hme
          obtain ⟨-, rfl⟩ := hme
          cases hidx
          exact ⟨m, hmm, rfl⟩
        · obtain ⟨m, hh, hd⟩ := h4
          rw [hd] at hidx
          cases hidx
          exact ⟨m, List.mem_of_mem_head? hh, rfl⟩
      obtain ⟨m, hmm, rfl⟩ := hmem
      obtain ⟨p, hp⟩ := List.mem_iff_getElem?.1 hmm
      have hmk : m.2 ∈ ks := by
        obtain ⟨a, ha, -⟩ := h2 m hmm
        exact (List.of_mem_zip ha).2
      obtain ⟨g1, g2⟩ := enumIndexer_member (otherwise := e.default) hn1 hk1 hp (hnum.range _ hmk)
      have hip := at_unique (by simpa [List.map_map, Function.comp_def] using hnd) hi
        (j := p) (b := (none : Option (List Ty))) (by rw [hv]; simp [hp])
      obtain ⟨rfl, -⟩ := hip
      rw [← hix', hv]
      exact ⟨_, g1, g2⟩

theorem forall₂_at {α β : Type} {R : α → β → Prop} {l : List α} {r : List β} (h : List.Forall₂ R l r) {i : Nat}
    {b : β} (hb : r[i]? = some b) : ∃ a, l[i]? = some a ∧ R a b := by
  induction h generalizing i with
  | nil => cases hb
  | cons h1 _ ih =>
    cases i with
    | zero =>
      cases hb
      exact ⟨_, rfl, h1⟩
    | succ i => exact ih hb

/-- A number of 32 bits is that of an unsigned one. -/
theorem asI32_surj (idx : Int32) : ∃ j : Int, (0 ≤ j ∧ j ≤ 4294967295) ∧ idx = Int32.ofInt (asI32 j) := by
  have h1 := Int32.le_toInt idx
  have h2 := Int32.toInt_lt idx
  by_cases h : 0 ≤ idx.toInt
  · refine ⟨idx.toInt, by omega, ?_⟩
    unfold asI32
    rw [if_pos (by omega), Int32.ofInt_toInt]
  · refine ⟨idx.toInt + 4294967296, by omega, ?_⟩
    unfold asI32
    rw [if_neg (by omega)]
    have : idx.toInt + 4294967296 - 4294967296 = idx.toInt := by omega
    rw [this, Int32.ofInt_toInt]

/-- The conversions of a union. -/
theorem union_consistent (R : Run ds cfg n file defs dflt)
    (hdf : cfg.union_impl_indexer = true → ∀ d, ¬ DefaultIn ds d) {u : UnionItem}
    (hu : .union u ∈ file.types) {d : Def} (h : u.meaning file.constants file.enums = some d) :
    d.Consistent (Xdr.program defs) false := by
  rcases item_origin R.rt R.gen hu with ⟨_, _, _, _, h1, _⟩ | ⟨_, _, _, _, h1, _⟩ | ⟨name, b, u', hm, h1, hconv⟩
  · cases h1
  · cases h1
  cases h1
  obtain ⟨cond, nm, ks, hcond, hlab, -⟩ := R.ok.unions name b hm
  by_cases hi : cfg.union_impl_indexer = true
  · have hnu : cfg.union_impl_union = false := by
      by_contra hnu
      exact R.unionTraits ⟨hi, by simpa using hnu⟩
    obtain ⟨ty, vars, impl, h1, h2, hnd, h3, h4, -⟩ :=
      indexer_case R.wf R.ok.unambiguous hi hnu R.gen R.defs hm hcond hlab
    obtain ⟨ct, acc, df, hc1, hc2, hc3, -⟩ := convert_union_ok hconv
    rw [hc1] at h1
    cases h1
    obtain ⟨d', hd1, hd2⟩ := defs_lookup R.defs hu
    simp only [Item.meaning] at hd1
    rw [h] at hd1
    cases hd1
    simp only [Item.name] at hd2
    rw [h2] at hd2
    cases hd2
    refine ⟨?_, ?_⟩
    · rw [consistentAll_iff]
      intro t ht
      simp only [Def.types, List.mem_flatMap] at ht
      obtain ⟨v, hv, ht⟩ := ht
      have hder : u.derive = .indexer := by
        obtain ⟨_, _, _, _, _, _, _, hder, -⟩ := convert_union_ok hconv
        have hcfg : (setup_context ds cfg).config = cfg := rfl
        rw [hcfg, hi] at hder
        exact hder
      obtain ⟨-, ix, vars', -, hvars, he⟩ := union_meaning_indexer h hder
      cases he
      obtain ⟨v', -, i, -, -, -, hty⟩ := forall₂_mem_right (variantsMeaning_ok hvars) hv
      exact (consistentAll_iff _ _ _).1 (types_consistent _ hty) t ht
    · intro idx vn hidx i fields hget vs
      obtain ⟨j, hj, rfl⟩ := asI32_surj idx
      by_cases hjk : j ∈ ks
      · obtain ⟨l, hl⟩ := zip_mem_right hlab.selects.length_eq hjk
        obtain ⟨a, id, fs, i', -, -, hv, -, g1, g2⟩ := h3 l j hl
        rw [g2] at hidx
        cases hidx
        obtain ⟨rfl, -⟩ := at_unique hnd hget hv
        exact ⟨_, g1 vs, g2⟩
      · have hnone : b.default = none := by
          cases hbd : b.default with
          | none => rfl
          | some d => exact absurd ⟨name, b, hm, hbd⟩ (hdf hi d)
        rw [h4 j hj hjk, hnone] at hidx
        cases hidx
  · have hi' : cfg.union_impl_indexer = false := by simpa using hi
    obtain ⟨ct, acc, df, hc1, hc2, hc3, -, hder, hvs, -, hun⟩ := convert_union_ok hconv
    have hcfg : (setup_context ds cfg).config = cfg := rfl
    rw [hcfg, hi'] at hder
    by_cases hcu : cfg.union_impl_union = true
    · rw [hcu] at hder
      simp only [Bool.false_eq_true, if_false, if_true] at hder
      obtain ⟨-, un, vars, c, disc, hun', hvars, hc, -, -, hdisc, rfl⟩ := union_meaning_union h hder
      rw [hcfg, hcu] at hun
      simp only [if_true] at hun
      rw [hun] at hun'
      cases hun'
      simp only at hc
      obtain ⟨rfl, cs, hcs⟩ := union_cases R.wf R.ok.unambiguous hcond hlab (labels_ok R.wf hm) hc2
      have hf := variantsMeaning_ok hvars
      refine ⟨?_, ?_⟩
      · rw [consistentAll_iff]
        intro t ht
        simp only [Def.types, List.mem_cons, List.mem_flatMap] at ht
        rcases ht with rfl | ⟨v, hv, ht⟩
        · exact meaning_consistent _ hdisc
        · obtain ⟨v', -, i, -, -, -, hty⟩ := forall₂_mem_right hf hv
          exact (consistentAll_iff _ _ _).1 (types_consistent _ hty) t ht
      · intro v vn hv i fields hget
        obtain ⟨var, hvar, id, -, -, -, hty⟩ := forall₂_at hf hget
        have hfields : ∃ rest, var.fields = c :: rest := by
          have hmem := List.mem_of_getElem? hvar
          rw [hvs, List.mem_append] at hmem
          rcases hmem with hmem | hmem
          · rw [hcs.variants (by simp [Config.union_complement_index, hcfg, hcu])] at hmem
            obtain ⟨⟨ck, k⟩, hck, rfl⟩ := List.mem_map.1 hmem
            have hcc := hcs.cond_ty _ hck
            rw [hc] at hcc
            cases hcc
            obtain ⟨l, -, hl⟩ := hcs.from_label _ _ hck
            obtain ⟨o, -, -, -, -, ho⟩ := convert_case_ok hl
            rcases ho with ⟨-, -, hf⟩ | ⟨ty, op, -, -, hf⟩
            · exact ⟨[], by rw [hf, hcfg, hcu]; rfl⟩
            · exact ⟨_, by rw [hf, hcfg, hcu]; rfl⟩
          · cases hbd : b.default with
            | none =>
              rw [hbd] at hc3
              cases hc3
              cases hmem
            | some dd =>
              rw [hbd] at hc3
              obtain ⟨o, v', -, hdf, -, -, hff⟩ := unionDefault_some hc3
              rw [hdf] at hmem
              rw [Option.toList_some, List.mem_singleton] at hmem
              subst hmem
              rw [hff, hcfg, hcu, hc]
              exact ⟨_, rfl⟩
        obtain ⟨rest, hr⟩ := hfields
        unfold Variant.types at hty
        split at hty
        · rw [hr] at hty
          simp only [Option.map_eq_some_iff, tysMeaning, hdisc] at hty
          obtain ⟨ts, hts, rfl⟩ := hty
          split at hts
          · next h1 _ =>
            cases h1
            cases hts
            exact ⟨_, rfl⟩
          · cases hts
        · cases hty
    · have hcu' : cfg.union_impl_union = false := by simpa using hcu
      rw [hcu'] at hder
      simp only [Bool.false_eq_true, if_false] at hder
      obtain ⟨-, vars, hvars, rfl⟩ := union_meaning_serde h hder
      refine ⟨?_, trivial⟩
      rw [consistentAll_iff]
      intro t ht
      simp only [Def.types, List.mem_flatMap] at ht
      obtain ⟨v, hv, ht⟩ := ht
      obtain ⟨v', -, i, -, -, -, hty⟩ := forall₂_mem_right (variantsMeaning_ok hvars) hv
      exact (consistentAll_iff _ _ _).1 (shape_consistent R hty) t ht

/-- The conversions of a generated program. -/
theorem gen_consistent (R : Run ds cfg n file defs dflt)
    (hdf : cfg.union_impl_indexer = true → ∀ d, ¬ DefaultIn ds d) : EnvConsistent (Xdr.program defs) false := by
  intro name d h
  rcases program_origin R.defs h with ⟨-, rfl⟩ | ⟨i, hi, -, hm⟩
  · exact ⟨⟨trivial, trivial⟩, trivial⟩
  · cases i with
    | «alias» _ _ => cases hm
    | enum e => exact enum_consistent R hi hm
    | struct s => exact struct_consistent R hm
    | union u => exact union_consistent R hdf hi hm

end
end Xdr.Rpcgen
