import Verif.RpcgenProofs.Default
import Verif.RpcgenProofs.Cond
import Verif.Proofs.Decoded
import Verif.Spec.Defaults
/-!
# When default values exist, and which they are
-/

namespace Xdr.Rpcgen

/-! ## Existence -/

theorem resMapM_ok_iff {α β : Type} {f : α → Res β} {l : List α} :
    (∃ r, resMapM f l = .ok r) ↔ ∀ a ∈ l, ∃ b, f a = .ok b := by
  induction l with
  | nil => simp [resMapM]
  | cons a l ih =>
    simp only [resMapM, resBind_ok, Res.ok.injEq, List.forall_mem_cons, ← ih]
    constructor
    · rintro ⟨_, b, hb, bs, hbs, -⟩
      exact ⟨⟨b, hb⟩, bs, hbs⟩
    · rintro ⟨⟨b, hb⟩, bs, hbs⟩
      exact ⟨_, b, hb, bs, hbs, rfl⟩

theorem default_ok_iff {cs : List ConstItem} {item : RIdent → Res Val} {t : RTy} {ty : Ty}
    (ht : t.meaning cs = some ty) :
    (∃ v, t.defaultWith cs item = .ok v) ↔ ∀ j ∈ t.inside cs, ∃ v, item j = .ok v := by
  induction t generalizing ty with
  | path i => simp [RTy.defaultWith, RTy.inside]
  | array t len cast ih =>
    simp only [RTy.meaning, Option.bind_eq_some_iff, arrayTy] at ht
    obtain ⟨t', ht', hl⟩ := ht
    unfold RTy.defaultWith RTy.inside
    split at hl
    · next n hn =>
      rw [hn]
      cases n with
      | zero => simp
      | succ n =>
        simp only [resBind_ok, Res.ok.injEq, Option.some.injEq, Nat.add_one_ne_zero, if_false, ← ih ht']
        constructor
        · rintro ⟨_, v, hv, -⟩
          exact ⟨v, hv⟩
        · rintro ⟨v, hv⟩
          exact ⟨_, v, hv, rfl⟩
    · cases hl
  | box t ih => exact ih ht
  | _ => simp [RTy.defaultWith, RTy.inside]

theorem field_ok_iff {cs : List ConstItem} {enums : List EnumItem} {item : RIdent → Res Val} {a : Attr}
    {t : RTy} {ty : Ty} (ht : fieldMeaning cs enums a t = some ty) :
    (∃ v, fieldDefault cs item a t = .ok v) ↔ ∀ j ∈ insideField cs a t, ∃ v, item j = .ok v := by
  unfold fieldMeaning at ht
  split at ht
  · exact default_ok_iff ht
  · next len cast =>
    simp only [arrayTy] at ht
    simp only [fieldDefault, insideField]
    split at ht
    · next n hn => simp [hn]
    · cases ht
  · simp [fieldDefault, insideField]
  · simp [fieldDefault, insideField, RTy.defaultWith, RTy.inside]
  · cases ht

theorem fields_ok_iff {α : Type} {cs : List ConstItem} {enums : List EnumItem} {item : RIdent → Res Val}
    {l : List α} {a : α → Attr} {t : α → RTy}
    (h : ∀ x ∈ l, ∃ ty, fieldMeaning cs enums (a x) (t x) = some ty) :
    (∃ vs, resMapM (fun x => fieldDefault cs item (a x) (t x)) l = .ok vs) ↔
      ∀ j ∈ l.flatMap (fun x => insideField cs (a x) (t x)), ∃ v, item j = .ok v := by
  rw [resMapM_ok_iff]
  simp only [List.mem_flatMap]
  constructor
  · rintro h1 j ⟨x, hx, hj⟩
    obtain ⟨ty, hty⟩ := h x hx
    exact (field_ok_iff hty).1 (h1 x hx) j hj
  · intro h1 x hx
    obtain ⟨ty, hty⟩ := h x hx
    exact (field_ok_iff hty).2 fun j hj => h1 j ⟨x, hx, hj⟩

/-- The names and fields of the variants of a union rustc accepts. -/
theorem union_variants {cs : List ConstItem} {enums : List EnumItem} {u : UnionItem} {d : Def}
    (h : u.meaning cs enums = some d) : (u.variants.map (·.name.str)).Nodup ∧
    ∀ (i : Nat) v, u.variants[i]? = some v →
      (∃ id, v.name = .ident id ∧ ∀ env ty, env ty = some d → VariantNamed env ty i id.str) ∧
      ∀ t ∈ v.fields, ∃ ty, fieldMeaning cs enums v.attr t = some ty := by
  have htypes : ∀ (v : Variant) sh, v.types cs = some sh →
      ∀ t ∈ v.fields, ∃ ty, fieldMeaning cs enums v.attr t = some ty := by
    intro v sh hsh t ht
    simp only [Variant.types] at hsh
    split at hsh
    · next hattr =>
      split at hsh
      · next hf =>
        rw [hf] at ht
        cases ht
      · simp only [Option.map_eq_some_iff] at hsh
        obtain ⟨ts, hts, rfl⟩ := hsh
        obtain ⟨t', -, ht'⟩ := forall₂_mem_left (tysMeaning_ok hts) ht
        exact ⟨t', by rw [hattr]; exact ht'⟩
    · cases hsh
  cases hder : u.derive with
  | serde =>
    obtain ⟨hnd, vars, hvars, rfl⟩ := union_meaning_serde h hder
    refine ⟨hnd, fun i v hv => ?_⟩
    obtain ⟨⟨vn, sh⟩, hvi, id, hid, -, hvn, hsh⟩ := forall₂_getElem (variantsMeaning_ok hvars) hv
    simp only at hvn hsh
    subst hvn
    refine ⟨⟨id, hid, fun env ty he => .inl ⟨_, _, he, hvi⟩⟩, fun t ht => ?_⟩
    unfold Variant.shape at hsh
    split at hsh
    · next hf =>
      rw [hf] at ht
      cases ht
    · next t' hf =>
      rw [hf] at ht
      simp only [List.mem_singleton] at ht
      subst ht
      simp only [Option.map_eq_some_iff] at hsh
      obtain ⟨ty, hty, -⟩ := hsh
      exact ⟨ty, hty⟩
    · cases hsh
  | indexer =>
    obtain ⟨hnd, ix, vars, -, hvars, rfl⟩ := union_meaning_indexer h hder
    refine ⟨hnd, fun i v hv => ?_⟩
    obtain ⟨⟨vn, sh⟩, hvi, id, hid, -, hvn, hsh⟩ := forall₂_getElem (variantsMeaning_ok hvars) hv
    simp only at hvn hsh
    subst hvn
    exact ⟨⟨id, hid, fun env ty he => .inr (.inl ⟨_, _, _, he, hvi⟩)⟩, htypes v sh hsh⟩
  | union =>
    obtain ⟨hnd, un, vars, cond, disc, -, hvars, -, -, -, -, rfl⟩ := union_meaning_union h hder
    refine ⟨hnd, fun i v hv => ?_⟩
    obtain ⟨⟨vn, sh⟩, hvi, id, hid, -, hvn, hsh⟩ := forall₂_getElem (variantsMeaning_ok hvars) hv
    simp only at hvn hsh
    subst hvn
    exact ⟨⟨id, hid, fun env ty he => .inr (.inr ⟨_, _, _, _, he, hvi⟩)⟩, htypes v sh hsh⟩

theorem filter_name {u : UnionItem} {v : Variant} (hnd : (u.variants.map (·.name.str)).Nodup)
    (hv : v ∈ u.variants) (hn : v.name = u.default.1) :
    (u.variants.filter fun v => v.name = u.default.1) = [v] := by
  rw [← hn]
  clear hn
  generalize u.variants = l at hv hnd
  induction l with
  | nil => cases hv
  | cons a l ih =>
    simp only [List.map_cons, List.nodup_cons] at hnd
    rcases List.mem_cons.1 hv with rfl | hv
    · rw [List.filter_cons_of_pos (by simp)]
      congr 1
      rw [List.filter_eq_nil_iff]
      intro x hx
      simp only [decide_eq_true_eq]
      intro e
      exact hnd.1 (List.mem_map.2 ⟨x, hx, by rw [e]⟩)
    · rw [List.filter_cons_of_neg]
      · exact ih hv hnd.2
      · simp only [decide_eq_true_eq]
        intro e
        exact hnd.1 (List.mem_map.2 ⟨v, hv, by rw [e]⟩)

section
variable {n : Nat} {ds : List Definition} {cfg : Config} {file : RustFile}
  (hxu : ¬ (cfg.union_impl_indexer = true ∧ cfg.union_impl_union = true))
  (hg : gen_code n ds cfg = .ok file) {defs : List (String × Def)} (hd : file.defs = some defs)
include hxu hg hd

/-- A default exists as soon as those inside it do. -/
theorem item_ok_iff {i : Item} (hi : i ∈ file.types) (item : RIdent → Res Val) :
    (∃ v, i.defaultVal file.constants item = .ok v) ↔
      ∀ j ∈ i.inside file.constants, ∃ v, item j = .ok v := by
  obtain ⟨d, hd1, hd2⟩ := defs_lookup hd hi
  cases i with
  | «alias» _ _ => cases hd1
  | enum e =>
    obtain ⟨⟨k, hk⟩, -⟩ := gen_enum_dflt hg hi
    obtain ⟨hnd, -⟩ := enum_meaning_ok hd1
    obtain ⟨i, -, hi⟩ := hk.pos hnd
    simp [Item.defaultVal, EnumItem.defaultVal, Item.inside, hi]
  | struct s =>
    obtain ⟨fs, hfs⟩ : ∃ fs, fieldsMeaning file.constants file.enums s.fields = some fs := by
      simp only [Item.meaning, StructItem.meaning] at hd1
      split at hd1
      · simp only [Option.map_eq_some_iff] at hd1
        obtain ⟨fs, hfs, -⟩ := hd1
        exact ⟨fs, hfs⟩
      · cases hd1
    have := fields_ok_iff (cs := file.constants) (enums := file.enums) (item := item) (l := s.fields)
      (a := fun f => f.1) (t := fun f => f.2.2) fun x hx => by
        obtain ⟨t, -, ht⟩ := forall₂_mem_left (fieldsMeaning_inv hfs) hx
        exact ⟨t, ht⟩
    simp only [Item.defaultVal, StructItem.defaultVal, Item.inside, resBind_ok, Res.ok.injEq]
    rw [← this]
    constructor
    · rintro ⟨_, vs, hvs, -⟩
      exact ⟨vs, hvs⟩
    · rintro ⟨vs, hvs⟩
      exact ⟨_, vs, hvs, rfl⟩
  | union u =>
    obtain ⟨v, hv⟩ := gen_union_dflt hxu hg hi hd1
    obtain ⟨hnd, hvars⟩ := union_variants hd1
    obtain ⟨i, hiv, hdv⟩ := hv.pos hnd
    have := fields_ok_iff (cs := file.constants) (enums := file.enums) (item := item) (l := v.fields)
      (a := fun _ => v.attr) (t := fun f => f) (hvars i v hiv).2
    simp only [Item.defaultVal, hdv, Item.inside, filter_name hnd hv.mem hv.name, List.flatMap_cons,
      List.flatMap_nil, List.append_nil, resBind_ok, Res.ok.injEq]
    rw [← this]
    constructor
    · rintro ⟨_, vs, hvs, -⟩
      exact ⟨vs, hvs⟩
    · rintro ⟨vs, hvs⟩
      exact ⟨_, vs, hvs, rfl⟩

omit hxu hg hd in
theorem default_ok_item {m : Nat} {i : RIdent} {v : Val} (h : file.default m i = .ok v) :
    ∃ m' it, m = m' + 1 ∧ it ∈ file.types ∧ it.name = i ∧ it.defaultVal file.constants (file.default m') = .ok v := by
  cases m with
  | zero => cases h
  | succ m =>
    simp only [RustFile.default] at h
    split at h
    · next t ht =>
      exact ⟨m, t, rfl, List.mem_of_find?_eq_some ht, by simpa using List.find?_some ht, h⟩
    · cases h

theorem default_exists_mono {m m' : Nat} (hm : m ≤ m') {i : RIdent} {v : Val} (h : file.default m i = .ok v) :
    ∃ v', file.default m' i = .ok v' := by
  induction m generalizing m' i v with
  | zero => cases h
  | succ m ih =>
    obtain ⟨_, it, e, hit, rfl, hv⟩ := default_ok_item h
    cases e
    cases m' with
    | zero => omega
    | succ m' =>
      rw [file_default_succ (defs_ok hd).1 hit, item_ok_iff hxu hg hd hit]
      intro j hj
      obtain ⟨v', hv'⟩ := (item_ok_iff hxu hg hd hit _).1 ⟨v, hv⟩ j hj
      exact ih (by omega) hv'

theorem defaultEnds_iff (i : RIdent) : (∃ m v, file.default m i = .ok v) ↔ DefaultEnds file i := by
  constructor
  · rintro ⟨m, v, h⟩
    induction m generalizing i v with
    | zero => cases h
    | succ m ih =>
      obtain ⟨_, it, e, hit, rfl, hv⟩ := default_ok_item h
      cases e
      refine .item hit fun j hj => ?_
      obtain ⟨v', hv'⟩ := (item_ok_iff hxu hg hd hit _).1 ⟨v, hv⟩ j hj
      exact ih j v' hv'
  · intro h
    induction h with
    | @item it hit _ ih =>
      have : ∃ m, ∀ j ∈ it.inside file.constants, ∃ v, file.default m j = .ok v := by
        generalize it.inside file.constants = l at ih
        induction l with
        | nil => exact ⟨0, by simp⟩
        | cons a l ihl =>
          obtain ⟨m1, h1⟩ := ihl fun j hj => ih j (List.mem_cons_of_mem _ hj)
          obtain ⟨m2, v2, h2⟩ := ih a List.mem_cons_self
          refine ⟨max m1 m2, fun j hj => ?_⟩
          rcases List.mem_cons.1 hj with rfl | hj
          · exact default_exists_mono hxu hg hd (Nat.le_max_right _ _) h2
          · obtain ⟨v, hv⟩ := h1 j hj
            exact default_exists_mono hxu hg hd (Nat.le_max_left _ _) hv
      obtain ⟨m, hm⟩ := this
      obtain ⟨v, hv⟩ := (item_ok_iff hxu hg hd hit (file.default m)).2 hm
      exact ⟨m + 1, v, by rw [file_default_succ (defs_ok hd).1 hit]; exact hv⟩

end

/-! ## A larger bound gives the same value -/

theorem defaultWith_mono {cs : List ConstItem} {item item' : RIdent → Res Val}
    (h : ∀ j v, item j = .ok v → item' j = .ok v) {t : RTy} {v : Val} (hv : t.defaultWith cs item = .ok v) :
    t.defaultWith cs item' = .ok v := by
  induction t generalizing v with
  | path i => exact h i v hv
  | array t len cast ih =>
    unfold RTy.defaultWith at hv ⊢
    split at hv
    · cases hv
    · next h0 =>
      cases hv
      rfl
    · next n hn =>
      simp only [resBind_ok] at hv ⊢
      obtain ⟨w, hw, hv⟩ := hv
      exact ⟨w, ih hw, hv⟩
  | box t ih => exact ih hv
  | _ => exact hv

theorem fieldDefault_mono {cs : List ConstItem} {item item' : RIdent → Res Val}
    (h : ∀ j v, item j = .ok v → item' j = .ok v) {a : Attr} {t : RTy} {v : Val}
    (hv : fieldDefault cs item a t = .ok v) : fieldDefault cs item' a t = .ok v := by
  unfold fieldDefault at hv ⊢
  split at hv
  · exact hv
  · exact hv
  · exact defaultWith_mono h hv

theorem resMapM_mono {α β : Type} {f g : α → Res β} (h : ∀ a b, f a = .ok b → g a = .ok b) {l : List α}
    {r : List β} (hr : resMapM f l = .ok r) : resMapM g l = .ok r :=
  resMapM_ok.2 ((resMapM_ok.1 hr).imp fun a b => h a b)

theorem defaultVal_mono {cs : List ConstItem} {item item' : RIdent → Res Val}
    (h : ∀ j v, item j = .ok v → item' j = .ok v) {i : Item} {v : Val} (hv : i.defaultVal cs item = .ok v) :
    i.defaultVal cs item' = .ok v := by
  cases i with
  | «alias» _ t => exact defaultWith_mono h hv
  | enum e => exact hv
  | struct s =>
    simp only [Item.defaultVal, StructItem.defaultVal, resBind_ok] at hv ⊢
    obtain ⟨vs, hvs, hv⟩ := hv
    exact ⟨vs, resMapM_mono (fun a b => fieldDefault_mono h) hvs, hv⟩
  | union u =>
    simp only [Item.defaultVal, UnionItem.defaultVal] at hv ⊢
    split at hv
    · cases hv
    · split at hv
      · cases hv
      · split at hv
        · next hlen =>
          rw [if_pos hlen]
          simp only [resBind_ok] at hv ⊢
          obtain ⟨vs, hvs, hv⟩ := hv
          exact ⟨vs, resMapM_mono (fun a b => fieldDefault_mono h) hvs, hv⟩
        · cases hv

theorem default_mono (file : RustFile) {m m' : Nat} (hm : m ≤ m') {i : RIdent} {v : Val}
    (h : file.default m i = .ok v) : file.default m' i = .ok v := by
  induction m generalizing m' i v with
  | zero => cases h
  | succ m ih =>
    cases m' with
    | zero => omega
    | succ m' =>
      simp only [RustFile.default] at h ⊢
      split at h
      · exact defaultVal_mono (fun j v => ih (by omega)) h
      · cases h

/-! ## Which variant -/

theorem unionCases_default {cxt : Context} {n : Nat} {b : UnionBody} {ct : TypeSpecifier} {acc : UnionAcc}
    (h : unionCases cxt n b = .ok (ct, acc)) :
    acc.default.map (·.1) = (acc.byIndex.head?).map (·.2) := by
  have hstep : ∀ {st v}, StepDflt cxt st v → st.default.1 = st.byIndex.2 := by
    rintro st v ⟨-, -, -, -, -, k, b', -, h, -⟩
    rw [h]
  have hloop : ∀ values steps, unionIndexed cxt n b.specs = .ok values →
      unionLoop cxt n ct (sortByKey values) 0 = .ok steps → acc = UnionAcc.ofSteps steps →
      acc.default.map (·.1) = (acc.byIndex.head?).map (·.2) := by
    rintro values steps h1 h2 rfl
    cases steps with
    | nil => rfl
    | cons st rest =>
      obtain ⟨v, hv⟩ := unionLoop_default (fun p hp => by
        obtain ⟨q, -, hq⟩ := forall₂_mem_right (GR.mapM_ok.1 h1) (mem_sortByKey.1 hp)
        simp only [GR.bind_eq_ok, GR.ok.injEq] at hq
        obtain ⟨j, hj, rfl⟩ := hq
        exact (resolve_range hj).1) h2 st List.mem_cons_self
      simp [UnionAcc.ofSteps, hstep hv]
  unfold unionCases at h
  split at h
  · next cond_type nm hct =>
    split at h
    · simp only [GR.bind_eq_ok, GR.ok.injEq, Prod.mk.injEq] at h
      obtain ⟨values, h1, steps, h2, rfl, rfl⟩ := h
      exact hloop _ _ h1 h2 rfl
    · simp only [GR.bind_eq_ok, GR.ok.injEq, Prod.mk.injEq] at h
      obtain ⟨values, h1, steps, h2, rfl, rfl⟩ := h
      exact hloop _ _ h1 h2 rfl
    · simp only [GR.bind_eq_ok, GR.ok.injEq, Prod.mk.injEq] at h
      obtain ⟨f, h1, t, h2, rfl, rfl⟩ := h
      cases f with
      | some st =>
        obtain ⟨v, hv⟩ := boolCase_default h1
        simp [hstep hv]
      | none =>
        cases t with
        | none => rfl
        | some st =>
          obtain ⟨v, hv⟩ := boolCase_default h2
          simp [hstep hv]
    · cases h
  · cases h

/-- The default of a union: `Default` if there is a default arm, else the case of the least label. -/
theorem union_default_case {ds : List Definition} (hwf : WellFormed ds) (hu : Unambiguous ds) {cfg : Config}
    {n : Nat} {name : Str} {body : UnionBody} (hm : .type (.union name body) ∈ ds) {cond : TypeSpecifier}
    {nm : Str} {ks : List Int} (hcond : body.cond = .variable cond nm) (hlab : Labelled ds cond body.labels ks)
    {u : UnionItem} (h : convert_union_token (setup_context ds cfg) n name body = .ok u) :
    (body.default.isSome → u.default.1 = defaultTok) ∧
    (body.default = none → ∃ l k, (l, k) ∈ body.labels.zip ks ∧ Least k ks ∧
      convert_value_token .u32 l.1 true = .ok u.default.1) := by
  obtain ⟨ct, acc, dflt, -, hcases, hdflt, hd, -⟩ := convert_union_ok h
  constructor
  · intro hb
    obtain ⟨d, hb⟩ := Option.isSome_iff_exists.1 hb
    rw [hb] at hdflt
    simp only [unionDefault, GR.bind_eq_ok, GR.ok.injEq] at hdflt
    obtain ⟨o, -, rfl⟩ := hdflt
    simp only [Option.map_some, Option.some_or, Option.some.injEq] at hd
    rw [← hd]
  · intro hb
    rw [hb] at hdflt
    cases hdflt
    simp only [Option.map_none, Option.none_or] at hd
    have hdef := unionCases_default hcases
    obtain ⟨-, cs, hcs⟩ := union_cases hwf hu hcond hlab (labels_ok hwf hm) hcases
    rw [hd, hcs.byIndex] at hdef
    cases cs with
    | nil => cases hdef
    | cons c cs =>
      simp only [Option.map_some, List.map_cons, List.head?_cons, Option.some.injEq] at hdef
      obtain ⟨c, k⟩ := c
      obtain ⟨l, hl, hc⟩ := hcs.from_label c k List.mem_cons_self
      refine ⟨l, k, hl, ⟨(List.of_mem_zip hl).2, fun j hj => ?_⟩, ?_⟩
      · obtain ⟨l', hl'⟩ : ∃ l', (l', j) ∈ body.labels.zip ks := by
          obtain ⟨i, hi⟩ := List.mem_iff_getElem?.1 hj
          have hlt : i < body.labels.length := by
            rw [hlab.selects.length_eq]
            exact (List.getElem?_eq_some_iff.1 hi).1
          exact ⟨body.labels[i], List.mem_iff_getElem?.2 ⟨i, List.getElem?_zip_eq_some.2 ⟨by simp [hlt], hi⟩⟩⟩
        obtain ⟨c', hc', -⟩ := hcs.all l' j hl'
        rcases List.mem_cons.1 hc' with e | hc'
        · cases e
          exact Int.le_refl _
        · exact Int.le_of_lt ((List.pairwise_cons.1 hcs.sorted).1 _ hc')
      · obtain ⟨o, h1, -⟩ := convert_case_ok hc
        rw [hdef]
        exact h1

/-- The default of an enum: the member of the least number. -/
theorem enum_default_least {ds : List Definition} (hwf : WellFormed ds) {cfg : Config} {n : Nat} {name : Str}
    {as : List Assign} {ks : List Int} (hm : .type (.enum name as) ∈ ds) (hnum : Numbered ds as ks)
    {e : EnumItem} (h : convert_enum_token (setup_context ds cfg) n name as = .ok e) :
    ∃ a k, (a, k) ∈ as.zip ks ∧ Least k ks ∧ upper_camel_case_ident a.identifier = .ok e.default ∧
      (e.default, k) ∈ e.variants := by
  obtain ⟨ms, h1, h2, h3, ⟨m, hh, hd⟩, h5, -⟩ :=
    enum_members hwf (members_ok hwf hm) hnum.stands hnum.distinct hnum.range h
  cases ms with
  | nil => cases hh
  | cons m' ms =>
    cases hh
    obtain ⟨a, ha, hid⟩ := h2 m List.mem_cons_self
    refine ⟨a, m.2, ha, ⟨(List.of_mem_zip ha).2, fun j hj => ?_⟩, by rw [hd]; exact hid,
      by rw [hd]; exact h5 m List.mem_cons_self⟩
    obtain ⟨a', ha'⟩ := zip_mem_right hnum.stands.length_eq hj
    obtain ⟨id, -, hmem⟩ := h1 _ ha'
    rcases List.mem_cons.1 hmem with e | hmem
    · rw [← e]
      exact Int.le_refl _
    · exact Int.le_of_lt ((List.pairwise_cons.1 h3).1 _ hmem)

theorem Least.unique {k j : Int} {ks : List Int} (h : Least k ks) (h' : Least j ks) : k = j :=
  Int.le_antisymm (h.2 j h'.1) (h'.2 k h.1)

theorem file_default_item {file : RustFile} (hno : file.namesOk = true) {it : Item} (hi : it ∈ file.types)
    {m : Nat} {v : Val} (h : file.default m it.name = .ok v) :
    ∃ m', m = m' + 1 ∧ it.defaultVal file.constants (file.default m') = .ok v := by
  cases m with
  | zero => cases h
  | succ m =>
    rw [file_default_succ hno hi] at h
    exact ⟨m, rfl, h⟩

theorem enumItem_default {e : EnumItem} (hnd : (e.variants.map (·.1.str)).Nodup) {k : Int}
    (hm : (e.default, k) ∈ e.variants) :
    ∃ i, e.variants[i]? = some (e.default, k) ∧ e.defaultVal = .ok (.variant i []) := by
  obtain ⟨i, hi⟩ := List.mem_iff_getElem?.1 hm
  have := variantPos_of (nodup_of_str hnd) hi
  simp only at this
  exact ⟨i, hi, by simp [EnumItem.defaultVal, this]⟩

section
variable {n : Nat} {ds : List Definition} {cfg : Config} {file : RustFile} {defs : List (String × Def)}

/-- The default of the type of a discriminant. -/
theorem cond_default (hwf : WellFormed ds) (hrt : cfg.remove_typedef = true)
    (hg : gen_code n ds cfg = .ok file) (hd : file.defs = some defs) {cond : TypeSpecifier} {k : Int}
    (hf : First ds cond k) {m : Nat} {rc : RTy} {op : OpaqueType}
    (hrc : convert_primitive_token (convert_type_token (setup_context ds cfg) m) (setup_context ds cfg) cond =
      .ok (rc, op))
    (hty : rc = .u32 ∨ rc = .bool ∨ ∃ e, .enum e ∈ file.types ∧ rc = .path e.name) {disc : Ty}
    (hdisc : rc.meaning file.constants = some disc) {p : Nat} {dv : Val}
    (hdv : rc.defaultWith file.constants (file.default p) = .ok dv) : IsNumber file disc dv k := by
  induction hf generalizing m with
  | @int signed =>
    simp only [convert_primitive_token, GR.ok.injEq, Prod.mk.injEq] at hrc
    obtain ⟨rfl, rfl⟩ := hrc
    cases signed with
    | true => rcases hty with h | h | ⟨_, -, h⟩ <;> cases h
    | false =>
      cases hdisc
      cases hdv
      simp [IsNumber]
  | bool =>
    simp only [convert_primitive_token, GR.ok.injEq, Prod.mk.injEq] at hrc
    obtain ⟨rfl, rfl⟩ := hrc
    cases hdisc
    cases hdv
    simp [IsNumber]
  | @enum name e as ks k ht hnum hk =>
    obtain ⟨hmem, hname⟩ := typeOf_mem ht
    cases hname
    rcases resolve_type_ok hrt hrc with ⟨d', hd', -⟩ | ⟨-, id, hid, hr⟩
    · rw [ht] at hd'
      cases hd'
    · cases hr
      cases hdisc
      obtain ⟨e, he, hemem⟩ := gen_code_enum hg hmem
      obtain ⟨a, k', -, hk', -, hv⟩ := enum_default_least hwf hmem hnum he
      have hen : upper_camel_case_ident name = .ok e.name := by
        obtain ⟨ms, -, -, -, -, -, -, -, -, h8, -⟩ :=
          enum_members hwf (members_ok hwf hmem) hnum.stands hnum.distinct hnum.range he
        exact h8
      rw [hid] at hen
      cases hen
      obtain ⟨d, hd1, hd2⟩ := defs_lookup hd hemem
      obtain ⟨hnd, -⟩ := enum_meaning_ok hd1
      obtain ⟨i, hi, hdef⟩ := enumItem_default hnd hv
      obtain ⟨p', -, hval⟩ := file_default_item (defs_ok hd).1 hemem hdv
      simp only [Item.defaultVal, hdef] at hval
      cases hval
      rw [hk.unique hk']
      exact ⟨e, e.default, hemem, rfl, hi⟩
  | @typedef name nm ts k ht _ ih =>
    rcases resolve_type_ok hrt hrc with ⟨d', hd', hc⟩ | ⟨hno, -⟩
    · rw [ht] at hd'
      cases hd'
      cases m with
      | zero => cases hc
      | succ m =>
        simp only [convert_type_token, convertTypeWith, GR.bind_eq_ok, GR.ok.injEq, Option.some.injEq] at hc
        obtain ⟨q, hq, rfl⟩ := hc
        exact ih hq
    · exact absurd ht (hno _)

end

/-- With `--use-union`: what the default discriminant selects. -/
theorem union_default_selects {n : Nat} {ds : List Definition} {cfg : Config} {file : RustFile}
    {defs : List (String × Def)} (hwf : WellFormed ds) (hu : Unambiguous ds)
    (hrt : cfg.remove_typedef = true) (hci : cfg.union_impl_indexer = false)
    (hcu : cfg.union_impl_union = true)
    (hg : gen_code n ds cfg = .ok file) (hd : file.defs = some defs) {name : Str} {body : UnionBody}
    (hm : .type (.union name body) ∈ ds) {cond : TypeSpecifier} {nm : Str} {ks : List Int}
    (hcond : body.cond = .variable cond nm) (hlab : Labelled ds cond body.labels ks)
    (hen : NumberedEnums ds) {k0 : Int} (hf : First ds cond k0) {u : UnionItem}
    (hconv : convert_union_token (setup_context ds cfg) n name body = .ok u) (hmem : .union u ∈ file.types)
    {un : UnionUnion} {c : RTy} {m : Nat} {dv : Val} (hun : u.union = some un) (hc : un.cond = some c)
    (hdv : c.defaultWith file.constants (file.default m) = .ok dv) :
    (∀ l, (l, k0) ∈ body.labels.zip ks → ∃ a id, l.1 = .identifier a ∧ upper_camel_case_ident a = .ok id ∧
      (unionUnionImpl file.enums un).name_by_value dv = .ok id.str) ∧
    (k0 ∉ ks → (unionUnionImpl file.enums un).name_by_value dv =
      if body.default.isSome then .ok "Default" else .err .convert) := by
  obtain ⟨ty, vars, impl, disc, rc, h1, h2, hnd, h3, h4, h5, h6, h7⟩ :=
    union_case hwf hu hen hci hcu hg hd hm hcond hlab
  obtain ⟨hrc, hty⟩ := h3 (labels_ne hwf hm)
  obtain ⟨ct, acc, dflt, hname, hcases, -, -, hder, -, -, hun'⟩ := convert_union_ok hconv
  rw [hname] at h1
  cases h1
  have hder' : u.derive = .union := by
    have e1 : (setup_context ds cfg).config.union_impl_indexer = false := hci
    have e2 : (setup_context ds cfg).config.union_impl_union = true := hcu
    rw [hder, e1, e2]
    rfl
  obtain ⟨d, hd1, hd2⟩ := defs_lookup hd hmem
  obtain ⟨-, un', vars', c', disc', hun2, -, hc', -, -, hdisc', rfl⟩ := union_meaning_union hd1 hder'
  rw [hun] at hun2
  cases hun2
  rw [hc] at hc'
  cases hc'
  simp only [Item.name] at hd2
  rw [h2] at hd2
  cases hd2
  obtain ⟨-, cs, hcs⟩ := union_cases hwf hu hcond hlab (labels_ok hwf hm) hcases
  have e2 : (setup_context ds cfg).config.union_impl_union = true := hcu
  rw [hun, if_pos e2] at hun'
  cases hun'
  have hrcc : c = rc := by
    obtain ⟨l0, hl0⟩ := List.exists_mem_of_ne_nil _ (labels_ne hwf hm)
    obtain ⟨k0, hk0⟩ := zip_mem_left hlab.selects.length_eq hl0
    obtain ⟨c0, hc0, hconv0⟩ := hcs.all l0 k0 hk0
    obtain ⟨o, -, hcond0, -⟩ := convert_case_ok hconv0
    have := hcs.cond_ty _ hc0
    simp only at hc
    rw [hc] at this
    cases this
    rw [hrc] at hcond0
    cases hcond0
    rfl
  subst hrcc
  obtain ⟨l0, hl0⟩ := List.exists_mem_of_ne_nil _ (labels_ne hwf hm)
  obtain ⟨k1, hk1⟩ := zip_mem_left hlab.selects.length_eq hl0
  have hs0 := forall₂_zip hlab.selects hk1
  have hrc' : ∃ op, convert_primitive_token (convert_type_token (setup_context ds cfg) n)
      (setup_context ds cfg) cond = .ok (c, op) := by
    unfold condType at hrc
    split at hrc
    · next p hp =>
      obtain ⟨ty, op⟩ := p
      cases hrc
      exact ⟨op, hp⟩
    · next e he => exact absurd he ((selects_convert hrt hs0 n).1 e)
    · cases hrc
    · cases hrc
  obtain ⟨op, hrc'⟩ := hrc'
  have hnumber := cond_default hwf hrt hg hd hf hrc' hty h4 hdv
  refine ⟨fun l hl => ?_, fun hk => h6 k0 hk dv hnumber⟩
  obtain ⟨a, id, ts, i, ha, hid, -, -, hn⟩ := h5 l k0 hl
  exact ⟨a, id, ha, hid, hn dv hnumber⟩

/-- What is read as a value of an `XdrUnion` type was selected by its first field. -/
theorem union_read_inv {env : Env} {ty : String} {disc : Ty} {vars : List (String × Option (List Ty))}
    {impl : UnionImpl} (henv : env ty = some (.union disc vars impl)) {n i : Nat} {dv : Val} {vs : List Val}
    {b r : Bytes} (h : deTy env n (.named ty) b = .ok (.variant i (dv :: vs), r)) :
    ∃ vn fs, impl.name_by_value dv = .ok vn ∧ vars[i]? = some (vn, fs) := by
  cases n with
  | zero => simp [deTy] at h
  | succ n =>
    simp only [deTy, henv, deDef, deserialize_tuple, visitUnion] at h
    obtain ⟨⟨o, sq⟩, b', h1, h⟩ := M.bind_eq_ok.1 h
    cases o with
    | none => cases h
    | some x =>
      simp only at h
      cases hn : impl.name_by_value x with
      | err e => rw [hn] at h; cases h
      | panic p => rw [hn] at h; cases h
      | depth => rw [hn] at h; cases h
      | ok name =>
        rw [hn] at h
        simp only at h
        cases hf : findVariant name vars 0 with
        | none => rw [hf] at h; cases h
        | some p =>
          obtain ⟨j, fs⟩ := p
          rw [hf] at h
          have hget := findVariant_get hf
          match fs, h with
          | none, h => cases h
          | some [], h => cases h
          | some (t :: ts), h =>
            obtain ⟨ws, b'', -, h⟩ := M.bind_eq_ok.1 h
            cases h
            exact ⟨name, _, hn, by simpa using hget.2.1⟩

/-- The default of a union with `--use-union` starts with the default of the discriminant. -/
theorem union_default_head {file : RustFile} {u : UnionItem} {v : Variant} (hu : UnionDflt u v) {d : Def}
    (hd : u.meaning file.constants file.enums = some d) (hder : u.derive = .union) {m : Nat} {w : Val}
    (h : u.defaultVal file.constants (file.default m) = .ok w) :
    ∃ un c i dv vs id, u.union = some un ∧ un.cond = some c ∧ w = .variant i (dv :: vs) ∧
      u.variants[i]? = some v ∧ v.name = .ident id ∧
      c.defaultWith file.constants (file.default m) = .ok dv := by
  obtain ⟨hnd, un, vars, cond, disc, hun, hvars, hc, -, -, hdisc, rfl⟩ := union_meaning_union hd hder
  have hhead : v.fields = [] ∨ v.fields.head? = some cond := by
    unfold UnionItem.meaning at hd
    rw [if_pos hnd, hder, hun, hvars] at hd
    simp only [hc] at hd
    split at hd
    · next hh => exact hh.2.1 v hu.mem
    · cases hd
  obtain ⟨i, hiv, hdv⟩ := hu.pos hnd
  rw [hdv, resBind_ok] at h
  obtain ⟨vs, hvs, h⟩ := h
  cases h
  obtain ⟨⟨vn, sh⟩, hvi, id, hid, -, hvn, hsh⟩ := forall₂_getElem (variantsMeaning_ok hvars) hiv
  simp only [Variant.types] at hsh
  split at hsh
  · next hattr =>
    rcases hhead with hnil | hhead
    · exact absurd hnil (hu.disc hder)
    obtain ⟨rest, hfs⟩ : ∃ rest, v.fields = cond :: rest := by
      cases hvf : v.fields with
      | nil => rw [hvf] at hhead; cases hhead
      | cons a r => rw [hvf] at hhead; cases hhead; exact ⟨r, rfl⟩
    rw [hfs, hattr] at hvs
    have hvs' := resMapM_ok.1 hvs
    cases hvs' with
    | @cons _ dv _ vs' hdv' _ => exact ⟨un, cond, i, dv, vs', id, hun, hc, rfl, hiv, hid, hdv'⟩
  · cases hsh

end Xdr.Rpcgen
