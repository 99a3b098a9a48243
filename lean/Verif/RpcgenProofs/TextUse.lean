import Verif.RpcgenProofs.ParseFile
import Verif.RpcgenProofs.Scoped
import Verif.RpcgenProofs.Default
/-!
# A file with a meaning has usable names only
-/

namespace Xdr.Rpcgen

theorem constantsOk_iff {cs : List ConstItem} : constantsOk cs = true ↔
    (cs.map (·.name.str)).Nodup ∧
    ∀ c ∈ cs, c.name.usable = true ∧ (constValue cs c.ty (cs.length + 1) c.value).isSome = true := by
  simp [constantsOk]

theorem find_const {cs : List ConstItem} {i : RIdent} {c : ConstItem} (h : (cs.find? fun c => c.name = i) = some c) :
    c ∈ cs ∧ c.name = i := ⟨List.mem_of_find?_eq_some h, by simpa using List.find?_some h⟩

theorem arrayLen_use {cs : List ConstItem} (hc : ∀ c ∈ cs, c.name.usable = true) {t : Tok} {b : Bool} {k : Nat}
    (h : arrayLen cs t b = some k) : t.Use := by
  cases t with
  | lit _ _ => trivial
  | ident i =>
    simp only [arrayLen] at h
    split at h
    · split at h
      · rename_i c hf
        obtain ⟨h1, rfl⟩ := find_const hf
        exact hc c h1
      · cases h
    · cases h

theorem arrayTy_some {len : Option Nat} {k : Nat → Ty} {t : Ty} (h : arrayTy len k = some t) :
    ∃ n, len = some n ∧ n ≤ 32 ∧ t = k n := by
  unfold arrayTy at h
  split at h
  · split at h
    · rename_i n hn
      cases h
      exact ⟨n, rfl, hn, rfl⟩
    · cases h
  · cases h

theorem type_use {cs : List ConstItem} (hc : ∀ c ∈ cs, c.name.usable = true) {t : RTy}
    (hp : ∀ p ∈ t.paths, p.usable = true) : ∀ {r : Ty}, t.meaning cs = some r → t.Use := by
  induction t with
  | path i => exact fun _ => hp i (by simp [RTy.paths])
  | array t len b ih =>
    intro r h
    simp only [RTy.meaning, Option.bind_eq_some_iff] at h
    obtain ⟨r', h1, h2⟩ := h
    obtain ⟨k, hk, -⟩ := arrayTy_some h2
    exact ⟨ih hp h1, arrayLen_use hc hk⟩
  | vec t ih =>
    intro r h
    simp only [RTy.meaning, Option.map_eq_some_iff] at h
    obtain ⟨r', h1, -⟩ := h
    exact ih hp h1
  | option t ih =>
    intro r h
    simp only [RTy.meaning, Option.map_eq_some_iff] at h
    obtain ⟨r', h1, -⟩ := h
    exact ih hp h1
  | box t ih => exact fun h => ih hp h
  | _ => exact fun _ => trivial

theorem field_use {cs : List ConstItem} (hc : ∀ c ∈ cs, c.name.usable = true) {enums : List EnumItem} {a : Attr} {t : RTy}
    (hp : ∀ p ∈ t.paths, p.usable = true) {r : Ty} (h : fieldMeaning cs enums a t = some r) : t.Use := by
  unfold fieldMeaning at h
  split at h
  · exact type_use hc hp h
  · obtain ⟨k, hk, -⟩ := arrayTy_some h
    exact ⟨trivial, arrayLen_use hc hk⟩
  · trivial
  · exact hp _ (by simp [RTy.paths])
  · cases h

theorem fieldsMeaning_each {cs : List ConstItem} {enums : List EnumItem} {fs : List (Attr × RIdent × RTy)}
    {r : List (String × Ty)} (h : fieldsMeaning cs enums fs = some r) :
    List.Forall₂ (fun f p => f.2.1.usable = true ∧ p.1 = f.2.1.str ∧ fieldMeaning cs enums f.1 f.2.2 = some p.2) fs r := by
  induction fs generalizing r with
  | nil =>
    cases h
    exact .nil
  | cons f fs ih =>
    obtain ⟨a, i, t⟩ := f
    simp only [fieldsMeaning] at h
    split at h
    · rename_i hi
      split at h
      · rename_i h1 h2
        cases h
        exact .cons ⟨hi, rfl, h1⟩ (ih h2)
      · cases h
    · cases h

/-- What a union with a meaning has. -/
theorem union_meaning_ok {cs : List ConstItem} {enums : List EnumItem} {u : UnionItem} {d : Def}
    (h : u.meaning cs enums = some d) :
    (u.variants.map (·.name.str)).Nodup ∧
    ((u.derive = .serde ∧ ∃ vars, variantsMeaning (·.shape cs enums) u.variants = some vars ∧ d = .enum vars) ∨
     (u.derive = .indexer ∧ ∃ ix vars, u.indexer = some ix ∧ variantsMeaning (·.types cs) u.variants = some vars ∧
      (ix.indexOtherwise = true ∨ ∀ v ∈ u.variants, v.name ∈ ix.index.map (·.1)) ∧ ix.byIndex ≠ [] ∧ ix.index ≠ [] ∧
      d = .indexer vars (unionIndexerImpl u.variants ix)) ∨
     (u.derive = .union ∧ ∃ un vars cond dt, u.union = some un ∧ variantsMeaning (·.types cs) u.variants = some vars ∧
      un.cond = some cond ∧ (∀ p ∈ un.byValue, p.1.fits enums cond = true) ∧
      (∀ v ∈ u.variants, v.fields = [] ∨ v.fields.head? = some cond) ∧ (∃ v ∈ u.variants, v.fields ≠ []) ∧
      un.byValue ≠ [] ∧ cond.meaning cs = some dt ∧ d = .union dt vars (unionUnionImpl enums un))) := by
  unfold UnionItem.meaning at h
  split at h
  · rename_i hn
    refine ⟨hn, ?_⟩
    cases hd : u.derive with
    | serde =>
      rw [hd] at h
      simp only [Option.map_eq_some_iff] at h
      obtain ⟨vars, h1, rfl⟩ := h
      exact .inl ⟨rfl, vars, h1, rfl⟩
    | indexer =>
      rw [hd] at h
      dsimp only at h
      split at h
      · rename_i ix vars h1 h2
        split at h
        · rename_i hc
          cases h
          exact .inr (.inl ⟨rfl, ix, vars, h1, h2, hc.1, hc.2.1, hc.2.2, rfl⟩)
        · cases h
      · cases h
    | union =>
      rw [hd] at h
      dsimp only at h
      split at h
      · rename_i un vars h1 h2
        split at h
        · rename_i cond hcond
          split at h
          · rename_i hc
            simp only [Option.map_eq_some_iff] at h
            obtain ⟨dt, h3, rfl⟩ := h
            exact .inr (.inr ⟨rfl, un, vars, cond, dt, h1, h2, hcond, hc.1, hc.2.1, hc.2.2.2.1, hc.2.2.2.2, h3, rfl⟩)
          · cases h
        · cases h
      · cases h
  · cases h

theorem variants_name {α : Type} {g : Variant → Option α} {vs : List Variant} {r : List (String × α)}
    (h : variantsMeaning g vs = some r) {v : Variant} (hv : v ∈ vs) : v.name.IsName ∧ (g v).isSome = true := by
  obtain ⟨p, -, i, h1, h2, -, h4⟩ := forall₂_mem_left (variantsMeaning_ok h) hv
  exact ⟨⟨i, h1, h2⟩, by rw [h4]; rfl⟩

theorem variant_use_shape {cs : List ConstItem} (hc : ∀ c ∈ cs, c.name.usable = true) {enums : List EnumItem} {v : Variant}
    (hp : ∀ t ∈ v.fields, ∀ p ∈ t.paths, p.usable = true) (h : (v.shape cs enums).isSome = true) :
    ∀ t ∈ v.fields, t.Use := by
  intro t ht
  unfold Variant.shape at h
  split at h
  · rename_i hf
    rw [hf] at ht
    cases ht
  · rename_i t' hf
    rw [hf] at ht hp
    simp only [List.mem_singleton] at ht
    subst ht
    obtain ⟨r, hr⟩ := Option.isSome_iff_exists.1 h
    simp only [Option.map_eq_some_iff] at hr
    obtain ⟨r', hr, -⟩ := hr
    exact field_use hc (hp _ (by simp)) hr
  · cases h

theorem variant_use_types {cs : List ConstItem} (hc : ∀ c ∈ cs, c.name.usable = true) {v : Variant}
    (hp : ∀ t ∈ v.fields, ∀ p ∈ t.paths, p.usable = true) (h : (v.types cs).isSome = true) :
    ∀ t ∈ v.fields, t.Use := by
  intro t ht
  unfold Variant.types at h
  split at h
  · split at h
    · rename_i hf
      rw [hf] at ht
      cases ht
    · obtain ⟨r, hr⟩ := Option.isSome_iff_exists.1 h
      simp only [Option.map_eq_some_iff] at hr
      obtain ⟨r', hr, -⟩ := hr
      obtain ⟨x, -, hx⟩ := forall₂_mem_left (tysMeaning_ok hr) ht
      exact type_use hc (hp t ht) hx
  · cases h

theorem isName_of_mem {vs : List Variant} (h : ∀ v ∈ vs, v.name.IsName) {t : Tok} (ht : t ∈ vs.map (·.name)) : t.IsName := by
  obtain ⟨v, hv, rfl⟩ := List.mem_map.1 ht
  exact h v hv

theorem fits_use {enums : List EnumItem} {cond : RTy} (hcond : cond.Use)
    (he : ∀ e ∈ enums, ∀ v ∈ e.variants, v.1.usable = true) {p : Pat} (h : p.fits enums cond = true) : p.Use := by
  cases p with
  | path c v =>
    simp only [Pat.fits] at h
    split at h
    · rename_i e hf
      simp only [decide_eq_true_eq] at h
      obtain ⟨rfl, hm⟩ := h
      obtain ⟨w, hw, rfl⟩ := List.mem_map.1 hm
      exact ⟨hcond, he e (List.mem_of_find?_eq_some hf) w hw⟩
    · cases h
  | lit _ => trivial
  | bool _ => trivial

theorem itemsMeaning_mem {cs : List ConstItem} {enums : List EnumItem} {items : List Item} {l : List (String × Def)}
    (h : itemsMeaning cs enums items = some l) {i : Item} (hi : i ∈ items) : ∃ d, i.meaning cs enums = some d := by
  induction items generalizing l with
  | nil => cases hi
  | cons j js ih =>
    simp only [itemsMeaning] at h
    split at h
    · rename_i d r h1 h2
      rcases List.mem_cons.1 hi with rfl | hi
      · exact ⟨d, h1⟩
      · exact ih h2 hi
    · cases h

theorem enum_variants_usable {e : EnumItem} {d : Def} (h : e.meaning = some d) : ∀ v ∈ e.variants, v.1.usable = true := by
  unfold EnumItem.meaning at h
  split at h
  · rename_i hn
    exact hn.2.2
  · cases h

theorem use_of_defs {f : RustFile} (hs : f.Scoped) {defs : List (String × Def)} (hd : f.defs = some defs) : f.Use := by
  obtain ⟨hno, l, hl, -⟩ := defs_ok hd
  obtain ⟨hnd, hus, hpa, hco⟩ := namesOk_iff.1 hno
  obtain ⟨-, hco⟩ := constantsOk_iff.1 hco
  have hc : ∀ c ∈ f.constants, c.name.usable = true := fun c h => (hco c h).1
  have hp : ∀ i ∈ f.types, ∀ p ∈ i.paths, p.usable = true := by
    intro i hi p hp
    obtain ⟨j, hj, rfl⟩ := List.mem_map.1 (hpa i hi p hp)
    exact (hus j hj).1
  refine ⟨fun c hm => ⟨hc c hm, ?_⟩, fun i hi => ?_⟩
  · obtain ⟨v, hv⟩ := Option.isSome_iff_exists.1 (hco c hm).2
    cases hcv : c.value with
    | lit _ _ => trivial
    | ident j =>
      rw [hcv] at hv
      simp only [constValue] at hv
      split at hv
      · rename_i c' hf
        obtain ⟨h1, rfl⟩ := find_const hf
        exact hc c' h1
      · cases hv
  · obtain ⟨d, hm⟩ := itemsMeaning_mem hl hi
    have hsc := hs.types i hi
    have hname := (hus i hi).1
    have hpi := hp i hi
    cases i with
    | «alias» _ _ => cases hm
    | enum e =>
      have hv := enum_variants_usable hm
      have hin : ∀ j, j ∈ e.variants.map (·.1) → j.usable = true := by
        intro j hj
        obtain ⟨v, hvm, rfl⟩ := List.mem_map.1 hj
        exact hv v hvm
      obtain ⟨hsc, -⟩ := hsc
      exact ⟨hname, hv, hin _ hsc.default, fun arms ha a hm => hin _ (hsc.asRef arms ha a hm),
        fun arms ha => ⟨(hsc.tryFrom arms ha).1, fun a hm => hin _ ((hsc.tryFrom arms ha).2 a hm)⟩,
        fun ix hix => ⟨(hsc.indexer ix hix).1, (hsc.indexer ix hix).2.1,
          fun a hm => hin _ ((hsc.indexer ix hix).2.2.2.2 a hm)⟩⟩
    | struct s =>
      refine ⟨hname, fun fl hfl => ?_⟩
      simp only [Item.meaning, StructItem.meaning] at hm
      split at hm
      · simp only [Option.map_eq_some_iff] at hm
        obtain ⟨fs, hfs, -⟩ := hm
        obtain ⟨p, -, h1, -, h3⟩ := forall₂_mem_left (fieldsMeaning_each hfs) hfl
        exact ⟨h1, field_use hc (fun p hp => hpi p (List.mem_flatMap.2 ⟨fl, hfl, hp⟩)) h3⟩
      · cases hm
    | union u =>
      obtain ⟨hsc, -⟩ := hsc
      obtain ⟨-, h⟩ := union_meaning_ok hm
      have hpv : ∀ v ∈ u.variants, ∀ t ∈ v.fields, ∀ p ∈ t.paths, p.usable = true :=
        fun v hv t ht p hp => hpi p (List.mem_flatMap.2 ⟨v, hv, List.mem_flatMap.2 ⟨t, ht, hp⟩⟩)
      have hvs : ∀ v ∈ u.variants, v.Use := by
        intro v hv
        rcases h with ⟨-, vars, h1, -⟩ | ⟨-, ix, vars, -, h1, -⟩ | ⟨-, un, vars, cond, dt, -, h1, -⟩
        · exact ⟨(variants_name h1 hv).1, variant_use_shape hc (hpv v hv) (variants_name h1 hv).2⟩
        · exact ⟨(variants_name h1 hv).1, variant_use_types hc (hpv v hv) (variants_name h1 hv).2⟩
        · exact ⟨(variants_name h1 hv).1, variant_use_types hc (hpv v hv) (variants_name h1 hv).2⟩
      have hin := fun t => isName_of_mem (t := t) fun v hv => (hvs v hv).name
      refine ⟨hname, hvs, hin _ hsc.default, ?_, ?_⟩
      · intro ix hix
        obtain ⟨hder, hb, hi⟩ := hsc.indexer ix hix
        rcases h with ⟨hd', -⟩ | ⟨-, ix', vars, hix', -, -, h1, h2, -⟩ | ⟨hd', -⟩
        · rw [hder] at hd'; cases hd'
        · rw [hix] at hix'
          cases hix'
          refine ⟨h1, h2, fun a ha => hin _ (hb a ha), fun a ha => ?_⟩
          obtain ⟨v, hv, hva, -⟩ := hi a ha
          rw [← hva]
          exact (hvs v hv).name
        · rw [hder] at hd'; cases hd'
      · intro un hun
        obtain ⟨hder, hb⟩ := hsc.union un hun
        rcases h with ⟨hd', -⟩ | ⟨hd', -⟩ | ⟨-, un', vars, cond, dt, hun', -, hcond, hfit, hhead, ⟨v, hv, hvf⟩, hne, hdt, -⟩
        · rw [hder] at hd'; cases hd'
        · rw [hder] at hd'; cases hd'
        · rw [hun] at hun'
          cases hun'
          have hcu : cond.Use := by
            rcases hhead v hv with h1 | h1
            · exact absurd h1 hvf
            · exact (hvs v hv).fields cond (List.mem_of_head? h1)
          refine ⟨⟨cond, hcond, hcu⟩, hne, fun a ha => ⟨fits_use hcu ?_ (hfit a ha), hin _ (hb a ha)⟩⟩
          intro e he w hw
          obtain ⟨d', hd'⟩ := itemsMeaning_mem hl (mem_enums.1 he)
          exact enum_variants_usable hd' w hw

/-- The text of a generated file that has a meaning is parsed to its tree. -/
theorem parse_defs {n : Nat} {ds : List Definition} {cfg : Config} {file : RustFile}
    (hcfg : cfg.union_impl_indexer = true → cfg.union_impl_union = false)
    (hg : gen_code n ds cfg = .ok file) {defs : List (String × Def)} (hd : file.defs = some defs) :
    parseRust file.text = some file.ast :=
  parse_file hg (use_of_defs (gen_code_Scoped hcfg hg) hd)

end Xdr.Rpcgen
