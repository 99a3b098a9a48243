import Verif.Rpcgen.Gen
import Verif.RpcgenProofs.Names
import Mathlib.Data.List.Forall2
/-!
# Inversion lemmas for the generator
-/

namespace Xdr.Rpcgen

theorem GR.mapM_ok {α β : Type} {f : α → GR β} {l : List α} {r : List β} :
    GR.mapM f l = .ok r ↔ List.Forall₂ (fun a b => f a = .ok b) l r := by
  induction l generalizing r with
  | nil => simp [GR.mapM, eq_comm]
  | cons a l ih =>
    rw [GR.mapM_cons_ok]
    constructor
    · rintro ⟨b, bs, h1, h2, rfl⟩
      exact .cons h1 (ih.1 h2)
    · intro h
      cases h with
      | cons h1 h2 => exact ⟨_, _, h1, ih.2 h2, rfl⟩

theorem forall₂_mem_right {α β : Type} {R : α → β → Prop} {l : List α} {r : List β}
    (h : List.Forall₂ R l r) {b : β} (hb : b ∈ r) : ∃ a ∈ l, R a b := by
  induction h with
  | nil => cases hb
  | cons h1 _ ih =>
    rcases List.mem_cons.1 hb with rfl | hb
    · exact ⟨_, List.mem_cons_self, h1⟩
    · obtain ⟨a, ha, hr⟩ := ih hb
      exact ⟨a, List.mem_cons_of_mem _ ha, hr⟩

theorem forall₂_mem_left {α β : Type} {R : α → β → Prop} {l : List α} {r : List β}
    (h : List.Forall₂ R l r) {a : α} (ha : a ∈ l) : ∃ b ∈ r, R a b := by
  induction h with
  | nil => cases ha
  | cons h1 _ ih =>
    rcases List.mem_cons.1 ha with rfl | ha
    · exact ⟨_, List.mem_cons_self, h1⟩
    · obtain ⟨b, hb, hr⟩ := ih ha
      exact ⟨b, List.mem_cons_of_mem _ hb, hr⟩

theorem GR.mapM_mem {α β : Type} {f : α → GR β} {l : List α} {r : List β} (h : GR.mapM f l = .ok r)
    {b : β} (hb : b ∈ r) : ∃ a ∈ l, f a = .ok b := forall₂_mem_right (GR.mapM_ok.1 h) hb

theorem gen_code_ok {n : Nat} {ds : List Definition} {cfg : Config} {file : RustFile} :
    gen_code n ds cfg = .ok file ↔
      constants_token (setup_context ds cfg) = .ok file.constants ∧
      types_token (setup_context ds cfg) n = .ok file.types ∧
      file.useTuple = (cfg.enum_impl_indexer || cfg.union_impl_indexer || cfg.union_impl_union) ∧
      file.useIndexer = (cfg.enum_impl_indexer || cfg.union_impl_indexer) ∧
      file.useUnion = cfg.union_impl_union := by
  unfold gen_code
  simp only [GR.bind_eq_ok, GR.ok.injEq]
  constructor
  · rintro ⟨c, hc, t, ht, rfl⟩
    exact ⟨hc, ht, rfl, rfl, rfl⟩
  · rintro ⟨h1, h2, h3, h4, h5⟩
    refine ⟨_, h1, _, h2, ?_⟩
    cases file
    simp_all

theorem types_token_mem {cxt : Context} {n : Nat} {items : List Item} (h : types_token cxt n = .ok items)
    {item : Item} (hi : item ∈ items) :
    ∃ name d l, (name, d) ∈ cxt.typedefs ∧ typeToken cxt n name d = .ok l ∧ item ∈ l := by
  unfold types_token at h
  simp only [GR.bind_eq_ok, GR.ok.injEq] at h
  obtain ⟨ls, h1, rfl⟩ := h
  obtain ⟨l, hl, hm⟩ := List.mem_flatten.1 hi
  obtain ⟨⟨name, d⟩, hd, ht⟩ := GR.mapM_mem h1 hl
  exact ⟨name, d, l, hd, ht, hm⟩

/-- Which definition an item comes from. -/
theorem typeToken_item {cxt : Context} {n : Nat} {name : Str} {d : TypeDef} {l : List Item}
    (h : typeToken cxt n name d = .ok l) {item : Item} (hi : item ∈ l) :
    match d, item with
    | .declaration _, .alias _ _ => cxt.config.remove_typedef = false
    | .enum _ as, .enum e => convert_enum_token cxt n name as = .ok e
    | .struct _ ds, .struct s => convert_struct_token cxt n name ds = .ok s
    | .union _ b, .union u => convert_union_token cxt n name b = .ok u
    | _, _ => False := by
  cases d with
  | declaration d =>
    simp only [typeToken] at h
    split at h
    · cases h
      cases hi
    · next hr =>
      simp only [GR.bind_eq_ok] at h
      obtain ⟨o, -, ⟨v, op⟩, -, h⟩ := h
      simp only at h
      split at h
      · cases h
      · simp only [GR.bind_eq_ok, GR.ok.injEq] at h
        obtain ⟨i, -, rfl⟩ := h
        simp only [List.mem_singleton] at hi
        subst hi
        simpa using hr
  | enum e as =>
    simp only [typeToken, GR.bind_eq_ok, GR.ok.injEq] at h
    obtain ⟨x, hx, rfl⟩ := h
    simp only [List.mem_singleton] at hi
    subst hi
    exact hx
  | struct e as =>
    simp only [typeToken, GR.bind_eq_ok, GR.ok.injEq] at h
    obtain ⟨x, hx, rfl⟩ := h
    simp only [List.mem_singleton] at hi
    subst hi
    exact hx
  | union e as =>
    simp only [typeToken, GR.bind_eq_ok, GR.ok.injEq] at h
    obtain ⟨x, hx, rfl⟩ := h
    simp only [List.mem_singleton] at hi
    subst hi
    exact hx

/-! ## Structs -/

theorem convertField_ok {cxt : Context} {n : Nat} {name : Str} {d : Declaration}
    {r : Attr × RIdent × RTy} (h : convertField cxt n name d = .ok r) :
    ∃ f ts ty op, d.name = some f ∧ d.type_specifier = some ts ∧
      convert_type_token cxt n d = .ok (some (ty, op)) ∧ fieldIdent f = .ok r.2.1 ∧
      r.2.2 = (if ts.isName name then .box ty else ty) ∧
      r.1 = (match op with
        | .fixed => .fixed
        | .variable => .variable
        | .none => if cxt.config.enum_impl_std_trait && cxt.is_enum_type ts then .signed32 else .none) := by
  unfold convertField at h
  split at h
  · next f ts hf hts =>
    simp only [GR.bind_eq_ok] at h
    obtain ⟨o, ho, ⟨ty, op⟩, h2, i, hi, h3⟩ := h
    cases o with
    | none => cases h2
    | some p =>
      cases h2
      cases h3
      exact ⟨f, ts, ty, op, hf, hts, ho, hi, rfl, rfl⟩
  · cases h

theorem convert_struct_ok {cxt : Context} {n : Nat} {name : Str} {ds : List Declaration}
    {item : StructItem} (h : convert_struct_token cxt n name ds = .ok item) :
    upper_camel_case_ident name = .ok item.name ∧
    List.Forall₂ (fun d r => convertField cxt n name d = .ok r) ds item.fields := by
  unfold convert_struct_token at h
  simp only [GR.bind_eq_ok, GR.ok.injEq] at h
  obtain ⟨fs, h1, i, h2, rfl⟩ := h
  exact ⟨h2, GR.mapM_ok.1 h1⟩

theorem struct_field_ident {cxt : Context} {n : Nat} {name : Str} {ds : List Declaration}
    {item : StructItem} (h : convert_struct_token cxt n name ds = .ok item) {a : Attr} {i : RIdent}
    {ty : RTy} (hm : (a, i, ty) ∈ item.fields) :
    ∃ d ∈ ds, ∃ f, d.name = some f ∧ fieldIdent f = .ok i := by
  obtain ⟨d, hd, hr⟩ := forall₂_mem_right (convert_struct_ok h).2 hm
  obtain ⟨f, ts, ty, op, hf, -, -, hi, -, -⟩ := convertField_ok hr
  exact ⟨d, hd, f, hf, hi⟩

theorem mkIdent_ok {s : Str} {i : RIdent} (h : mkIdent s = .ok i) :
    (i.raw = true ∧ s = 'r' :: '#' :: i.name) ∨ (i.raw = false ∧ i.name = s) := by
  unfold mkIdent at h
  split at h
  · split at h
    · cases h
    · split at h
      · cases h
      · cases h
        exact .inl ⟨rfl, rfl⟩
  · split at h
    · cases h
      exact .inr ⟨rfl, rfl⟩
    · cases h

theorem fieldIdent_keyword {f : Str} {i : RIdent} (hl : ∀ c ∈ f, isUpper c = false)
    (h : fieldIdent f = .ok i) : i.raw = true ∨ i.name ∉ KEYWORDS_RUST := by
  unfold fieldIdent snake_case_ident at h
  by_cases hr : rust_reserved f = true
  · rw [if_pos hr] at h
    rw [snake_case_fixed (s := c!"r#" ++ f) (by
      intro c hc
      rcases List.mem_append.1 hc with hc | hc
      · have : ∀ c ∈ c!"r#", isUpper c = false := by decide
        exact this c hc
      · exact hl c hc)] at h
    rcases mkIdent_ok h with h' | ⟨hraw, hn⟩
    · exact .inl h'.1
    · exfalso
      have : mkIdent (c!"r#" ++ f) = .ok i := h
      unfold mkIdent at this
      simp only [List.cons_append, List.nil_append] at this
      split at this
      · cases this
      · split at this
        · cases this
        · cases this
          cases hraw
  · rw [if_neg hr, snake_case_fixed hl] at h
    rcases mkIdent_ok h with h' | ⟨-, hn⟩
    · exact .inl h'.1
    · right
      rw [hn]
      intro hm
      exact hr (by simpa [rust_reserved] using hm)

/-! ## Enums and unions: which parts are there -/

theorem convert_enum_ok {cxt : Context} {n : Nat} {name : Str} {as : List Assign} {e : EnumItem}
    (h : convert_enum_token cxt n name as = .ok e) :
    ∃ indexed steps, enumIndexed cxt n as = .ok indexed ∧ upper_camel_case_ident name = .ok e.name ∧
      enumLoop cxt.config.enum_complement_index (sortByKey indexed) 0 = .ok steps ∧
      (∃ s, steps.head? = some s ∧ e.default = s.2.1) ∧
      e.deriveIndexer = cxt.config.enum_impl_indexer ∧
      e.variants = (steps.flatMap fun s => s.1 ++ [s.2]) ∧
      e.asRef = (if cxt.config.enum_impl_std_trait then some (steps.map (·.2)) else none) ∧
      e.tryFrom = (if cxt.config.enum_impl_std_trait then some (steps.map fun s => (s.2.2, s.2.1)) else none) ∧
      e.indexer = (if cxt.config.enum_impl_indexer then some {
          byIndex := steps.map fun s => (s.2.2, s.2.1)
          otherwise := e.default
          index := steps.map (·.2) } else none) := by
  unfold convert_enum_token at h
  simp only [GR.bind_eq_ok] at h
  obtain ⟨indexed, h1, i, h2, steps, h3, h⟩ := h
  split at h
  · cases h
  · next s0 d s2 rest =>
    cases h
    exact ⟨indexed, _, h1, h2, h3, ⟨_, rfl, rfl⟩, rfl, rfl, rfl, rfl, rfl⟩

theorem convert_union_ok {cxt : Context} {n : Nat} {name : Str} {b : UnionBody} {u : UnionItem}
    (h : convert_union_token cxt n name b = .ok u) :
    ∃ ct acc dflt, upper_camel_case_ident name = .ok u.name ∧ unionCases cxt n b = .ok (ct, acc) ∧
      unionDefault cxt n acc.cond b.default = .ok dflt ∧
      (dflt.map (·.2)).or acc.default = some u.default ∧
      u.derive = (if cxt.config.union_impl_indexer then .indexer
        else if cxt.config.union_impl_union then .union else .serde) ∧
      u.variants = acc.variants ++ (dflt.map (·.1)).toList ∧
      u.indexer = (if cxt.config.union_impl_indexer then some {
          byIndex := acc.byIndex
          otherwise := b.default.isSome
          index := acc.index
          indexOtherwise := b.default.isSome } else none) ∧
      u.union = (if cxt.config.union_impl_union then some {
          cond := acc.cond
          byValue := acc.byValue
          otherwise := match ct with
            | .bool => .none
            | _ => if b.default.isSome then .default else .err } else none) := by
  unfold convert_union_token at h
  simp only [GR.bind_eq_ok] at h
  obtain ⟨i, h1, ⟨ct, acc⟩, h2, dflt, h3, h⟩ := h
  simp only at h3 h
  split at h
  · cases h
  · next d hd =>
    cases h
    exact ⟨ct, acc, dflt, h1, h2, h3, hd, rfl, rfl, rfl, rfl⟩

end Xdr.Rpcgen
