import Verif.RpcgenProofs.Arms
import Verif.Spec.Schema
/-!
# Generated unions
-/

namespace Xdr.Rpcgen

/-! ## Definitions by name -/

theorem denotes_unique {ds : List Definition} {v : Value} {c c' : Constant} (h : Denotes ds v c)
    (h' : Denotes ds v c') : c = c' := by
  induction h with
  | literal c =>
    cases h'
    rfl
  | name hl _ ih =>
    cases h' with
    | name hl' h' =>
      rw [hl] at hl'
      cases hl'
      exact ih h'

theorem stands_unique {ds : List Definition} {v : Value} {k k' : Int} (h : Stands ds v k)
    (h' : Stands ds v k') : k = k' := by
  obtain ⟨c, hc, rfl⟩ := h
  obtain ⟨c', hc', rfl⟩ := h'
  rw [denotes_unique hc hc']

theorem typeOf_mem {ds : List Definition} {name : Str} {t : TypeDef} (h : typeOf ds name = some t) :
    .type t ∈ ds ∧ t.name = some name := by
  obtain ⟨d, hd, hx⟩ := List.exists_of_findSome?_eq_some h
  cases d with
  | type t' =>
    by_cases ht : t'.name = some name
    · simp only [ht, if_true, Option.some.injEq] at hx
      subst hx
      exact ⟨hd, ht⟩
    · simp [ht] at hx
  | constant _ => simp at hx
  | lineComment => simp at hx
  | program _ => simp at hx

theorem flatMap_nodup_unique {α β : Type} {l : List α} {f : α → List β} (h : (l.flatMap f).Nodup)
    {a b : α} (ha : a ∈ l) (hb : b ∈ l) {x : β} (hxa : x ∈ f a) (hxb : x ∈ f b) : a = b := by
  induction l with
  | nil => cases ha
  | cons c l ih =>
    rw [List.flatMap_cons, List.nodup_append] at h
    obtain ⟨-, h2, h3⟩ := h
    rcases List.mem_cons.1 ha with rfl | ha'
    · rcases List.mem_cons.1 hb with rfl | hb'
      · rfl
      · exact absurd rfl (h3 x hxa x (List.mem_flatMap.2 ⟨b, hb', hxb⟩))
    · rcases List.mem_cons.1 hb with rfl | hb'
      · exact absurd rfl (h3 x hxb x (List.mem_flatMap.2 ⟨a, ha', hxa⟩))
      · exact ih h2 ha' hb'

theorem typeOf_of_mem {ds : List Definition} (hu : Unambiguous ds) {t : TypeDef} {name : Str}
    (h : .type t ∈ ds) (hn : t.name = some name) : typeOf ds name = some t := by
  cases ht : typeOf ds name with
  | none =>
    have := List.findSome?_eq_none_iff.1 ht _ h
    simp [hn] at this
  | some t' =>
    obtain ⟨h1, h2⟩ := typeOf_mem ht
    have := flatMap_nodup_unique hu.types h h1 (x := name) (by simp [hn]) (by simp [h2])
    cases this
    rfl

/-- Members of enums are found under their names. -/
theorem lookup_member {ds : List Definition} (hu : Unambiguous ds) {e : Str} {as : List Assign}
    (he : .type (.enum e as) ∈ ds) {a : Assign} (ha : a ∈ as) : lookup ds a.identifier = some a.value := by
  have hmem : a.identifier ∈ as.map (·.identifier) := List.mem_map.2 ⟨a, ha, rfl⟩
  have hc : constOf ds a.identifier = none := by
    refine List.findSome?_eq_none_iff.2 fun d hd => ?_
    cases d with
    | constant b =>
      by_cases hb : b.identifier = a.identifier
      · have := flatMap_nodup_unique hu.values he hd (x := a.identifier) hmem (by simp [hb])
        cases this
      · simp [hb]
    | type _ => rfl
    | lineComment => rfl
    | program _ => rfl
  have hnd : (as.map (·.identifier)).Nodup := by
    have := hu.values
    unfold definedNames at this
    rw [List.nodup_flatMap] at this
    exact this.1 _ he
  have hfind : (as.find? fun b => b.identifier = a.identifier) = some a := by
    have := List.find?_isSome (p := fun b : Assign => decide (b.identifier = a.identifier)) (xs := as)
    cases hf : as.find? fun b => b.identifier = a.identifier with
    | none =>
      have := List.find?_eq_none.1 hf a ha
      simp at this
    | some b =>
      have hb := List.mem_of_find?_eq_some hf
      have hbe : b.identifier = a.identifier := by simpa using List.find?_some hf
      rw [List.inj_on_of_nodup_map hnd hb ha hbe]
  unfold lookup
  rw [hc, Option.none_or]
  cases hm : memberOf ds a.identifier with
  | none =>
    have := List.findSome?_eq_none_iff.1 hm _ he
    simp [hfind] at this
  | some v =>
    obtain ⟨d, hd, hx⟩ := List.exists_of_findSome?_eq_some hm
    cases d with
    | type t =>
      cases t with
      | enum e' as' =>
        simp only [Option.map_eq_some_iff] at hx
        obtain ⟨b, hb, rfl⟩ := hx
        have hb' := List.mem_of_find?_eq_some hb
        have hbe : b.identifier = a.identifier := by simpa using List.find?_some hb
        have := flatMap_nodup_unique hu.values he hd (x := a.identifier) hmem
          (List.mem_map.2 ⟨b, hb', hbe⟩)
        cases this
        rw [hfind] at hb
        cases hb
        rfl
      | declaration _ => simp at hx
      | struct _ _ => simp at hx
      | union _ _ => simp at hx
    | constant _ => simp at hx
    | lineComment => simp at hx
    | program _ => simp at hx

/-- Apart from `bool`, a label stands for the number it selects. -/
theorem Selects.stands {ds : List Definition} (hu : Unambiguous ds) {cond : TypeSpecifier} {v : Value}
    {k : Int} (h : Selects ds cond v k) (hb : cond ≠ .bool) : Stands ds v k := by
  induction h with
  | int h => exact h
  | false => exact absurd rfl hb
  | true => exact absurd rfl hb
  | enum ht ha hk =>
    obtain ⟨c, hc, rfl⟩ := hk
    exact ⟨c, .name (lookup_member hu (typeOf_mem ht).1 ha) hc, rfl⟩
  | typedef ht hn _ ih => exact ih hn

theorem Selects.unique {ds : List Definition} (hu : Unambiguous ds) {cond : TypeSpecifier} {v : Value}
    {k k' : Int} (h : Selects ds cond v k) (h' : Selects ds cond v k') : k = k' := by
  by_cases hb : cond = .bool
  · subst hb
    cases h <;> cases h' <;> rfl
  · exact stands_unique (h.stands hu hb) (h'.stands hu hb)

/-! ## The cases -/

theorem resolve_labels {ds : List Definition} (hwf : WellFormed ds) {cfg : Config} {n : Nat}
    {ls : List (Value × Declaration)} {ks : List Int} {indexed : List (Int × Declaration × Value)}
    (hok : ∀ l ∈ ls, ∀ a ∈ l.1.atoms, a.Ok)
    (hks : List.Forall₂ (fun (l : Value × Declaration) k => Stands ds l.1 k) ls ks)
    (hr : ∀ k ∈ ks, 0 ≤ k ∧ k ≤ 4294967295)
    (h : GR.mapM (fun (p : Declaration × Value) =>
      ((setup_context ds cfg).resolve_value .u32 n p.2).bind fun index => .ok (index, p.1, p.2))
      (ls.map fun l => (l.2, l.1)) = .ok indexed) :
    indexed = (ls.zip ks).map fun p => (p.2, p.1.2, p.1.1) := by
  have hf := GR.mapM_ok.1 h
  clear h
  induction hks generalizing indexed with
  | nil =>
    cases hf
    rfl
  | @cons l k ls ks hak _ ih =>
    cases hf with
    | cons h1 h2 =>
      simp only [GR.bind_eq_ok, GR.ok.injEq] at h1
      obtain ⟨k', hk', rfl⟩ := h1
      have := resolve_stands hwf (hok l List.mem_cons_self) hak
        (by have := (hr k List.mem_cons_self).1; simpa [IntTy.min] using this)
        (by have := (hr k List.mem_cons_self).2; simpa [IntTy.max] using this) hk'
      subst this
      rw [List.zip_cons_cons, List.map_cons,
        ih (fun a ha => hok a (List.mem_cons_of_mem _ ha)) (fun k hk => hr k (List.mem_cons_of_mem _ hk)) h2]

/-- The attribute of opaque data. -/
def OpaqueType.attr : OpaqueType → Attr
  | .fixed => .fixed
  | .variable => .variable
  | .none => .none

/-- The field of a case with payload: opaque data is wrapped unless numbers are positions. -/
def armField (cfg : Config) (ty : RTy) (op : OpaqueType) : Attr × RTy :=
  if (op != .none && !cfg.union_complement_index) = true then (.none, .variableArray) else (op.attr, ty)

theorem convert_case_ok {cxt : Context} {n : Nat} {v : Value} {d : Declaration} {cond : TypeSpecifier}
    {c : CaseTok} (h : convert_case_token cxt n v d cond = .ok c) :
    ∃ o, convert_value_token .u32 v true = .ok c.variant ∧ condType cxt n cond = .ok c.cond ∧
      convert_type_token cxt n d = .ok o ∧ c.value.name = c.variant ∧
      ((o = none ∧ c.value.attr = .none ∧
        c.value.fields = if cxt.config.union_impl_union then [c.cond] else []) ∨
       (∃ ty op, o = some (ty, op) ∧ c.value.attr = (armField cxt.config ty op).1 ∧
        c.value.fields = (if cxt.config.union_impl_union then [c.cond] else []) ++
          [(armField cxt.config ty op).2])) := by
  unfold convert_case_token at h
  simp only [GR.bind_eq_ok] at h
  obtain ⟨tok, h1, ct, h2, o, h3, h⟩ := h
  cases o with
  | none =>
    simp only at h
    split at h
    · next hu =>
      cases h
      exact ⟨_, h1, h2, h3, rfl, .inl ⟨rfl, rfl, by simp [hu]⟩⟩
    · next hu =>
      cases h
      exact ⟨_, h1, h2, h3, rfl, .inl ⟨rfl, rfl, by simp [hu]⟩⟩
  | some p =>
    obtain ⟨ty, op⟩ := p
    simp only at h
    split at h
    · next hu =>
      cases h
      exact ⟨_, h1, h2, h3, rfl, .inr ⟨ty, op, rfl,
        by simp only [armField]; split <;> cases op <;> rfl,
        by simp only [hu, armField]; split <;> rfl⟩⟩
    · next hu =>
      cases h
      exact ⟨_, h1, h2, h3, rfl, .inr ⟨ty, op, rfl,
        by simp only [armField]; split <;> cases op <;> rfl,
        by simp only [hu, armField]; split <;> rfl⟩⟩

/-- What each turn of the loop pushes. -/
theorem unionLoop_ok {cxt : Context} {n : Nat} {cond : TypeSpecifier}
    {l : List (Int × Declaration × Value)} {s : Int} {steps : List CaseStep}
    (h : unionLoop cxt n cond l s = .ok steps) :
    List.Forall₂ (fun p st => ∃ c reserved, convert_case_token cxt n p.2.2 p.2.1 cond = .ok c ∧
      caseByValue cxt cond p.1 p.2.2 c.variant = .ok st.byValue ∧
      st.variants = reserved ++ [c.value] ∧
      (cxt.config.union_complement_index = false → reserved = []) ∧
      st.byIndex = (asI32 p.1, c.variant) ∧ st.index = (c.variant, c.arm, asI32 p.1) ∧
      st.cond = c.cond ∧ p.1 + 1 ≤ 4294967295) l steps := by
  induction l generalizing s steps with
  | nil =>
    cases h
    exact .nil
  | cons p l ih =>
    obtain ⟨e, d, v⟩ := p
    simp only [unionLoop, GR.bind_eq_ok] at h
    obtain ⟨r, hr, c, hc, bv, hbv, h⟩ := h
    split at h
    · cases h
    · next hmax =>
      simp only [GR.bind_eq_ok, GR.ok.injEq] at h
      obtain ⟨rest, hrest, rfl⟩ := h
      refine .cons ⟨c, r, hc, hbv, rfl, ?_, rfl, rfl, rfl, by simp only [IntTy.max] at hmax; omega⟩ (ih hrest)
      intro hf
      rw [if_neg (by simp [hf])] at hr
      cases hr
      rfl

/-- A variant that fills a gap. -/
def Reserved (v : Variant) : Prop :=
  v.attr = .none ∧ v.fields = [] ∧ ∃ r, v.name = .ident r ∧ r.raw = false ∧ ∃ s, r.name = c!"_Reserved" ++ s

theorem reservedIdent_ok {i : Int} {r : RIdent} (h : reservedIdent i = .ok r) :
    r.raw = false ∧ r.name = c!"_Reserved" ++ intToString i := by
  unfold reservedIdent at h
  rcases mkIdent_ok h with ⟨-, h⟩ | h
  · simp at h
  · exact h

/-- The reserved variant of a number. -/
def ReservedAt (k : Int) (v : Variant) : Prop :=
  v = ⟨.none, .ident ⟨false, c!"_Reserved" ++ intToString k⟩, []⟩

theorem ReservedAt.reserved {k : Int} {v : Variant} (h : ReservedAt k v) : Reserved v := by
  rw [h]
  exact ⟨rfl, rfl, _, rfl, rfl, _, rfl⟩

theorem reserved_mapM {s e : Int} {r : List Variant}
    (h : GR.mapM (fun index => (reservedIdent index).bind fun r => GR.ok (⟨.none, .ident r, []⟩ : Variant))
      (intRange s e) = .ok r) :
    r.length = (e - s).toNat ∧ ∀ (i : Nat) v, r[i]? = some v → ReservedAt (s + i) v := by
  have hf := GR.mapM_ok.1 h
  refine ⟨by rw [← hf.length_eq, intRange_length], fun i v hv => ?_⟩
  obtain ⟨hlt, hv⟩ := List.getElem?_eq_some_iff.1 hv
  have hi := (List.forall₂_iff_get.1 hf).2 i (by rw [hf.length_eq]; exact hlt) hlt
  simp only [List.get_eq_getElem, hv, intRange, List.getElem_map, List.getElem_range, GR.bind_eq_ok,
    GR.ok.injEq] at hi
  obtain ⟨⟨raw, nm⟩, hr, rfl⟩ := hi
  obtain ⟨h1, h2⟩ := reservedIdent_ok hr
  simp only at h1 h2
  rw [ReservedAt, h1, h2]

/-- With gaps filled, each case is at the position of its number; all the others are reserved. -/
theorem unionLoop_positions {cxt : Context} (hcx : cxt.config.union_complement_index = true) {n : Nat}
    {cond : TypeSpecifier} {l : List (Int × Declaration × Value)} {s : Int} {steps : List CaseStep}
    (h : unionLoop cxt n cond l s = .ok steps) (hsort : l.Pairwise fun a b => a.1 < b.1)
    (hge : ∀ p ∈ l, s ≤ p.1) :
    (∀ p ∈ l, ∃ c, convert_case_token cxt n p.2.2 p.2.1 cond = .ok c ∧
      (steps.flatMap (·.variants))[(p.1 - s).toNat]? = some c.value) ∧
    (∀ (i : Nat) v, (steps.flatMap (·.variants))[i]? = some v → (s + (i : Int) ∉ l.map (·.1)) →
      ReservedAt (s + i) v) ∧
    (∀ p, l.getLast? = some p → (steps.flatMap (·.variants)).length = (p.1 + 1 - s).toNat) := by
  induction l generalizing s steps with
  | nil =>
    cases h
    simp
  | cons p l ih =>
    obtain ⟨e, d, v⟩ := p
    simp only [unionLoop, GR.bind_eq_ok, hcx, if_true] at h
    obtain ⟨r, hr, c, hc, bv, hbv, h⟩ := h
    split at h
    · cases h
    · next hmax =>
      simp only [GR.bind_eq_ok, GR.ok.injEq] at h
      obtain ⟨rest, hrest, rfl⟩ := h
      obtain ⟨h1, h2⟩ := List.pairwise_cons.1 hsort
      have hse : s ≤ e := hge _ List.mem_cons_self
      obtain ⟨hlen, hres⟩ := reserved_mapM hr
      obtain ⟨g1, g2, g3⟩ := ih hrest h2 (fun p hp => by have := h1 p hp; simp only at this; omega)
      simp only [List.flatMap_cons]
      have hl1 : (r ++ [c.value]).length = (e + 1 - s).toNat := by
        simp only [List.length_append, hlen, List.length_singleton]
        omega
      refine ⟨?_, ?_, ?_⟩
      · intro p hp
        rcases List.mem_cons.1 hp with rfl | hp
        · refine ⟨c, hc, ?_⟩
          rw [List.getElem?_append_left (by simp only [hl1]; omega),
            List.getElem?_append_right (by omega), hlen]
          simp
        · obtain ⟨c', hc', hpos⟩ := g1 p hp
          have := h1 p hp
          simp only at this
          refine ⟨c', hc', ?_⟩
          rw [List.getElem?_append_right (by rw [hl1]; omega), hl1]
          rw [← hpos]
          congr 1
          omega
      · intro i v hi hn
        simp only [List.map_cons, List.mem_cons, not_or] at hn
        by_cases hir : i < r.length
        · rw [List.append_assoc, List.getElem?_append_left hir] at hi
          exact hres i v hi
        · by_cases hie : i = r.length
          · exfalso
            apply hn.1
            omega
          · rw [List.getElem?_append_right (by rw [hl1]; omega), hl1] at hi
            have : e + 1 + ((i - (e + 1 - s).toNat : Nat) : Int) = s + i := by omega
            rw [← this]
            exact g2 _ v hi (by rw [this]; exact hn.2)
      · intro p hp
        rw [List.length_append, hl1]
        cases hl : l.getLast? with
        | none =>
          have : l = [] := by simpa using hl
          subst this
          simp only [List.getLast?_singleton, Option.some.injEq] at hp
          subst hp
          cases hrest
          simp
        | some q =>
          rw [List.getLast?_cons, hl] at hp
          simp only [Option.getD_some, Option.some.injEq] at hp
          subst hp
          rw [g3 q hl]
          have := h1 q (List.mem_of_getLast? hl)
          simp only at this
          omega

/-- The pattern of `name_by_value` for the label `v`, of number `k`. -/
def IsPat (cxt : Context) (cond : TypeSpecifier) (v : Value) (k : Int) (p : Pat) : Prop :=
  if cxt.is_enum_type cond then ∃ c a ci vi, cond = .identifier c ∧ v = .identifier a ∧
    upper_camel_case_ident c = .ok ci ∧ upper_camel_case_ident a = .ok vi ∧ p = .path ci vi
  else if isBool cond then p = .bool (k = 1)
  else p = .lit k
where
  /-- The type is `bool`. -/
  isBool : TypeSpecifier → Bool
    | .bool => true
    | _ => false

/-- What the cases of a union become: `cs` are the cases by number. -/
structure Cases (cxt : Context) (n : Nat) (cond : TypeSpecifier) (ls : List (Value × Declaration))
    (ks : List Int) (acc : UnionAcc) (cs : List (CaseTok × Int)) : Prop where
  /-- every label has a case -/
  all : ∀ l k, (l, k) ∈ ls.zip ks → ∃ c, (c, k) ∈ cs ∧ convert_case_token cxt n l.1 l.2 cond = .ok c
  /-- every case comes from a label -/
  from_label : ∀ c k, (c, k) ∈ cs → ∃ l, (l, k) ∈ ls.zip ks ∧ convert_case_token cxt n l.1 l.2 cond = .ok c
  sorted : cs.Pairwise fun a b => a.2 < b.2
  byIndex : acc.byIndex = cs.map fun c => (asI32 c.2, c.1.variant)
  index : acc.index = cs.map fun c => (c.1.variant, c.1.arm, asI32 c.2)
  variants : cxt.config.union_complement_index = false → acc.variants = cs.map (·.1.value)
  positions : cxt.config.union_complement_index = true → ∀ c k, (c, k) ∈ cs → acc.variants[k.toNat]? = some c.value
  reserved : cxt.config.union_complement_index = true → ∀ (i : Nat) v, acc.variants[i]? = some v →
    (i : Int) ∉ ks → ReservedAt i v
  length : cxt.config.union_complement_index = true → ∀ i < acc.variants.length,
    (∃ k ∈ ks, (i : Int) ≤ k) ∨ cond = .bool ∧ i < 2
  byValue : List.Forall₂ (fun (c : CaseTok × Int) (p : Pat × Tok) => p.2 = c.1.variant ∧
    ∃ l, (l, c.2) ∈ ls.zip ks ∧ convert_case_token cxt n l.1 l.2 cond = .ok c.1 ∧
      IsPat cxt cond l.1 c.2 p.1) cs acc.byValue
  cond_ty : ∀ c ∈ cs, acc.cond = some c.1.cond

theorem forall₂_exists {α β γ : Type} {P : α → β → γ → Prop} {l : List α} {r : List β}
    (h : List.Forall₂ (fun a b => ∃ c, P a b c) l r) :
    ∃ cs, List.Forall₂ (fun a c => ∃ b ∈ r, P a b c) l cs ∧
      List.Forall₂ (fun c b => ∃ a ∈ l, P a b c) cs r := by
  induction h with
  | nil => exact ⟨[], .nil, .nil⟩
  | @cons a b l r h1 _ ih =>
    obtain ⟨c, hc⟩ := h1
    obtain ⟨cs, h2, h3⟩ := ih
    refine ⟨c :: cs, .cons ⟨b, List.mem_cons_self, hc⟩ ?_, .cons ⟨a, List.mem_cons_self, hc⟩ ?_⟩
    · exact h2.imp fun a c ⟨b, hb, h⟩ => ⟨b, List.mem_cons_of_mem _ hb, h⟩
    · exact h3.imp fun c b ⟨a, ha, h⟩ => ⟨a, List.mem_cons_of_mem _ ha, h⟩

theorem zip_unique {α : Type} {ls : List α} {ks : List Int} (h : ks.Nodup) {l l' : α} {k : Int}
    (h1 : (l, k) ∈ ls.zip ks) (h2 : (l', k) ∈ ls.zip ks) : l = l' := by
  obtain ⟨i, hi⟩ := List.mem_iff_getElem?.1 h1
  obtain ⟨j, hj⟩ := List.mem_iff_getElem?.1 h2
  rw [List.getElem?_zip_eq_some] at hi hj
  obtain ⟨h3, h4⟩ := List.getElem?_eq_some_iff.1 hi.2
  obtain ⟨h5, h6⟩ := List.getElem?_eq_some_iff.1 hj.2
  have := (List.nodup_iff_injective_getElem.1 h) (a₁ := ⟨i, h3⟩) (a₂ := ⟨j, h5⟩) (by simp [h4, h6])
  simp only [Fin.mk.injEq] at this
  subst this
  have := hi.1.symm.trans hj.1
  cases this
  rfl

theorem zip_mem_left {α : Type} {ls : List α} {ks : List Int} (h : ls.length = ks.length) {l : α}
    (hl : l ∈ ls) : ∃ k, (l, k) ∈ ls.zip ks := by
  obtain ⟨i, hi⟩ := List.mem_iff_getElem?.1 hl
  have hlt := (List.getElem?_eq_some_iff.1 hi).1
  exact ⟨ks[i]'(by omega), List.mem_iff_getElem?.2 ⟨i, List.getElem?_zip_eq_some.2 ⟨hi, by
    rw [List.getElem?_eq_getElem]⟩⟩⟩

theorem zip_mem_right {α : Type} {ls : List α} {ks : List Int} (h : ls.length = ks.length) {k : Int}
    (hk : k ∈ ks) : ∃ l, (l, k) ∈ ls.zip ks := by
  obtain ⟨i, hi⟩ := List.mem_iff_getElem?.1 hk
  have hlt := (List.getElem?_eq_some_iff.1 hi).1
  exact ⟨ls[i]'(by omega), List.mem_iff_getElem?.2 ⟨i, List.getElem?_zip_eq_some.2 ⟨by
    rw [List.getElem?_eq_getElem], hi⟩⟩⟩

theorem forall₂_zip {α : Type} {R : α → Int → Prop} {ls : List α} {ks : List Int}
    (h : List.Forall₂ R ls ks) {l : α} {k : Int} (hm : (l, k) ∈ ls.zip ks) : R l k := by
  induction h with
  | nil => cases hm
  | cons h1 _ ih =>
    rw [List.zip_cons_cons] at hm
    rcases List.mem_cons.1 hm with e | hm
    · cases e
      exact h1
    · exact ih hm

theorem is_enum_type_ok {ds : List Definition} {cfg : Config} {cond : TypeSpecifier}
    (h : (setup_context ds cfg).is_enum_type cond = true) :
    ∃ name as, cond = .identifier name ∧ .type (.enum name as) ∈ ds := by
  unfold Context.is_enum_type at h
  cases cond with
  | identifier name =>
    simp only [List.any_eq_true, setup_context, List.mem_filterMap] at h
    obtain ⟨⟨nm, t⟩, ⟨d, hd, hx⟩, ht⟩ := h
    cases t with
    | enum e as =>
      simp only [beq_iff_eq] at ht
      subst ht
      cases d with
      | type t =>
        cases t with
        | enum e' as' =>
          simp only [Option.some.injEq, Prod.mk.injEq] at hx
          obtain ⟨-, hx⟩ := hx
          cases hx
          exact ⟨_, _, rfl, hd⟩
        | declaration d =>
          simp only [Option.map_eq_some_iff, Prod.mk.injEq] at hx
          obtain ⟨_, _, _, hx⟩ := hx
          cases hx
        | struct _ _ => simp at hx
        | union _ _ => simp at hx
      | constant _ => simp at hx
      | lineComment => simp at hx
      | program _ => simp at hx
    | declaration _ => simp at ht
    | struct _ _ => simp at ht
    | union _ _ => simp at ht
  | _ => simp at h

theorem selects_enum {ds : List Definition} (hu : Unambiguous ds) {name : Str} {as : List Assign}
    (hm : .type (.enum name as) ∈ ds) {v : Value} {k : Int} (h : Selects ds (.identifier name) v k) :
    ∃ a ∈ as, v = .identifier a.identifier ∧ Stands ds a.value k := by
  have ht := typeOf_of_mem hu hm (name := name) rfl
  cases h with
  | enum h1 h2 h3 =>
    rw [ht] at h1
    cases h1
    exact ⟨_, h2, rfl, h3⟩
  | typedef h1 _ _ =>
    rw [ht] at h1
    cases h1

theorem caseByValue_ok {ds : List Definition} (hu : Unambiguous ds) {cfg : Config} {cond : TypeSpecifier}
    {k : Int} {v : Value} {tok : Tok} {bv : List (Pat × Tok)} (hs : Selects ds cond v k) (hb : cond ≠ .bool)
    (h : caseByValue (setup_context ds cfg) cond k v tok = .ok bv) :
    ∃ p, bv = [(p, tok)] ∧ IsPat (setup_context ds cfg) cond v k p := by
  unfold caseByValue at h
  unfold IsPat
  split at h
  · next he =>
    simp only [he, if_true]
    obtain ⟨name, as, rfl, hm⟩ := is_enum_type_ok he
    obtain ⟨a, ha, rfl, -⟩ := selects_enum hu hm hs
    simp only [GR.bind_eq_ok, GR.ok.injEq] at h
    obtain ⟨ci, hci, vi, hvi, rfl⟩ := h
    exact ⟨_, rfl, name, _, ci, vi, rfl, rfl, hci, hvi, rfl⟩
  · next he =>
    simp only [he]
    cases h
    refine ⟨_, rfl, ?_⟩
    cases cond with
    | bool => exact absurd rfl hb
    | _ => simp [IsPat.isBool]

theorem condType_unique {cxt : Context} {n : Nat} {cond : TypeSpecifier} {v v' : Value}
    {d d' : Declaration} {c c' : CaseTok} (h : convert_case_token cxt n v d cond = .ok c)
    (h' : convert_case_token cxt n v' d' cond = .ok c') : c.cond = c'.cond := by
  obtain ⟨_, _, h1, _⟩ := convert_case_ok h
  obtain ⟨_, _, h2, _⟩ := convert_case_ok h'
  rw [h1] at h2
  exact GR.ok.inj h2

/-- The cases of a union on an integer or a name. -/
theorem loop_cases {ds : List Definition} (hwf : WellFormed ds) (hu : Unambiguous ds) {cfg : Config}
    {n : Nat} {cond : TypeSpecifier} {specs : List CaseSpec} {ls : List (Value × Declaration)}
    {ks : List Int} {values : List (Int × Declaration × Value)} {steps : List CaseStep}
    (hb : cond ≠ .bool) (hlab : Labelled ds cond ls ks)
    (hok : ∀ l ∈ ls, ∀ a ∈ l.1.atoms, a.Ok)
    (hls : ls = specs.flatMap fun s => s.values.map fun v => (v, s.declaration))
    (h1 : unionIndexed (setup_context ds cfg) n specs = .ok values)
    (h2 : unionLoop (setup_context ds cfg) n cond (sortByKey values) 0 = .ok steps) :
    ∃ cs, Cases (setup_context ds cfg) n cond ls ks (UnionAcc.ofSteps steps) cs := by
  have hst : List.Forall₂ (fun (l : Value × Declaration) k => Stands ds l.1 k) ls ks :=
    hlab.selects.imp fun l k h => h.stands hu hb
  have hvals : values = (ls.zip ks).map fun p => (p.2, p.1.2, p.1.1) := by
    refine resolve_labels hwf hok hst hlab.range (cfg := cfg) (n := n) ?_
    rw [← h1]
    unfold unionIndexed
    rw [hls, List.map_flatMap]
    simp only [List.map_map, Function.comp_def]
  have hlen := hst.length_eq
  have hkeys : (values.map (·.1)).Nodup := by
    rw [hvals, List.map_map]
    have : ((fun p : Int × Declaration × Value => p.1) ∘
      fun p : (Value × Declaration) × Int => (p.2, p.1.2, p.1.1)) = Prod.snd := rfl
    rw [this, List.map_snd_zip (by omega)]
    exact hlab.distinct
  have hstrict := sortByKey_strict hkeys
  have hmem : ∀ (l : Value × Declaration) (k : Int), (k, l.2, l.1) ∈ sortByKey values ↔ (l, k) ∈ ls.zip ks := by
    intro l k
    rw [mem_sortByKey, hvals, List.mem_map]
    constructor
    · rintro ⟨⟨⟨v, d⟩, k'⟩, h, e⟩
      cases e
      exact h
    · intro h
      exact ⟨_, h, rfl⟩
  have hge : ∀ p ∈ sortByKey values, 0 ≤ p.1 := by
    rintro ⟨k, d, v⟩ hp
    exact (hlab.range k (List.of_mem_zip ((hmem (v, d) k).1 hp)).2).1
  have hf := unionLoop_ok h2
  have hf' : List.Forall₂ (fun (p : Int × Declaration × Value) (st : CaseStep) => ∃ ck : CaseTok × Int,
      ck.2 = p.1 ∧ convert_case_token (setup_context ds cfg) n p.2.2 p.2.1 cond = .ok ck.1 ∧
      (∃ pt, st.byValue = [(pt, ck.1.variant)] ∧ IsPat (setup_context ds cfg) cond p.2.2 p.1 pt) ∧
      (cfg.union_complement_index = false → st.variants = [ck.1.value]) ∧
      st.byIndex = (asI32 p.1, ck.1.variant) ∧ st.index = (ck.1.variant, ck.1.arm, asI32 p.1) ∧
      st.cond = ck.1.cond) (sortByKey values) steps := by
    have : ∀ p ∈ sortByKey values, Selects ds cond p.2.2 p.1 := by
      rintro ⟨k, d, v⟩ hp
      exact forall₂_zip hlab.selects ((hmem (v, d) k).1 hp)
    clear h2 hmem hstrict
    generalize sortByKey values = srt at hf this
    induction hf with
    | nil => exact .nil
    | cons hx _ ih =>
      refine .cons ?_ (ih fun p hp => this p (List.mem_cons_of_mem _ hp))
      obtain ⟨c, r, g1, g2, g3, g4, g5, g6, g7, g8⟩ := hx
      refine ⟨(c, _), rfl, g1, caseByValue_ok hu (this _ List.mem_cons_self) hb g2, fun hc => ?_, g5, g6, g7⟩
      rw [g3, g4 hc]
      rfl
  obtain ⟨cs, hcs1, hcs2⟩ := forall₂_exists hf'
  have hcmem : ∀ c k, (c, k) ∈ cs → ∃ l, (l, k) ∈ ls.zip ks ∧
      convert_case_token (setup_context ds cfg) n l.1 l.2 cond = .ok c := by
    intro c k hck
    obtain ⟨⟨k', d, v⟩, hp, st, -, hk, hcv, -⟩ := forall₂_mem_right hcs1 hck
    simp only at hk
    subst hk
    exact ⟨(v, d), (hmem (v, d) _).1 hp, hcv⟩
  have hkeq : cs.map (·.2) = (sortByKey values).map (·.1) := by
    clear hcmem hcs2 hmem hf hf' h2 hstrict
    generalize sortByKey values = srt at hcs1
    induction hcs1 with
    | nil => rfl
    | cons hx _ ih =>
      obtain ⟨_, _, hk, _⟩ := hx
      simp [ih, hk]
  refine ⟨cs, ⟨?_, hcmem, ?_, ?_, ?_, ?_, ?_, ?_, ?_, ?_, ?_⟩⟩
  · rintro l k hlk
    obtain ⟨⟨c, k'⟩, hck, st, -, hk, hcv, -⟩ := forall₂_mem_left hcs1 ((hmem l k).2 hlk)
    simp only at hk hcv
    subst hk
    exact ⟨c, hck, hcv⟩
  · have : (cs.map (·.2)).Pairwise (· < ·) := by
      rw [hkeq]
      exact List.pairwise_map.2 hstrict
    exact List.pairwise_map.1 this
  · simp only [UnionAcc.ofSteps]
    clear hkeq hcmem hcs1 hmem hf hf' h2 hstrict
    induction hcs2 with
    | nil => rfl
    | cons hx _ ih =>
      obtain ⟨_, _, hk, _, _, _, h5, h6, _⟩ := hx
      simp [ih, hk, h5]
  · simp only [UnionAcc.ofSteps]
    clear hkeq hcmem hcs1 hmem hf hf' h2 hstrict
    induction hcs2 with
    | nil => rfl
    | cons hx _ ih =>
      obtain ⟨_, _, hk, _, _, _, h5, h6, _⟩ := hx
      simp [ih, hk, h6]
  · intro hc
    simp only [UnionAcc.ofSteps]
    clear hkeq hcmem hcs1 hmem hf hf' h2 hstrict
    induction hcs2 with
    | nil => rfl
    | cons hx _ ih =>
      obtain ⟨_, _, _, _, _, h4, _⟩ := hx
      simp [ih, h4 hc]
  · intro hc c k hck
    obtain ⟨l, hl, hcv⟩ := hcmem c k hck
    obtain ⟨hpos, -, -⟩ := unionLoop_positions hc h2 hstrict hge
    obtain ⟨c', hc', hp⟩ := hpos _ ((hmem l k).2 hl)
    simp only [Int.sub_zero] at hc' hp
    rw [hcv] at hc'
    cases hc'
    exact hp
  · intro hc i v hi hn
    obtain ⟨-, hres, -⟩ := unionLoop_positions hc h2 hstrict hge
    have hres := hres i v hi
    rw [Int.zero_add] at hres
    refine hres fun hx => ?_
    obtain ⟨⟨k, d, v⟩, hp, hk⟩ := List.mem_map.1 hx
    simp only at hk
    subst hk
    exact hn (List.of_mem_zip ((hmem (v, d) _).1 hp)).2
  · intro hc i hi
    obtain ⟨-, -, hlast⟩ := unionLoop_positions hc h2 hstrict hge
    left
    cases hl : (sortByKey values).getLast? with
    | none =>
      have : sortByKey values = [] := by simpa using hl
      rw [this] at h2
      cases h2
      simp [UnionAcc.ofSteps] at hi
    | some p =>
      obtain ⟨k, d, v⟩ := p
      have hm := List.mem_of_getLast? hl
      have hk := (List.of_mem_zip ((hmem (v, d) k).1 hm)).2
      refine ⟨k, hk, ?_⟩
      have := hlast _ hl
      simp only [UnionAcc.ofSteps] at hi
      simp only at this
      omega
  · simp only [UnionAcc.ofSteps]
    have hcs3 : List.Forall₂ (fun (c : CaseTok × Int) (st : CaseStep) =>
        ∃ pt, st.byValue = [(pt, c.1.variant)] ∧ ∃ l, (l, c.2) ∈ ls.zip ks ∧
          convert_case_token (setup_context ds cfg) n l.1 l.2 cond = .ok c.1 ∧
          IsPat (setup_context ds cfg) cond l.1 c.2 pt) cs steps := by
      refine hcs2.imp fun c st ⟨⟨k, d, v⟩, hp, hk, hcv, ⟨pt, hbv, hpt⟩, _⟩ => ?_
      simp only at hk hcv hpt
      rw [hk]
      exact ⟨pt, hbv, (v, d), (hmem (v, d) k).1 hp, hcv, hpt⟩
    clear hkeq hcmem hcs1 hcs2 hmem hf hf' h2 hstrict
    induction hcs3 with
    | nil => exact .nil
    | cons hx _ ih =>
      obtain ⟨pt, hbv, l, hl⟩ := hx
      rw [List.flatMap_cons, hbv]
      exact .cons ⟨rfl, l, hl⟩ ih
  · rintro ⟨c, k⟩ hck
    simp only [UnionAcc.ofSteps]
    obtain ⟨l, -, hcv⟩ := hcmem c k hck
    cases hl : steps.getLast? with
    | none =>
      have : steps = [] := by simpa using hl
      subst this
      cases hcs2
      cases hck
    | some st =>
      obtain ⟨c', hc', ⟨k', d, v⟩, -, -, hcv', -, -, -, -, hcd⟩ :=
        forall₂_mem_right hcs2 (List.mem_of_getLast? hl)
      simp only [Option.map_some, hcd]
      rw [condType_unique hcv hcv']

/-- What one half of a union on `bool` pushes. -/
def boolStep (b : Bool) (c : CaseTok) : CaseStep :=
  ⟨[c.value], (if b then 1 else 0, c.variant), (c.variant, c.arm, if b then 1 else 0),
    [(.bool b, c.variant)], c.default, .bool⟩

theorem boolCase_ok {cxt : Context} {n : Nat} {cond : TypeSpecifier} {specs : List CaseSpec}
    {label : Value → Bool} {b : Bool} {o : Option CaseStep}
    (h : boolCase cxt n cond specs label b = .ok o) :
    (o = none ∧ ∀ l ∈ specs.flatMap (fun s => s.values.map fun v => (v, s.declaration)), label l.1 = false) ∨
    (∃ c, o = some (boolStep b c) ∧ ∃ l ∈ specs.flatMap (fun s => s.values.map fun v => (v, s.declaration)),
      label l.1 = true ∧ convert_case_token cxt n l.1 l.2 cond = .ok c) := by
  unfold boolCase at h
  split at h
  · next hn =>
    cases h
    refine .inl ⟨rfl, fun l hl => ?_⟩
    obtain ⟨s, hs, hl⟩ := List.mem_flatMap.1 hl
    obtain ⟨v, hv, rfl⟩ := List.mem_map.1 hl
    have := List.find?_eq_none.1 hn s hs
    simp only [List.any_eq_true, not_exists, not_and, Bool.not_eq_true] at this
    exact this v hv
  · next s hs =>
    split at h
    · cases h
    · next v hv =>
      simp only [GR.bind_eq_ok, GR.ok.injEq] at h
      obtain ⟨c, hc, rfl⟩ := h
      refine .inr ⟨c, rfl, (v, s.declaration), ?_, List.find?_some hv, hc⟩
      exact List.mem_flatMap.2 ⟨s, List.mem_of_find?_eq_some hs,
        List.mem_map.2 ⟨v, List.mem_of_find?_eq_some hv, rfl⟩⟩

theorem selects_bool {ds : List Definition} {v : Value} {k : Int} (h : Selects ds .bool v k) :
    (k = 0 ∧ v.is_false = true ∧ v.is_true = false) ∨ (k = 1 ∧ v.is_true = true ∧ v.is_false = false) := by
  cases h with
  | false => exact .inl ⟨rfl, rfl, rfl⟩
  | true => exact .inr ⟨rfl, rfl, rfl⟩

/-- The case chosen for one of the two values of `bool`. -/
theorem bool_half {ds : List Definition} {cfg : Config} {n : Nat} {specs : List CaseSpec}
    {ls : List (Value × Declaration)} {ks : List Int} (hlab : Labelled ds .bool ls ks)
    (hls : ls = specs.flatMap fun s => s.values.map fun v => (v, s.declaration))
    {b : Bool} {label : Value → Bool} {o : Option CaseStep}
    (hb : ∀ v k, Selects ds .bool v k → (label v = true ↔ k = if b then 1 else 0))
    (h : boolCase (setup_context ds cfg) n .bool specs label b = .ok o) :
    ∃ oc : Option CaseTok, o = oc.map (boolStep b) ∧
      (∀ l, (l, if b then 1 else 0) ∈ ls.zip ks → ∃ c, oc = some c ∧
        convert_case_token (setup_context ds cfg) n l.1 l.2 .bool = .ok c) ∧
      (∀ c, oc = some c → ∃ l, (l, if b then 1 else 0) ∈ ls.zip ks ∧
        convert_case_token (setup_context ds cfg) n l.1 l.2 .bool = .ok c) := by
  have hlen := hlab.selects.length_eq
  rcases boolCase_ok h with ⟨rfl, hn⟩ | ⟨c, rfl, l, hl, hlab', hc⟩
  · refine ⟨none, rfl, fun l hl => ?_, fun c h => by cases h⟩
    have h1 := hn l (by rw [← hls]; exact (List.of_mem_zip hl).1)
    have h2 := (hb _ _ (forall₂_zip hlab.selects hl)).2 rfl
    rw [h1] at h2
    cases h2
  · rw [← hls] at hl
    obtain ⟨k, hk⟩ := zip_mem_left hlen hl
    have hk' := (hb _ _ (forall₂_zip hlab.selects hk)).1 hlab'
    subst hk'
    refine ⟨some c, rfl, fun l' hl' => ?_, fun c' h' => ?_⟩
    · cases zip_unique hlab.distinct hk hl'
      exact ⟨c, rfl, hc⟩
    · cases h'
      exact ⟨l, hk, hc⟩

theorem condType_bool {cxt : Context} {n : Nat} {v : Value} {d : Declaration} {c : CaseTok}
    (h : convert_case_token cxt n v d .bool = .ok c) : c.cond = .bool := by
  obtain ⟨_, _, h1, _⟩ := convert_case_ok h
  simp only [condType, convert_primitive_token, GR.ok.injEq] at h1
  exact h1.symm

/-- The cases of a union on `bool`. -/
theorem bool_cases {ds : List Definition} {cfg : Config} {n : Nat} {specs : List CaseSpec}
    {ls : List (Value × Declaration)} {ks : List Int} {f t : Option CaseStep}
    (hlab : Labelled ds .bool ls ks)
    (hls : ls = specs.flatMap fun s => s.values.map fun v => (v, s.declaration))
    (h1 : boolCase (setup_context ds cfg) n .bool specs Value.is_false false = .ok f)
    (h2 : boolCase (setup_context ds cfg) n .bool specs Value.is_true true = .ok t) :
    ∃ cs, Cases (setup_context ds cfg) n .bool ls ks {
        variants := (match f with
            | some s => s.variants
            | none => boolReserved (setup_context ds cfg) c!"_Reserved0") ++
          (match t with
            | some s => s.variants
            | none => boolReserved (setup_context ds cfg) c!"_Reserved1")
        byIndex := (f.toList ++ t.toList).map (·.byIndex)
        index := (f.toList ++ t.toList).map (·.index)
        byValue := (f.toList ++ t.toList).flatMap (·.byValue)
        default := (f.or t).map (·.default)
        cond := some .bool } cs := by
  obtain ⟨of, rfl, hf1, hf2⟩ := bool_half hlab hls (b := false) (fun v k hs => by
    rcases selects_bool hs with ⟨rfl, h, h'⟩ | ⟨rfl, h, h'⟩ <;> simp [h, h']) h1
  obtain ⟨ot, rfl, ht1, ht2⟩ := bool_half hlab hls (b := true) (fun v k hs => by
    rcases selects_bool hs with ⟨rfl, h, h'⟩ | ⟨rfl, h, h'⟩ <;> simp [h, h']) h2
  simp only [if_true, Bool.false_eq_true, if_false] at hf1 hf2 ht1 ht2
  have hk01 : ∀ l k, (l, k) ∈ ls.zip ks → k = 0 ∨ k = 1 := by
    intro l k hlk
    rcases selects_bool (forall₂_zip hlab.selects hlk) with ⟨h, -⟩ | ⟨h, -⟩
    · exact .inl h
    · exact .inr h
  have hmemcs : ∀ c k, (c, k) ∈ (of.map fun c => (c, (0 : Int))).toList ++ (ot.map fun c => (c, (1 : Int))).toList →
      (k = 0 ∧ of = some c) ∨ (k = 1 ∧ ot = some c) := by
    intro c k h
    rcases List.mem_append.1 h with h | h
    · left
      cases of with
      | none => simp at h
      | some c' =>
        simp only [Option.map_some, Option.toList_some, List.mem_singleton, Prod.mk.injEq] at h
        exact ⟨h.2, by rw [h.1]⟩
    · right
      cases ot with
      | none => simp at h
      | some c' =>
        simp only [Option.map_some, Option.toList_some, List.mem_singleton, Prod.mk.injEq] at h
        exact ⟨h.2, by rw [h.1]⟩
  have hfrom : ∀ c k, (c, k) ∈ (of.map fun c => (c, (0 : Int))).toList ++ (ot.map fun c => (c, (1 : Int))).toList →
      ∃ l, (l, k) ∈ ls.zip ks ∧ convert_case_token (setup_context ds cfg) n l.1 l.2 .bool = .ok c := by
    intro c k h
    rcases hmemcs c k h with ⟨rfl, h'⟩ | ⟨rfl, h'⟩
    · exact hf2 c h'
    · exact ht2 c h'
  refine ⟨(of.map fun c => (c, (0 : Int))).toList ++ (ot.map fun c => (c, (1 : Int))).toList,
    ⟨?_, hfrom, ?_, ?_, ?_, ?_, ?_, ?_, ?_, ?_, ?_⟩⟩
  · intro l k hlk
    rcases hk01 l k hlk with rfl | rfl
    · obtain ⟨c, rfl, hc⟩ := hf1 l hlk
      exact ⟨c, by simp, hc⟩
    · obtain ⟨c, rfl, hc⟩ := ht1 l hlk
      exact ⟨c, by simp, hc⟩
  · cases of <;> cases ot <;> simp
  · cases of <;> cases ot <;> simp [boolStep, asI32]
  · cases of <;> cases ot <;> simp [boolStep, asI32]
  · intro hc
    have hc' : (setup_context ds cfg).config.union_complement_index = false := hc
    cases of <;> cases ot <;> simp [boolStep, boolReserved, hc']
  · intro hc c k hck
    have hc' : (setup_context ds cfg).config.union_complement_index = true := hc
    rcases hmemcs c k hck with ⟨rfl, rfl⟩ | ⟨rfl, rfl⟩
    · simp [boolStep]
    · cases of <;> simp [boolStep, boolReserved, hc']
  · intro hc i v hi hn
    have hc' : (setup_context ds cfg).config.union_complement_index = true := hc
    cases of with
    | none =>
      cases ot with
      | none =>
        simp only [Option.map_none, boolReserved, hc', if_true] at hi
        rcases i with _ | _ | i
        · simp only [List.cons_append, List.getElem?_cons_zero, Option.some.injEq] at hi
          exact hi.symm
        · simp only [List.cons_append, List.nil_append, List.getElem?_cons_succ, List.getElem?_cons_zero,
            Option.some.injEq, Nat.zero_add] at hi
          exact hi.symm
        · simp at hi
      | some c =>
        simp only [Option.map_none, Option.map_some, boolReserved, hc', if_true, boolStep] at hi
        rcases i with _ | _ | i
        · simp only [List.cons_append, List.getElem?_cons_zero, Option.some.injEq] at hi
          exact hi.symm
        · exfalso
          obtain ⟨l, hl, -⟩ := ht2 c rfl
          exact hn (List.of_mem_zip hl).2
        · simp at hi
    | some c0 =>
      rcases i with _ | i
      · exfalso
        obtain ⟨l, hl, -⟩ := hf2 c0 rfl
        exact hn (List.of_mem_zip hl).2
      · cases ot with
        | none =>
          simp only [Option.map_none, Option.map_some, boolReserved, hc', if_true, boolStep] at hi
          rcases i with _ | i
          · simp only [List.cons_append, List.nil_append, List.getElem?_cons_succ, List.getElem?_cons_zero,
              Option.some.injEq] at hi
            exact hi.symm
          · simp at hi
        | some c1 =>
          rcases i with _ | i
          · exfalso
            obtain ⟨l, hl, -⟩ := ht2 c1 rfl
            exact hn (List.of_mem_zip hl).2
          · simp [boolStep] at hi
  · intro hc i hi
    have hc' : (setup_context ds cfg).config.union_complement_index = true := hc
    right
    refine ⟨rfl, ?_⟩
    cases of <;> cases ot <;> simpa [boolStep, boolReserved, hc'] using hi
  · have hpat : ∀ v (k : Int) (b : Bool), (k = if b then 1 else 0) →
        IsPat (setup_context ds cfg) .bool v k (.bool b) := by
      intro v k b hk
      subst hk
      unfold IsPat
      rw [if_neg (by simp [Context.is_enum_type])]
      cases b <;> simp [IsPat.isBool]
    cases of with
    | none =>
      cases ot with
      | none => exact .nil
      | some c =>
        obtain ⟨l, hl, hc⟩ := ht2 c rfl
        exact .cons ⟨rfl, l, hl, hc, hpat _ _ _ rfl⟩ .nil
    | some c0 =>
      obtain ⟨l0, hl0, hc0⟩ := hf2 c0 rfl
      cases ot with
      | none => exact .cons ⟨rfl, l0, hl0, hc0, hpat _ _ _ rfl⟩ .nil
      | some c =>
        obtain ⟨l, hl, hc⟩ := ht2 c rfl
        exact .cons ⟨rfl, l0, hl0, hc0, hpat _ _ _ rfl⟩ (.cons ⟨rfl, l, hl, hc, hpat _ _ _ rfl⟩ .nil)
  · rintro ⟨c, k⟩ hck
    obtain ⟨l, -, hc⟩ := hfrom c k hck
    rw [condType_bool hc]

/-- The cases of a union. -/
theorem union_cases {ds : List Definition} (hwf : WellFormed ds) (hu : Unambiguous ds) {cfg : Config}
    {n : Nat} {body : UnionBody} {cond : TypeSpecifier} {nm : Str} {ks : List Int}
    (hcond : body.cond = .variable cond nm) (hlab : Labelled ds cond body.labels ks)
    (hok : ∀ l ∈ body.labels, ∀ a ∈ l.1.atoms, a.Ok) {ct : TypeSpecifier} {acc : UnionAcc}
    (h : unionCases (setup_context ds cfg) n body = .ok (ct, acc)) :
    ct = cond ∧ ∃ cs, Cases (setup_context ds cfg) n cond body.labels ks acc cs := by
  unfold unionCases at h
  rw [hcond] at h
  simp only at h
  cases cond with
  | int s =>
    simp only [GR.bind_eq_ok, GR.ok.injEq, Prod.mk.injEq] at h
    obtain ⟨values, h1, steps, h2, rfl, rfl⟩ := h
    exact ⟨rfl, loop_cases hwf hu (by simp) hlab hok rfl h1 h2⟩
  | identifier s =>
    simp only [GR.bind_eq_ok, GR.ok.injEq, Prod.mk.injEq] at h
    obtain ⟨values, h1, steps, h2, rfl, rfl⟩ := h
    exact ⟨rfl, loop_cases hwf hu (by simp) hlab hok rfl h1 h2⟩
  | bool =>
    simp only [GR.bind_eq_ok, GR.ok.injEq, Prod.mk.injEq] at h
    obtain ⟨f, h1, t, h2, rfl, rfl⟩ := h
    exact ⟨rfl, bool_cases hlab rfl h1 h2⟩
  | _ => cases h

end Xdr.Rpcgen
