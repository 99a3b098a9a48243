import Verif.Spec.Variants
import Verif.RpcgenProofs.Mono
import Verif.RpcgenProofs.Types
import Verif.RpcgenProofs.Union
import Verif.RpcgenProofs.UnionWire
import Verif.RpcgenProofs.Safe
/-!
# The variants of a union, from the loop over its cases
-/

namespace Xdr.Rpcgen

/-- A type of the table is found with every bound that is not used up. -/
theorem spec_convert {ds : List Definition} {cfg : Config} {n : Nat} {ts : TypeSpecifier} {ty : RTy}
    {op : OpaqueType} (h : SpecType ds cfg.remove_typedef ts ty op)
    (hn : convert_primitive_token (convert_type_token (setup_context ds cfg) n) (setup_context ds cfg) ts ≠ .depth) :
    convert_primitive_token (convert_type_token (setup_context ds cfg) n) (setup_context ds cfg) ts = .ok (ty, op) := by
  obtain ⟨m, hm⟩ := h.convert (cfg := cfg)
  have h1 := hm (max m n) (Nat.le_max_left _ _)
  have h2 := (primitive_le (convert_type_le (setup_context ds cfg) (Nat.le_max_right m n)) (setup_context ds cfg) ts).eq hn
  rw [← h2, h1]

theorem condType_sound {ds : List Definition} {cfg : Config} {n : Nat} {cond : TypeSpecifier} {ct : RTy}
    (h : condType (setup_context ds cfg) n cond = .ok ct) : CondType ds cfg.remove_typedef cond ct := by
  unfold condType at h
  cases hp : convert_primitive_token (convert_type_token (setup_context ds cfg) n) (setup_context ds cfg) cond with
  | ok p =>
    rw [hp] at h
    cases h
    obtain ⟨ty, op⟩ := p
    exact .inl ⟨op, spec_sound decl_sound hp⟩
  | err e =>
    rw [hp] at h
    refine .inr ⟨fun ty op hs => ?_, ?_⟩
    · rw [spec_convert hs (by rw [hp]; exact nofun)] at hp
      cases hp
    · cases cond with
      | identifier c =>
        simp only [GR.bind_eq_ok, GR.ok.injEq] at h
        obtain ⟨id, h1, h2⟩ := h
        exact ⟨c, id, rfl, h1, h2.symm⟩
      | _ => cases h
  | panic p => rw [hp] at h; cases h
  | depth => rw [hp] at h; cases h

theorem caseName_of {v : Value} {t : Tok} (h : convert_value_token .u32 v true = .ok t) : CaseName v t := by
  cases v with
  | constant c =>
    simp only [convert_value_token, GR.bind_eq_ok, GR.ok.injEq] at h
    obtain ⟨k, h1, rfl⟩ := h
    exact .literal h1
  | identifier a =>
    simp only [convert_value_token, GR.bind_eq_ok, GR.ok.injEq, if_true] at h
    obtain ⟨k, h1, rfl⟩ := h
    exact .name h1

theorem variant_of {ds : List Definition} {cfg : Config} {n : Nat} {v : Value} {d : Declaration}
    {cond : TypeSpecifier} {c : CaseTok} (h : convert_case_token (setup_context ds cfg) n v d cond = .ok c) :
    VariantOf ds cfg c.cond (v, d) c.value ∧ condType (setup_context ds cfg) n cond = .ok c.cond := by
  obtain ⟨o, h1, h2, h3, h4, h5⟩ := convert_case_ok h
  have hc : (setup_context ds cfg).config = cfg := rfl
  rw [hc] at h5
  have hw : ∀ ts, (if cfg.union_impl_union = true then [c.cond] else []) ++ ts = withCond cfg c.cond ts := by
    intro ts
    unfold withCond
    split <;> rfl
  refine ⟨⟨by rw [h4]; exact caseName_of h1, ?_⟩, h2⟩
  rcases h5 with ⟨rfl, ha, hf⟩ | ⟨ty, op, rfl, ha, hf⟩
  · have hd : d = .void := convert_type_none h3
    subst hd
    refine ⟨[], by rw [ha]; exact .void, ?_⟩
    rw [hf, ← hw, List.append_nil]
  · have hdt := decl_sound h3
    rw [hw] at hf
    refine ⟨_, ?_, hf⟩
    rw [ha]
    unfold armField
    cases hcx : cfg.union_complement_index <;> cases op
    · exact .plain hdt
    · exact .wrapped hdt nofun hcx
    · exact .wrapped hdt nofun hcx
    · exact .plain hdt
    · exact .fixed hdt hcx
    · exact .variable hdt hcx

theorem reservedVariant_of {v : Variant} (h : Reserved v) : ReservedVariant v := by
  obtain ⟨h1, h2, r, h3, h4, s, h5⟩ := h
  refine ⟨h1, h2, s, ?_⟩
  rw [h3]
  cases r
  simp only at h4 h5
  rw [h4, h5]

/-- The variants the loop pushes are those of the cases, and reserved ones. -/
theorem loop_variants {cxt : Context} {n : Nat} {cond : TypeSpecifier} {l : List (Int × Declaration × Value)}
    {s : Int} {steps : List CaseStep} (h : unionLoop cxt n cond l s = .ok steps) :
    ∃ cs res, (steps.flatMap (·.variants)).Perm (cs.map CaseTok.value ++ res) ∧
      List.Forall₂ (fun p c => convert_case_token cxt n p.2.2 p.2.1 cond = .ok c) l cs ∧
      steps.map (·.cond) = cs.map (·.cond) ∧
      (∀ r ∈ res, ReservedVariant r) ∧ (cxt.config.union_complement_index = false → res = []) := by
  induction l generalizing s steps with
  | nil =>
    cases h
    exact ⟨[], [], by simp, .nil, rfl, by simp, fun _ => rfl⟩
  | cons p l ih =>
    obtain ⟨e, d, v⟩ := p
    simp only [unionLoop, GR.bind_eq_ok] at h
    obtain ⟨r, hr, c, hc, bv, hbv, h⟩ := h
    split at h
    · cases h
    · simp only [GR.bind_eq_ok, GR.ok.injEq] at h
      obtain ⟨rest, hrest, rfl⟩ := h
      obtain ⟨cs, res, h1, h2, h3, h4, h5⟩ := ih hrest
      refine ⟨c :: cs, r ++ res, ?_, .cons hc h2, by simp [h3], ?_, ?_⟩
      · simp only [List.flatMap_cons, List.map_cons, List.append_assoc, List.cons_append, List.nil_append]
        refine List.perm_middle.trans (List.Perm.cons _ ?_)
        refine (List.Perm.append_left r h1).trans ?_
        rw [← List.append_assoc, ← List.append_assoc]
        exact List.Perm.append_right _ List.perm_append_comm
      · intro x hx
        rcases List.mem_append.1 hx with hx | hx
        · split at hr
          · obtain ⟨i, hi⟩ := List.mem_iff_getElem?.1 hx
            exact reservedVariant_of ((reserved_mapM hr).2 i x hi).reserved
          · cases hr
            cases hx
        · exact h4 x hx
      · intro hf
        rw [if_neg (by simp [hf])] at hr
        cases hr
        rw [h5 hf]
        rfl

theorem defaultVariant_of {ds : List Definition} {cfg : Config} {n : Nat} {ct : RTy} {o : Option Declaration}
    {r : Option (Variant × (Tok × Nat))} (h : unionDefault (setup_context ds cfg) n (some ct) o = .ok r) :
    DefaultVariant ds cfg ct o (r.map (·.1)).toList := by
  cases o with
  | none =>
    cases h
    exact .none
  | some d =>
    simp only [unionDefault, GR.bind_eq_ok, GR.ok.injEq] at h
    obtain ⟨p, hp, rfl⟩ := h
    have hc : (setup_context ds cfg).config = cfg := rfl
    rw [hc]
    cases p with
    | none =>
      have hd : d = .void := convert_type_none hp
      subst hd
      have := DefaultVariant.void (ds := ds) (cfg := cfg) (ct := ct)
      cases hu : cfg.union_impl_union <;> simpa [withCond, hu, defaultTok] using this
    | some q =>
      obtain ⟨ty, op⟩ := q
      have := DefaultVariant.some (ct := ct) (decl_sound hp)
      cases hu : cfg.union_impl_union <;> simpa [withCond, hu, defaultTok] using this

theorem find_label {specs : List CaseSpec} {s : CaseSpec} {v : Value} {label : Value → Bool}
    (h1 : (specs.find? fun s => s.values.any label) = some s) (h2 : s.values.find? label = some v) :
    ((specs.flatMap fun s => s.values.map fun v => (v, s.declaration)).find? fun l => label l.1) =
      some (v, s.declaration) := by
  induction specs with
  | nil => cases h1
  | cons t specs ih =>
    simp only [List.flatMap_cons, List.find?_append]
    by_cases ht : t.values.any label = true
    · rw [List.find?_cons_of_pos (p := fun s : CaseSpec => s.values.any label) ht] at h1
      cases h1
      have : ((s.values.map fun v => (v, s.declaration)).find? fun l => label l.1) = some (v, s.declaration) := by
        rw [List.find?_map]
        have : s.values.find? ((fun l : Value × Declaration => label l.1) ∘ fun v => (v, s.declaration)) =
          s.values.find? label := rfl
        rw [this, h2]
        rfl
      rw [this]
      rfl
    · rw [List.find?_cons_of_neg (p := fun s : CaseSpec => s.values.any label) ht] at h1
      have : ((t.values.map fun v => (v, t.declaration)).find? fun l => label l.1) = none := by
        rw [List.find?_map, Option.map_eq_none_iff, List.find?_eq_none]
        intro x hx hl
        exact ht (List.any_eq_true.2 ⟨x, hx, hl⟩)
      rw [this, Option.none_or]
      exact ih h1

theorem boolCase_variant {ds : List Definition} {cfg : Config} {n : Nat} {body : UnionBody} {label : Value → Bool}
    {b : Bool} {o : Option CaseStep} (h : boolCase (setup_context ds cfg) n .bool body.specs label b = .ok o) :
    ∃ vs, (∀ st, o = some st → st.variants = vs) ∧ (o = none → vs = []) ∧
      List.Forall₂ (VariantOf ds cfg .bool) (body.labels.find? fun l => label l.1).toList vs := by
  unfold boolCase at h
  split at h
  · next hn =>
    cases h
    refine ⟨[], nofun, fun _ => rfl, ?_⟩
    have : (body.labels.find? fun l => label l.1) = none := by
      rw [List.find?_eq_none]
      intro l hl
      obtain ⟨s, hs, hl⟩ := List.mem_flatMap.1 hl
      obtain ⟨v, hv, rfl⟩ := List.mem_map.1 hl
      have := List.find?_eq_none.1 hn s hs
      simp only [List.any_eq_true, not_exists, not_and, Bool.not_eq_true] at this
      simp [this v hv]
    rw [this]
    exact .nil
  · next s hs =>
    split at h
    · cases h
    · next v hv =>
      simp only [GR.bind_eq_ok, GR.ok.injEq] at h
      obtain ⟨c, hc, rfl⟩ := h
      refine ⟨[c.value], by rintro st ⟨⟩; rfl, nofun, ?_⟩
      have : (body.labels.find? fun l => label l.1) = some (v, s.declaration) := find_label hs hv
      rw [this]
      obtain ⟨h1, h2⟩ := variant_of hc
      rw [show c.cond = .bool from (GR.ok.inj h2).symm] at h1
      exact .cons h1 .nil

theorem isFalse_iff (v : Value) : v.is_false = decide (v = .identifier c!"FALSE") := by
  cases v with
  | constant c => rfl
  | identifier i => simp [Value.is_false, Bool.beq_eq_decide_eq]

theorem isTrue_iff (v : Value) : v.is_true = decide (v = .identifier c!"TRUE") := by
  cases v with
  | constant c => rfl
  | identifier i => simp [Value.is_true, Bool.beq_eq_decide_eq]

theorem forall₂_perm {α β : Type} {R : α → β → Prop} {l l' : List α} {r : List β} (h : List.Forall₂ R l' r)
    (hp : l.Perm l') : ∃ r', List.Forall₂ R l r' ∧ r'.Perm r := by
  induction hp generalizing r with
  | nil => exact ⟨r, h, .refl _⟩
  | cons x _ ih =>
    cases h with
    | cons h1 h2 =>
      obtain ⟨r', h3, h4⟩ := ih h2
      exact ⟨_ :: r', .cons h1 h3, h4.cons _⟩
  | swap x y l =>
    cases h with
    | cons h1 h2 =>
      cases h2 with
      | cons h2 h3 => exact ⟨_ :: _ :: _, .cons h2 (.cons h1 h3), .swap _ _ _⟩
  | trans _ _ ih1 ih2 =>
    obtain ⟨r1, h1, h2⟩ := ih2 h
    obtain ⟨r2, h3, h4⟩ := ih1 h1
    exact ⟨r2, h3, h4.trans h2⟩

theorem boolReserved_variant {cxt : Context} {s : Str} {v : Variant}
    (h : v ∈ boolReserved cxt (c!"_Reserved" ++ s)) : ReservedVariant v := by
  unfold boolReserved at h
  split at h
  · rw [List.mem_singleton.1 h]
    exact ⟨rfl, rfl, s, rfl⟩
  · cases h

theorem body_nonempty {ds : List Definition} (hwf : WellFormed ds) {name : Str} {b : UnionBody}
    (hm : .type (.union name b) ∈ ds) : b.labels ≠ [] := by
  have hb0 : Atom.body b.specs.length ∈ atoms ds := mem_atoms_def hm (by
    obtain ⟨cond, specs, dflt⟩ := b
    exact List.mem_cons_of_mem _ List.mem_cons_self)
  have hsp : b.specs ≠ [] := fun h => hwf _ hb0 (by rw [h]; rfl)
  obtain ⟨sp, hsp⟩ := List.exists_mem_of_ne_nil _ hsp
  have hv : sp.values ≠ [] := fun h => by
    have : Atom.body sp.values.length ∈ atoms ds := mem_atoms_case hm hsp (by
      obtain ⟨vs, d⟩ := sp
      exact List.mem_cons_self)
    exact hwf _ this (by rw [h]; rfl)
  obtain ⟨v, hv⟩ := List.exists_mem_of_ne_nil _ hv
  exact List.ne_nil_of_mem (List.mem_flatMap.2 ⟨sp, hsp, List.mem_map_of_mem hv⟩)

/-- The labels in the order of their numbers. -/
theorem indexed_labels {cxt : Context} {n : Nat} {b : UnionBody} {values : List (Int × Declaration × Value)}
    (h : unionIndexed cxt n b.specs = .ok values) : values.map (fun p => (p.2.2, p.2.1)) = b.labels := by
  have hl : b.labels = (b.specs.flatMap fun spec => spec.values.map fun v => (spec.declaration, v)).map
      fun p => (p.2, p.1) := by
    simp only [UnionBody.labels, List.map_flatMap, List.map_map]
    rfl
  rw [hl]
  have hf := GR.mapM_ok.1 h
  clear hl h
  revert hf
  generalize (b.specs.flatMap fun spec => spec.values.map fun v => (spec.declaration, v)) = l
  intro hf
  induction hf with
  | nil => rfl
  | cons h1 _ ih =>
    simp only [GR.bind_eq_ok, GR.ok.injEq] at h1
    obtain ⟨k, -, rfl⟩ := h1
    simp only [List.map_cons, ih]

/-- The loop over the cases of a union on numbers. -/
theorem loop_union {ds : List Definition} {cfg : Config} {n : Nat} {b : UnionBody} {cond : TypeSpecifier}
    (hne : b.labels ≠ []) {values : List (Int × Declaration × Value)}
    (hv : unionIndexed (setup_context ds cfg) n b.specs = .ok values) {steps : List CaseStep}
    (hs : unionLoop (setup_context ds cfg) n cond (sortByKey values) 0 = .ok steps) :
    ∃ ct vs res, CondType ds cfg.remove_typedef cond ct ∧ (UnionAcc.ofSteps steps).cond = some ct ∧
      (UnionAcc.ofSteps steps).variants.Perm (vs ++ res) ∧ List.Forall₂ (VariantOf ds cfg ct) b.labels vs ∧
      (∀ r ∈ res, ReservedVariant r) ∧ (cfg.union_complement_index = false → res = []) := by
  obtain ⟨cs, res, h1, h2, h3, h4, h5⟩ := loop_variants hs
  obtain ⟨cs', h6, h7⟩ := forall₂_perm h2 (sortByKey_perm values).symm
  have hlab := indexed_labels hv
  obtain ⟨p, hp⟩ : ∃ p, p ∈ values := List.exists_mem_of_ne_nil _ fun h => hne (by rw [← hlab, h]; rfl)
  obtain ⟨c0, hc0, -⟩ : ∃ c0, convert_case_token (setup_context ds cfg) n p.2.2 p.2.1 cond = .ok c0 ∧ True := by
    obtain ⟨c, -, hc⟩ := forall₂_mem_left h6 hp
    exact ⟨c, hc, trivial⟩
  have hct := (variant_of hc0).2
  have hall : ∀ c ∈ cs, c.cond = c0.cond := by
    intro c hc
    obtain ⟨q, -, hq⟩ := forall₂_mem_right h2 hc
    have := (variant_of hq).2
    rw [hct] at this
    exact (GR.ok.inj this).symm
  refine ⟨c0.cond, cs'.map CaseTok.value, res, condType_sound hct, ?_, ?_, ?_, h4, h5⟩
  · have hcs : cs ≠ [] := by
      rintro rfl
      have := h2.length_eq
      have h8 := (sortByKey_perm values).length_eq
      have := List.length_pos_of_mem hp
      simp only [List.length_nil] at *
      omega
    have : (steps.map (·.cond)).getLast? = (cs.map (·.cond)).getLast? := by rw [h3]
    simp only [List.getLast?_map] at this
    simp only [UnionAcc.ofSteps, this]
    rw [List.getLast?_eq_some_getLast hcs]
    exact congrArg some (hall _ (List.getLast_mem hcs))
  · exact h1.trans (List.Perm.append_right _ (h7.map _).symm)
  · rw [← hlab, List.forall₂_map_left_iff, List.forall₂_map_right_iff]
    refine h6.imp fun p c hq => ?_
    obtain ⟨h8, h9⟩ := variant_of hq
    rw [hct] at h9
    rwa [← GR.ok.inj h9] at h8

end Xdr.Rpcgen
