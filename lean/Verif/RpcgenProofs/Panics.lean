import Verif.Proofs.NoPanic
import Verif.Spec.Strings
import Verif.RpcgenProofs.Scoped
import Verif.RpcgenProofs.TextUse
import Verif.RpcgenProofs.CleanTypes
import Verif.RpcgenProofs.Consistent
/-!
# The code of a generated program does not panic
-/

namespace Xdr.Rpcgen

/-- No `String` in a type. -/
def RTy.Textless : RTy → Prop
  | .string => False
  | .array t _ _ => t.Textless
  | .vec t => t.Textless
  | .option t => t.Textless
  | .box t => t.Textless
  | _ => True

mutual
theorem SpecType.textless {ds : List Definition} {drop : Bool} (hs : NoStrings ds) :
    ∀ {ts ty op}, SpecType ds drop ts ty op → ty.Textless
  | _, _, _, .int | _, _, _, .uint | _, _, _, .hyper | _, _, _, .uhyper | _, _, _, .float
  | _, _, _, .double | _, _, _, .bool | _, _, _, .char | _, _, _, .uchar | _, _, _, .short
  | _, _, _, .ushort => trivial
  | _, _, _, .typedef _ ht h => DeclType.textless hs h (.inl (typeOf_mem ht).1)
  | _, _, _, .name _ _ => trivial

theorem DeclType.textless {ds : List Definition} {drop : Bool} (hs : NoStrings ds) :
    ∀ {d ty op}, DeclType ds drop d ty op →
      TypedefIn ds d ∨ MemberIn ds d ∨ ArmIn ds d ∨ DefaultIn ds d → ty.Textless
  | _, _, _, .variable h, _ => SpecType.textless hs h
  | _, _, _, .fixedArray h _, _ => by
    simp only [RTy.Textless]
    exact SpecType.textless hs h
  | _, _, _, .variableArray h _, _ => by
    simp only [RTy.Textless]
    exact SpecType.textless hs h
  | _, _, _, .opaqueArray h, _ => trivial
  | _, _, _, .opaqueFixed _, _ => trivial
  | _, _, _, .opaqueVar, _ => trivial
  | _, _, _, .string, hin => absurd rfl (hs _ hin _ _)
  | _, _, _, .option h, _ => by
    simp only [RTy.Textless]
    exact SpecType.textless hs h
end

section
variable {file : RustFile} {defs : List (String × Def)} {text : Bool}

theorem variableArray_defined (hd : file.defs = some defs) : (Xdr.program defs variableArrayName).isSome := by
  obtain ⟨-, l, -, rfl⟩ := defs_ok hd
  simp only [Xdr.program, Option.isSome_map, List.find?_isSome]
  exact ⟨_, List.mem_append_right _ List.mem_cons_self, by simp⟩

theorem named_Ok {ty : String} (h : ty ∈ defs.map (·.1)) : (Ty.named ty).Ok (Xdr.program defs) text := by
  simp only [Ty.Ok, Xdr.program, Option.isSome_map, List.find?_isSome]
  obtain ⟨d, hd, rfl⟩ := List.mem_map.1 h
  exact ⟨d, hd, by simp⟩

theorem path_defined (hd : file.defs = some defs) {p : RIdent} (hp : p ∈ file.types.map Item.name) :
    (Xdr.program defs p.str).isSome := by
  obtain ⟨i, hi, rfl⟩ := List.mem_map.1 hp
  obtain ⟨d, -, h⟩ := defs_lookup hd hi
  rw [h]
  rfl

theorem meaning_Ok (hd : file.defs = some defs) {rty : RTy} {t : Ty}
    (h : rty.meaning file.constants = some t) (hp : ∀ p ∈ rty.paths, p ∈ file.types.map Item.name)
    (ht : text = true ∨ rty.Textless) : t.Ok (Xdr.program defs) text := by
  induction rty generalizing t with
  | array ty len c ih =>
    simp only [RTy.meaning, Option.bind_eq_some_iff] at h
    obtain ⟨t', h1, h2⟩ := h
    obtain ⟨k, -, -, rfl⟩ := arrayTy_some h2
    simp only [Ty.Ok]
    exact ih h1 hp ht
  | vec ty ih =>
    simp only [RTy.meaning, Option.map_eq_some_iff] at h
    obtain ⟨t', h1, rfl⟩ := h
    simp only [Ty.Ok]
    exact ih h1 hp ht
  | option ty ih =>
    simp only [RTy.meaning, Option.map_eq_some_iff] at h
    obtain ⟨t', h1, rfl⟩ := h
    simp only [Ty.Ok]
    exact ih h1 hp ht
  | box ty ih => exact ih h hp ht
  | path i =>
    cases h
    simp only [Ty.Ok]
    exact path_defined hd (hp i (by simp [RTy.paths]))
  | variableArray =>
    cases h
    simp only [Ty.Ok]
    exact variableArray_defined hd
  | string =>
    cases h
    simp only [Ty.Ok]
    rcases ht with h | h
    · exact h
    · cases h
  | _ =>
    cases h
    simp only [Ty.Ok]

theorem find_enum {e : EnumItem} {i : RIdent} (h : (file.enums.find? fun e => e.name = i) = some e) :
    .enum e ∈ file.types := by
  have := List.mem_of_find?_eq_some h
  unfold RustFile.enums at this
  obtain ⟨item, h1, h2⟩ := List.mem_filterMap.1 this
  cases item with
  | enum e' =>
    cases h2
    exact h1
  | _ => cases h2

theorem field_Ok (hs : file.Scoped) (hd : file.defs = some defs) {a : Attr} {rty : RTy} {t : Ty}
    (h : fieldMeaning file.constants file.enums a rty = some t)
    (hp : ∀ p ∈ rty.paths, p ∈ file.types.map Item.name)
    (ht : text = true ∨ rty.Textless) : t.Ok (Xdr.program defs) text := by
  unfold fieldMeaning at h
  split at h
  · exact meaning_Ok hd h hp ht
  · obtain ⟨k, -, -, rfl⟩ := arrayTy_some h
    simp only [Ty.Ok]
  · cases h
    simp only [Ty.Ok]
  · split at h
    · next e he =>
      split at h
      · next asRef tryFrom h1 h2 =>
        cases h
        simp only [Ty.Ok]
        intro k
        simp only [signed32Of]
        split
        · next id hid =>
          have h3 := (hs.types _ (find_enum he)).1
          have h4 := (h3.tryFrom _ h2).2 _ (arm_some hid)
          split
          · exact .inl ⟨_, rfl⟩
          · next hn =>
            exfalso
            unfold variantPos at hn
            rw [List.findIdx?_eq_none_iff] at hn
            obtain ⟨v, hv, hv'⟩ := List.mem_map.1 h4
            have := hn v hv
            simp [hv'] at this
        · exact .inr ⟨_, rfl⟩
      · cases h
    · cases h
  · cases h

theorem tys_Ok (hd : file.defs = some defs) {rts : List RTy} {ts : List Ty}
    (h : tysMeaning file.constants rts = some ts)
    (hp : ∀ r ∈ rts, ∀ p ∈ r.paths, p ∈ file.types.map Item.name)
    (ht : text = true ∨ ∀ r ∈ rts, r.Textless) :
    ts.length = rts.length ∧ ∀ t ∈ ts, t.Ok (Xdr.program defs) text := by
  induction rts generalizing ts with
  | nil =>
    cases h
    simp
  | cons r rts ih =>
    simp only [tysMeaning] at h
    split at h
    · next t ts' h1 h2 =>
      cases h
      obtain ⟨h3, h4⟩ := ih h2 (fun r hr => hp r (List.mem_cons_of_mem _ hr))
        (ht.imp id fun h r hr => h r (List.mem_cons_of_mem _ hr))
      refine ⟨by simp [h3], fun t' ht' => ?_⟩
      rcases List.mem_cons.1 ht' with rfl | ht'
      · exact meaning_Ok hd h1 (hp r List.mem_cons_self) (ht.imp id fun h => h r List.mem_cons_self)
      · exact h4 t' ht'
    · cases h

theorem enum_Ok (hs : file.Scoped) {e : EnumItem} (he : .enum e ∈ file.types) {d : Def} (h : e.meaning = some d) :
    d.Ok (Xdr.program defs) text := by
  have hsc := (hs.types _ he).1
  unfold EnumItem.meaning at h
  split at h
  · split at h
    · simp only [Option.map_eq_some_iff] at h
      obtain ⟨ix, hix, rfl⟩ := h
      obtain ⟨-, -, h1, h2, -⟩ := hsc.indexer ix hix
      have hmem : ∀ i ∈ e.variants.map (·.1), i.str ∈
          (e.variants.map fun v => (v.1.str, (none : Option (List Ty)))).map (·.1) := by
        intro i hi
        obtain ⟨v, hv, rfl⟩ := List.mem_map.1 hi
        exact List.mem_map.2 ⟨_, List.mem_map.2 ⟨v, hv, rfl⟩, rfl⟩
      refine ⟨?_, ?_, ?_⟩
      · rw [tysOk_iff]
        simp only [Def.types, List.mem_flatMap, List.mem_map]
        rintro t ⟨_, ⟨v, -, rfl⟩, ht⟩
        cases ht
      · intro k
        simp only [enumIndexerImpl]
        split
        · next id hid => exact .inl ⟨_, rfl, hmem _ (h1 _ (arm_some hid))⟩
        · exact .inl ⟨_, rfl, hmem _ h2⟩
      · intro v hv
        obtain ⟨w, -, rfl⟩ := List.mem_map.1 hv
        simp
    · cases h
      refine ⟨?_, trivial⟩
      rw [tysOk_iff]
      simp only [Def.types, List.mem_flatMap, List.mem_map]
      rintro t ⟨_, ⟨v, -, rfl⟩, ht⟩
      cases ht
  · cases h

theorem struct_Ok (hs : file.Scoped) (hd : file.defs = some defs) {s : StructItem} (hi : .struct s ∈ file.types)
    (ht : text = true ∨ ∀ f ∈ s.fields, f.2.2.Textless) {d : Def}
    (h : s.meaning file.constants file.enums = some d) : d.Ok (Xdr.program defs) text := by
  have hp := (namesOk_iff.1 (defs_ok hd).1).2.2.1 _ hi
  unfold StructItem.meaning at h
  split at h
  · simp only [Option.map_eq_some_iff] at h
    obtain ⟨fs, h1, rfl⟩ := h
    refine ⟨?_, trivial⟩
    rw [tysOk_iff]
    intro t hmem
    simp only [Def.types, List.mem_map] at hmem
    obtain ⟨p, hp1, rfl⟩ := hmem
    obtain ⟨f, hf, -, -, h2⟩ := forall₂_mem_right (fieldsMeaning_each h1) hp1
    refine field_Ok hs hd h2 (fun q hq => hp q ?_) (ht.imp id fun h => h f hf)
    simp only [Item.paths, List.mem_flatMap]
    exact ⟨f, hf, hq⟩
  · cases h

theorem variant_named {α : Type} {f : Variant → Option α} {vs : List Variant} {r : List (String × α)}
    (h : variantsMeaning f vs = some r) {t : Tok} (ht : t ∈ vs.map (·.name)) : t.str ∈ r.map (·.1) := by
  obtain ⟨v, hv, rfl⟩ := List.mem_map.1 ht
  obtain ⟨p, hp, i, h1, -, h2, -⟩ := forall₂_mem_left (variantsMeaning_ok h) hv
  rw [h1]
  exact List.mem_map.2 ⟨p, hp, h2⟩

theorem variant_Ok (hd : file.defs = some defs) {v : Variant} {o : Option (List Ty)}
    (h : v.types file.constants = some o) (hp : ∀ r ∈ v.fields, ∀ p ∈ r.paths, p ∈ file.types.map Item.name)
    (ht : text = true ∨ ∀ r ∈ v.fields, r.Textless) :
    (o.getD []).length = v.fields.length ∧ ∀ t ∈ o.getD [], t.Ok (Xdr.program defs) text := by
  unfold Variant.types at h
  split at h
  · split at h
    · next hf =>
      cases h
      simp [hf]
    · simp only [Option.map_eq_some_iff] at h
      obtain ⟨ts, h1, rfl⟩ := h
      exact tys_Ok hd h1 hp ht
  · cases h

/-- The arms of a union as the theorem below needs them. -/
structure UnionItem.Armed (u : UnionItem) (text : Bool) : Prop where
  few : ∀ v ∈ u.variants, v.fields.length ≤ 2
  textless : text = true ∨ ∀ v ∈ u.variants, ∀ t ∈ v.fields, t.Textless
  indexer : ∀ ix, u.indexer = some ix → ix.otherwise = true → defaultTok ∈ u.variants.map (·.name)
  union : ∀ un, u.union = some un → un.otherwise = .default → defaultTok ∈ u.variants.map (·.name)

theorem union_Ok (hs : file.Scoped) (hd : file.defs = some defs) {u : UnionItem} (hu : .union u ∈ file.types)
    (ha : u.Armed text) {d : Def} (h : u.meaning file.constants file.enums = some d) :
    d.Ok (Xdr.program defs) text := by
  have hsc := (hs.types _ hu).1
  have hp : ∀ v ∈ u.variants, ∀ r ∈ v.fields, ∀ p ∈ r.paths, p ∈ file.types.map Item.name := by
    intro v hv r hr p hpr
    refine (namesOk_iff.1 (defs_ok hd).1).2.2.1 _ hu p ?_
    simp only [Item.paths, List.mem_flatMap]
    exact ⟨v, hv, r, hr, hpr⟩
  have htx : ∀ v ∈ u.variants, text = true ∨ ∀ r ∈ v.fields, r.Textless :=
    fun v hv => ha.textless.imp id fun h => h v hv
  have hvars : ∀ {vars}, variantsMeaning (·.types file.constants) u.variants = some vars →
      ∀ w ∈ vars, (w.2.getD []).length ≤ 2 ∧ ∀ t ∈ w.2.getD [], t.Ok (Xdr.program defs) text := by
    intro vars hvars w hw
    obtain ⟨v, hv, i, -, -, -, hty⟩ := forall₂_mem_right (variantsMeaning_ok hvars) hw
    obtain ⟨h1, h2⟩ := variant_Ok hd hty (hp v hv) (htx v hv)
    exact ⟨by rw [h1]; exact ha.few v hv, h2⟩
  obtain ⟨-, ⟨hder, vars, h1, rfl⟩ | ⟨hder, ix, vars, hix, h1, -, -, -, rfl⟩ |
    ⟨hder, un, vars, cond, dt, hun, h1, hcond, hfit, hhead, ⟨v, hv, hne⟩, -, hdt, rfl⟩⟩ := union_meaning_ok h
  · refine ⟨?_, trivial⟩
    rw [tysOk_iff]
    intro t ht
    simp only [Def.types, List.mem_flatMap] at ht
    obtain ⟨w, hw, ht⟩ := ht
    obtain ⟨v, hv, i, -, -, -, hsh⟩ := forall₂_mem_right (variantsMeaning_ok h1) hw
    unfold Variant.shape at hsh
    split at hsh
    · simp only [Option.some.injEq] at hsh
      rw [← hsh] at ht
      cases ht
    · next r hr =>
      simp only [Option.map_eq_some_iff] at hsh
      obtain ⟨t', h2, h3⟩ := hsh
      rw [← h3] at ht
      simp only [Shape.types, List.mem_singleton] at ht
      subst ht
      refine field_Ok hs hd h2 (hp v hv r (by simp [hr])) ((htx v hv).imp id fun h => h r (by simp [hr]))
    · cases hsh
  · refine ⟨?_, ?_, fun w hw => Nat.le_trans (hvars h1 w hw).1 (by omega)⟩
    · rw [tysOk_iff]
      intro t ht
      simp only [Def.types, List.mem_flatMap] at ht
      obtain ⟨w, hw, ht⟩ := ht
      exact (hvars h1 w hw).2 t ht
    · intro k
      simp only [unionIndexerImpl]
      split
      · next t ht =>
        exact .inl ⟨_, rfl, variant_named h1 ((hsc.indexer ix hix).2.1 _ (arm_some ht))⟩
      · split
        · next ho => exact .inl ⟨_, rfl, variant_named h1 (ha.indexer ix hix ho)⟩
        · exact .inr ⟨_, rfl⟩
  · have hcf : cond ∈ v.fields := by
      rcases hhead v hv with h | h
      · exact absurd h hne
      · exact List.mem_of_mem_head? h
    refine ⟨?_, ?_, fun w hw => Nat.le_trans (hvars h1 w hw).1 (by omega)⟩
    · rw [tysOk_iff]
      intro t ht
      simp only [Def.types, List.mem_cons, List.mem_flatMap] at ht
      rcases ht with rfl | ⟨w, hw, ht⟩
      · exact meaning_Ok hd hdt (hp v hv cond hcf) ((htx v hv).imp id fun h => h cond hcf)
      · exact (hvars h1 w hw).2 t ht
    · intro n b x hx
      simp only [unionUnionImpl]
      split
      · next t ht =>
        exact .inl ⟨_, rfl, variant_named h1 ((hsc.union un hun).2 _ (List.mem_of_find?_eq_some ht))⟩
      · next hnone =>
        split
        · next ho => exact .inl ⟨_, rfl, variant_named h1 (ha.union un hun ho)⟩
        · exact .inr ⟨_, rfl⟩
        · next ho =>
          exfalso
          obtain ⟨-, un', _, _, _, hun', -, -, -, hall, -⟩ := union_meaning_union h hder
          rw [hun] at hun'
          cases hun'
          obtain ⟨ht, hf⟩ := hall ho
          obtain ⟨p, hpm, hpt⟩ := List.mem_map.1 ht
          obtain ⟨q, hqm, hqf⟩ := List.mem_map.1 hf
          have hc : cond = .bool := by
            have := hfit p hpm
            rw [hpt] at this
            simpa [Pat.fits] using this
          subst hc
          cases hdt
          have hb : ∃ y, x = .bool y := by
            cases n with
            | zero => simp [fromBytes, from_bytes, deTy, M.depth] at hx
            | succ n =>
              unfold fromBytes from_bytes at hx
              split at hx
              · next w rest hw =>
                split at hx
                · cases hx
                  obtain ⟨y, mid, -, h2⟩ := M.bind_eq_ok.mp hw
                  simp only [M.pure_run, Res.ok.injEq, Prod.mk.injEq] at h2
                  exact ⟨_, h2.1.symm⟩
                · cases hx
              · cases hx
              · cases hx
              · cases hx
          obtain ⟨y, rfl⟩ := hb
          rw [List.find?_eq_none] at hnone
          cases y
          · have := hnone q hqm
            simp [hqf, Pat.matches] at this
          · have := hnone p hpm
            simp [hpt, Pat.matches] at this

end

/-! ## Arms -/

section
variable {ds : List Definition} {cfg : Config} {n : Nat} {text : Bool}

theorem type_textless (htext : text = true ∨ NoStrings ds) {d : Declaration}
    (hin : TypedefIn ds d ∨ MemberIn ds d ∨ ArmIn ds d ∨ DefaultIn ds d) {ty : RTy} {op : OpaqueType}
    (h : convert_type_token (setup_context ds cfg) n d = .ok (some (ty, op))) : text = true ∨ ty.Textless :=
  htext.imp id fun hs => DeclType.textless hs (decl_sound h) hin

/-- At most two fields, and no `String` among them. -/
def Variant.Armed (text : Bool) (v : Variant) : Prop :=
  v.fields.length ≤ 2 ∧ (text = true ∨ ∀ t ∈ v.fields, t.Textless)

/-- The same for what one case pushes. -/
def CaseStep.Armed (text : Bool) (st : CaseStep) : Prop :=
  (∀ v ∈ st.variants, v.Armed text) ∧ (text = true ∨ st.cond.Textless)

theorem reserved_armed {v : Variant} (h : v.fields = []) : v.Armed text := by
  refine ⟨by simp [h], .inr ?_⟩
  rw [h]
  intro t ht
  cases ht

theorem cond_textless (htext : text = true ∨ NoStrings ds) {ts : TypeSpecifier} {ty : RTy}
    (h : condType (setup_context ds cfg) n ts = .ok ty) : text = true ∨ ty.Textless := by
  unfold condType at h
  split at h
  · next p hp =>
    cases h
    exact htext.imp id fun hs => SpecType.textless hs (spec_sound (fun h => decl_sound h) hp)
  · split at h
    · simp only [GR.bind_eq_ok, GR.ok.injEq] at h
      obtain ⟨i, -, rfl⟩ := h
      exact .inr trivial
    · cases h
  · cases h
  · cases h

theorem case_armed (htext : text = true ∨ NoStrings ds) {v : Value} {d : Declaration} (hin : ArmIn ds d)
    {ts : TypeSpecifier} {c : CaseTok} (h : convert_case_token (setup_context ds cfg) n v d ts = .ok c) :
    c.value.Armed text ∧ (text = true ∨ c.cond.Textless) := by
  obtain ⟨o, -, hc, ho, -, h⟩ := convert_case_ok h
  have hct := cond_textless htext hc
  have hcf : ∀ t ∈ (if (setup_context ds cfg).config.union_impl_union then [c.cond] else []),
      text = true ∨ t.Textless := by
    intro t ht
    split at ht
    · rw [List.mem_singleton] at ht
      rw [ht]
      exact hct
    · cases ht
  have hcl : (if (setup_context ds cfg).config.union_impl_union then [c.cond] else []).length ≤ 1 := by
    split <;> simp
  refine ⟨?_, hct⟩
  rcases h with ⟨-, -, hf⟩ | ⟨ty, op, rfl, -, hf⟩
  · unfold Variant.Armed
    rw [hf]
    refine ⟨by omega, ?_⟩
    by_cases ht : text = true
    · exact .inl ht
    · exact .inr fun t hm => (hcf t hm).resolve_left ht
  · unfold Variant.Armed
    rw [hf]
    refine ⟨by rw [List.length_append]; simp only [List.length_singleton]; omega, ?_⟩
    by_cases ht : text = true
    · exact .inl ht
    · refine .inr fun t hm => ?_
      rcases List.mem_append.1 hm with hm | hm
      · exact (hcf t hm).resolve_left ht
      · rw [List.mem_singleton] at hm
        rw [hm]
        have := (type_textless htext (.inr (.inr (.inl hin))) ho).resolve_left ht
        unfold armField
        split
        · trivial
        · exact this

theorem loop_armed (htext : text = true ∨ NoStrings ds) {cond : TypeSpecifier}
    {l : List (Int × Declaration × Value)} (hl : ∀ p ∈ l, ArmIn ds p.2.1) {s : Int} {steps : List CaseStep}
    (h : unionLoop (setup_context ds cfg) n cond l s = .ok steps) : ∀ st ∈ steps, st.Armed text := by
  induction l generalizing s steps with
  | nil =>
    cases h
    simp
  | cons p l ih =>
    obtain ⟨e, d, v⟩ := p
    simp only [unionLoop, GR.bind_eq_ok] at h
    obtain ⟨r, hr, c, hc, b, hb, h⟩ := h
    split at h
    · cases h
    · simp only [GR.bind_eq_ok] at h
      obtain ⟨steps', h', h⟩ := h
      cases h
      intro st hst
      rcases List.mem_cons.1 hst with rfl | hst
      · obtain ⟨h1, h2⟩ := case_armed htext (hl _ List.mem_cons_self) hc
        refine ⟨fun w hw => ?_, h2⟩
        rcases List.mem_append.1 hw with hw | hw
        · split at hr
          · obtain ⟨k, -, hr⟩ := GR.mapM_mem hr hw
            simp only [GR.bind_eq_ok] at hr
            obtain ⟨i, hi, hr⟩ := hr
            cases hr
            exact reserved_armed rfl
          · cases hr
            cases hw
        · rw [List.mem_singleton] at hw
          subst hw
          exact h1
      · exact ih (fun p hp => hl p (List.mem_cons_of_mem _ hp)) h' st hst

theorem bool_armed (htext : text = true ∨ NoStrings ds) {cond : TypeSpecifier} {specs : List CaseSpec}
    (hl : ∀ sp ∈ specs, ∀ v ∈ sp.values, ArmIn ds sp.declaration) {label : Value → Bool}
    {b : Bool} {st : CaseStep} (h : boolCase (setup_context ds cfg) n cond specs label b = .ok (some st)) :
    st.Armed text := by
  unfold boolCase at h
  split at h
  · cases h
  · next case_ hcase =>
    split at h
    · cases h
    · next v hv =>
      simp only [GR.bind_eq_ok] at h
      obtain ⟨c, hc, h⟩ := h
      cases h
      obtain ⟨h1, h2⟩ := case_armed htext
        (hl _ (List.mem_of_find?_eq_some hcase) v (List.mem_of_find?_eq_some hv)) hc
      refine ⟨fun w hw => ?_, .inr trivial⟩
      rw [List.mem_singleton] at hw
      subst hw
      exact h1

theorem cases_armed (htext : text = true ∨ NoStrings ds) {b : UnionBody}
    (hl : ∀ l ∈ b.labels, ArmIn ds l.2) {ct : TypeSpecifier} {acc : UnionAcc}
    (h : unionCases (setup_context ds cfg) n b = .ok (ct, acc)) :
    (∀ v ∈ acc.variants, v.Armed text) ∧ (text = true ∨ ∀ c, acc.cond = some c → c.Textless) := by
  have hl' : ∀ sp ∈ b.specs, ∀ v ∈ sp.values, ArmIn ds sp.declaration := by
    intro sp hsp v hv
    exact hl (v, sp.declaration) (List.mem_flatMap.2 ⟨sp, hsp, List.mem_map.2 ⟨v, hv, rfl⟩⟩)
  have hloop : ∀ {cond values steps}, unionIndexed (setup_context ds cfg) n b.specs = .ok values →
      unionLoop (setup_context ds cfg) n cond (sortByKey values) 0 = .ok steps →
      (∀ v ∈ (UnionAcc.ofSteps steps).variants, v.Armed text) ∧
        (text = true ∨ ∀ c, (UnionAcc.ofSteps steps).cond = some c → c.Textless) := by
    intro cond values steps hv hs
    have hst := loop_armed htext (l := sortByKey values) (fun p hp => by
      have hp' := (sortByKey_perm values).mem_iff.1 hp
      obtain ⟨q, hq, h1⟩ := GR.mapM_mem hv hp'
      simp only [GR.bind_eq_ok, GR.ok.injEq] at h1
      obtain ⟨k, -, rfl⟩ := h1
      obtain ⟨sp, hsp, hq⟩ := List.mem_flatMap.1 hq
      obtain ⟨w, hw, rfl⟩ := List.mem_map.1 hq
      exact hl' sp hsp w hw) hs
    refine ⟨fun v hv => ?_, ?_⟩
    · obtain ⟨st, h1, h2⟩ := List.mem_flatMap.1 hv
      exact (hst st h1).1 v h2
    · by_cases ht : text = true
      · exact .inl ht
      · refine .inr fun c hc => ?_
        obtain ⟨st, h1, rfl⟩ := Option.map_eq_some_iff.1 hc
        exact (hst st (List.mem_of_getLast? h1)).2.resolve_left ht
  unfold unionCases at h
  split at h
  · split at h
    · simp only [GR.bind_eq_ok] at h
      obtain ⟨values, hv, steps, hs, h⟩ := h
      cases h
      exact hloop hv hs
    · simp only [GR.bind_eq_ok] at h
      obtain ⟨values, hv, steps, hs, h⟩ := h
      cases h
      exact hloop hv hs
    · simp only [GR.bind_eq_ok] at h
      obtain ⟨f, hf, t, ht, h⟩ := h
      cases h
      have hbr : ∀ s, ∀ v ∈ boolReserved (setup_context ds cfg) s, v.Armed text := by
        intro s v hv
        unfold boolReserved at hv
        split at hv
        · rw [List.mem_singleton] at hv
          subst hv
          exact reserved_armed rfl
        · cases hv
      refine ⟨fun v hv => ?_, .inr fun c hc => ?_⟩
      · rcases List.mem_append.1 hv with hv | hv
        · cases f with
          | none => exact hbr _ v hv
          | some st => exact (bool_armed htext hl' hf).1 v hv
        · cases t with
          | none => exact hbr _ v hv
          | some st => exact (bool_armed htext hl' ht).1 v hv
      · cases hc
        trivial
    · cases h
  · cases h

theorem union_armed (htext : text = true ∨ NoStrings ds) {name nm : Str} {b : UnionBody}
    (hin : .type (.union nm b) ∈ ds) {u : UnionItem}
    (h : convert_union_token (setup_context ds cfg) n name b = .ok u) : u.Armed text := by
  obtain ⟨ct, acc, dflt, -, ha, hd, -, -, hv, hix, hun⟩ := convert_union_ok h
  obtain ⟨h1, h2⟩ := cases_armed htext (fun l hl => ⟨nm, b, l.1, hin, hl⟩) ha
  have hdv : ∀ v, dflt.map (·.1) = some v → v.Armed text ∧ v.name = defaultTok := by
    intro v hv
    cases hb : b.default with
    | none =>
      rw [hb] at hd
      cases hd
      cases hv
    | some d =>
      rw [hb] at hd
      obtain ⟨o, w, ho, hw, -, hn, hf⟩ := unionDefault_some hd
      rw [hw] at hv
      cases hv
      refine ⟨⟨?_, ?_⟩, hn⟩
      · rw [hf, List.length_append]
        have e1 : (if (setup_context ds cfg).config.union_impl_union then acc.cond.toList else []).length ≤ 1 := by
          split
          · cases acc.cond <;> simp
          · simp
        have e2 : (o.map (·.1)).toList.length ≤ 1 := by cases o <;> simp
        omega
      · by_cases ht : text = true
        · exact .inl ht
        · refine .inr fun t hm => ?_
          rw [hf] at hm
          rcases List.mem_append.1 hm with hm | hm
          · split at hm
            · exact h2.resolve_left ht t (Option.mem_toList.1 hm)
            · cases hm
          · obtain ⟨⟨ty, op⟩, rfl, rfl⟩ := Option.map_eq_some_iff.1 (Option.mem_toList.1 hm)
            exact (type_textless htext (.inr (.inr (.inr ⟨nm, b, hin, hb⟩))) ho).resolve_left ht
  have hall : ∀ v ∈ u.variants, v.Armed text := by
    intro v hm
    rw [hv] at hm
    rcases List.mem_append.1 hm with hm | hm
    · exact h1 v hm
    · exact (hdv v (Option.mem_toList.1 hm)).1
  have hdm : b.default.isSome = true → defaultTok ∈ u.variants.map (·.name) := by
    intro hs
    obtain ⟨d, hb⟩ := Option.isSome_iff_exists.1 hs
    rw [hb] at hd
    obtain ⟨o, w, ho, hw, -, hn, hf⟩ := unionDefault_some hd
    rw [hv, List.map_append, hw]
    simp [hn]
  refine ⟨fun v hm => (hall v hm).1, ?_, ?_, ?_⟩
  · by_cases ht : text = true
    · exact .inl ht
    · exact .inr fun v hm => (hall v hm).2.resolve_left ht
  · intro ix h3 ho
    rw [hix] at h3
    split at h3
    · cases h3
      exact hdm ho
    · cases h3
  · intro un h3 ho
    rw [hun] at h3
    split at h3
    · cases h3
      simp only at ho
      split at ho
      · cases ho
      · split at ho
        · next hs => exact hdm hs
        · cases ho
    · cases h3

/-- The code of a generated program does not panic. -/
theorem gen_Ok (hrt : cfg.remove_typedef = true)
    (hcfg : cfg.union_impl_indexer = true → cfg.union_impl_union = false) {file : RustFile}
    (hg : gen_code n ds cfg = .ok file) {defs : List (String × Def)} (hd : file.defs = some defs)
    (htext : text = true ∨ NoStrings ds) : EnvOk (Xdr.program defs) text := by
  have hs := gen_code_Scoped hcfg hg
  intro name d h
  rcases program_origin hd h with ⟨-, rfl⟩ | ⟨i, hi, -, hm⟩
  · exact ⟨⟨trivial, trivial⟩, trivial⟩
  · rcases item_origin hrt hg hi with ⟨nm, as, e, hin, rfl, he⟩ | ⟨nm, ms, s, hin, rfl, hc⟩ | ⟨nm, b, u, hin, rfl, hc⟩
    · exact enum_Ok hs hi hm
    · refine struct_Ok hs hd hi ?_ hm
      by_cases ht : text = true
      · exact .inl ht
      · refine .inr fun f hf => ?_
        obtain ⟨d', hd', h1⟩ := forall₂_mem_right (convert_struct_ok hc).2 hf
        obtain ⟨_, ts, ty, op, -, -, hty, -, h2, -⟩ := convertField_ok h1
        have := (type_textless htext (.inr (.inl ⟨nm, ms, hin, hd'⟩)) hty).resolve_left ht
        rw [h2]
        split
        · exact this
        · exact this
    · exact union_Ok hs hd hi (union_armed htext hin hc) hm

end
end Xdr.Rpcgen
