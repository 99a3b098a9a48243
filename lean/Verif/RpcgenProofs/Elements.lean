import Verif.Spec.NoEmpty
import Verif.Proofs.Linear
import Verif.RpcgenProofs.EveryType
/-!
# Values of generated programs take bytes
-/

namespace Xdr.Rpcgen

/-- No array type in a type is of length 0. -/
def RTy.Full (cs : List ConstItem) : RTy → Prop
  | .array t len _ => (∀ c, arrayLen cs len c ≠ some 0) ∧ t.Full cs
  | .vec t => t.Full cs
  | .option t => t.Full cs
  | .box t => t.Full cs
  | _ => True

section
variable {ds : List Definition} {cfg : Config} {n : Nat}

theorem len_full (hwf : WellFormed ds) {cs : List ConstItem} (hcs : constants_token (setup_context ds cfg) = .ok cs)
    {v : Value} {len : Tok} (hat : ∀ a ∈ v.atoms, a.Ok) (h : LenTok v len) (h0 : ¬ Stands ds v 0) (c : Bool) :
    arrayLen cs len c ≠ some 0 := fun hm => h0 (len_stands hwf hcs hat (lenTok_iff.2 h) hm)

mutual
theorem SpecType.full (hwf : WellFormed ds) (hne : NoEmptyArrays ds) {cs : List ConstItem}
    (hcs : constants_token (setup_context ds cfg) = .ok cs) {drop : Bool} :
    ∀ {ts ty op}, SpecType ds drop ts ty op → ty.Full cs
  | _, _, _, .int | _, _, _, .uint | _, _, _, .hyper | _, _, _, .uhyper | _, _, _, .float
  | _, _, _, .double | _, _, _, .bool | _, _, _, .char | _, _, _, .uchar | _, _, _, .short
  | _, _, _, .ushort => trivial
  | _, _, _, .typedef _ ht h => DeclType.full hwf hne hcs h (.inl (typeOf_mem ht).1)
  | _, _, _, .name _ _ => trivial

theorem DeclType.full (hwf : WellFormed ds) (hne : NoEmptyArrays ds) {cs : List ConstItem}
    (hcs : constants_token (setup_context ds cfg) = .ok cs) {drop : Bool} :
    ∀ {d ty op}, DeclType ds drop d ty op →
      TypedefIn ds d ∨ MemberIn ds d ∨ ArmIn ds d ∨ DefaultIn ds d → ty.Full cs
  | _, _, _, .variable h, _ => SpecType.full hwf hne hcs h
  | _, _, _, .fixedArray h hl, hin => by
    simp only [RTy.Full]
    have hd : DeclIn ds _ := hin.imp id fun h => h.imp id fun h => h.imp id .inl
    exact ⟨len_full hwf hcs (fun a ha => hwf a (declIn_atoms hd a (by simp [Declaration.atoms, ha]))) hl
      (hne _ hin _ _ _ (.inl rfl)), SpecType.full hwf hne hcs h⟩
  | _, _, _, .variableArray h _, _ => by
    simp only [RTy.Full]
    exact SpecType.full hwf hne hcs h
  | _, _, _, .opaqueArray h, _ => by
    simp only [RTy.Full]
  | _, _, _, .opaqueFixed hl, hin => by
    simp only [RTy.Full]
    have hd : DeclIn ds _ := hin.imp id fun h => h.imp id fun h => h.imp id .inl
    exact ⟨len_full hwf hcs (fun a ha => hwf a (declIn_atoms hd a (by simp [Declaration.atoms, ha]))) hl
      (hne _ hin (.int false) _ _ (.inr rfl)), trivial⟩
  | _, _, _, .opaqueVar, _ => by simp only [RTy.Full]
  | _, _, _, .string, _ => trivial
  | _, _, _, .option h, _ => by
    simp only [RTy.Full]
    exact SpecType.full hwf hne hcs h
end

theorem every_full (hwf : WellFormed ds) (hne : NoEmptyArrays ds) {cs : List ConstItem}
    (hcs : constants_token (setup_context ds cfg) = .ok cs) : EveryType ds cfg n (ArmIn ds) (DefaultIn ds) (fun _ => True) (RTy.Full cs) fun _ => True where
  decl _ hin _ _ h := DeclType.full hwf hne hcs (decl_sound h) (.inr (.inr hin))
  cond ts ty _ h := by
    unfold condType at h
    split at h
    · next p hp =>
      cases h
      exact SpecType.full hwf hne hcs (spec_sound (fun h => decl_sound h) hp)
    · split at h
      · simp only [GR.bind_eq_ok, GR.ok.injEq] at h
        obtain ⟨i, -, rfl⟩ := h
        trivial
      · cases h
    · cases h
    · cases h
  bool := trivial
  opaques _ _ _ _ _ _ := ⟨trivial, trivial⟩
  plain := trivial

/-- The fields of the items of a generated file. -/
def Item.Full (cs : List ConstItem) : Item → Prop
  | .struct s => s.fields ≠ [] ∧ ∀ f ∈ s.fields, f.2.2.Full cs
  | .union u => ∀ v ∈ u.variants, v.Each (RTy.Full cs) fun _ => True
  | _ => True

theorem members_ne {s : Str} (h : FileText ds s) {name : Str} {ms : List Declaration}
    (hm : .type (.struct name ms) ∈ ds) : ms ≠ [] := by
  have key : ∀ {ds : List Definition} {t : Str}, DefinitionsText ds t → .type (.struct name ms) ∈ ds → ms ≠ [] := by
    intro ds
    induction ds with
    | nil =>
      intro t _ h
      cases h
    | cons d ds ih =>
      rintro t ⟨t', g, u, h1, -, h2, -⟩ hm
      rcases List.mem_cons.1 hm with rfl | hm
      · obtain ⟨_, _, _, _, _, -, -, -, -, -, h, -⟩ := h1
        exact h
      · exact ih h2 hm
  rcases h with ⟨rfl, -⟩ | ⟨g, t, -, -, h, -⟩
  · cases hm
  · exact key h hm

theorem item_full (hrt : cfg.remove_typedef = true) {s : Str} (ht : FileText ds s) (hne : NoEmptyArrays ds)
    {file : RustFile} (hg : gen_code n ds cfg = .ok file) : ∀ i ∈ file.types, i.Full file.constants := by
  intro i hi
  have hwf := wellFormed_of_text ht
  have hcs := (gen_code_ok.1 hg).1
  have H : EveryType ds cfg n (ArmIn ds) (DefaultIn ds) (fun _ => True) (RTy.Full file.constants) fun _ => True := every_full hwf hne hcs
  rcases item_origin hrt hg hi with ⟨nm, as, e, hin, rfl, he⟩ | ⟨nm, ms, s', hin, rfl, hc⟩ | ⟨nm, b, u, hin, rfl, hc⟩
  · trivial
  · have hf := (convert_struct_ok hc).2
    refine ⟨fun h0 => members_ne ht hin ?_, fun f hf' => ?_⟩
    · rw [h0] at hf
      cases hf
      rfl
    · obtain ⟨d', hd', h1⟩ := forall₂_mem_right hf hf'
      obtain ⟨_, ts, ty, op, -, -, hty, -, h2, -⟩ := convertField_ok h1
      have := DeclType.full hwf hne hcs (decl_sound hty) (.inr (.inl ⟨nm, ms, hin, hd'⟩))
      rw [h2]
      split
      · exact this
      · exact this
  · exact union_each H (fun l hl => ⟨nm, b, l.1, hin, hl⟩) (fun _ _ _ => trivial) (fun d hb => ⟨nm, b, hin, hb⟩) hc

end

/-! ## The types -/

/-- Elements of lists take four bytes or more; no maps. -/
def _root_.Xdr.Ty.Elems (env : Env) : Ty → Prop
  | .option t => t.Elems env
  | .vec t => Sized env t ∧ t.Elems env
  | .array _ t => t.Elems env
  | .tuple _ => False
  | .map _ _ => False
  | _ => True

theorem sized_pos {env : Env} {k : Nat} {t : Ty} (hk : k ≠ 0) (h : Sized env t) : Sized env (.array k t) := by
  obtain ⟨j, rfl⟩ := Nat.exists_eq_succ_of_ne_zero hk
  exact .array h

theorem meaning_Sized {env : Env} {cs : List ConstItem} {rty : RTy} {t : Ty} (h : rty.meaning cs = some t)
    (hf : rty.Full cs) (hva : Sized env (.named variableArrayName))
    (hp : ∀ p ∈ rty.bares, p.str ∈ t.bare → Sized env (.named p.str)) : Sized env t := by
  induction rty generalizing t with
  | array ty len c ih =>
    simp only [RTy.meaning, Option.bind_eq_some_iff] at h
    obtain ⟨t', h1, h2⟩ := h
    obtain ⟨k, hk, -, rfl⟩ := arrayTy_some h2
    exact sized_pos (fun h0 => hf.1 c (by rw [hk, h0])) (ih h1 hf.2 fun p h h' => hp p h (by simpa only [Ty.bare] using h'))
  | vec ty ih =>
    simp only [RTy.meaning, Option.map_eq_some_iff] at h
    obtain ⟨t', h1, rfl⟩ := h
    exact .vec _
  | option ty ih =>
    simp only [RTy.meaning, Option.map_eq_some_iff] at h
    obtain ⟨t', h1, rfl⟩ := h
    exact .option _
  | box ty ih => exact ih h hf hp
  | path i =>
    cases h
    exact hp i (by simp [RTy.bares]) (by simp [Ty.bare])
  | variableArray =>
    cases h
    exact hva
  | _ =>
    cases h
    constructor

theorem field_Sized {env : Env} {cs : List ConstItem} {enums : List EnumItem} {a : Attr} {rty : RTy} {t : Ty}
    (h : fieldMeaning cs enums a rty = some t) (hf : rty.Full cs) (hva : Sized env (.named variableArrayName))
    (hp : ∀ p ∈ rty.bares, p.str ∈ t.bare → Sized env (.named p.str)) : Sized env t := by
  unfold fieldMeaning at h
  split at h
  · exact meaning_Sized h hf hva hp
  · next len cast =>
    obtain ⟨k, hk, -, rfl⟩ := arrayTy_some h
    have : k ≠ 0 := fun h0 => hf.1 cast (by rw [hk, h0])
    obtain ⟨j, rfl⟩ := Nat.exists_eq_succ_of_ne_zero this
    exact .opaqueFixed
  · cases h
    exact .opaqueVar
  · split at h
    · split at h
      · cases h
        exact .signed32 _ _
      · cases h
    · cases h
  · cases h

theorem bares_paths {t : RTy} {i : RIdent} (h : i ∈ t.bares) : i ∈ t.paths := by
  induction t with
  | array t len c ih => exact ih h
  | box t ih => exact ih h
  | path j => exact h
  | _ => cases h

theorem meaning_Elems {env : Env} {cs : List ConstItem} {rty : RTy} {t : Ty} (h : rty.meaning cs = some t)
    (hf : rty.Full cs) (hva : Sized env (.named variableArrayName))
    (hp : ∀ p ∈ rty.paths, Sized env (.named p.str)) : t.Elems env := by
  induction rty generalizing t with
  | array ty len c ih =>
    simp only [RTy.meaning, Option.bind_eq_some_iff] at h
    obtain ⟨t', h1, h2⟩ := h
    obtain ⟨k, hk, -, rfl⟩ := arrayTy_some h2
    simp only [Ty.Elems]
    exact ih h1 hf.2 hp
  | vec ty ih =>
    simp only [RTy.meaning, Option.map_eq_some_iff] at h
    obtain ⟨t', h1, rfl⟩ := h
    simp only [Ty.Elems]
    exact ⟨meaning_Sized h1 hf hva fun p hp' _ => hp p (bares_paths (t := ty) hp'), ih h1 hf hp⟩
  | option ty ih =>
    simp only [RTy.meaning, Option.map_eq_some_iff] at h
    obtain ⟨t', h1, rfl⟩ := h
    simp only [Ty.Elems]
    exact ih h1 hf hp
  | box ty ih => exact ih h hf hp
  | _ =>
    cases h
    simp only [Ty.Elems]

theorem field_Elems {env : Env} {cs : List ConstItem} {enums : List EnumItem} {a : Attr} {rty : RTy} {t : Ty}
    (h : fieldMeaning cs enums a rty = some t) (hf : rty.Full cs) (hva : Sized env (.named variableArrayName))
    (hp : ∀ p ∈ rty.paths, Sized env (.named p.str)) : t.Elems env := by
  unfold fieldMeaning at h
  split at h
  · exact meaning_Elems h hf hva hp
  · obtain ⟨k, hk, -, rfl⟩ := arrayTy_some h
    simp only [Ty.Elems]
  · cases h
    simp only [Ty.Elems]
  · split at h
    · split at h
      · cases h
        simp only [Ty.Elems]
      · cases h
    · cases h
  · cases h

theorem tys_each {cs : List ConstItem} {rts : List RTy} {ts : List Ty} (h : tysMeaning cs rts = some ts) :
    ∀ t ∈ ts, ∃ r ∈ rts, r.meaning cs = some t := by
  induction rts generalizing ts with
  | nil =>
    cases h
    simp
  | cons r rts ih =>
    simp only [tysMeaning] at h
    split at h
    · next t ts' h1 h2 =>
      cases h
      intro t' ht'
      rcases List.mem_cons.1 ht' with rfl | ht'
      · exact ⟨r, List.mem_cons_self, h1⟩
      · obtain ⟨r', h3, h4⟩ := ih h2 t' ht'
        exact ⟨r', List.mem_cons_of_mem _ h3, h4⟩
    · cases h

section
variable {file : RustFile} {defs : List (String × Def)}

theorem variableArray_Sized (hva : Xdr.program defs variableArrayName = some variableArrayDef) :
    Sized (Xdr.program defs) (.named variableArrayName) := .struct hva (.head .opaqueVar)

theorem enum_Sized {x : String} {e : EnumItem} {d : Def} (h : e.meaning = some d)
    (hx : Xdr.program defs x = some d) : Sized (Xdr.program defs) (.named x) := by
  unfold EnumItem.meaning at h
  split at h
  · split at h
    · simp only [Option.map_eq_some_iff] at h
      obtain ⟨ix, -, rfl⟩ := h
      exact .indexer hx
    · cases h
      exact .enum hx
  · cases h

/-- Every value of a generated type takes four bytes or more. -/
theorem named_Sized (hd : file.defs = some defs) (hva : Xdr.program defs variableArrayName = some variableArrayDef)
    (hguarded : ∀ x, ¬ Relation.TransGen (Refers (Xdr.program defs)) x x)
    (hfull : ∀ i ∈ file.types, i.Full file.constants) (x : String) (hs : (Xdr.program defs x).isSome) :
    Sized (Xdr.program defs) (.named x) := by
  generalize hr : reachRank defs x = r
  induction r using Nat.strongRecOn generalizing x with
  | ind r ih =>
    obtain ⟨d, hx⟩ := Option.isSome_iff_exists.1 hs
    rcases program_origin hd hx with ⟨rfl, rfl⟩ | ⟨i, hi, hn, hm⟩
    · exact variableArray_Sized hva
    · cases i with
      | «alias» n t => cases hm
      | enum e => exact enum_Sized hm hx
      | struct s =>
        have hp := (namesOk_iff.1 (defs_ok hd).1).2.2.1 _ hi
        obtain ⟨hne, hf⟩ := hfull _ hi
        simp only [Item.meaning, StructItem.meaning] at hm
        split at hm
        · simp only [Option.map_eq_some_iff] at hm
          obtain ⟨fs, h3, rfl⟩ := hm
          refine .struct hx ?_
          have hall := fieldsMeaning_each h3
          obtain ⟨f, l, hl⟩ := List.exists_cons_of_ne_nil hne
          rw [hl] at hall
          obtain ⟨p, l', ⟨-, -, h4⟩, -, rfl⟩ := List.forall₂_cons_left_iff.1 hall
          refine .head ?_
          have hfm : f ∈ s.fields := by rw [hl]; exact List.mem_cons_self
          refine field_Sized h4 (hf f hfm) (variableArray_Sized hva) fun q hq hq1 => ?_
          have hq' : (Xdr.program defs q.str).isSome := path_defined hd (hp q (by
            simp only [Item.paths, List.mem_flatMap]
            exact ⟨f, hfm, bares_paths hq⟩))
          refine ih _ ?_ q.str hq' rfl
          rw [← hr]
          refine reachRank_lt hguarded ⟨_, hx, ?_⟩ hq'
          simp only [Def.bare, List.map_cons, baresOf, List.mem_append]
          exact .inl hq1
        · cases hm
      | union u =>
        obtain ⟨-, ⟨hder, vars, h1, rfl⟩ | ⟨hder, ix, vars, hix, h1, -, -, -, rfl⟩ |
          ⟨hder, un, vars, cond, dt, hun, h1, hcond, hfit, hhead, -, hne, hdt, rfl⟩⟩ := union_meaning_ok hm
        · exact .enum hx
        · exact .indexer hx
        · exact .union hx (disc_Sized hd (program_mem hx))

theorem disc_Simple (hd : file.defs = some defs) {x : String} {disc : Ty} {vars : List (String × Option (List Ty))}
    {impl : UnionImpl} (hx : Xdr.program defs x = some (.union disc vars impl)) : disc.Simple (Xdr.program defs) := by
  rcases program_origin hd hx with ⟨-, h⟩ | ⟨i, hi, hn, hm⟩
  · cases h
  · cases i with
    | «alias» n t => cases hm
    | enum e =>
      have := enum_bare hm
      simp only [Item.meaning, EnumItem.meaning] at hm
      split at hm
      · split at hm
        · simp at hm
        · cases hm
      · cases hm
    | struct s =>
      simp only [Item.meaning, StructItem.meaning] at hm
      split at hm
      · simp at hm
      · cases hm
    | union u =>
      obtain ⟨-, ⟨hder, vars, h1, h⟩ | ⟨hder, ix, vars, hix, h1, -, -, -, h⟩ |
        ⟨hder, un, vars, cond, dt, hun, h1, hcond, hfit, hhead, -, hne, hdt, h⟩⟩ := union_meaning_ok hm
      · cases h
      · cases h
      · cases h
        rcases cond_cases hne hfit with rfl | rfl | ⟨e, c, he, rfl⟩
        · cases hdt
          simp only [Ty.Simple]
        · cases hdt
          simp only [Ty.Simple]
        · cases hdt
          obtain ⟨d, h2, h3⟩ := defs_lookup hd (find_enum he)
          have hn : e.name = c := by simpa using List.find?_some he
          simp only [Item.name, hn] at h3
          simp only [Item.meaning, EnumItem.meaning] at h2
          split at h2
          · split at h2
            · simp only [Option.map_eq_some_iff] at h2
              obtain ⟨ix, -, rfl⟩ := h2
              simp only [Ty.Simple, h3]
            · cases h2
              simp only [Ty.Simple, h3]
          · cases h2

theorem variants_Elems {cs : List ConstItem} {vs : List Variant} {vars : List (String × Option (List Ty))}
    (h : variantsMeaning (·.types cs) vs = some vars) {w : String × Option (List Ty)} (hw : w ∈ vars) {t : Ty}
    (ht : t ∈ w.2.getD []) : ∃ v ∈ vs, ∃ r ∈ v.fields, r.meaning cs = some t := by
  obtain ⟨v, hv, i, -, -, -, h⟩ := forall₂_mem_right (variantsMeaning_ok h) hw
  unfold Variant.types at h
  split at h
  · split at h
    · simp only [Option.some.injEq] at h
      rw [← h] at ht
      cases ht
    · simp only [Option.map_eq_some_iff] at h
      obtain ⟨ts, h1, h2⟩ := h
      rw [← h2] at ht
      obtain ⟨r, h3, h4⟩ := tys_each h1 t ht
      exact ⟨v, hv, r, h3, h4⟩
  · cases h

/-- Lists in generated types have elements that take four bytes or more. -/
theorem types_Elems (hd : file.defs = some defs) (hva : Xdr.program defs variableArrayName = some variableArrayDef)
    (hguarded : ∀ x, ¬ Relation.TransGen (Refers (Xdr.program defs)) x x)
    (hfull : ∀ i ∈ file.types, i.Full file.constants) {x : String} {d : Def} (hx : Xdr.program defs x = some d) :
    ∀ t ∈ d.types, t.Elems (Xdr.program defs) := by
  have hva' := variableArray_Sized hva
  have hnamed : ∀ q ∈ file.types.map Item.name, Sized (Xdr.program defs) (.named q.str) := fun q hq =>
    named_Sized hd hva hguarded hfull _ (path_defined hd hq)
  rcases program_origin hd hx with ⟨rfl, rfl⟩ | ⟨i, hi, hn, hm⟩
  · simp [variableArrayDef, Def.types, Ty.Elems]
  · have hp := (namesOk_iff.1 (defs_ok hd).1).2.2.1 _ hi
    cases i with
    | «alias» n t => cases hm
    | enum e =>
      simp only [Item.meaning, EnumItem.meaning] at hm
      intro t ht
      split at hm
      · split at hm
        · simp only [Option.map_eq_some_iff] at hm
          obtain ⟨ix, -, rfl⟩ := hm
          simp only [Def.types, List.mem_flatMap, List.mem_map] at ht
          obtain ⟨_, ⟨v, -, rfl⟩, ht⟩ := ht
          cases ht
        · cases hm
          simp only [Def.types, List.mem_flatMap, List.mem_map] at ht
          obtain ⟨_, ⟨v, -, rfl⟩, ht⟩ := ht
          cases ht
      · cases hm
    | struct s =>
      obtain ⟨-, hf⟩ := hfull _ hi
      simp only [Item.meaning, StructItem.meaning] at hm
      split at hm
      · simp only [Option.map_eq_some_iff] at hm
        obtain ⟨fs, h1, rfl⟩ := hm
        intro t ht
        simp only [Def.types, List.mem_map] at ht
        obtain ⟨p, hp1, rfl⟩ := ht
        obtain ⟨f, hfm, -, -, h2⟩ := forall₂_mem_right (fieldsMeaning_each h1) hp1
        refine field_Elems h2 (hf f hfm) hva' fun q hq => hnamed q (hp q ?_)
        simp only [Item.paths, List.mem_flatMap]
        exact ⟨f, hfm, hq⟩
      · cases hm
    | union u =>
      have hf : ∀ v ∈ u.variants, ∀ r ∈ v.fields, r.Full file.constants := fun v hv => (hfull _ hi v hv).2
      have hpv : ∀ v ∈ u.variants, ∀ r ∈ v.fields, ∀ q ∈ r.paths, Sized (Xdr.program defs) (.named q.str) := by
        intro v hv r hr q hq
        refine hnamed q (hp q ?_)
        simp only [Item.paths, List.mem_flatMap]
        exact ⟨v, hv, r, hr, hq⟩
      obtain ⟨-, ⟨hder, vars, h1, rfl⟩ | ⟨hder, ix, vars, hix, h1, -, -, -, rfl⟩ |
        ⟨hder, un, vars, cond, dt, hun, h1, hcond, hfit, hhead, -, hne, hdt, rfl⟩⟩ := union_meaning_ok hm
      · intro t ht
        simp only [Def.types, List.mem_flatMap] at ht
        obtain ⟨w, hw, ht⟩ := ht
        obtain ⟨v, hv, i, -, -, -, hsh⟩ := forall₂_mem_right (variantsMeaning_ok h1) hw
        unfold Variant.shape at hsh
        split at hsh
        · simp only [Option.some.injEq] at hsh
          rw [← hsh] at ht
          cases ht
        · next r hr =>
          simp only [Option.map_eq_some_iff] at hsh
          obtain ⟨t', h2, h3⟩ := hsh
          rw [← h3] at ht
          simp only [Shape.types, List.mem_singleton] at ht
          subst ht
          have hr' : r ∈ v.fields := by rw [hr]; exact List.mem_cons_self
          exact field_Elems h2 (hf v hv r hr') hva' (hpv v hv r hr')
        · cases hsh
      · intro t ht
        simp only [Def.types, List.mem_flatMap] at ht
        obtain ⟨w, hw, ht⟩ := ht
        obtain ⟨v, hv, r, hr, h2⟩ := variants_Elems h1 hw ht
        exact meaning_Elems h2 (hf v hv r hr) hva' (hpv v hv r hr)
      · intro t ht
        simp only [Def.types, List.mem_cons, List.mem_flatMap] at ht
        rcases ht with rfl | ⟨w, hw, ht⟩
        · rcases cond_cases hne hfit with rfl | rfl | ⟨e, c, he, rfl⟩ <;> cases hdt <;> simp only [Ty.Elems]
        · obtain ⟨v, hv, r, hr, h2⟩ := variants_Elems h1 hw ht
          exact meaning_Elems h2 (hf v hv r hr) hva' (hpv v hv r hr)

theorem elements_sized {env : Env} (h : ∀ x d, env x = some d → ∀ t ∈ d.types, t.Elems env) (x : String) :
    ElementsSized env (.named x) := by
  have key : ∀ u, Xdr.Reaches env (.named x) u → u.Elems env := by
    intro u hu
    induction hu with
    | refl => simp only [Ty.Elems]
    | @tail u w _ hw ih =>
      cases u with
      | named name =>
        simp only [Ty.parts] at hw
        split at hw
        · cases hw
        · next d hd => exact h name d hd w hw
      | tuple ts => simp only [Ty.Elems] at ih
      | map k v => simp only [Ty.Elems] at ih
      | vec t =>
        simp only [Ty.parts, List.mem_singleton] at hw
        subst hw
        simp only [Ty.Elems] at ih
        exact ih.2
      | option t =>
        simp only [Ty.parts, List.mem_singleton] at hw
        subst hw
        simpa only [Ty.Elems] using ih
      | array n t =>
        simp only [Ty.parts, List.mem_singleton] at hw
        subst hw
        simpa only [Ty.Elems] using ih
      | _ => cases hw
  refine ⟨fun e he => ?_, fun k v hkv => ?_⟩
  · have := key _ he
    simp only [Ty.Elems] at this
    exact this.1
  · have := key _ hkv
    simp only [Ty.Elems] at this

end

end Xdr.Rpcgen
