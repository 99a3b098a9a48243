import Verif.Spec.Uses
import Verif.Rpcgen.Gen
/-! # What the code for a definition depends on -/

namespace Xdr.Rpcgen

/-- Two contexts in which the names in `S` have the same meaning; what they stand for uses names in `S`
only. -/
structure SameFor (S : Str → Prop) (c c' : Context) : Prop where
  config : c'.config = c.config
  consts : ∀ n, S n → (c'.constants.find? fun x => x.1 == n).map (·.2) =
    (c.constants.find? fun x => x.1 == n).map (·.2)
  members : ∀ n, S n → (c'.typedefs.findSome? fun d => enumMember n d.2) =
    c.typedefs.findSome? fun d => enumMember n d.2
  types : ∀ n, S n → (c'.typedefs.find? fun d => d.1 == n) = c.typedefs.find? fun d => d.1 == n
  enums : ∀ n, S n → c'.is_enum_type (.identifier n) = c.is_enum_type (.identifier n)
  constsIn : ∀ n v, S n → (c.constants.find? fun x => x.1 == n).map (·.2) = some v →
    ∀ m ∈ v.uses, S m
  membersIn : ∀ n v, S n → (c.typedefs.findSome? fun d => enumMember n d.2) = some v →
    ∀ m ∈ v.uses, S m
  typesIn : ∀ n m d, S n → (c.typedefs.find? fun d => d.1 == n) = some (m, .declaration d) →
    ∀ k ∈ d.uses, S k

section
variable {S : Str → Prop} {c c' : Context}

theorem resolveFound_congr {rn rn' : Str → GR Int} (h : ∀ n, S n → rn' n = rn n) (t : IntTy)
    (name : Str) (o : Option Value) (ho : ∀ v, o = some v → ∀ m ∈ v.uses, S m) :
    resolveFound rn' t name o = resolveFound rn t name o := by
  cases o with
  | none => rfl
  | some v =>
    cases v with
    | constant k => rfl
    | identifier m => exact h m (ho _ rfl m (by simp [Value.uses]))

theorem SameFor.resolve_name (h : SameFor S c c') (t : IntTy) : ∀ (n : Nat) (name : Str), S name →
    c'.resolve_name t n name = c.resolve_name t n name
  | 0, _, _ => rfl
  | n + 1, name, hs => by
    unfold Context.resolve_name
    rw [h.consts name hs, h.members name hs,
      resolveFound_congr (h.resolve_name t n) t name _ fun v hv => h.constsIn name v hs hv,
      resolveFound_congr (h.resolve_name t n) t name _ fun v hv => h.membersIn name v hs hv]

theorem SameFor.resolve_value (h : SameFor S c c') (t : IntTy) (n : Nat) (v : Value)
    (hv : ∀ m ∈ v.uses, S m) : c'.resolve_value t n v = c.resolve_value t n v := by
  cases v with
  | constant k => rfl
  | identifier m => exact h.resolve_name t n m (hv m (by simp [Value.uses]))

theorem SameFor.is_enum (h : SameFor S c c') (ts : TypeSpecifier) (hs : ∀ m ∈ ts.uses, S m) :
    c'.is_enum_type ts = c.is_enum_type ts := by
  cases ts with
  | identifier m => exact h.enums m (hs m (by simp [TypeSpecifier.uses]))
  | _ => rfl

theorem SameFor.primitive (h : SameFor S c c') {ct ct' : Declaration → GR (Option (RTy × OpaqueType))}
    (hct : ∀ d : Declaration, (∀ m ∈ d.uses, S m) → ct' d = ct d) (ts : TypeSpecifier)
    (hs : ∀ m ∈ ts.uses, S m) :
    convert_primitive_token ct' c' ts = convert_primitive_token ct c ts := by
  cases ts with
  | identifier m =>
    have hm : S m := hs m (by simp [TypeSpecifier.uses])
    simp only [convert_primitive_token, resolve_type_token]
    rw [h.config, h.types m hm]
    split
    · rfl
    · cases hf : c.typedefs.find? fun d => d.1 == m with
      | none => rfl
      | some p =>
        obtain ⟨k, td⟩ := p
        cases td with
        | declaration d =>
          dsimp only
          rw [hct d (h.typesIn m k d hm hf)]
        | _ => rfl
  | _ => rfl

theorem SameFor.type_token (h : SameFor S c c') : ∀ (n : Nat) (d : Declaration), (∀ m ∈ d.uses, S m) →
    convert_type_token c' n d = convert_type_token c n d
  | 0, _, _ => rfl
  | n + 1, d, hd => by
    unfold convert_type_token
    have hp := fun ts => h.primitive (h.type_token n) ts
    cases d with
    | «variable» ts _ => simp only [convertTypeWith]; rw [hp ts hd]
    | fixedArray ts _ _ => simp only [convertTypeWith]; rw [hp ts hd]
    | variableArray ts _ _ => simp only [convertTypeWith]; rw [hp ts hd]
    | optionVariable ts _ => simp only [convertTypeWith]; rw [hp ts hd]
    | _ => rfl

theorem mapM_congr {α β : Type} {f g : α → GR β} : ∀ {l : List α}, (∀ a ∈ l, f a = g a) →
    GR.mapM f l = GR.mapM g l
  | [], _ => rfl
  | a :: l, h => by
    simp only [GR.mapM]
    rw [h a (by simp), mapM_congr fun b hb => h b (by simp [hb])]

theorem SameFor.enum_token (h : SameFor S c c') (n : Nat) (name : Str) (members : List Assign)
    (hm : ∀ a ∈ members, ∀ m ∈ a.value.uses, S m) :
    convert_enum_token c' n name members = convert_enum_token c n name members := by
  unfold convert_enum_token enumIndexed
  rw [mapM_congr fun a ha => by rw [h.resolve_value .i32 n a.value (hm a ha)], h.config]

theorem SameFor.field (h : SameFor S c c') (n : Nat) (name : Str) (d : Declaration)
    (hd : ∀ m ∈ d.uses, S m) : convertField c' n name d = convertField c n name d := by
  unfold convertField
  have he : ∀ ts, d.type_specifier = some ts → c'.is_enum_type ts = c.is_enum_type ts := by
    intro ts hts
    refine h.is_enum ts fun m hm => hd m ?_
    unfold Declaration.uses
    rw [hts]
    exact hm
  split
  · next f ts hn hts =>
    rw [h.type_token n d hd, h.config, he ts hts]
  · rfl

theorem SameFor.struct_token (h : SameFor S c c') (n : Nat) (name : Str) (ds : List Declaration)
    (hd : ∀ d ∈ ds, ∀ m ∈ d.uses, S m) :
    convert_struct_token c' n name ds = convert_struct_token c n name ds := by
  unfold convert_struct_token
  rw [mapM_congr fun d hm => h.field n name d (hd d hm)]

theorem SameFor.case_token (h : SameFor S c c') (n : Nat) (v : Value) (d : Declaration)
    (ts : TypeSpecifier) (hd : ∀ m ∈ d.uses, S m) (hts : ∀ m ∈ ts.uses, S m) :
    convert_case_token c' n v d ts = convert_case_token c n v d ts := by
  unfold convert_case_token condType
  rw [h.primitive (h.type_token n) ts hts, h.type_token n d hd, h.config]

theorem SameFor.byValue (h : SameFor S c c') (ts : TypeSpecifier) (hts : ∀ m ∈ ts.uses, S m) (e : Int)
    (v : Value) (x : Tok) : caseByValue c' ts e v x = caseByValue c ts e v x := by
  unfold caseByValue
  rw [h.is_enum ts hts]

theorem SameFor.loop (h : SameFor S c c') (n : Nat) (ts : TypeSpecifier) (hts : ∀ m ∈ ts.uses, S m) :
    ∀ (l : List (Int × Declaration × Value)) (s : Int), (∀ x ∈ l, ∀ m ∈ x.2.1.uses, S m) →
    unionLoop c' n ts l s = unionLoop c n ts l s
  | [], _, _ => rfl
  | (e, d, v) :: l, s, hl => by
    unfold unionLoop
    rw [h.config, h.case_token n v d ts (hl (e, d, v) (by simp)) hts]
    simp only [h.byValue ts hts, h.loop n ts hts l _ fun x hx => hl x (by simp [hx])]

theorem insertByKey_mem {α : Type} {x y : Int × α} : ∀ {l : List (Int × α)},
    y ∈ insertByKey x l → y = x ∨ y ∈ l
  | [], h => by simpa [insertByKey] using h
  | z :: l, h => by
    simp only [insertByKey] at h
    split at h
    · simpa using h
    · rcases List.mem_cons.mp h with h | h
      · exact .inr (by simp [h])
      · rcases insertByKey_mem h with h | h
        · exact .inl h
        · exact .inr (by simp [h])

theorem foldInsert_mem {α : Type} {y : Int × α} : ∀ (l acc : List (Int × α)),
    y ∈ l.foldl (fun acc x => insertByKey x acc) acc → y ∈ l ∨ y ∈ acc
  | [], _, h => .inr h
  | x :: l, acc, h => by
    rcases foldInsert_mem l _ h with h | h
    · exact .inl (by simp [h])
    · rcases insertByKey_mem h with h | h
      · exact .inl (by simp [h])
      · exact .inr h

theorem mapM_mem {α β : Type} {f : α → GR β} : ∀ {l : List α} {bs : List β},
    GR.mapM f l = .ok bs → ∀ b ∈ bs, ∃ a ∈ l, f a = .ok b
  | [], bs, h, b, hb => by
    simp only [GR.mapM, GR.ok.injEq] at h
    subst h
    simp at hb
  | a :: l, bs, h, b, hb => by
    obtain ⟨b1, bs1, h1, h2, rfl⟩ := GR.mapM_cons_ok.mp h
    rcases List.mem_cons.mp hb with rfl | hb
    · exact ⟨a, by simp, h1⟩
    · obtain ⟨a', ha', h'⟩ := mapM_mem h2 b hb
      exact ⟨a', by simp [ha'], h'⟩

theorem SameFor.boolCase (h : SameFor S c c') (n : Nat) (ts : TypeSpecifier) (hts : ∀ m ∈ ts.uses, S m)
    (specs : List CaseSpec) (hs : ∀ s ∈ specs, ∀ m ∈ s.declaration.uses, S m) (label : Value → Bool)
    (b : Bool) : boolCase c' n ts specs label b = boolCase c n ts specs label b := by
  unfold Rpcgen.boolCase
  cases hf : specs.find? fun s => s.values.any label with
  | none => rfl
  | some k =>
    dsimp only
    cases k.values.find? label with
    | none => rfl
    | some v =>
      dsimp only
      rw [h.case_token n v k.declaration ts (hs k (List.mem_of_find?_eq_some hf)) hts]

theorem SameFor.union_token (h : SameFor S c c') (n : Nat) (name : Str) (body : UnionBody)
    (hc : ∀ m ∈ body.cond.uses, S m)
    (hs : ∀ s ∈ body.specs, (∀ v ∈ s.values, ∀ m ∈ v.uses, S m) ∧ ∀ m ∈ s.declaration.uses, S m)
    (hd : ∀ d, body.default = some d → ∀ m ∈ d.uses, S m) :
    convert_union_token c' n name body = convert_union_token c n name body := by
  have hidx : unionIndexed c' n body.specs = unionIndexed c n body.specs := by
    unfold unionIndexed
    refine mapM_congr fun x hx => ?_
    obtain ⟨s, hsm, hx⟩ := List.mem_flatMap.mp hx
    obtain ⟨v, hv, rfl⟩ := List.mem_map.mp hx
    dsimp only
    rw [h.resolve_value .u32 n v ((hs s hsm).1 v hv)]
  have hloop : ∀ ts, (∀ m ∈ ts.uses, S m) → ∀ values, unionIndexed c n body.specs = .ok values →
      unionLoop c' n ts (sortByKey values) 0 = unionLoop c n ts (sortByKey values) 0 := by
    intro ts hts values hv
    refine h.loop n ts hts _ _ fun x hx => ?_
    rcases foldInsert_mem values [] hx with hx | hx
    · obtain ⟨⟨d, v⟩, ha, hb⟩ := mapM_mem hv x hx
      obtain ⟨s, hsm, ha⟩ := List.mem_flatMap.mp ha
      obtain ⟨w, hw, he⟩ := List.mem_map.mp ha
      cases he
      obtain ⟨k, _, hk⟩ := GR.bind_eq_ok.mp hb
      cases hk
      exact (hs s hsm).2
    · simp at hx
  have hcases : unionCases c' n body = unionCases c n body := by
    unfold unionCases
    cases hcond : body.cond with
    | «variable» ts _ =>
      rw [hcond] at hc
      have hts : ∀ m ∈ ts.uses, S m := hc
      have hnum : ((unionIndexed c' n body.specs).bind fun values =>
          (unionLoop c' n ts (sortByKey values) 0).bind fun steps =>
          GR.ok (ts, UnionAcc.ofSteps steps)) =
          ((unionIndexed c n body.specs).bind fun values =>
          (unionLoop c n ts (sortByKey values) 0).bind fun steps =>
          GR.ok (ts, UnionAcc.ofSteps steps)) := by
        rw [hidx]
        cases hu : unionIndexed c n body.specs with
        | ok values =>
          simp only [GR.bind]
          rw [hloop ts hts values hu]
        | _ => rfl
      cases ts with
      | int s => exact hnum
      | identifier s => exact hnum
      | bool =>
        dsimp only
        rw [h.boolCase n .bool hts body.specs (fun s hsm => (hs s hsm).2),
          h.boolCase n .bool hts body.specs (fun s hsm => (hs s hsm).2)]
        simp only [boolReserved, h.config]
      | _ => rfl
    | _ => rfl
  have hdef : ∀ cond, unionDefault c' n cond body.default = unionDefault c n cond body.default := by
    intro cond
    cases hb : body.default with
    | none => rfl
    | some d =>
      simp only [unionDefault]
      rw [h.type_token n d (hd d hb), h.config]
  unfold convert_union_token
  rw [hcases, h.config]
  simp only [hdef]

/-- The code for a type definition that uses names in `S` only. -/
theorem SameFor.typeToken (h : SameFor S c c') (n : Nat) (name : Str) (td : TypeDef)
    (hu : ∀ m ∈ (Definition.type td).uses, S m) :
    typeToken c' n name td = typeToken c n name td := by
  cases td with
  | declaration d =>
    simp only [Rpcgen.typeToken]
    rw [h.config, h.type_token n d hu]
  | enum nm members =>
    simp only [Rpcgen.typeToken]
    rw [h.enum_token n name members fun a ha m hm => hu m (List.mem_flatMap.mpr ⟨a, ha, hm⟩)]
  | struct nm ds =>
    simp only [Rpcgen.typeToken]
    rw [h.struct_token n name ds fun d hd m hm => hu m (List.mem_flatMap.mpr ⟨d, hd, hm⟩)]
  | union nm body =>
    simp only [Rpcgen.typeToken]
    simp only [Definition.uses, List.mem_append] at hu
    rw [h.union_token n name body (fun m hm => hu m (.inl (.inl hm)))
      (fun s hs => ⟨fun v hv m hm => hu m (.inl (.inr (List.mem_flatMap.mpr ⟨s, hs,
          List.mem_append.mpr (.inl (List.mem_flatMap.mpr ⟨v, hv, hm⟩))⟩))),
        fun m hm => hu m (.inl (.inr (List.mem_flatMap.mpr ⟨s, hs,
          List.mem_append.mpr (.inr hm)⟩)))⟩)
      (fun d hd m hm => hu m (.inr (by rw [hd]; simpa using hm)))]

end

/-! ## Contexts of definitions -/

/-- What `setup_context` keeps of a constant definition. -/
def keptConst : Definition → Option (Str × Value)
  | .constant a => some (a.identifier, a.value)
  | _ => none

/-- What `setup_context` keeps of a type definition. -/
def keptType : Definition → Option (Str × TypeDef)
  | .type td =>
    match td with
    | .declaration decl => decl.name.map fun name => (name, td)
    | .enum name _ => some (name, td)
    | .struct name _ => some (name, td)
    | .union name _ => some (name, td)
  | _ => none

theorem setup_constants (ds : List Definition) (cfg : Config) :
    (setup_context ds cfg).constants = ds.filterMap keptConst := rfl

theorem setup_typedefs (ds : List Definition) (cfg : Config) :
    (setup_context ds cfg).typedefs = ds.filterMap keptType := rfl

theorem keptConst_some {d : Definition} {x : Str × Value} (h : keptConst d = some x) :
    d = .constant ⟨x.1, x.2⟩ := by
  cases d with
  | constant a => cases h; rfl
  | _ => simp [keptConst] at h

theorem keptType_some {d : Definition} {x : Str × TypeDef} (h : keptType d = some x) :
    d = .type x.2 ∧ x.1 ∈ d.defines ∧ x.1 ∈ d.typeName := by
  cases d with
  | type td =>
    cases td with
    | declaration decl =>
      simp only [keptType, Option.map_eq_some_iff] at h
      obtain ⟨nm, hn, rfl⟩ := h
      simp [Definition.defines, Definition.typeName, hn]
    | enum _ _ => cases h; simp [Definition.defines, Definition.typeName]
    | struct _ _ => cases h; simp [Definition.defines, Definition.typeName]
    | union _ _ => cases h; simp [Definition.defines, Definition.typeName]
  | _ => simp [keptType] at h

theorem enumMember_some {name : Str} {td : TypeDef} {v : Value} (h : enumMember name td = some v) :
    ∃ nm members, td = .enum nm members ∧ ⟨name, v⟩ ∈ members := by
  cases td with
  | enum nm members =>
    simp only [enumMember, Option.map_eq_some_iff] at h
    obtain ⟨a, ha, rfl⟩ := h
    have hm := List.mem_of_find?_eq_some ha
    have hp := List.find?_some ha
    simp only [beq_iff_eq] at hp
    subst hp
    exact ⟨nm, members, rfl, hm⟩
  | _ => simp [enumMember] at h

/-- Names used in a list of definitions. -/
def UsedIn (ds : List Definition) (n : Str) : Prop := ∃ d ∈ ds, n ∈ d.uses

/-- Two lists of definitions in which the names used in the first one are found in the same places. -/
theorem sameFor_of {ds ds' : List Definition} (cfg : Config)
    (hc : ∀ n, UsedIn ds n → (ds'.filterMap keptConst).find? (fun x => x.1 == n) =
      (ds.filterMap keptConst).find? (fun x => x.1 == n))
    (hm : ∀ n, UsedIn ds n → (ds'.filterMap keptType).findSome? (fun d => enumMember n d.2) =
      (ds.filterMap keptType).findSome? fun d => enumMember n d.2)
    (ht : ∀ n, UsedIn ds n → (ds'.filterMap keptType).find? (fun x => x.1 == n) =
      (ds.filterMap keptType).find? (fun x => x.1 == n))
    (he : ∀ n, UsedIn ds n → (setup_context ds' cfg).is_enum_type (.identifier n) =
      (setup_context ds cfg).is_enum_type (.identifier n)) :
    SameFor (UsedIn ds) (setup_context ds cfg) (setup_context ds' cfg) where
  config := rfl
  consts n hn := by rw [setup_constants, setup_constants, hc n hn]
  members n hn := by rw [setup_typedefs, setup_typedefs, hm n hn]
  types n hn := by rw [setup_typedefs, setup_typedefs, ht n hn]
  enums := he
  constsIn n v hn h m hmv := by
    rw [setup_constants, Option.map_eq_some_iff] at h
    obtain ⟨x, hx, rfl⟩ := h
    obtain ⟨d, hd, hdx⟩ := List.mem_filterMap.mp (List.mem_of_find?_eq_some hx)
    refine ⟨d, hd, ?_⟩
    rw [keptConst_some hdx]
    exact hmv
  membersIn n v hn h m hmv := by
    rw [setup_typedefs] at h
    obtain ⟨x, hx, hxv⟩ := List.exists_of_findSome?_eq_some h
    obtain ⟨d, hd, hdx⟩ := List.mem_filterMap.mp hx
    obtain ⟨nm, members, htd, hmem⟩ := enumMember_some hxv
    refine ⟨d, hd, ?_⟩
    rw [(keptType_some hdx).1, htd]
    exact List.mem_flatMap.mpr ⟨_, hmem, hmv⟩
  typesIn n k decl hn h m hmv := by
    rw [setup_typedefs] at h
    obtain ⟨d, hd, hdx⟩ := List.mem_filterMap.mp (List.mem_of_find?_eq_some h)
    refine ⟨d, hd, ?_⟩
    rw [(keptType_some hdx).1]
    exact hmv

/-- Each definition of the first list gets the same code in both. -/
theorem types_same {ds ds' : List Definition} {cfg : Config}
    (h : SameFor (UsedIn ds) (setup_context ds cfg) (setup_context ds' cfg)) (n : Nat) :
    ∀ x ∈ (setup_context ds cfg).typedefs, typeToken (setup_context ds' cfg) n x.1 x.2 =
      typeToken (setup_context ds cfg) n x.1 x.2 := by
  intro x hx
  rw [setup_typedefs] at hx
  obtain ⟨d, hd, hdx⟩ := List.mem_filterMap.mp hx
  refine h.typeToken n x.1 x.2 fun m hm => ⟨d, hd, ?_⟩
  rw [(keptType_some hdx).1]
  exact hm

/-! ## Selections -/

theorem find?_filter_skip {α β : Type} (g : α → Option β) (p : β → Bool) (keep : α → Bool) :
    ∀ (l : List α), (∀ e ∈ l, keep e = false → ∀ x, g e = some x → p x = false) →
    (l.filterMap g).find? p = ((l.filter keep).filterMap g).find? p
  | [], _ => rfl
  | e :: l, h => by
    have ih := find?_filter_skip g p keep l fun e he => h e (by simp [he])
    cases hk : keep e with
    | true =>
      rw [List.filter_cons_of_pos hk]
      cases hg : g e with
      | none => rw [List.filterMap_cons_none hg, List.filterMap_cons_none hg, ih]
      | some x =>
        rw [List.filterMap_cons_some hg, List.filterMap_cons_some hg, List.find?_cons, List.find?_cons,
          ih]
    | false =>
      rw [List.filter_cons_of_neg (by simp [hk])]
      cases hg : g e with
      | none => rw [List.filterMap_cons_none hg, ih]
      | some x =>
        rw [List.filterMap_cons_some hg, List.find?_cons, h e (by simp) hk x hg, ih]

theorem findSome?_filter_skip {α β γ : Type} (g : α → Option β) (p : β → Option γ) (keep : α → Bool) :
    ∀ (l : List α), (∀ e ∈ l, keep e = false → ∀ x, g e = some x → p x = none) →
    (l.filterMap g).findSome? p = ((l.filter keep).filterMap g).findSome? p
  | [], _ => rfl
  | e :: l, h => by
    have ih := findSome?_filter_skip g p keep l fun e he => h e (by simp [he])
    cases hk : keep e with
    | true =>
      rw [List.filter_cons_of_pos hk]
      cases hg : g e with
      | none => rw [List.filterMap_cons_none hg, List.filterMap_cons_none hg, ih]
      | some x =>
        rw [List.filterMap_cons_some hg, List.filterMap_cons_some hg, List.findSome?_cons,
          List.findSome?_cons, ih]
    | false =>
      rw [List.filter_cons_of_neg (by simp [hk])]
      cases hg : g e with
      | none => rw [List.filterMap_cons_none hg, ih]
      | some x =>
        rw [List.filterMap_cons_some hg, List.findSome?_cons, h e (by simp) hk x hg, ih]

theorem any_filter_skip {α β : Type} (g : α → Option β) (p : β → Bool) (keep : α → Bool) (l : List α)
    (h : ∀ e ∈ l, keep e = false → ∀ x, g e = some x → p x = false) :
    (l.filterMap g).any p = ((l.filter keep).filterMap g).any p := by
  have e : ∀ l : List β, l.any p = (l.find? p).isSome := by
    intro l
    induction l with
    | nil => rfl
    | cons a l ih =>
      rw [List.any_cons, List.find?_cons, ih]
      cases p a <;> rfl
  rw [e, e, find?_filter_skip g p keep l h]

theorem not_defined {name : Str} {e : Definition} (h : name ∉ e.defines) :
    (∀ x, keptConst e = some x → (x.1 == name) = false) ∧
    (∀ x, keptType e = some x → (x.1 == name) = false) ∧
    (∀ x, keptType e = some x → enumMember name x.2 = none) ∧
    (∀ x, keptType e = some x → (match x.2 with
      | .enum identifier _ => name == identifier
      | _ => false) = false) := by
  refine ⟨fun x hx => ?_, fun x hx => ?_, fun x hx => ?_, fun x hx => ?_⟩
  · rw [beq_eq_false_iff_ne]
    rintro rfl
    rw [keptConst_some hx] at h
    simp [Definition.defines] at h
  · rw [beq_eq_false_iff_ne]
    rintro rfl
    exact h (keptType_some hx).2.1
  · cases hm : enumMember name x.2 with
    | none => rfl
    | some v =>
      obtain ⟨nm, members, htd, hmem⟩ := enumMember_some hm
      rw [(keptType_some hx).1, htd] at h
      exact absurd (List.mem_cons_of_mem _ (List.mem_map.mpr ⟨_, hmem, rfl⟩)) h
  · obtain ⟨k, td⟩ := x
    cases td with
    | enum nm members =>
      rw [(keptType_some hx).1] at h
      dsimp only
      rw [beq_eq_false_iff_ne]
      rintro rfl
      simp [Definition.defines] at h
    | _ => rfl

theorem same_filter {ds : List Definition} (keep : Definition → Bool) (cfg : Config)
    (h : ∀ d ∈ ds, keep d = true → ∀ e ∈ ds, keep e = false → ∀ name ∈ d.uses, name ∉ e.defines) :
    SameFor (UsedIn (ds.filter keep)) (setup_context (ds.filter keep) cfg) (setup_context ds cfg) := by
  have hn : ∀ n, UsedIn (ds.filter keep) n → ∀ e ∈ ds, keep e = false → n ∉ e.defines := by
    rintro n ⟨d, hd, hnd⟩ e he hk
    obtain ⟨hd1, hd2⟩ := List.mem_filter.mp hd
    exact h d hd1 hd2 e he hk n hnd
  refine sameFor_of cfg (fun n hu => ?_) (fun n hu => ?_) (fun n hu => ?_) fun n hu => ?_
  · exact find?_filter_skip _ _ keep ds fun e he hk => (not_defined (hn n hu e he hk)).1
  · exact findSome?_filter_skip _ _ keep ds fun e he hk => (not_defined (hn n hu e he hk)).2.2.1
  · exact find?_filter_skip _ _ keep ds fun e he hk => (not_defined (hn n hu e he hk)).2.1
  · exact any_filter_skip _ _ keep ds fun e he hk => (not_defined (hn n hu e he hk)).2.2.2

theorem same_append {ds more : List Definition} (cfg : Config)
    (h : ∀ d ∈ ds, ∀ e ∈ more, ∀ name ∈ d.uses, name ∉ e.defines) :
    SameFor (UsedIn ds) (setup_context ds cfg) (setup_context (ds ++ more) cfg) := by
  have hn : ∀ n, UsedIn ds n → ∀ e ∈ more, n ∉ e.defines :=
    fun n ⟨d, hd, hnd⟩ e he => h d hd e he n hnd
  refine sameFor_of cfg (fun n hu => ?_) (fun n hu => ?_) (fun n hu => ?_) fun n hu => ?_
  · rw [List.filterMap_append, List.find?_append]
    have : (more.filterMap keptConst).find? (fun x => x.1 == n) = none := by
      rw [List.find?_eq_none]
      intro x hx
      obtain ⟨e, he, hex⟩ := List.mem_filterMap.mp hx
      simp [(not_defined (hn n hu e he)).1 x hex]
    rw [this, Option.or_none]
  · rw [List.filterMap_append, List.findSome?_append]
    have : ((more.filterMap keptType).findSome? fun d => enumMember n d.2) = none := by
      rw [List.findSome?_eq_none_iff]
      intro x hx
      obtain ⟨e, he, hex⟩ := List.mem_filterMap.mp hx
      exact (not_defined (hn n hu e he)).2.2.1 x hex
    rw [this, Option.or_none]
  · rw [List.filterMap_append, List.find?_append]
    have : (more.filterMap keptType).find? (fun x => x.1 == n) = none := by
      rw [List.find?_eq_none]
      intro x hx
      obtain ⟨e, he, hex⟩ := List.mem_filterMap.mp hx
      simp [(not_defined (hn n hu e he)).2.1 x hex]
    rw [this, Option.or_none]
  · simp only [Context.is_enum_type, setup_typedefs, List.filterMap_append, List.any_append]
    have : ((more.filterMap keptType).any fun x => match x.2 with
      | .enum identifier _ => n == identifier
      | _ => false) = false := by
      rw [List.any_eq_false]
      intro x hx
      obtain ⟨e, he, hex⟩ := List.mem_filterMap.mp hx
      simp [(not_defined (hn n hu e he)).2.2.2 x hex]
    exact (congrArg (_ || ·) this).trans (Bool.or_false _)

/-! ## Permutations -/

theorem findSome?_unique {α β : Type} {f : α → Option β} {l : List α}
    (h : ∀ a ∈ l, ∀ b ∈ l, ∀ x y, f a = some x → f b = some y → x = y) {x : β} :
    l.findSome? f = some x ↔ ∃ a ∈ l, f a = some x := by
  constructor
  · exact List.exists_of_findSome?_eq_some
  · rintro ⟨a, ha, hx⟩
    cases hf : l.findSome? f with
    | none =>
      rw [List.findSome?_eq_none_iff] at hf
      rw [hf a ha] at hx
      simp at hx
    | some y =>
      obtain ⟨b, hb, hy⟩ := List.exists_of_findSome?_eq_some hf
      rw [h a ha b hb x y hx hy]

theorem findSome?_perm {α β : Type} {f : α → Option β} {l l' : List α} (hp : l.Perm l')
    (h : ∀ a ∈ l, ∀ b ∈ l, ∀ x y, f a = some x → f b = some y → x = y) :
    l'.findSome? f = l.findSome? f := by
  have h' : ∀ a ∈ l', ∀ b ∈ l', ∀ x y, f a = some x → f b = some y → x = y :=
    fun a ha b hb => h a (hp.mem_iff.mpr ha) b (hp.mem_iff.mpr hb)
  apply Option.ext
  intro x
  rw [findSome?_unique h, findSome?_unique h']
  constructor
  · rintro ⟨a, ha, hx⟩; exact ⟨a, hp.mem_iff.mpr ha, hx⟩
  · rintro ⟨a, ha, hx⟩; exact ⟨a, hp.mem_iff.mp ha, hx⟩

theorem find?_perm {α : Type} {p : α → Bool} {l l' : List α} (hp : l.Perm l')
    (h : ∀ a ∈ l, ∀ b ∈ l, p a = true → p b = true → a = b) : l'.find? p = l.find? p := by
  have e : ∀ l : List α, l.find? p = l.findSome? fun a => if p a then some a else none := by
    intro l
    induction l with
    | nil => rfl
    | cons a l ih =>
      rw [List.find?_cons, List.findSome?_cons, ih]
      cases p a <;> simp
  rw [e, e]
  refine findSome?_perm hp fun a ha b hb x y hx hy => ?_
  split at hx <;> simp only [Option.some.injEq, reduceCtorEq] at hx
  split at hy <;> simp only [Option.some.injEq, reduceCtorEq] at hy
  subst hx
  subst hy
  exact h a ha b hb (by assumption) (by assumption)

/-- Two definitions that give the same name are the same one. -/
theorem same_of_nodup {α β : Type} {f : α → List β} : ∀ {l : List α}, (l.flatMap f).Nodup →
    ∀ a ∈ l, ∀ b ∈ l, ∀ x, x ∈ f a → x ∈ f b → a = b
  | [], _, a, ha, _, _, _, _, _ => by simp at ha
  | c :: l, h, a, ha, b, hb, x, hxa, hxb => by
    rw [List.flatMap_cons, List.nodup_append] at h
    have hout : ∀ d ∈ l, x ∈ f d → x ∈ f c → False := fun d hd h1 h2 =>
      h.2.2 x h2 x (List.mem_flatMap.mpr ⟨d, hd, h1⟩) rfl
    rcases List.mem_cons.mp ha with ea | ha' <;> rcases List.mem_cons.mp hb with eb | hb'
    · rw [ea, eb]
    · exact (hout b hb' hxb (ea ▸ hxa)).elim
    · exact (hout a ha' hxa (eb ▸ hxb)).elim
    · exact same_of_nodup h.2.1 a ha' b hb' x hxa hxb

theorem same_perm {ds ds' : List Definition} (cfg : Config) (hp : ds.Perm ds') (h : NamedOnce ds) :
    SameFor (UsedIn ds) (setup_context ds cfg) (setup_context ds' cfg) := by
  refine sameFor_of cfg (fun n _ => ?_) (fun n _ => ?_) (fun n _ => ?_) fun n _ => ?_
  · refine find?_perm (hp.filterMap _) fun a ha b hb hpa hpb => ?_
    obtain ⟨d, hd, hda⟩ := List.mem_filterMap.mp ha
    obtain ⟨e, he, heb⟩ := List.mem_filterMap.mp hb
    simp only [beq_iff_eq] at hpa hpb
    have : d = e := same_of_nodup h.consts d hd e he n
      (by rw [keptConst_some hda]; simp [Definition.constName, hpa])
      (by rw [keptConst_some heb]; simp [Definition.constName, hpb])
    subst this
    rw [hda] at heb
    exact Option.some.inj heb
  · refine findSome?_perm (hp.filterMap _) fun a ha b hb x y hx hy => ?_
    obtain ⟨d, hd, hda⟩ := List.mem_filterMap.mp ha
    obtain ⟨e, he, heb⟩ := List.mem_filterMap.mp hb
    obtain ⟨nm, ms, htd, hm⟩ := enumMember_some hx
    obtain ⟨nm', ms', htd', hm'⟩ := enumMember_some hy
    have : d = e := same_of_nodup h.members d hd e he n
      (by rw [(keptType_some hda).1, htd]; exact List.mem_map.mpr ⟨_, hm, rfl⟩)
      (by rw [(keptType_some heb).1, htd']; exact List.mem_map.mpr ⟨_, hm', rfl⟩)
    subst this
    rw [hda] at heb
    cases Option.some.inj heb
    rw [hx] at hy
    exact Option.some.inj hy
  · refine find?_perm (hp.filterMap _) fun a ha b hb hpa hpb => ?_
    obtain ⟨d, hd, hda⟩ := List.mem_filterMap.mp ha
    obtain ⟨e, he, heb⟩ := List.mem_filterMap.mp hb
    simp only [beq_iff_eq] at hpa hpb
    have : d = e := same_of_nodup h.types d hd e he n
      (hpa ▸ (keptType_some hda).2.2) (hpb ▸ (keptType_some heb).2.2)
    subst this
    rw [hda] at heb
    exact Option.some.inj heb
  · simp only [Context.is_enum_type, setup_typedefs]
    exact ((hp.filterMap keptType).any_eq).symm

/-! ## Loops -/

theorem mapM_perm {α β : Type} {f : α → GR β} {l l' : List α} (hp : l.Perm l') :
    ∀ {bs : List β}, GR.mapM f l = .ok bs → ∃ bs', GR.mapM f l' = .ok bs' ∧ bs'.Perm bs := by
  induction hp with
  | nil => exact fun h => ⟨_, h, .refl _⟩
  | cons a _ ih =>
    intro bs h
    obtain ⟨b, bs1, h1, h2, rfl⟩ := GR.mapM_cons_ok.mp h
    obtain ⟨bs', h', hp'⟩ := ih h2
    exact ⟨_, GR.mapM_cons_ok.mpr ⟨b, bs', h1, h', rfl⟩, hp'.cons b⟩
  | swap a b l =>
    intro bs h
    obtain ⟨x, bs1, h1, h2, rfl⟩ := GR.mapM_cons_ok.mp h
    obtain ⟨y, bs2, h3, h4, rfl⟩ := GR.mapM_cons_ok.mp h2
    exact ⟨_, GR.mapM_cons_ok.mpr ⟨y, _, h3, GR.mapM_cons_ok.mpr ⟨x, bs2, h1, h4, rfl⟩, rfl⟩, .swap ..⟩
  | trans _ _ ih1 ih2 =>
    intro bs h
    obtain ⟨b1, h1, p1⟩ := ih1 h
    obtain ⟨b2, h2, p2⟩ := ih2 h1
    exact ⟨b2, h2, p2.trans p1⟩

theorem mapM_sublist {α β : Type} {f : α → GR β} {l l' : List α} (hp : l'.Sublist l) :
    ∀ {bs : List β}, GR.mapM f l = .ok bs → ∃ bs', GR.mapM f l' = .ok bs' ∧ bs'.Sublist bs := by
  induction hp with
  | slnil => exact fun h => ⟨_, h, .refl _⟩
  | cons a _ ih =>
    intro bs h
    obtain ⟨b, bs1, h1, h2, rfl⟩ := GR.mapM_cons_ok.mp h
    obtain ⟨bs', h', hp'⟩ := ih h2
    exact ⟨bs', h', hp'.cons b⟩
  | cons_cons a _ ih =>
    intro bs h
    obtain ⟨b, bs1, h1, h2, rfl⟩ := GR.mapM_cons_ok.mp h
    obtain ⟨bs', h', hp'⟩ := ih h2
    exact ⟨_, GR.mapM_cons_ok.mpr ⟨b, bs', h1, h', rfl⟩, hp'.cons_cons b⟩

theorem _root_.List.Sublist.flatten_all {α : Type} {l l' : List (List α)} (h : l'.Sublist l) :
    l'.flatten.Sublist l.flatten := by
  induction h with
  | slnil => exact .refl _
  | cons a _ ih => exact ih.trans (List.sublist_append_right a _)
  | cons_cons a _ ih => exact (List.append_sublist_append_left a).mpr ih

theorem mapM_prefix {α β : Type} {f : α → GR β} : ∀ {l m : List α} {bs : List β},
    GR.mapM f (l ++ m) = .ok bs → ∃ bs', GR.mapM f l = .ok bs' ∧ bs' <+: bs
  | [], _, bs, _ => ⟨[], rfl, List.nil_prefix⟩
  | a :: l, m, bs, h => by
    obtain ⟨b, bs1, h1, h2, rfl⟩ := GR.mapM_cons_ok.mp h
    obtain ⟨bs', h', hp'⟩ := mapM_prefix h2
    exact ⟨b :: bs', GR.mapM_cons_ok.mpr ⟨b, bs', h1, h', rfl⟩,
      (List.prefix_cons_inj b).mpr hp'⟩

end Xdr.Rpcgen
