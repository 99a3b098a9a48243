import Verif.RpcgenProofs.EndToEnd
/-!
# The generated type of every XDR type has all its values
-/

namespace Xdr.Rpcgen

open Rfc (XVal)

/-- The generated code of a supported interface. -/
structure Run (ds : List Definition) (cfg : Config) (n : Nat) (file : RustFile) (defs : List (String × Def))
    (dflt : Bool) : Prop where
  wf : WellFormed ds
  ok : Supported ds cfg
  rt : cfg.remove_typedef = true
  enumTraits : ¬ (cfg.enum_impl_indexer = true ∧ cfg.enum_impl_std_trait = true)
  unionTraits : ¬ (cfg.union_impl_indexer = true ∧ cfg.union_impl_union = true)
  gen : gen_code n ds cfg = .ok file
  defs : file.defs = some defs
  dflt : dflt = true → cfg.union_impl_union = true

theorem Run.enums {ds : List Definition} {cfg : Config} {n : Nat} {file : RustFile}
    {defs : List (String × Def)} {dflt : Bool} (R : Run ds cfg n file defs dflt) : NumberedEnums ds := by
  intro name as h
  obtain ⟨ks, hk, -⟩ := R.ok.enums name as h
  exact ⟨ks, hk⟩

/-- An enum's type may be used without attribute. -/
def UseOk (ds : List Definition) (cfg : Config) (ts : TypeSpecifier) : Prop :=
  cfg.enum_impl_std_trait = true → ∀ name e as, ts = .identifier name →
    typeOf ds name = some (.enum e as) → Positional ds as

/-- The value has the number of the discriminant. -/
def NumOk (file : RustFile) (t : Ty) (v : Val) (x : XVal) : Prop :=
  ∀ k, discriminant x = some k →
    (t = .u32 ∨ t = .bool ∨ ∃ e, .enum e ∈ file.types ∧ t = .named e.name.str) → IsNumber file t v k

/-- The attribute of a field of the type. -/
def AttrOk (ds : List Definition) (cfg : Config) (ts : TypeSpecifier) (attr : Attr) (op : OpaqueType) : Prop :=
  (attr = op.attr ∧ (op = .none → UseOk ds cfg ts)) ∨
  (op = .none ∧ attr = .signed32 ∧ (setup_context ds cfg).is_enum_type ts = true)

/-- The translation of a type specifier has a value for `x`. -/
def TypedRep (ds : List Definition) (cfg : Config) (file : RustFile) (defs : List (String × Def))
    (ts : TypeSpecifier) (x : XVal) : Prop :=
  ∀ m rty op, convert_primitive_token (convert_type_token (setup_context ds cfg) m) (setup_context ds cfg) ts =
    .ok (rty, op) → ∀ attr t, AttrOk ds cfg ts attr op →
    fieldMeaning file.constants file.enums attr rty = some t →
    ∃ v, Rep (Xdr.program defs) t v x ∧ NumOk file t v x

/-- The translation of a declaration has a value for `x`. -/
def DeclRep (ds : List Definition) (cfg : Config) (file : RustFile) (defs : List (String × Def))
    (d : Declaration) (x : XVal) : Prop :=
  (∀ a ∈ d.atoms, a.Ok) → (∀ ts nm m, d = .variableArray ts nm m → OpaqueOk ds (.variable ts nm)) →
  ∀ m rty op, convert_type_token (setup_context ds cfg) m d = .ok (some (rty, op)) → ∀ attr t,
    ((attr = op.attr ∧ (op = .none → ∀ ts, d.type_specifier = some ts → UseOk ds cfg ts)) ∨
     (op = .none ∧ attr = .signed32 ∧ ∃ ts, d.type_specifier = some ts ∧
      (setup_context ds cfg).is_enum_type ts = true)) →
    fieldMeaning file.constants file.enums attr rty = some t →
    ∃ v, Rep (Xdr.program defs) t v x ∧ NumOk file t v x

/-- The translation of a definition has a value for `x`. -/
def DefinedRep (ds : List Definition) (cfg : Config) (file : RustFile) (defs : List (String × Def)) :
    TypeDef → XVal → Prop
  | .declaration d, x => DeclRep ds cfg file defs d x
  | .enum _ as, x => ∃ a ∈ as, ∃ k, Stands ds a.value k ∧ x = .enum k
  | .struct s _, x => ∀ id, upper_camel_case_ident s = .ok id →
    (∃ v, Rep (Xdr.program defs) (.named id.str) v x) ∧ discriminant x = none
  | .union u _, x => ∀ id, upper_camel_case_ident u = .ok id →
    (∃ v, Rep (Xdr.program defs) (.named id.str) v x) ∧ discriminant x = none

/-- The translation of a type specifier has values for `xs`. -/
def EachRep (ds : List Definition) (cfg : Config) (file : RustFile) (defs : List (String × Def))
    (ts : TypeSpecifier) (xs : List XVal) : Prop :=
  ∀ m rty, convert_primitive_token (convert_type_token (setup_context ds cfg) m) (setup_context ds cfg) ts =
    .ok (rty, .none) → UseOk ds cfg ts → ∀ t, rty.meaning file.constants = some t →
    ∃ vs, List.Forall₂ (Rep (Xdr.program defs) t) vs xs

/-- The fields of a generated struct have values for `xs`. -/
def MembersRep (ds : List Definition) (cfg : Config) (file : RustFile) (defs : List (String × Def))
    (ms : List Declaration) (xs : List XVal) : Prop :=
  (∀ d ∈ ms, MemberIn ds d ∧ ∀ a ∈ d.atoms, a.Ok) →
  ∀ m name fields fs, List.Forall₂ (fun d r => convertField (setup_context ds cfg) m name d = .ok r) ms fields →
    fieldsMeaning file.constants file.enums fields = some fs →
    ∃ vs, RepEach (Xdr.program defs) (fs.map (·.2)) vs xs

section
variable {ds : List Definition} {cfg : Config} {n : Nat} {file : RustFile} {defs : List (String × Def)}
  {dflt : Bool}

theorem numOk_none {t : Ty} {v : Val} {x : XVal} (h : discriminant x = none) : NumOk file t v x := by
  intro k hk
  rw [h] at hk
  cases hk

/-- A type that is no enum's: only its own attribute. -/
theorem attr_plain {ts : TypeSpecifier} {attr : Attr} {op : OpaqueType} (h : AttrOk ds cfg ts attr op)
    (hn : ∀ name, ts ≠ .identifier name) : attr = op.attr := by
  rcases h with ⟨h, -⟩ | ⟨-, -, h⟩
  · exact h
  · obtain ⟨name, -, rfl, -⟩ := is_enum_type_ok h
    exact absurd rfl (hn name)

/-- No attribute fits an option; the types of arrays have none but their own. -/
theorem meaning_vec {cs : List ConstItem} {enums : List EnumItem} {attr : Attr} {ty : RTy} {t : Ty}
    (h : fieldMeaning cs enums attr (.vec ty) = some t) (ha : attr = .variable → ty ≠ .u8) :
    attr = .none ∧ ∃ t', ty.meaning cs = some t' ∧ t = .vec t' := by
  cases attr with
  | none =>
    simp only [fieldMeaning, RTy.meaning, Option.map_eq_some_iff] at h
    obtain ⟨t', h1, rfl⟩ := h
    exact ⟨rfl, t', h1, rfl⟩
  | fixed => simp [fieldMeaning] at h
  | signed32 => simp [fieldMeaning] at h
  | «variable» =>
    have := ha rfl
    cases ty <;> simp [fieldMeaning] at h this

theorem meaning_option {cs : List ConstItem} {enums : List EnumItem} {attr : Attr} {ty : RTy} {t : Ty}
    (h : fieldMeaning cs enums attr (.option ty) = some t) :
    attr = .none ∧ ∃ t', ty.meaning cs = some t' ∧ t = .option t' := by
  cases attr with
  | none =>
    simp only [fieldMeaning, RTy.meaning, Option.map_eq_some_iff] at h
    obtain ⟨t', h1, rfl⟩ := h
    exact ⟨rfl, t', h1, rfl⟩
  | _ => simp [fieldMeaning] at h

theorem meaning_array {cs : List ConstItem} {enums : List EnumItem} {attr : Attr} {ty : RTy} {len : Tok}
    {c : Bool} {t : Ty} (h : fieldMeaning cs enums attr (.array ty len c) = some t)
    (ha : attr = .fixed → ty ≠ .u8) :
    attr = .none ∧ ∃ t' m, ty.meaning cs = some t' ∧ arrayLen cs len c = some m ∧ t = .array m t' := by
  cases attr with
  | none =>
    simp only [fieldMeaning, RTy.meaning, Option.bind_eq_some_iff] at h
    obtain ⟨t', h1, h2⟩ := h
    simp only [arrayTy] at h2
    split at h2
    · next m hm =>
      split at h2
      · cases h2
        exact ⟨rfl, t', m, h1, hm, rfl⟩
      · cases h2
    · cases h2
  | «variable» => simp [fieldMeaning] at h
  | signed32 => simp [fieldMeaning] at h
  | fixed =>
    have := ha rfl
    cases ty <;> simp [fieldMeaning] at h this

theorem attr_none {op : OpaqueType} (h : op.attr = .none) : op = .none := by
  cases op <;> simp_all [OpaqueType.attr]

/-- The name of every item is an identifier. -/
theorem item_name (hg : gen_code n ds cfg = .ok file) {i : Item} (hi : i ∈ file.types) :
    ∃ s, upper_camel_case_ident s = .ok i.name := by
  obtain ⟨name, d, l, -, h1, h2⟩ := types_token_mem (gen_code_ok.1 hg).2.1 hi
  cases d with
  | declaration d =>
    simp only [typeToken] at h1
    split at h1
    · cases h1
      cases h2
    · simp only [GR.bind_eq_ok] at h1
      obtain ⟨o, -, p, -, h1⟩ := h1
      split at h1
      · cases h1
      · simp only [GR.bind_eq_ok, GR.ok.injEq] at h1
        obtain ⟨id, hid, rfl⟩ := h1
        simp only [List.mem_singleton] at h2
        subst h2
        exact ⟨_, hid⟩
  | enum e as =>
    simp only [typeToken, GR.bind_eq_ok, GR.ok.injEq] at h1
    obtain ⟨e, he, rfl⟩ := h1
    simp only [List.mem_singleton] at h2
    subst h2
    obtain ⟨_, _, _, h, _⟩ := convert_enum_ok he
    exact ⟨_, h⟩
  | struct s ms =>
    simp only [typeToken, GR.bind_eq_ok, GR.ok.injEq] at h1
    obtain ⟨e, he, rfl⟩ := h1
    simp only [List.mem_singleton] at h2
    subst h2
    exact ⟨_, (convert_struct_ok he).1⟩
  | union u b =>
    simp only [typeToken, GR.bind_eq_ok, GR.ok.injEq] at h1
    obtain ⟨e, he, rfl⟩ := h1
    simp only [List.mem_singleton] at h2
    subst h2
    obtain ⟨_, _, _, h, _⟩ := convert_union_ok he
    exact ⟨_, h⟩

theorem program_tail {l : List (String × Def)} {s : String} {d : Def} (h : s ∉ l.map (·.1)) :
    Xdr.program (l ++ [(s, d)]) s = some d := by
  induction l with
  | nil => simp [Xdr.program]
  | cons a l ih =>
    simp only [List.map_cons, List.mem_cons, not_or] at h
    have := ih h.2
    simp only [Xdr.program] at this ⊢
    simp only [List.cons_append, List.find?_cons]
    have hne : (a.1 == s) = false := by simpa using fun e => h.1 e.symm
    simpa [hne] using this

theorem itemsMeaning_names {cs : List ConstItem} {enums : List EnumItem} {items : List Item}
    {l : List (String × Def)} (h : itemsMeaning cs enums items = some l) :
    l.map (·.1) = items.map (·.name.str) := by
  induction items generalizing l with
  | nil =>
    cases h
    rfl
  | cons i is ih =>
    simp only [itemsMeaning] at h
    split at h
    · next d r hd hr =>
      cases h
      simp [ih hr]
    · cases h

/-- serde-xdr's `VariableArray` is no name of the generated source. -/
theorem variableArray_lookup (hg : gen_code n ds cfg = .ok file) (hd : file.defs = some defs) :
    Xdr.program defs variableArrayName = some variableArrayDef := by
  obtain ⟨hn, l, hl, rfl⟩ := defs_ok hd
  refine program_tail ?_
  rw [itemsMeaning_names hl, List.mem_map]
  rintro ⟨i, hi, he⟩
  obtain ⟨s, hs⟩ := item_name hg hi
  have ht := camel_text hs
  refine upper_camel_case_no s ?_
  have : i.name.text = variableArrayName.toList := by
    rw [← he]
    simp [RIdent.str]
  rw [← ht, this]
  decide

theorem rep_variableArray (hg : gen_code n ds cfg = .ok file) (hd : file.defs = some defs) {bs : Bytes}
    (h : bs.length < 2 ^ 32) :
    Rep (Xdr.program defs) (.named variableArrayName) (.seq [.bytes bs]) (.opaqueVar bs) :=
  rep_wrapper (variableArray_lookup hg hd) (rep_opaqueVar h)

theorem Each.typed : ∀ {ts xs}, Each ds dflt ts xs → ∀ x ∈ xs, Typed ds dflt ts x
  | _, _, .nil, x, hx => by cases hx
  | _, _, .cons h h', x, hx => by
    rcases List.mem_cons.1 hx with rfl | hx
    · exact h
    · exact Each.typed h' x hx

theorem forall₂_of_all {α β : Type} {R : α → β → Prop} {l : List β} (h : ∀ b ∈ l, ∃ a, R a b) :
    ∃ as, List.Forall₂ R as l := by
  induction l with
  | nil => exact ⟨[], .nil⟩
  | cons b l ih =>
    obtain ⟨a, ha⟩ := h b (by simp)
    obtain ⟨as, has⟩ := ih fun b hb => h b (List.mem_cons_of_mem _ hb)
    exact ⟨a :: as, .cons ha has⟩

/-- With unambiguous names, the name of an enum has no other definition. -/
theorem enum_name (hu : Unambiguous ds) {name : Str}
    (h : (setup_context ds cfg).is_enum_type (.identifier name) = true) :
    ∃ as, .type (.enum name as) ∈ ds ∧ typeOf ds name = some (.enum name as) := by
  obtain ⟨nm, as, he, hm⟩ := is_enum_type_ok h
  cases he
  exact ⟨as, hm, typeOf_of_mem hu hm rfl⟩

theorem is_enum_type_of {name e : Str} {as : List Assign} (h : typeOf ds name = some (.enum e as)) :
    (setup_context ds cfg).is_enum_type (.identifier name) = true := by
  obtain ⟨hm, hn⟩ := typeOf_mem h
  cases hn
  simp only [Context.is_enum_type, List.any_eq_true]
  exact ⟨_, mem_typedefs_enum hm, by simp⟩

/-- The atoms of a declaration of the file. -/
theorem typedef_atoms_ok (hwf : WellFormed ds) {d : Declaration} (h : TypedefIn ds d) : ∀ a ∈ d.atoms, a.Ok := by
  intro a ha
  refine hwf a ?_
  simp only [atoms, List.mem_flatMap]
  exact ⟨_, h, ha⟩

theorem member_atoms_ok (hwf : WellFormed ds) {d : Declaration} (h : MemberIn ds d) : ∀ a ∈ d.atoms, a.Ok := by
  intro a ha
  obtain ⟨s, ms, hm, hd⟩ := h
  refine hwf a ?_
  simp only [atoms, List.mem_flatMap]
  exact ⟨_, hm, List.mem_cons_of_mem _ (List.mem_cons_of_mem _ (declsAtoms_mem.2 ⟨d, hd, ha⟩))⟩

theorem arm_atoms_ok (hwf : WellFormed ds) {d : Declaration} (h : ArmIn ds d) : ∀ a ∈ d.atoms, a.Ok := by
  intro a ha
  obtain ⟨u, b, v, hm, hd⟩ := h
  refine hwf a ?_
  simp only [atoms, List.mem_flatMap]
  refine ⟨_, hm, List.mem_cons_of_mem _ ?_⟩
  obtain ⟨cond, specs, dflt⟩ := b
  simp only [UnionBody.labels, List.mem_flatMap, List.mem_map] at hd
  obtain ⟨sp, hsp, v', hv', he⟩ := hd
  cases he
  refine List.mem_cons_of_mem _ (List.mem_append_left _ (List.mem_append_right _ (casesAtoms_mem.2 ⟨sp, hsp, ?_⟩)))
  obtain ⟨vs, d⟩ := sp
  exact List.mem_cons_of_mem _ (List.mem_append_right _ ha)

theorem default_atoms_ok (hwf : WellFormed ds) {d : Declaration} (h : DefaultIn ds d) : ∀ a ∈ d.atoms, a.Ok := by
  intro a ha
  obtain ⟨u, b, hm, hd⟩ := h
  refine hwf a ?_
  simp only [atoms, List.mem_flatMap]
  refine ⟨_, hm, List.mem_cons_of_mem _ ?_⟩
  obtain ⟨cond, specs, dflt⟩ := b
  cases hd
  exact List.mem_cons_of_mem _ (List.mem_append_right _ ha)

theorem labels_ne (hwf : WellFormed ds) {u : Str} {b : UnionBody} (hm : .type (.union u b) ∈ ds) :
    b.labels ≠ [] := by
  obtain ⟨cond, specs, dflt⟩ := b
  have hsp : specs ≠ [] := by
    have := hwf (.body specs.length) (by
      simp only [atoms, List.mem_flatMap]
      exact ⟨_, hm, List.mem_cons_of_mem _ List.mem_cons_self⟩)
    rintro rfl
    exact this rfl
  obtain ⟨sp, hsp⟩ := List.exists_mem_of_ne_nil _ hsp
  obtain ⟨vs, d⟩ := sp
  have hvs : vs ≠ [] := by
    have := hwf (.body vs.length) (by
      simp only [atoms, List.mem_flatMap]
      exact ⟨_, hm, List.mem_cons_of_mem _ (List.mem_cons_of_mem _ (List.mem_append_left _
        (List.mem_append_right _ (casesAtoms_mem.2 ⟨_, hsp, List.mem_cons_self⟩))))⟩)
    rintro rfl
    exact this rfl
  obtain ⟨v, hv⟩ := List.exists_mem_of_ne_nil _ hvs
  refine List.ne_nil_of_mem (a := (v, d)) ?_
  simp only [UnionBody.labels, List.mem_flatMap, List.mem_map]
  exact ⟨_, hsp, v, hv, rfl⟩

/-- The arm of a case. -/
theorem arm_rep (R : Run ds cfg n file defs dflt) {d : Declaration} {x : XVal} {m : Nat}
    (hd : ArmIn ds d) (hx : Declared ds dflt d x) (hrep : DeclRep ds cfg file defs d x) {ts : List Ty}
    (h : ArmTypes (setup_context ds cfg) m file.constants file.enums d ts) :
    ∃ vs, RepArm (Xdr.program defs) ts vs x := by
  rcases h with ⟨rfl, rfl⟩ | ⟨ty, op, t, h1, h2, rfl⟩
  · cases hx
    exact ⟨[], .void⟩
  · have hc : (setup_context ds cfg).config = cfg := rfl
    rw [hc] at h2
    unfold armField at h2
    split at h2
    · next hw =>
      simp only [bne_iff_ne, ne_eq, Bool.and_eq_true, Bool.not_eq_true'] at hw
      simp only [fieldMeaning, RTy.meaning, Option.some.injEq] at h2
      subst h2
      have hop := (hasOpaque_of R.rt h1 hw.1).1
      rcases R.ok.arms hw.2 d hd with hp | hp
      · obtain ⟨bs, rfl, hb⟩ := plainOpaque_value hp hx
        exact ⟨_, .one (rep_variableArray R.gen R.defs hb)⟩
      · exact absurd hop hp
    · obtain ⟨v, hv, -⟩ := hrep (arm_atoms_ok R.wf hd) (by
          rintro ts nm m rfl
          exact R.ok.arrays ts nm m (.inr (.inr (.inl hd)))) m ty op h1 op.attr t
        (.inl ⟨rfl, fun _ ts hts hst name e as hn he => by
          subst hn
          exact R.ok.positions hst d name e as (.inr (.inl hd)) hts he⟩) h2
      exact ⟨_, .one hv⟩

/-- The default arm with `XdrUnion`. -/
theorem default_rep (R : Run ds cfg n file defs dflt) (hun : cfg.union_impl_union = true) {d : Declaration}
    {x : XVal} {m : Nat} (hd : DefaultIn ds d) (hx : Declared ds dflt d x)
    (hrep : DeclRep ds cfg file defs d x) {ts : List Ty}
    (h : DefaultTypes (setup_context ds cfg) m file.constants d ts) :
    ∃ vs, RepArm (Xdr.program defs) ts vs x := by
  rcases h with ⟨rfl, rfl⟩ | ⟨ty, op, t, h1, h2, rfl⟩
  · cases hx
    exact ⟨[], .void⟩
  · have hop : op = .none := by
      by_contra hop
      exact R.ok.defaults hun d hd (hasOpaque_of R.rt h1 hop).1
    subst hop
    obtain ⟨v, hv, -⟩ := hrep (default_atoms_ok R.wf hd) (by
        rintro ts nm m rfl
        exact R.ok.arrays ts nm m (.inr (.inr (.inr hd)))) m ty .none h1 .none t
      (.inl ⟨rfl, fun _ ts hts hst name e as hn he => by
        subst hn
        exact R.ok.positions hst d name e as (.inr (.inr (.inl hd))) hts he⟩) h2
    exact ⟨_, .one hv⟩

/-- A discriminant with `XdrUnion`. -/
theorem cond_rep (R : Run ds cfg n file defs dflt) {u nm : Str} {b : UnionBody} {cond : TypeSpecifier}
    (hm : .type (.union u b) ∈ ds) (hcond : b.cond = .variable cond nm) {v : Value} {k : Int}
    (hs : Selects ds cond v k) {rc : RTy} {m : Nat} (hrc : condType (setup_context ds cfg) m cond = .ok rc)
    (hty : rc = .u32 ∨ rc = .bool ∨ ∃ e, .enum e ∈ file.types ∧ rc = .path e.name) {disc : Ty}
    (hdisc : rc.meaning file.constants = some disc) {xd : XVal}
    (hrep : TypedRep ds cfg file defs cond xd) {j : Int} (hj : discriminant xd = some j) :
    ∃ dv, Rep (Xdr.program defs) disc dv xd ∧ IsNumber file disc dv j := by
  obtain ⟨h1, h2⟩ := selects_convert R.rt hs m
  unfold condType at hrc
  split at hrc
  · next p hp =>
    obtain ⟨ty, op⟩ := p
    cases hrc
    have := h2 ty op hp
    subst this
    obtain ⟨dv, hr, hn⟩ := hrep m ty .none hp .none disc (.inl ⟨rfl, fun _ hst name e as hname he => by
      subst hname
      exact R.ok.positions hst _ name e as (.inr (.inr (.inr ⟨u, b, hm, hcond⟩))) rfl he⟩) hdisc
    refine ⟨dv, hr, hn j hj ?_⟩
    rcases hty with rfl | rfl | ⟨e, he, rfl⟩
    · cases hdisc
      exact .inl rfl
    · cases hdisc
      exact .inr (.inl rfl)
    · cases hdisc
      exact .inr (.inr ⟨e, he, rfl⟩)
  · next e he => exact absurd he (h1 e)
  · cases hrc
  · cases hrc

/-- A value of a union that takes an arm. -/
theorem union_arm_rep (R : Run ds cfg n file defs dflt) {u nm : Str} {body : UnionBody}
    {cond : TypeSpecifier} {v : Value} {d : Declaration} {k : Int} {xd x : XVal}
    (hm : .type (.union u body) ∈ ds) (hcond : body.cond = .variable cond nm) (hl : (v, d) ∈ body.labels)
    (hsel : Selects ds cond v k) (hxd : Typed ds dflt cond xd) (hk : discriminant xd = some k)
    (hx : Declared ds dflt d x) (hrd : TypedRep ds cfg file defs cond xd)
    (hrx : DeclRep ds cfg file defs d x) {id : RIdent} (hid : upper_camel_case_ident u = .ok id) :
    ∃ val, Rep (Xdr.program defs) (.named id.str) val (.union xd x) := by
  obtain ⟨cond', nm', ks, hcond', hlab, h31⟩ := R.ok.unions u body hm
  rw [hcond] at hcond'
  cases hcond'
  obtain ⟨k', hk'⟩ := zip_mem_left hlab.selects.length_eq hl
  have hkk := hsel.unique R.ok.unambiguous (forall₂_zip hlab.selects hk')
  subst hkk
  have hkm := (List.of_mem_zip hk').2
  have hr := hlab.range k hkm
  obtain ⟨bs, hb⟩ := Option.isSome_iff_exists.1 (hxd.encodes R.enums)
  have hbs := encode_discriminant hk hr.1 hb
  have harm : ArmIn ds d := ⟨u, body, v, hm, hl⟩
  by_cases hc : cfg.union_complement_index = true
  · obtain ⟨ty, vars, h1, h2, -, h3, -⟩ := serde_case R.wf R.ok.unambiguous hc R.gen R.defs hm hcond hlab
    rw [hid] at h1
    cases h1
    obtain ⟨a, vid, sh, -, -, hv, hsh, ht⟩ := h3 _ _ hk'
    obtain ⟨vs, hvs⟩ := arm_rep R harm hx hrx ht
    have h31' := h31 hc k hkm
    refine ⟨_, rep_variant h2 hv hsh (by omega) hvs ?_⟩
    obtain ⟨bs', hb'⟩ := encode_enum (k := ((k.toNat : Nat) : Int)) (by omega)
    rw [hb', hb, hbs, encode_discriminant (d := .enum ((k.toNat : Nat) : Int)) rfl (by omega) hb']
    rfl
  · by_cases hu : cfg.union_impl_union = true
    · have hi : cfg.union_impl_indexer = false := by
        by_contra hi
        exact R.unionTraits ⟨by simpa using hi, hu⟩
      obtain ⟨ty, vars, impl, disc, rc, h1, h2, hnd, h3, h4, h5, -, -⟩ :=
        union_case R.wf R.ok.unambiguous R.enums hi hu R.gen R.defs hm hcond hlab
      rw [hid] at h1
      cases h1
      obtain ⟨hrc, hty⟩ := h3 (labels_ne R.wf hm)
      obtain ⟨dv, hdv, hnum⟩ := cond_rep R hm hcond hsel hrc hty h4 hrd hk
      obtain ⟨a, vid, ts, i, -, -, hv, ht, hn⟩ := h5 _ _ hk'
      obtain ⟨vs, hvs⟩ := arm_rep R harm hx hrx ht
      exact ⟨_, rep_union h2 hv (first_of_nodup hnd hv) hdv (hn dv hnum) hvs⟩
    · have hi : cfg.union_impl_indexer = true := by
        simp [Config.union_complement_index] at hc
        by_contra hi
        exact hu (hc (by simpa using hi))
      obtain ⟨ty, vars, impl, h1, h2, hnd, h3, -, -⟩ :=
        indexer_case R.wf R.ok.unambiguous hi (by simpa using hu) R.gen R.defs hm hcond hlab
      rw [hid] at h1
      cases h1
      obtain ⟨a, vid, fs, i, -, -, hv, ht, hidx, hn⟩ := h3 _ _ hk'
      obtain ⟨vs, hvs⟩ := arm_rep R harm hx hrx ht
      refine ⟨_, rep_indexer h2 hv (first_of_nodup hnd hv) (hidx vs) hn hvs ?_⟩
      rw [toInt_ofInt (asI32_range hr), hb, hbs]
      simp only [Rfc.encode]
      exact asI32_signed hr

/-- A value of a union that takes the default arm. -/
theorem union_default_rep (R : Run ds cfg n file defs dflt) {u nm : Str} {body : UnionBody}
    {cond : TypeSpecifier} {d : Declaration} {k : Int} {xd x : XVal} (hdf : dflt = true)
    (hm : .type (.union u body) ∈ ds) (hcond : body.cond = .variable cond nm) (hdd : body.default = some d)
    (hno : ∀ l ∈ body.labels, ¬ Selects ds cond l.1 k) (hk : discriminant xd = some k)
    (hx : Declared ds dflt d x) (hrd : TypedRep ds cfg file defs cond xd)
    (hrx : DeclRep ds cfg file defs d x) {id : RIdent} (hid : upper_camel_case_ident u = .ok id) :
    ∃ val, Rep (Xdr.program defs) (.named id.str) val (.union xd x) := by
  have hu := R.dflt hdf
  have hi : cfg.union_impl_indexer = false := by
    by_contra hi
    exact R.unionTraits ⟨by simpa using hi, hu⟩
  obtain ⟨cond', nm', ks, hcond', hlab, h31⟩ := R.ok.unions u body hm
  rw [hcond] at hcond'
  cases hcond'
  obtain ⟨ty, vars, impl, disc, rc, h1, h2, hnd, h3, h4, -, h5, h6⟩ :=
    union_case R.wf R.ok.unambiguous R.enums hi hu R.gen R.defs hm hcond hlab
  rw [hid] at h1
  cases h1
  obtain ⟨hrc, hty⟩ := h3 (labels_ne R.wf hm)
  obtain ⟨l, hl⟩ := List.exists_mem_of_ne_nil _ (labels_ne R.wf hm)
  obtain ⟨k', hlk⟩ := zip_mem_left hlab.selects.length_eq hl
  obtain ⟨dv, hdv, hnum⟩ := cond_rep R hm hcond (forall₂_zip hlab.selects hlk) hrc hty h4 hrd hk
  have hkn : k ∉ ks := by
    intro hkk
    obtain ⟨l, hl⟩ := zip_mem_right hlab.selects.length_eq hkk
    exact hno l (List.of_mem_zip hl).1 (forall₂_zip hlab.selects hl)
  have hn := h5 k hkn dv hnum
  rw [hdd] at hn
  obtain ⟨i, ts, hv, ht⟩ := h6 d hdd
  obtain ⟨vs, hvs⟩ := default_rep R hu ⟨u, body, hm, hdd⟩ hx hrx ht
  exact ⟨_, rep_union h2 hv (first_of_nodup hnd hv) hdv hn hvs⟩

/-- A value of a structure. -/
theorem struct_rep (R : Run ds cfg n file defs dflt) {s : Str} {ms : List Declaration} {xs : List XVal}
    (hm : .type (.struct s ms) ∈ ds) (h : MembersRep ds cfg file defs ms xs) {id : RIdent}
    (hid : upper_camel_case_ident s = .ok id) :
    ∃ val, Rep (Xdr.program defs) (.named id.str) val (.struct xs) := by
  obtain ⟨st, hst, hmem⟩ := gen_code_struct R.gen hm
  obtain ⟨h1, h2⟩ := convert_struct_ok hst
  rw [hid] at h1
  cases h1
  obtain ⟨d, hd1, hd2⟩ := defs_lookup R.defs hmem
  simp only [Item.meaning, StructItem.meaning] at hd1
  split at hd1
  · simp only [Option.map_eq_some_iff] at hd1
    obtain ⟨fs, hfs, rfl⟩ := hd1
    obtain ⟨vs, hvs⟩ := h (fun d hd => ⟨⟨s, ms, hm, hd⟩, member_atoms_ok R.wf ⟨s, ms, hm, hd⟩⟩) n s st.fields fs h2 hfs
    exact ⟨_, rep_struct hd2 hvs⟩
  · cases hd1

/-- A member of a structure. -/
theorem member_rep (R : Run ds cfg n file defs dflt) {d : Declaration} {x : XVal} (hd : MemberIn ds d)
    (hrep : DeclRep ds cfg file defs d x) {m : Nat} {name : Str} {r : Attr × RIdent × RTy}
    (h : convertField (setup_context ds cfg) m name d = .ok r) {t : Ty}
    (ht : fieldMeaning file.constants file.enums r.1 r.2.2 = some t) :
    ∃ v, Rep (Xdr.program defs) t v x := by
  obtain ⟨f, ts, ty, op, -, hts, hty, -, hr2, hr1⟩ := convertField_ok h
  have hcfg : (setup_context ds cfg).config = cfg := rfl
  rw [hcfg] at hr1
  have hattr : (r.1 = op.attr ∧ (op = .none → ∀ ts, d.type_specifier = some ts → UseOk ds cfg ts)) ∨
     (op = .none ∧ r.1 = .signed32 ∧ ∃ ts, d.type_specifier = some ts ∧
      (setup_context ds cfg).is_enum_type ts = true) := by
    cases op with
    | fixed => exact .inl ⟨hr1, fun h => by cases h⟩
    | «variable» => exact .inl ⟨hr1, fun h => by cases h⟩
    | none =>
      simp only at hr1
      split at hr1
      · next hb =>
        simp only [Bool.and_eq_true] at hb
        exact .inr ⟨rfl, hr1, ts, hts, hb.2⟩
      · next hb =>
        refine .inl ⟨hr1, fun _ ts' hts' hst nm e as hnm he => ?_⟩
        rw [hts] at hts'
        cases hts'
        subst hnm
        exact absurd (by simp [hst, is_enum_type_of he]) hb
  have hmean : fieldMeaning file.constants file.enums r.1 ty = some t := by
    rw [hr2] at ht
    split at ht
    · cases hr1' : r.1 with
      | none =>
        rw [hr1'] at ht
        exact ht
      | _ =>
        rw [hr1'] at ht
        simp [fieldMeaning] at ht
    · exact ht
  obtain ⟨v, hv, -⟩ := hrep (member_atoms_ok R.wf hd) (by
      rintro ts nm m rfl
      exact R.ok.arrays ts nm m (.inr (.inl hd))) m ty op hty r.1 t hattr hmean
  exact ⟨v, hv⟩

/-- A value of a named type. -/
theorem name_rep (R : Run ds cfg n file defs dflt) {name : Str} {t : TypeDef} {x : XVal}
    (ht : typeOf ds name = some t) (hrep : DefinedRep ds cfg file defs t x) :
    TypedRep ds cfg file defs (.identifier name) x := by
  intro m rty op hc attr ty hattr hmean
  simp only [convert_primitive_token] at hc
  obtain ⟨hmem, hname⟩ := typeOf_mem ht
  cases t with
  | declaration d =>
    rcases resolve_type_ok R.rt hc with ⟨d', hd', hct⟩ | ⟨hno, -⟩
    · rw [ht] at hd'
      cases hd'
      have hty : TypedefIn ds d := hmem
      refine hrep (typedef_atoms_ok R.wf hty) (by
          rintro ts nm m rfl
          exact R.ok.arrays ts nm m (.inl hty)) m rty op hct attr ty (.inl ⟨?_, ?_⟩) hmean
      · rcases hattr with ⟨h, -⟩ | ⟨-, -, h⟩
        · exact h
        · obtain ⟨as, -, h'⟩ := enum_name R.ok.unambiguous h
          rw [ht] at h'
          cases h'
      · intro _ ts hts hst nm e as hnm he
        subst hnm
        exact R.ok.positions hst d nm e as (.inl hty) hts he
    · exact absurd ht (hno d)
  | enum e as =>
    cases hname
    rcases resolve_type_ok R.rt hc with ⟨d', hd', -⟩ | ⟨-, id, hid, hr⟩
    · rw [ht] at hd'
      cases hd'
    · cases hr
      obtain ⟨a, ha, k, hk, rfl⟩ := hrep
      obtain ⟨ks, hnum, hpos⟩ := R.ok.enums name as hmem
      obtain ⟨e, i, vid, he, rfl, hv, g1, g2⟩ :=
        enum_values R.wf R.enumTraits R.gen R.defs hmem hnum hpos ha hk hid
      rcases hattr with ⟨rfl, huse⟩ | ⟨-, rfl, -⟩
      · simp only [OpaqueType.attr, fieldMeaning, RTy.meaning, Option.some.injEq] at hmean
        subst hmean
        refine ⟨_, g1 (fun hst => huse rfl hst name name as rfl ht), ?_⟩
        intro k' hk' _
        cases hk'
        exact ⟨e, vid, he, rfl, hv⟩
      · refine ⟨_, g2 ty hmean, ?_⟩
        intro k' _ hty
        simp only [fieldMeaning, enums_find (defs_ok R.defs).1 he] at hmean
        split at hmean
        · cases hmean
          rcases hty with h | h | ⟨_, -, h⟩ <;> cases h
        · cases hmean
  | struct s ms =>
    cases hname
    rcases resolve_type_ok R.rt hc with ⟨d', hd', -⟩ | ⟨-, id, hid, hr⟩
    · rw [ht] at hd'
      cases hd'
    · cases hr
      obtain ⟨⟨v, hv⟩, hdisc⟩ := hrep id hid
      rcases hattr with ⟨rfl, -⟩ | ⟨-, -, h⟩
      · simp only [OpaqueType.attr, fieldMeaning, RTy.meaning, Option.some.injEq] at hmean
        subst hmean
        exact ⟨v, hv, numOk_none hdisc⟩
      · obtain ⟨as, -, h'⟩ := enum_name R.ok.unambiguous h
        rw [ht] at h'
        cases h'
  | union u b =>
    cases hname
    rcases resolve_type_ok R.rt hc with ⟨d', hd', -⟩ | ⟨-, id, hid, hr⟩
    · rw [ht] at hd'
      cases hd'
    · cases hr
      obtain ⟨⟨v, hv⟩, hdisc⟩ := hrep id hid
      rcases hattr with ⟨rfl, -⟩ | ⟨-, -, h⟩
      · simp only [OpaqueType.attr, fieldMeaning, RTy.meaning, Option.some.injEq] at hmean
        subst hmean
        exact ⟨v, hv, numOk_none hdisc⟩
      · obtain ⟨as, -, h'⟩ := enum_name R.ok.unambiguous h
        rw [ht] at h'
        cases h'

/-- A value of a type without name. -/
theorem prim_rep {ts : TypeSpecifier} {x : XVal} (hn : ∀ name, ts ≠ .identifier name) {rty : RTy} {t : Ty}
    (hc : ∀ ct cxt, convert_primitive_token ct cxt ts = .ok (rty, .none))
    (hm : rty.meaning file.constants = some t) {v : Val}
    (hv : Rep (Xdr.program defs) t v x) (hnum : NumOk file t v x) : TypedRep ds cfg file defs ts x := by
  intro m rty' op hc' attr t' hattr hmean
  rw [hc] at hc'
  cases hc'
  have := attr_plain hattr hn
  subst this
  simp only [OpaqueType.attr, fieldMeaning] at hmean
  rw [hm] at hmean
  cases hmean
  exact ⟨v, hv, hnum⟩

/-- A type that is no discriminant's. -/
theorem numOk_ty {t : Ty} {v : Val} {x : XVal} (h1 : t ≠ .u32) (h2 : t ≠ .bool) (h3 : ∀ s, t ≠ .named s) :
    NumOk file t v x := by
  rintro k - (h | h | ⟨e, -, h⟩)
  · exact absurd h h1
  · exact absurd h h2
  · exact absurd h (h3 _)

theorem fixedArray_rep (R : Run ds cfg n file defs dflt) {ts : TypeSpecifier} {nm : Str} {v : Value}
    {xs : List XVal} (hs : Stands ds v xs.length) (h : EachRep ds cfg file defs ts xs) :
    DeclRep ds cfg file defs (.fixedArray ts nm v) (.arrayFixed xs) := by
  intro hat _ m rty op hc attr t hattr hmean
  cases m with
  | zero => cases hc
  | succ m =>
    simp only [convert_type_token, convertTypeWith, GR.bind_eq_ok, GR.ok.injEq, Option.some.injEq,
      Prod.mk.injEq] at hc
    obtain ⟨⟨ty, op'⟩, hty, len, hlen, rfl, rfl⟩ := hc
    simp only at hattr hmean
    obtain ⟨rfl, t', k, ht', hk, rfl⟩ := meaning_array hmean (by
      rintro rfl rfl
      have hop : op' ≠ .none := by
        rintro rfl
        rcases hattr with ⟨h, -⟩ | ⟨-, h, -⟩ <;> cases h
      rcases (hasOpaque_prim R.rt hty hop []).2 with ⟨_, _, _, h⟩ | ⟨_, h⟩ | ⟨_, h⟩ <;> cases h)
    rcases hattr with ⟨h1, h2⟩ | ⟨-, h, -⟩
    · have := attr_none h1.symm
      subst this
      have hlen' := array_len (by
        intro a ha
        exact hat a (by simp [Declaration.atoms, ha])) hlen hk hs
      subst hlen'
      obtain ⟨vs, hvs⟩ := h m ty hty (h2 rfl ts rfl) t' ht'
      exact ⟨_, rep_array hvs, numOk_none rfl⟩
    · cases h

theorem variableArray_rep (R : Run ds cfg n file defs dflt) {ts : TypeSpecifier} {nm : Str}
    {mx : Option Value} {xs : List XVal} (hl : xs.length < 2 ^ 32) (hx : Each ds dflt ts xs)
    (h : EachRep ds cfg file defs ts xs) :
    DeclRep ds cfg file defs (.variableArray ts nm mx) (.arrayVar xs) := by
  intro hat hok m rty op hc attr t hattr hmean
  cases m with
  | zero => cases hc
  | succ m =>
    simp only [convert_type_token, convertTypeWith, GR.bind_eq_ok] at hc
    obtain ⟨⟨ty, op'⟩, hty, hc⟩ := hc
    simp only at hc
    split at hc
    · next hop =>
      subst hop
      simp only [GR.ok.injEq, Option.some.injEq, Prod.mk.injEq] at hc
      obtain ⟨rfl, rfl⟩ := hc
      obtain ⟨rfl, t', ht', rfl⟩ := meaning_vec hmean (fun _ => by simp)
      cases ht'
      have hop := (hasOpaque_prim R.rt hty (by simp) nm).1
      rcases hok ts nm mx rfl with hp | hp
      · obtain ⟨vs, hvs⟩ := forall₂_of_all (R := Rep (Xdr.program defs) (.named variableArrayName)) (l := xs) (by
          intro x hxm
          obtain ⟨bs, rfl, hb⟩ := plainOpaque_value hp (.variable (hx.typed x hxm))
          exact ⟨_, rep_variableArray R.gen R.defs hb⟩)
        exact ⟨_, rep_vec hvs hl, numOk_none rfl⟩
      · exact absurd hop hp
    · next hop =>
      simp only [GR.ok.injEq, Option.some.injEq, Prod.mk.injEq] at hc
      obtain ⟨rfl, rfl⟩ := hc
      obtain ⟨rfl, t', ht', rfl⟩ := meaning_vec hmean (by
        rintro rfl rfl
        have hop : op' ≠ .none := by
          rintro rfl
          rcases hattr with ⟨h, -⟩ | ⟨-, h, -⟩ <;> cases h
        rcases (hasOpaque_prim R.rt hty hop []).2 with ⟨_, _, _, h⟩ | ⟨_, h⟩ | ⟨_, h⟩ <;> cases h)
      rcases hattr with ⟨h1, h2⟩ | ⟨-, h, -⟩
      · have := attr_none h1.symm
        subst this
        obtain ⟨vs, hvs⟩ := h m ty hty (h2 rfl ts rfl) t' ht'
        exact ⟨_, rep_vec hvs hl, numOk_none rfl⟩
      · cases h

theorem opaqueFixed_rep (R : Run ds cfg n file defs dflt) {nm : Str} {v : Value} {bs : Bytes}
    (hs : Stands ds v bs.length) :
    DeclRep ds cfg file defs (.opaqueFixedArray nm v) (.opaqueFixed bs) := by
  intro hat _ m rty op hc attr t hattr hmean
  cases m with
  | zero => cases hc
  | succ m =>
    simp only [convert_type_token, convertTypeWith, GR.bind_eq_ok, GR.ok.injEq, Option.some.injEq,
      Prod.mk.injEq] at hc
    obtain ⟨len, hlen, rfl, rfl⟩ := hc
    rcases hattr with ⟨rfl, -⟩ | ⟨h, -⟩
    · simp only [OpaqueType.attr, fieldMeaning, arrayTy] at hmean
      split at hmean
      · next k hk =>
        have := opaque_len R.wf (gen_code_ok.1 R.gen).1 (by
          intro a ha
          exact hat a (by simp [Declaration.atoms, ha])) hlen hk hs
        subst this
        split at hmean
        · cases hmean
          exact ⟨_, rep_opaqueFixed _ bs, numOk_none rfl⟩
        · cases hmean
      · cases hmean
    · cases h

theorem opaqueVar_rep {nm : Str} {mx : Option Value} {bs : Bytes} (hl : bs.length < 2 ^ 32) :
    DeclRep ds cfg file defs (.opaqueVariableArray nm mx) (.opaqueVar bs) := by
  intro hat _ m rty op hc attr t hattr hmean
  cases m with
  | zero => cases hc
  | succ m =>
    simp only [convert_type_token, convertTypeWith, GR.ok.injEq, Option.some.injEq, Prod.mk.injEq] at hc
    obtain ⟨rfl, rfl⟩ := hc
    rcases hattr with ⟨rfl, -⟩ | ⟨h, -⟩
    · simp only [OpaqueType.attr, fieldMeaning, Option.some.injEq] at hmean
      subst hmean
      exact ⟨_, rep_opaqueVar hl, numOk_none rfl⟩
    · cases h

theorem string_rep {nm : Str} {mx : Option Value} {s : List Char} (hl : (utf8Bytes s).length < 2 ^ 32) :
    DeclRep ds cfg file defs (.string nm mx) (.string (utf8Bytes s)) := by
  intro hat _ m rty op hc attr t hattr hmean
  cases m with
  | zero => cases hc
  | succ m =>
    simp only [convert_type_token, convertTypeWith, GR.ok.injEq, Option.some.injEq, Prod.mk.injEq] at hc
    obtain ⟨rfl, rfl⟩ := hc
    rcases hattr with ⟨rfl, -⟩ | ⟨-, rfl, -⟩
    · simp only [OpaqueType.attr, fieldMeaning, RTy.meaning, Option.some.injEq] at hmean
      subst hmean
      exact ⟨_, rep_string hl, numOk_none rfl⟩
    · simp [fieldMeaning] at hmean

theorem option_rep {ts : TypeSpecifier} {nm : Str} {x : XVal}
    (hx : x = .optNone ∨ ∃ y, x = .optSome y ∧ TypedRep ds cfg file defs ts y) :
    DeclRep ds cfg file defs (.optionVariable ts nm) x := by
  intro hat _ m rty op hc attr t hattr hmean
  cases m with
  | zero => cases hc
  | succ m =>
    simp only [convert_type_token, convertTypeWith, GR.bind_eq_ok, GR.ok.injEq, Option.some.injEq] at hc
    obtain ⟨⟨ty, op'⟩, hty, hc⟩ := hc
    cases hc
    obtain ⟨rfl, t', ht', rfl⟩ := meaning_option hmean
    rcases hattr with ⟨h1, h2⟩ | ⟨-, h, -⟩
    · have := attr_none h1.symm
      subst this
      rcases hx with rfl | ⟨y, rfl, hy⟩
      · exact ⟨_, rep_optNone _ t', numOk_none rfl⟩
      · obtain ⟨v, hv, -⟩ := hy m ty .none hty .none t' (.inl ⟨rfl, fun h => h2 h ts rfl⟩) ht'
        exact ⟨_, rep_optSome hv, numOk_none rfl⟩
    · cases h

theorem variable_rep {ts : TypeSpecifier} {nm : Str} {x : XVal} (h : TypedRep ds cfg file defs ts x) :
    DeclRep ds cfg file defs (.variable ts nm) x := by
  intro hat _ m rty op hc attr t hattr hmean
  cases m with
  | zero => cases hc
  | succ m =>
    simp only [convert_type_token, convertTypeWith, GR.bind_eq_ok, GR.ok.injEq, Option.some.injEq] at hc
    obtain ⟨⟨ty, op'⟩, hty, hc⟩ := hc
    cases hc
    refine h m rty op hty attr t ?_ hmean
    rcases hattr with ⟨h1, h2⟩ | ⟨h1, h2, ts', h3, h4⟩
    · exact .inl ⟨h1, fun h => h2 h ts rfl⟩
    · cases h3
      exact .inr ⟨h1, h2, h4⟩

theorem isNumber_uint {k : Nat} (h : k < 2 ^ 32) : NumOk file .u32 (.u32 (UInt32.ofNat k)) (.uint k) := by
  intro j hj _
  cases hj
  simp only [IsNumber]
  rw [UInt32.toNat_ofNat', Nat.mod_eq_of_lt h]

theorem isNumber_bool (b : Bool) : NumOk file .bool (.bool b) (.bool b) := by
  intro j hj _
  cases b <;> cases hj <;> simp [IsNumber]

theorem members_nil : MembersRep ds cfg file defs [] [] := by
  intro _ m name fields fs h hfs
  cases h
  simp only [fieldsMeaning, Option.some.injEq] at hfs
  subst hfs
  exact ⟨[], .nil⟩

theorem members_cons (R : Run ds cfg n file defs dflt) {d : Declaration} {ms : List Declaration} {x : XVal}
    {xs : List XVal} (h1 : DeclRep ds cfg file defs d x) (h2 : MembersRep ds cfg file defs ms xs) :
    MembersRep ds cfg file defs (d :: ms) (x :: xs) := by
  intro hok m name fields fs h hfs
  cases h with
  | cons ha hb =>
    rename_i r rs
    obtain ⟨attr, f, ty⟩ := r
    simp only [fieldsMeaning] at hfs
    split at hfs
    · split at hfs
      · next t fs' ht hfs' =>
        cases hfs
        obtain ⟨v, hv⟩ := member_rep R (hok d List.mem_cons_self).1 h1 ha ht
        obtain ⟨vs, hvs⟩ := h2 (fun d hd => hok d (List.mem_cons_of_mem _ hd)) m name rs fs' hb hfs'
        exact ⟨_, .cons hv hvs⟩
      · cases hfs
    · cases hfs

theorem each_nil {ts : TypeSpecifier} : EachRep ds cfg file defs ts [] :=
  fun _ _ _ _ _ _ => ⟨[], .nil⟩

theorem each_cons {ts : TypeSpecifier} {x : XVal} {xs : List XVal} (h1 : TypedRep ds cfg file defs ts x)
    (h2 : EachRep ds cfg file defs ts xs) : EachRep ds cfg file defs ts (x :: xs) := by
  intro m rty hc hu t ht
  obtain ⟨v, hv, -⟩ := h1 m rty .none hc .none t (.inl ⟨rfl, fun _ => hu⟩) ht
  obtain ⟨vs, hvs⟩ := h2 m rty hc hu t ht
  exact ⟨_, .cons hv hvs⟩

mutual

theorem Typed.rep (R : Run ds cfg n file defs dflt) :
    ∀ {ts x}, Typed ds dflt ts x → TypedRep ds cfg file defs ts x
  | _, _, .int h1 h2 => prim_rep (by simp) (fun _ _ => rfl) rfl (rep_int h1 h2)
      (numOk_ty (by simp) (by simp) (by simp))
  | _, _, .uint h => prim_rep (by simp) (fun _ _ => rfl) rfl (rep_uint h) (isNumber_uint h)
  | _, _, .hyper h1 h2 => prim_rep (by simp) (fun _ _ => rfl) rfl (rep_hyper h1 h2)
      (numOk_ty (by simp) (by simp) (by simp))
  | _, _, .uhyper h => prim_rep (by simp) (fun _ _ => rfl) rfl (rep_uhyper h)
      (numOk_ty (by simp) (by simp) (by simp))
  | _, _, .float h => prim_rep (by simp) (fun _ _ => rfl) rfl (rep_float h)
      (numOk_ty (by simp) (by simp) (by simp))
  | _, _, .double h => prim_rep (by simp) (fun _ _ => rfl) rfl (rep_double h)
      (numOk_ty (by simp) (by simp) (by simp))
  | _, _, .bool => prim_rep (by simp) (fun _ _ => rfl) rfl (rep_bool _ _) (isNumber_bool _)
  | _, _, .char h1 h2 => prim_rep (by simp) (fun _ _ => rfl) rfl (rep_i8 h1 h2)
      (numOk_ty (by simp) (by simp) (by simp))
  | _, _, .uchar h => prim_rep (by simp) (fun _ _ => rfl) rfl (rep_u8 h)
      (numOk_ty (by simp) (by simp) (by simp))
  | _, _, .short h1 h2 => prim_rep (by simp) (fun _ _ => rfl) rfl (rep_i16 h1 h2)
      (numOk_ty (by simp) (by simp) (by simp))
  | _, _, .ushort h => prim_rep (by simp) (fun _ _ => rfl) rfl (rep_u16 h)
      (numOk_ty (by simp) (by simp) (by simp))
  | _, _, .name h1 h2 => name_rep R h1 (Defined.rep R h2 (typeOf_mem h1).1)

theorem Defined.rep (R : Run ds cfg n file defs dflt) :
    ∀ {t x}, Defined ds dflt t x → .type t ∈ ds → DefinedRep ds cfg file defs t x
  | _, _, .typedef h, _ => Declared.rep R h
  | _, _, .enum ha hk, _ => ⟨_, ha, _, hk, rfl⟩
  | _, _, .struct h, hm => fun _ hid => ⟨struct_rep R hm (Members.rep R h) hid, rfl⟩
  | _, _, .arm h1 h2 h3 h4 h5 h6, hm => fun _ hid =>
      ⟨union_arm_rep R hm h1 h2 h3 h4 h5 h6 (Typed.rep R h4) (Declared.rep R h6) hid, rfl⟩
  | _, _, .default h0 h1 h2 h4 h5 h3 h6, hm => fun _ hid =>
      ⟨union_default_rep R h0 hm h1 h2 h3 h5 h6 (Typed.rep R h4) (Declared.rep R h6) hid, rfl⟩

theorem Declared.rep (R : Run ds cfg n file defs dflt) :
    ∀ {d x}, Declared ds dflt d x → DeclRep ds cfg file defs d x
  | _, _, .variable h => variable_rep (Typed.rep R h)
  | _, _, .fixedArray hs h => fixedArray_rep R hs (Each.rep R h)
  | _, _, .variableArray hl _ h => variableArray_rep R hl h (Each.rep R h)
  | _, _, .opaqueFixed hs => opaqueFixed_rep R hs
  | _, _, .opaqueVar hl _ => opaqueVar_rep hl
  | _, _, .string hl _ => string_rep hl
  | _, _, .absent => option_rep (.inl rfl)
  | _, _, .present h => option_rep (.inr ⟨_, rfl, Typed.rep R h⟩)
  | _, _, .void => by
    intro _ _ m rty op hc
    cases m with
    | zero => cases hc
    | succ m =>
      simp [convert_type_token, convertTypeWith] at hc

theorem Each.rep (R : Run ds cfg n file defs dflt) :
    ∀ {ts xs}, Each ds dflt ts xs → EachRep ds cfg file defs ts xs
  | _, _, .nil => each_nil
  | _, _, .cons h1 h2 => each_cons (Typed.rep R h1) (Each.rep R h2)

theorem Members.rep (R : Run ds cfg n file defs dflt) :
    ∀ {ms xs}, Members ds dflt ms xs → MembersRep ds cfg file defs ms xs
  | _, _, .nil => members_nil
  | _, _, .cons h1 h2 => members_cons R (Declared.rep R h1) (Members.rep R h2)

end

end
end Xdr.Rpcgen
