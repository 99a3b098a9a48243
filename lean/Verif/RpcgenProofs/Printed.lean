import Verif.RpcgenProofs.Printable
/-!
# Lemmas: printable files get source
-/

namespace Xdr.Rpcgen

variable {ds : List Definition} {cfg : Config}

theorem resolve_comes (hwf : WellFormed ds) {t : IntTy} {v : Value} (hv : ValueOk v) {k : Int}
    (h : Outcome ds t.min t.max v (some k)) :
    GR.Comes (fun n => (setup_context ds cfg).resolve_value t n v) k := by
  obtain ⟨m, hm⟩ := resolve_of_outcome (cfg := cfg) hwf h hv
  have hm : (setup_context ds cfg).resolve_value t m v = .ok k := by
    revert hm
    cases (setup_context ds cfg).resolve_value t m v <;> simp [GR.outcome]
  exact ⟨m, fun n hn => by
    dsimp only
    rw [(resolve_value_le _ t hn v).eq (by rw [hm]; exact nofun), hm]⟩

theorem decl_comes (hrt : cfg.remove_typedef = true) {d : Declaration}
    (h : d = .void ∨ ∃ ty op, DeclType ds true d ty op) :
    ∃ o, GR.Comes (fun n => convert_type_token (setup_context ds cfg) n d) o := by
  rcases h with rfl | ⟨ty, op, h⟩
  · exact ⟨none, 1, fun n hn => by
      obtain ⟨n, rfl⟩ : ∃ k, n = k + 1 := ⟨n - 1, by omega⟩
      rfl⟩
  · exact ⟨_, (C52_expansion hrt d ty op).1 h⟩

/-! ## Enums -/

theorem enum_member_ident (hwf : WellFormed ds) {e : Str} {as : List Assign} (hm : .type (.enum e as) ∈ ds) {a : Assign}
    (ha : a ∈ as) : Ident a.identifier := hwf (.ident a.identifier) (mem_atoms_member hm ha (by simp [Assign.atoms]))

theorem member_valueOk (hwf : WellFormed ds) {e : Str} {as : List Assign} (hm : .type (.enum e as) ∈ ds) {a : Assign}
    (ha : a ∈ as) : ValueOk a.value :=
  fun c hc => members_ok hwf hm a ha (.number c) (by simp [hc, Value.atoms])

theorem label_valueOk (hwf : WellFormed ds) {u : Str} {b : UnionBody} (hm : .type (.union u b) ∈ ds)
    {l : Value × Declaration} (hl : l ∈ b.labels) : ValueOk l.1 :=
  fun c hc => labels_ok hwf hm l hl (.number c) (by simp [hc, Value.atoms])

theorem enum_ident (hwf : WellFormed ds) {e : Str} {as : List Assign} (hm : .type (.enum e as) ∈ ds) : Ident e :=
  hwf (.ident e) (mem_atoms_def hm (by simp [Definition.atoms, TypeDef.atoms]))

theorem struct_ident (hwf : WellFormed ds) {s : Str} {ms : List Declaration} (hm : .type (.struct s ms) ∈ ds) :
    Ident s := hwf (.ident s) (mem_atoms_def hm (by simp [Definition.atoms, TypeDef.atoms]))

theorem union_ident (hwf : WellFormed ds) {u : Str} {b : UnionBody} (hm : .type (.union u b) ∈ ds) : Ident u :=
  hwf (.ident u) (mem_atoms_def hm (by simp [Definition.atoms, TypeDef.atoms]))

theorem enum_nonempty (hwf : WellFormed ds) {e : Str} {as : List Assign} (hm : .type (.enum e as) ∈ ds) : as ≠ [] := by
  rintro rfl
  have : Atom.body 0 ∈ atoms ds := mem_atoms_def hm (by simp [Definition.atoms, TypeDef.atoms, enumAtoms])
  exact hwf _ this rfl

/-- What is known of the members and their numbers. -/
def Indexed (ds : List Definition) (a : Assign) (p : Int × Assign) : Prop :=
  p.2 = a ∧ Outcome ds (-2147483648) 2147483647 a.value (some p.1)

theorem enumLoop_indexed (hwf : WellFormed ds) {e : Str} {as : List Assign} (hm : .type (.enum e as) ∈ ds)
    {ix : List (Int × Assign)} (hix : List.Forall₂ (Indexed ds) as ix) {c : Bool} :
    (∃ steps, enumLoop c (sortByKey ix) 0 = .ok steps) ↔
      (∀ a ∈ as, LetterFirst a.identifier) ∧
      (∀ a ∈ as, ¬ Outcome ds (-2147483648) 2147483647 a.value (some 2147483647)) ∧
      (c = true → ∀ a ∈ as, ∀ b ∈ as, ∀ j k i : Int,
        Outcome ds (-2147483648) 2147483647 a.value (some j) → Outcome ds (-2147483648) 2147483647 b.value (some k) →
        j < i → i < k → i < 0 → ∃ x ∈ as, Outcome ds (-2147483648) 2147483647 x.value (some i)) := by
  have key : ∀ k, k ∈ (sortByKey ix).map (·.1) ↔
      ∃ a ∈ as, Outcome ds (-2147483648) 2147483647 a.value (some k) := by
    intro k
    constructor
    · intro h
      obtain ⟨p, hp, rfl⟩ := List.mem_map.1 h
      obtain ⟨a, ha, -, ho⟩ := forall₂_mem_right hix (mem_sortByKey.1 hp)
      exact ⟨a, ha, ho⟩
    · rintro ⟨a, ha, ho⟩
      obtain ⟨p, hp, -, ho'⟩ := forall₂_mem_left hix ha
      have := Outcome.unique ho ho'
      simp only [Option.some.injEq] at this
      exact List.mem_map.2 ⟨p, mem_sortByKey.2 hp, this.symm⟩
  have range : ∀ {v : Value} {k : Int}, Outcome ds (-2147483648) 2147483647 v (some k) → k ≤ 2147483647 := by
    intro v k h
    generalize ho : some k = o at h
    induction h with
    | literal h1 h2 =>
      cases ho
      exact h2
    | unfit => cases ho
    | const _ _ ih => exact ih ho
    | member _ _ _ _ ih => exact ih ho
    | unknown => cases ho
  rw [enumLoop_isOk (sortByKey_sorted _)]
  · constructor
    · rintro ⟨h1, h2⟩
      refine ⟨fun a ha => ?_, fun a ha ho => ?_, fun hc a ha b hb j k i hj hk h3 h4 h5 => ?_⟩
      · obtain ⟨p, hp, rfl, -⟩ := forall₂_mem_left hix ha
        exact (h1 p (mem_sortByKey.2 hp)).1
      · obtain ⟨p, hp, hpk⟩ := List.mem_map.1 ((key 2147483647).2 ⟨a, ha, ho⟩)
        exact (h1 p hp).2 hpk
      · exact (key i).1 (h2 hc i h5 (.inr ⟨j, (key j).2 ⟨a, ha, hj⟩, h3⟩) ⟨k, (key k).2 ⟨b, hb, hk⟩, h4⟩)
    · rintro ⟨h1, h2, h3⟩
      refine ⟨fun p hp => ?_, fun hc i hi hlo hhi => ?_⟩
      · obtain ⟨a, ha, rfl, ho⟩ := forall₂_mem_right hix (mem_sortByKey.1 hp)
        exact ⟨h1 _ ha, fun he => h2 _ ha (he ▸ ho)⟩
      · rcases hlo with hlo | ⟨j, hj, hji⟩
        · omega
        · obtain ⟨k, hk, hik⟩ := hhi
          obtain ⟨a, ha, hoa⟩ := (key j).1 hj
          obtain ⟨b, hb, hob⟩ := (key k).1 hk
          exact (key i).2 (h3 hc a ha b hb j k i hoa hob hji hik hi)
  · intro p hp
    obtain ⟨a, ha, rfl, -⟩ := forall₂_mem_right hix (mem_sortByKey.1 hp)
    exact enum_member_ident hwf hm ha
  · intro p hp
    obtain ⟨a, -, -, ho⟩ := forall₂_mem_right hix (mem_sortByKey.1 hp)
    exact range ho

theorem enum_comes (hwf : WellFormed ds) (hP : Printable ds cfg) {e : Str} {as : List Assign}
    (hm : .type (.enum e as) ∈ ds) :
    ∃ item, GR.Comes (fun n => convert_enum_token (setup_context ds cfg) n e as) item := by
  obtain ⟨ix, h1, hix⟩ := GR.Comes.mapM (P := Indexed ds) (l := as)
      (f := fun n a => ((setup_context ds cfg).resolve_value .i32 n a.value).bind fun index => .ok (index, a))
      fun a ha => by
    obtain ⟨k, hk⟩ := hP.enums e as hm a ha
    exact ⟨(k, a), .bind (resolve_comes (t := .i32) hwf (member_valueOk hwf hm ha) hk) (.const rfl), rfl, hk⟩
  obtain ⟨i, hi⟩ := camel_ident (enum_ident hwf hm) (hP.enumNames e as hm)
  obtain ⟨steps, hs⟩ := (enumLoop_indexed hwf hm hix (c := cfg.enum_complement_index)).2
    ⟨hP.memberNames e as hm, hP.enumTop e as hm, fun hc => by
      have : cfg.enum_impl_indexer = false ∧ cfg.enum_impl_std_trait = false := by
        simpa [Config.enum_complement_index] using hc
      exact hP.enumGaps this.1 this.2 e as hm⟩
  have hne : ix ≠ [] := by
    rintro rfl
    exact enum_nonempty hwf hm (List.eq_nil_of_length_eq_zero (by simpa using hix.length_eq))
  cases steps with
  | nil => exact absurd hs fun hs => enumLoop_ne_nil (sortByKey_ne_nil hne) hs
  | cons st steps => exact ⟨_, .bind h1 (.bind (.const hi) (.bind (.const hs) (.const rfl)))⟩

/-! ## Structures -/

theorem declType_name {d : Declaration} {ty : RTy} {op : OpaqueType} (h : DeclType ds true d ty op) :
    ∃ f ts, d.name = some f ∧ d.type_specifier = some ts := by
  cases h <;> exact ⟨_, _, rfl, rfl⟩

theorem struct_comes (hwf : WellFormed ds) (hrt : cfg.remove_typedef = true) (hP : Printable ds cfg) {s : Str}
    {ms : List Declaration} (hm : .type (.struct s ms) ∈ ds) :
    ∃ item, GR.Comes (fun n => convert_struct_token (setup_context ds cfg) n s ms) item := by
  obtain ⟨fs, h1, -⟩ := GR.Comes.mapM (P := fun _ _ => True) (l := ms)
      (f := fun n d => convertField (setup_context ds cfg) n s d) fun d hd => by
    obtain ⟨ty, op, hty⟩ := hP.members d ⟨s, ms, hm, hd⟩
    obtain ⟨f, ts, hf, hts⟩ := declType_name hty
    obtain ⟨i, hi⟩ := (field_ident_iff (hwf (.ident f) (mem_atoms_struct hm hd (name_atom hf)))).2
      (hP.fieldNames d ⟨s, ms, hm, hd⟩ f hf)
    have hc : ∃ b, GR.Comes (fun n => convertField (setup_context ds cfg) n s d) b := by
      unfold convertField
      rw [hf, hts]
      exact GR.Comes.bind_ex ((C52_expansion hrt d ty op).1 hty) (GR.Comes.bind_ex (.const rfl)
        (GR.Comes.bind_ex (.const hi) ⟨_, .const rfl⟩))
    obtain ⟨b, hb⟩ := hc
    exact ⟨b, hb, trivial⟩
  obtain ⟨i, hi⟩ := camel_ident (struct_ident hwf hm) (hP.structNames s ms hm)
  exact ⟨_, .bind h1 (.bind (.const hi) (.const rfl))⟩

/-! ## Unions -/

/-- The type of the discriminant is found, or its name is used. -/
def CondNamed (ds : List Definition) : TypeSpecifier → Prop
  | .identifier i => (∃ ty op, SpecType ds true (.identifier i) ty op) ∨ SpecRefused ds (.identifier i) ∧ LetterFirst i
  | .int _ => True
  | .bool => True
  | _ => False

theorem condType_comes (hrt : cfg.remove_typedef = true) {ts : TypeSpecifier} (hid : ∀ i, ts = .identifier i → Ident i)
    (h : CondNamed ds ts) : ∃ ct, GR.Comes (fun n => condType (setup_context ds cfg) n ts) ct := by
  cases ts with
  | identifier i =>
    rcases h with ⟨ty, op, h⟩ | ⟨h, hl⟩
    · obtain ⟨m, hm⟩ := SpecType.convert (cfg := cfg) (hrt ▸ h)
      exact ⟨_, m, fun n hn => by simp only [condType, hm n hn]; rfl⟩
    · obtain ⟨m, e, hm⟩ := h.convert hrt
      obtain ⟨id, hi⟩ := camel_ident (hid i rfl) hl
      exact ⟨_, m, fun n hn => by simp only [condType, hm n hn, hi, GR.bind]; rfl⟩
  | int sg => exact ⟨_, .const (r := .ok _) rfl⟩
  | bool => exact ⟨_, .const (r := .ok _) rfl⟩
  | _ => exact h.elim

theorem caseToken_comes {v : Value} (hv : (∃ c k, v = .constant c ∧ c.value .u32 = .ok k) ∨
    ∃ i, v = .identifier i ∧ Ident i ∧ LetterFirst i) : ∃ t, convert_value_token .u32 v true = .ok t := by
  rcases hv with ⟨c, k, rfl, hk⟩ | ⟨i, rfl, hi, hl⟩
  · exact ⟨_, by simp only [convert_value_token, hk, GR.bind]; rfl⟩
  · obtain ⟨id, hid⟩ := camel_ident hi hl
    exact ⟨_, by simp only [convert_value_token, if_true, hid, GR.bind]; rfl⟩

theorem case_comes (hrt : cfg.remove_typedef = true) {ts : TypeSpecifier} (hid : ∀ i, ts = .identifier i → Ident i)
    (h : CondNamed ds ts) {v : Value} (hv : (∃ c k, v = .constant c ∧ c.value .u32 = .ok k) ∨
      ∃ i, v = .identifier i ∧ Ident i ∧ LetterFirst i)
    {d : Declaration} (hd : d = .void ∨ ∃ ty op, DeclType ds true d ty op) :
    ∃ c, GR.Comes (fun n => convert_case_token (setup_context ds cfg) n v d ts) c := by
  obtain ⟨t, ht⟩ := caseToken_comes hv
  obtain ⟨ct, hct⟩ := condType_comes hrt hid h
  obtain ⟨o, ho⟩ := decl_comes hrt hd
  refine GR.Comes.bind_ex (.const ht) (GR.Comes.bind_ex hct (GR.Comes.bind_ex ho ?_))
  dsimp only
  split
  · split <;> exact ⟨_, .const rfl⟩
  · split <;> exact ⟨_, .const rfl⟩

theorem byValue_comes {ts : TypeSpecifier} (hts : ∀ i, ts = .identifier i →
      (setup_context ds cfg).is_enum_type ts = true → ∃ id, upper_camel_case_ident i = .ok id)
    {k : Int} {v : Value} (hv : ∀ i, v = .identifier i → ∃ id, upper_camel_case_ident i = .ok id) (t : Tok) :
    ∃ bv, caseByValue (setup_context ds cfg) ts k v t = .ok bv := by
  unfold caseByValue
  split
  · next he =>
    cases ts with
    | identifier i =>
      obtain ⟨id, hi⟩ := hts i rfl he
      simp only [hi, GR.bind]
      cases v with
      | identifier j =>
        obtain ⟨id', hj⟩ := hv j rfl
        simp only [hj]
        exact ⟨_, rfl⟩
      | constant c => exact ⟨_, rfl⟩
    | _ => exact ⟨_, rfl⟩
  · exact ⟨_, rfl⟩

theorem unionLoop_comes {ts : TypeSpecifier} {l : List (Int × Declaration × Value)}
    (h : ∀ x ∈ l, (∃ c, GR.Comes (fun n => convert_case_token (setup_context ds cfg) n x.2.2 x.2.1 ts) c) ∧
      (∀ t, ∃ bv, caseByValue (setup_context ds cfg) ts x.1 x.2.2 t = .ok bv) ∧ 0 ≤ x.1 ∧ x.1 < 4294967295)
    {s : Int} (hs : 0 ≤ s) :
    ∃ steps, GR.Comes (fun n => unionLoop (setup_context ds cfg) n ts l s) steps := by
  induction l generalizing s with
  | nil => exact ⟨[], .const rfl⟩
  | cons x l ih =>
    obtain ⟨k, d, v⟩ := x
    obtain ⟨⟨c, hc⟩, hbv, h0, h1⟩ := h _ List.mem_cons_self
    obtain ⟨bv, hbv⟩ := hbv c.variant
    simp only at hc hbv h0 h1
    obtain ⟨steps, hst⟩ := ih (fun y hy => h y (List.mem_cons_of_mem _ hy)) (s := k + 1) (by omega)
    have hres : ∃ r, (if (setup_context ds cfg).config.union_complement_index then
        GR.mapM (fun index => (reservedIdent index).bind fun r => .ok (⟨.none, .ident r, []⟩ : Variant))
          (intRange s k) else .ok []) = .ok r := by
      split
      · refine mapM_isOk.2 fun i hi => ?_
        have := mem_intRange.1 hi
        obtain ⟨r, hr⟩ := reserved_ident (i := i) (by omega)
        exact ⟨_, by rw [hr]; rfl⟩
      · exact ⟨_, rfl⟩
    obtain ⟨r, hr⟩ := hres
    have hM : ¬ IntTy.u32.max < k + 1 := by
      have : IntTy.u32.max = 4294967295 := by decide
      omega
    have : ∃ b, GR.Comes (fun n => unionLoop (setup_context ds cfg) n ts ((k, d, v) :: l) s) b := by
      simp only [unionLoop, if_neg hM]
      exact ⟨_, .bind (.const hr) (.bind hc (.bind (.const hbv) (.bind hst (.const rfl))))⟩
    exact this

theorem boolCase_comes (hrt : cfg.remove_typedef = true) (hwf : WellFormed ds) (hP : Printable ds cfg) {u : Str}
    {b : UnionBody} (hm : .type (.union u b) ∈ ds) {label : Value → Bool} {x : Bool}
    (hlab : ∀ v, label v = true → ∃ i, v = .identifier i)
    (hused : ∀ l, (b.labels.find? fun l => label l.1) = some l → l ∈ b.used) :
    ∃ o, GR.Comes (fun n => boolCase (setup_context ds cfg) n .bool b.specs label x) o ∧
      (o = none → ∀ l ∈ b.labels, label l.1 = false) := by
  cases hs : b.specs.find? fun s => s.values.any label with
  | none =>
    refine ⟨none, ⟨0, fun n _ => by dsimp only; unfold boolCase; rw [hs]⟩, fun _ l hl => ?_⟩
    simp only [UnionBody.labels, List.mem_flatMap, List.mem_map] at hl
    obtain ⟨sp, hsp, w, hw, rfl⟩ := hl
    have := List.find?_eq_none.1 hs sp hsp
    simp only [Bool.not_eq_true, List.any_eq_false] at this
    simpa using this w hw
  | some s =>
    cases hv : s.values.find? label with
    | none =>
      obtain ⟨v, hv', hl⟩ := List.any_eq_true.1 (List.find?_some (p := fun s : CaseSpec => s.values.any label) hs)
      exact absurd hl (by simpa using List.find?_eq_none.1 hv v hv')
    | some v =>
      have hl := hused _ (find_label hs hv)
      obtain ⟨i, rfl⟩ := hlab _ (List.find?_some hv)
      have hsp := List.mem_of_find?_eq_some hs
      have hid : Ident i := hwf (.ident i) (mem_atoms_case hm hsp
        (spec_case_atoms (List.mem_of_find?_eq_some hv) (by simp [Value.atoms])))
      obtain ⟨c, hc⟩ := case_comes (ts := .bool) hrt (fun i hi => by cases hi) trivial
        (.inr ⟨i, rfl, hid, hP.labelNames u b hm _ hl i rfl⟩) (hP.arms u b hm _ hl)
      have : ∃ st, GR.Comes (fun n => boolCase (setup_context ds cfg) n .bool b.specs label x) (some st) := by
        unfold boolCase
        rw [hs]
        dsimp only
        rw [hv]
        exact ⟨_, .bind hc (.const rfl)⟩
      obtain ⟨st, hst⟩ := this
      exact ⟨some st, hst, nofun⟩

theorem used_labels {b : UnionBody} {ts : TypeSpecifier} {nm : Str} (hb : b.cond = .variable ts nm) (hts : ts ≠ .bool) :
    b.used = b.labels := by
  unfold UnionBody.used
  rw [hb]
  split
  · next h =>
    cases h
    exact absurd rfl hts
  · rfl

theorem used_bool {b : UnionBody} {nm : Str} (hb : b.cond = .variable .bool nm) :
    b.used = (b.labels.find? fun l => l.1.is_false).toList ++ (b.labels.find? fun l => l.1.is_true).toList := by
  unfold UnionBody.used
  rw [hb]
  simp only [isFalse_iff, isTrue_iff]

theorem mem_labels {b : UnionBody} {d : Declaration} {v : Value} :
    (d, v) ∈ (b.specs.flatMap fun spec => spec.values.map fun v => (spec.declaration, v)) ↔ (v, d) ∈ b.labels := by
  simp only [UnionBody.labels, List.mem_flatMap, List.mem_map, Prod.mk.injEq]
  constructor
  · rintro ⟨sp, hsp, w, hw, rfl, rfl⟩
    exact ⟨sp, hsp, w, hw, rfl, rfl⟩
  · rintro ⟨sp, hsp, w, hw, rfl, rfl⟩
    exact ⟨sp, hsp, w, hw, rfl, rfl⟩

theorem labels_nonempty (hwf : WellFormed ds) {u : Str} {b : UnionBody} (hm : .type (.union u b) ∈ ds) :
    b.labels ≠ [] := by
  have hb0 : Atom.body b.specs.length ∈ atoms ds := mem_atoms_def hm (by
    obtain ⟨cond, specs, dflt⟩ := b
    exact List.mem_cons_of_mem _ List.mem_cons_self)
  have hsp : b.specs ≠ [] := fun h => hwf _ hb0 (by rw [h]; rfl)
  obtain ⟨sp, hsp⟩ := List.exists_mem_of_ne_nil _ hsp
  have hv : sp.values ≠ [] := fun h => by
    have : Atom.body sp.values.length ∈ atoms ds := mem_atoms_case hm hsp (by
      obtain ⟨vs, d⟩ := sp
      exact List.mem_cons_self)
    exact hwf _ this (by rw [h]; rfl)
  obtain ⟨v, hv⟩ := List.exists_mem_of_ne_nil _ hv
  exact List.ne_nil_of_mem (List.mem_flatMap.2 ⟨sp, hsp, List.mem_map_of_mem hv⟩)

theorem label_ident (hwf : WellFormed ds) {u : Str} {b : UnionBody} (hm : .type (.union u b) ∈ ds)
    {l : Value × Declaration} (hl : l ∈ b.labels) {i : Str} (hi : l.1 = .identifier i) : Ident i :=
  labels_ok hwf hm l hl (.ident i) (by simp [hi, Value.atoms])

theorem cond_ident (hwf : WellFormed ds) {u : Str} {b : UnionBody} (hm : .type (.union u b) ∈ ds) {i nm : Str}
    (hb : b.cond = .variable (.identifier i) nm) : Ident i :=
  hwf (.ident i) (mem_atoms_cond hm (by rw [hb]; simp [Declaration.atoms, TypeSpecifier.atoms]))

theorem outcome_u32 {v : Value} {k : Int} (h : Outcome ds 0 4294967295 v (some k)) : 0 ≤ k ∧ k ≤ 4294967295 := by
  generalize ho : some k = o at h
  induction h with
  | literal h1 h2 =>
    cases ho
    exact ⟨h1, h2⟩
  | unfit => cases ho
  | const _ _ ih => exact ih ho
  | member _ _ _ _ ih => exact ih ho
  | unknown => cases ho

theorem is_enum_mem {i : Str} (h : (setup_context ds cfg).is_enum_type (.identifier i) = true) :
    ∃ as, .type (.enum i as) ∈ ds := by
  simp only [Context.is_enum_type, List.any_eq_true] at h
  obtain ⟨⟨nm, td⟩, hm, h⟩ := h
  simp only [setup_context] at hm
  obtain ⟨df, hdf, hx⟩ := List.mem_filterMap.1 hm
  cases td with
  | enum e as =>
    simp only [beq_iff_eq] at h
    subst h
    cases df with
    | type t =>
      cases t with
      | declaration d => simp at hx
      | enum e' as' =>
        simp at hx
        obtain ⟨-, rfl, rfl⟩ := hx
        exact ⟨_, hdf⟩
      | struct _ _ => simp at hx
      | union _ _ => simp at hx
    | constant _ => simp at hx
    | lineComment => simp at hx
    | program _ => simp at hx
  | declaration _ => simp at h
  | struct _ _ => simp at h
  | union _ _ => simp at h

theorem unionCases_comes (hwf : WellFormed ds) (hrt : cfg.remove_typedef = true) (hP : Printable ds cfg) {u : Str}
    {b : UnionBody} (hm : .type (.union u b) ∈ ds) :
    ∃ r, GR.Comes (fun n => unionCases (setup_context ds cfg) n b) r ∧ (b.default = none → r.2.default ≠ none) := by
  obtain ⟨ts, nm, hb, hsw⟩ := hP.conds u b hm
  have hloop : ts ≠ .bool → ∃ r, GR.Comes (fun n => (unionIndexed (setup_context ds cfg) n b.specs).bind fun values =>
        (unionLoop (setup_context ds cfg) n ts (sortByKey values) 0).bind fun steps =>
        GR.ok (ts, UnionAcc.ofSteps steps)) r ∧ (b.default = none → r.2.default ≠ none) := by
    intro hts
    have hu := used_labels hb hts
    have hcid : ∀ i, ts = .identifier i → Ident i := by
      rintro i rfl
      exact cond_ident hwf hm hb
    have hcond : CondNamed ds ts := by
      cases hsw with
      | int sg => trivial
      | bool => trivial
      | name i => exact hP.condNames u b i nm hm hb
    obtain ⟨ix, h1, hix⟩ := GR.Comes.mapM
        (l := b.specs.flatMap fun spec => spec.values.map fun v => (spec.declaration, v))
        (P := fun a p => p.2 = a ∧ Outcome ds 0 4294967295 a.2 (some p.1))
        (f := fun n (a : Declaration × Value) => ((setup_context ds cfg).resolve_value .u32 n a.2).bind fun index =>
          GR.ok (index, a.1, a.2)) fun a ha => by
      have hl := mem_labels.1 ha
      obtain ⟨k, hk⟩ := hP.labels u b ts nm hm hb hts _ hl
      exact ⟨(k, a), .bind (resolve_comes (t := .u32) hwf (label_valueOk hwf hm hl) hk) (.const rfl), rfl, hk⟩
    obtain ⟨steps, hst⟩ := unionLoop_comes (ds := ds) (cfg := cfg) (ts := ts) (l := sortByKey ix) (s := 0) (fun x hx => by
      obtain ⟨⟨d, v⟩, ha, hpx, hk⟩ := forall₂_mem_right hix (mem_sortByKey.1 hx)
      have hl := mem_labels.1 ha
      rw [hpx]
      simp only at hk ⊢
      have hlet : ∀ i, v = .identifier i → Ident i ∧ LetterFirst i := fun i hi =>
        ⟨label_ident hwf hm hl hi, hP.labelNames u b hm _ (hu ▸ hl) i hi⟩
      have hr := outcome_u32 hk
      refine ⟨case_comes hrt hcid hcond ?_ (hP.arms u b hm _ (hu ▸ hl)), byValue_comes ?_ ?_, hr.1, ?_⟩
      · cases v with
        | constant c =>
          refine .inl ⟨c, x.1, rfl, ?_⟩
          obtain ⟨m, hm⟩ := resolve_comes (cfg := cfg) (t := .u32) hwf (label_valueOk hwf hm hl) hk
          have := hm m (Nat.le_refl m)
          simp only at this
          rwa [resolve_value_lit] at this
        | identifier i => exact .inr ⟨i, rfl, hlet i rfl⟩
      · rintro i rfl he
        obtain ⟨as, has⟩ := is_enum_mem he
        exact camel_ident (enum_ident hwf has) (hP.enumNames i as has)
      · exact fun i hi => camel_ident (hlet i hi).1 (hlet i hi).2
      · have := hP.labelTop u b ts nm hm hb hts _ hl
        rcases Int.lt_or_eq_of_le hr.2 with h | h
        · exact h
        · exact absurd (h ▸ hk) this) (Int.le_refl 0)
    refine ⟨_, .bind h1 (.bind hst (.const rfl)), fun _ => ?_⟩
    have hix0 : ix ≠ [] := by
      rintro rfl
      have h0 := hix.length_eq
      obtain ⟨⟨v, d⟩, hl⟩ := List.exists_mem_of_ne_nil _ (labels_nonempty hwf hm)
      have hnil := List.eq_nil_of_length_eq_zero (h0.trans rfl)
      exact absurd (mem_labels.2 hl) (by rw [hnil]; simp)
    cases steps with
    | nil =>
      obtain ⟨m, hst⟩ := hst
      exact absurd (hst m (Nat.le_refl m)) fun h => unionLoop_ne_nil (sortByKey_ne_nil hix0) h
    | cons s ss => simp [UnionAcc.ofSteps]
  unfold unionCases
  rw [hb]
  cases hsw with
  | int sg => exact hloop nofun
  | name i => exact hloop nofun
  | bool =>
    have hu := used_bool hb
    obtain ⟨f, hf, hf0⟩ := boolCase_comes hrt hwf hP hm (label := Value.is_false) (x := false) (fun v hv => by
      rw [isFalse_iff] at hv
      exact ⟨_, of_decide_eq_true hv⟩) (fun l hl => by rw [hu, hl]; simp)
    obtain ⟨t, ht, ht0⟩ := boolCase_comes hrt hwf hP hm (label := Value.is_true) (x := true) (fun v hv => by
      rw [isTrue_iff] at hv
      exact ⟨_, of_decide_eq_true hv⟩) (fun l hl => by rw [hu, hl]; simp)
    refine ⟨_, .bind hf (.bind ht (.const rfl)), fun hd => ?_⟩
    have hne := hP.boolCases u b nm hm hb hd
    cases f with
    | some f => simp
    | none =>
      cases t with
      | some t => simp
      | none =>
        refine absurd ?_ hne
        rw [hu, List.find?_eq_none.2 fun l hl => by simp [hf0 rfl l hl],
          List.find?_eq_none.2 fun l hl => by simp [ht0 rfl l hl]]
        rfl

theorem union_comes (hwf : WellFormed ds) (hrt : cfg.remove_typedef = true) (hP : Printable ds cfg) {u : Str}
    {b : UnionBody} (hm : .type (.union u b) ∈ ds) :
    ∃ item, GR.Comes (fun n => convert_union_token (setup_context ds cfg) n u b) item := by
  obtain ⟨i, hi⟩ := camel_ident (union_ident hwf hm) (hP.unionNames u b hm)
  obtain ⟨⟨ct, acc⟩, hr, hd⟩ := unionCases_comes hwf hrt hP hm
  have hdf : ∃ df, GR.Comes (fun n => unionDefault (setup_context ds cfg) n acc.cond b.default) df ∧
      (df.map (·.2)).or acc.default ≠ none := by
    cases hb : b.default with
    | none => exact ⟨none, .const rfl, hd hb⟩
    | some d =>
      obtain ⟨o, ho⟩ := decl_comes hrt (hP.defaults d ⟨u, b, hm, hb⟩)
      exact ⟨_, .bind ho (.const rfl), by simp⟩
  obtain ⟨df, hdf, hne⟩ := hdf
  cases hx : (df.map (·.2)).or acc.default with
  | none => exact absurd hx hne
  | some dv =>
    unfold convert_union_token
    refine GR.Comes.bind_ex (.const hi) (GR.Comes.bind_ex hr (GR.Comes.bind_ex hdf ?_))
    rw [hx]
    exact ⟨_, .const rfl⟩

/-! ## Files -/

theorem gen_comes (hwf : WellFormed ds) (hrt : cfg.remove_typedef = true) (hP : Printable ds cfg) :
    ∃ file, GR.Comes (fun n => gen_code n ds cfg) file := by
  have hc : ∃ cs, constants_token (setup_context ds cfg) = .ok cs := by
    rw [constants_token_eq]
    rcases constItems_eq fun a ha => atoms_constant hwf ha with ⟨-, cs, h1, -⟩ | ⟨⟨⟨name, v⟩, ha, hs⟩, -⟩
    · exact ⟨cs, h1⟩
    · cases v with
      | identifier o => exact absurd trivial hs
      | constant c => exact absurd (hP.constants name c (mem_constants.1 ha)) hs
  obtain ⟨cs, hc⟩ := hc
  obtain ⟨its, hi, -⟩ := GR.Comes.mapM (P := fun _ _ => True) (l := (setup_context ds cfg).typedefs)
      (f := fun n (x : Str × TypeDef) => typeToken (setup_context ds cfg) n x.1 x.2) (by
    rintro ⟨name, td⟩ hmt
    obtain ⟨df, hdf, hx⟩ := List.mem_filterMap.1 hmt
    cases df with
    | type t =>
      cases t with
      | declaration d =>
        simp only [Option.map_eq_some_iff, Prod.mk.injEq] at hx
        obtain ⟨nm, hnm, rfl, rfl⟩ := hx
        have hcfg : (setup_context ds cfg).config = cfg := rfl
        simp only [typeToken, hcfg, hrt, if_true]
        exact ⟨_, .const rfl, trivial⟩
      | enum e as =>
        simp only [Option.some.injEq, Prod.mk.injEq] at hx
        obtain ⟨rfl, rfl⟩ := hx
        obtain ⟨item, h⟩ := enum_comes hwf hP hdf
        exact ⟨_, .bind h (.const rfl), trivial⟩
      | struct s ms =>
        simp only [Option.some.injEq, Prod.mk.injEq] at hx
        obtain ⟨rfl, rfl⟩ := hx
        obtain ⟨item, h⟩ := struct_comes hwf hrt hP hdf
        exact ⟨_, .bind h (.const rfl), trivial⟩
      | union u b =>
        simp only [Option.some.injEq, Prod.mk.injEq] at hx
        obtain ⟨rfl, rfl⟩ := hx
        obtain ⟨item, h⟩ := union_comes hwf hrt hP hdf
        exact ⟨_, .bind h (.const rfl), trivial⟩
    | constant _ => simp at hx
    | lineComment => simp at hx
    | program _ => simp at hx)
  exact ⟨_, .bind (.const hc) (.bind (.bind hi (.const rfl)) (.const rfl))⟩

end Xdr.Rpcgen
