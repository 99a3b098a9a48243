import Verif.Spec.Tame
import Verif.RpcgenProofs.EndToEndRep
/-!
# Lemmas: the generator does not panic
-/

namespace Xdr.Rpcgen

/-- No panic. -/
def GR.Safe {α : Type} (m : GR α) : Prop := ∀ p, m ≠ .panic p

theorem GR.safe_ok {α : Type} (a : α) : GR.Safe (.ok a) := fun p h => by cases h
theorem GR.safe_err {α : Type} (e : GenError) : GR.Safe (.err e : GR α) := fun p h => by cases h
theorem GR.safe_depth {α : Type} : GR.Safe (.depth : GR α) := fun p h => by cases h

theorem GR.Safe.bind {α β : Type} {m : GR α} {f : α → GR β} (hm : m.Safe)
    (hf : ∀ a, m = .ok a → (f a).Safe) : (m.bind f).Safe := by
  cases m with
  | ok a => exact hf a rfl
  | err e => exact GR.safe_err e
  | panic p => exact absurd rfl (hm p)
  | depth => exact GR.safe_depth

theorem GR.Safe.of_ok {α : Type} {m : GR α} (h : ∃ a, m = .ok a) : m.Safe := by
  obtain ⟨a, rfl⟩ := h
  exact GR.safe_ok a

theorem GR.safe_mapM {α β : Type} {f : α → GR β} {l : List α} (h : ∀ a ∈ l, (f a).Safe) :
    (GR.mapM f l).Safe := by
  induction l with
  | nil => exact GR.safe_ok _
  | cons a as ih =>
    exact (h a List.mem_cons_self).bind fun _ _ =>
      (ih fun b hb => h b (List.mem_cons_of_mem _ hb)).bind fun _ _ => GR.safe_ok _

theorem GR.safe_okOr {α : Type} (o : Option α) (e : GenError) : (GR.okOr o e).Safe := by
  cases o
  · exact GR.safe_err _
  · exact GR.safe_ok _

/-! ## Characters -/

theorem isAlpha_iff {c : Char} : isAlpha c = true ↔
    (97 ≤ c.toNat ∧ c.toNat ≤ 122) ∨ (65 ≤ c.toNat ∧ c.toNat ≤ 90) := by
  simp [isAlpha, isLower, isUpper]

theorem isWord_iff {c : Char} : isWord c = true ↔
    (97 ≤ c.toNat ∧ c.toNat ≤ 122) ∨ (65 ≤ c.toNat ∧ c.toNat ≤ 90) ∨ (48 ≤ c.toNat ∧ c.toNat ≤ 57) ∨
      c.toNat = 95 := by
  have : c = '_' ↔ c.toNat = 95 := by
    constructor
    · rintro rfl; rfl
    · intro h
      exact Char.ext (UInt32.toNat_inj.1 h)
  simp [isWord, isAlpha, isLower, isUpper, isDigit, this]
  omega

theorem isAlpha_toLower (c : Char) : isAlpha (toLower c) = isAlpha c := by
  rw [Bool.eq_iff_iff, isAlpha_iff, isAlpha_iff, toLower_toNat]
  by_cases h : isUpper c = true
  · rw [if_pos h]
    have := isUpper_iff.1 h
    omega
  · rw [if_neg h]

theorem isWord_toLower (c : Char) : isWord (toLower c) = isWord c := by
  rw [Bool.eq_iff_iff, isWord_iff, isWord_iff, toLower_toNat]
  by_cases h : isUpper c = true
  · rw [if_pos h]
    have := isUpper_iff.1 h
    omega
  · rw [if_neg h]

theorem isWord_map {s : Str} (h : ∀ c ∈ s.map toLower, isWord c = true) : ∀ c ∈ s, isWord c = true :=
  fun c hc => by
    rw [← isWord_toLower]
    exact h _ (List.mem_map_of_mem hc)

theorem isWord_lower {s : Str} (h : ∀ c ∈ s, isWord c = true) : ∀ c ∈ s.map toLower, isWord c = true := by
  intro c hc
  obtain ⟨d, hd, rfl⟩ := List.mem_map.1 hc
  rw [isWord_toLower]
  exact h d hd

/-! ## Identifiers -/

theorem mkIdent_of_identOk {s : Str} (h : identOk s = true) : ∃ i, mkIdent s = .ok i := by
  unfold mkIdent
  split
  · simp only [identOk, List.all_cons, Bool.and_eq_true] at h
    exact absurd h.2.1 (by decide)
  · rw [if_pos h]
    exact ⟨_, rfl⟩

theorem ident_words {s : Str} (h : Ident s) : ∀ c ∈ s, isWord c = true := by
  obtain ⟨⟨c, cs, rfl, h1, h2⟩, -⟩ := h
  intro x hx
  rcases List.mem_cons.1 hx with rfl | hx
  · rcases h1 with h1 | rfl
    · simp [isWord, h1]
    · decide
  · exact h2 x hx

theorem mkIdent_ident {s : Str} (h : Ident s) : ∃ i, mkIdent s = .ok i := by
  obtain ⟨⟨c, cs, rfl, h1, h2⟩, -⟩ := h
  apply mkIdent_of_identOk
  simp only [identOk, Bool.and_eq_true, Bool.or_eq_true, beq_iff_eq, List.all_eq_true]
  exact ⟨h1, h2⟩

theorem filter_dropWhile (s : Str) :
    s.filter (· ≠ '_') = (s.dropWhile (· = '_')).filter (· ≠ '_') := by
  induction s with
  | nil => rfl
  | cons c cs ih =>
    by_cases h : c = '_'
    · subst h
      simpa using ih
    · simp [h]

theorem camel_ident {s : Str} (h : Ident s) (hl : LetterFirst s) : ∃ i, upper_camel_case_ident s = .ok i := by
  apply mkIdent_of_identOk
  have h1 := upper_camel_case_letters s
  have hw : ∀ c ∈ upper_camel_case s, isWord c = true := by
    apply isWord_map
    rw [h1]
    exact isWord_lower fun c hc => ident_words h c (List.mem_filter.1 hc).1
  obtain ⟨c, cs, hc, ha⟩ := hl
  rw [filter_dropWhile, hc] at h1
  have hne : c ≠ '_' := by
    rintro rfl
    exact absurd ha (by decide)
  rw [List.filter_cons_of_pos (by simpa using hne)] at h1
  cases hu : upper_camel_case s with
  | nil => rw [hu] at h1; cases h1
  | cons d dr =>
    rw [hu] at h1 hw
    simp only [List.map_cons, List.cons.injEq] at h1
    have hd : isAlpha d = true := by rw [← isAlpha_toLower, h1.1, isAlpha_toLower, ha]
    simp only [identOk, Bool.and_eq_true, Bool.or_eq_true, List.all_eq_true]
    exact ⟨.inl hd, fun x hx => hw x (List.mem_cons_of_mem _ hx)⟩

theorem mem_splitBefore {p : Char → Bool} {s q : Str} (hq : q ∈ (splitBefore p s).2) {c : Char}
    (hc : c ∈ q) : c ∈ s := by
  rw [← splitBefore_append p s]
  exact List.mem_append_right _ (List.mem_flatten.2 ⟨q, hq, hc⟩)

/-- The first character of a name in snake case, and the rest. -/
theorem snake_case_cons {s : Str} {c : Char} {v : Str} (h : snakeCapitalized s = c :: v) :
    ∃ r, snake_case s = toLower c :: r ∧ ∀ x ∈ r, x = '_' ∨ ∃ y ∈ v, x = toLower y := by
  refine ⟨lowercase (splitBefore isUpper v).1 ++ (splitBefore isUpper v).2.flatMap with_underscore, ?_, ?_⟩
  · unfold snake_case
    rw [h, splitBefore]
    by_cases hp : isUpper c = true
    · simp [hp, lowercase]
    · simp [hp, lowercase]
  · intro x hx
    rcases List.mem_append.1 hx with hx | hx
    · obtain ⟨y, hy, rfl⟩ := List.mem_map.1 hx
      refine .inr ⟨y, ?_, rfl⟩
      rw [← splitBefore_append isUpper v]
      exact List.mem_append_left _ hy
    · obtain ⟨q, hq, hx⟩ := List.mem_flatMap.1 hx
      rcases List.mem_cons.1 hx with rfl | hx
      · exact .inl rfl
      · obtain ⟨y, hy, rfl⟩ := List.mem_map.1 hx
        exact .inr ⟨y, mem_splitBefore hq hy, rfl⟩

theorem snake_ident {s : Str} (h : Ident s) : ∃ i, snake_case_ident s = .ok i := by
  apply mkIdent_of_identOk
  have h1 := snakeCapitalized_lower s
  have hw : ∀ c ∈ snakeCapitalized s, isWord c = true := by
    apply isWord_map
    rw [h1]
    exact isWord_lower (ident_words h)
  obtain ⟨⟨c, cs, rfl, h2, -⟩, -⟩ := h
  cases hu : snakeCapitalized (c :: cs) with
  | nil => rw [hu] at h1; cases h1
  | cons d dr =>
    rw [hu] at h1 hw
    obtain ⟨r, hr, hx⟩ := snake_case_cons hu
    simp only [List.map_cons, List.cons.injEq] at h1
    rw [hr, h1.1]
    simp only [identOk, Bool.and_eq_true, Bool.or_eq_true, List.all_eq_true, beq_iff_eq]
    refine ⟨?_, fun x hm => ?_⟩
    · rcases h2 with h2 | rfl
      · exact .inl (by rw [isAlpha_toLower, h2])
      · exact .inr (by decide)
    · rcases hx x hm with rfl | ⟨y, hy, rfl⟩
      · decide
      · rw [isWord_toLower]
        exact hw y (List.mem_cons_of_mem _ hy)

/-- The keywords of Rust that may be raw become raw identifiers. -/
theorem keyword_ident : ∀ f ∈ KEYWORDS_RUST, f ∉ pathWords →
    (match snake_case_ident (c!"r#" ++ f) with | .ok _ => true | _ => false) = true := by
  decide +kernel

theorem field_ident {f : Str} (h : Ident f) (hp : f ∉ pathWords) : ∃ i, fieldIdent f = .ok i := by
  unfold fieldIdent
  by_cases hr : rust_reserved f = true
  · rw [if_pos hr]
    have := keyword_ident f (by simpa [rust_reserved] using hr) hp
    split at this
    · next i hi => exact ⟨i, hi⟩
    · cases this
  · rw [if_neg hr]
    exact snake_ident h

theorem digits_word (f n : Nat) : ∀ c ∈ digitsFuel f n, isWord c = true := by
  have hd : ∀ k, k < 10 → isWord (Char.ofNat (48 + k)) = true := by decide
  induction f generalizing n with
  | zero => intro c hc; cases hc
  | succ f ih =>
    intro c hc
    unfold digitsFuel at hc
    split at hc
    · next h =>
      rw [List.mem_singleton.1 hc]
      exact hd n h
    · rcases List.mem_append.1 hc with hc | hc
      · exact ih _ c hc
      · rw [List.mem_singleton.1 hc]
        exact hd _ (Nat.mod_lt _ (by decide))

theorem reserved_ident {i : Int} (h : 0 ≤ i) : ∃ r, reservedIdent i = .ok r := by
  apply mkIdent_of_identOk
  have : identOk (c!"_Reserved" ++ intToString i) =
      (c!"Reserved" ++ intToString i).all isWord := by
    simp [identOk]
  rw [this, List.all_append, Bool.and_eq_true]
  refine ⟨by decide, List.all_eq_true.2 ?_⟩
  unfold intToString
  rw [if_neg (by omega)]
  exact digits_word _ _

/-! ## Where the names are -/

variable {ds : List Definition} {cfg : Config}

theorem mem_atoms_struct {s : Str} {ms : List Declaration} (h : .type (.struct s ms) ∈ ds) {d : Declaration}
    (hd : d ∈ ms) {a : Atom} (ha : a ∈ d.atoms) : a ∈ atoms ds := by
  simp only [atoms, List.mem_flatMap]
  exact ⟨_, h, List.mem_cons_of_mem _ (List.mem_cons_of_mem _ (declsAtoms_mem.2 ⟨d, hd, ha⟩))⟩

theorem mem_atoms_case {u : Str} {b : UnionBody} (h : .type (.union u b) ∈ ds) {s : CaseSpec}
    (hs : s ∈ b.specs) {a : Atom} (ha : a ∈ s.atoms) : a ∈ atoms ds := by
  simp only [atoms, List.mem_flatMap]
  refine ⟨_, h, List.mem_cons_of_mem _ ?_⟩
  obtain ⟨cond, specs, dflt⟩ := b
  exact List.mem_cons_of_mem _ (List.mem_append_left _ (List.mem_append_right _ (casesAtoms_mem.2 ⟨s, hs, ha⟩)))

theorem mem_atoms_cond {u : Str} {b : UnionBody} (h : .type (.union u b) ∈ ds) {a : Atom}
    (ha : a ∈ b.cond.atoms) : a ∈ atoms ds := by
  simp only [atoms, List.mem_flatMap]
  refine ⟨_, h, List.mem_cons_of_mem _ ?_⟩
  obtain ⟨cond, specs, dflt⟩ := b
  exact List.mem_cons_of_mem _ (List.mem_append_left _ (List.mem_append_left _ ha))

theorem mem_atoms_default {u : Str} {b : UnionBody} (h : .type (.union u b) ∈ ds) {d : Declaration}
    (hd : b.default = some d) {a : Atom} (ha : a ∈ d.atoms) : a ∈ atoms ds := by
  simp only [atoms, List.mem_flatMap]
  refine ⟨_, h, List.mem_cons_of_mem _ ?_⟩
  obtain ⟨cond, specs, dflt⟩ := b
  cases hd
  exact List.mem_cons_of_mem _ (List.mem_append_right _ ha)

theorem mem_atoms_member {e : Str} {as : List Assign} (h : .type (.enum e as) ∈ ds) {b : Assign}
    (hb : b ∈ as) {a : Atom} (ha : a ∈ b.atoms) : a ∈ atoms ds := by
  simp only [atoms, List.mem_flatMap]
  exact ⟨_, h, List.mem_cons_of_mem _ (List.mem_cons_of_mem _ (List.mem_flatMap.2 ⟨b, hb, ha⟩))⟩

theorem mem_atoms_def {d : Definition} (h : d ∈ ds) {a : Atom} (ha : a ∈ d.atoms) : a ∈ atoms ds := by
  simp only [atoms, List.mem_flatMap]
  exact ⟨_, h, ha⟩

theorem spec_case_atoms {s : CaseSpec} {v : Value} (hv : v ∈ s.values) {a : Atom} (ha : a ∈ v.atoms) :
    a ∈ s.atoms := by
  obtain ⟨vs, d⟩ := s
  exact List.mem_cons_of_mem _ (List.mem_append_left _ (List.mem_flatMap.2 ⟨v, hv, ha⟩))

theorem spec_decl_atoms {s : CaseSpec} {a : Atom} (ha : a ∈ s.declaration.atoms) : a ∈ s.atoms := by
  obtain ⟨vs, d⟩ := s
  exact List.mem_cons_of_mem _ (List.mem_append_right _ ha)

/-! ## Numbers -/

theorem constOf_atoms {nm : Str} {v : Value} (hl : constOf ds nm = some v) {a : Atom} (ha : a ∈ v.atoms) :
    a ∈ atoms ds := by
  obtain ⟨d, hd, hx⟩ := List.exists_of_findSome?_eq_some hl
  cases d with
  | constant b =>
    by_cases hb : b.identifier = nm
    · simp only [hb, if_true, Option.some.injEq] at hx
      subst hx
      exact mem_atoms_def hd (by simp [Definition.atoms, Assign.atoms, ha])
    · simp [hb] at hx
  | type _ => simp at hx
  | lineComment => simp at hx
  | program _ => simp at hx

theorem memberOf_atoms {nm : Str} {v : Value} (hl : memberOf ds nm = some v) {a : Atom} (ha : a ∈ v.atoms) :
    a ∈ atoms ds := by
  obtain ⟨d, hd, hx⟩ := List.exists_of_findSome?_eq_some hl
  cases d with
  | type t =>
    cases t with
    | enum e members =>
      simp only [Option.map_eq_some_iff] at hx
      obtain ⟨b, hb, rfl⟩ := hx
      exact mem_atoms_member hd (List.mem_of_find?_eq_some hb) (by simp [Assign.atoms, ha])
    | declaration _ => simp at hx
    | struct _ _ => simp at hx
    | union _ _ => simp at hx
  | constant _ => simp at hx
  | lineComment => simp at hx
  | program _ => simp at hx

theorem ends_text (hwf : WellFormed ds) {v : Value} {c : Constant} (h : Ends ds v c)
    (hv : ∀ a ∈ v.atoms, a ∈ atoms ds) : ∃ s, ConstantText c s := by
  induction h with
  | literal c => exact hwf (.number c) (hv _ (by simp [Value.atoms]))
  | const hl _ ih => exact ih fun a ha => constOf_atoms hl ha
  | member hl _ ih => exact ih fun a ha => memberOf_atoms hl ha

theorem resolve_name_ends {t : IntTy} (n : Nat) {name : Str} {k : Int}
    (h : (setup_context ds cfg).resolve_name t n name = .ok k) :
    ∃ c, Ends ds (.identifier name) c ∧ c.value t = .ok k := by
  induction n generalizing name with
  | zero => cases h
  | succ n ih =>
    have hv : ∀ o, resolveFound ((setup_context ds cfg).resolve_name t n) t name o = .ok k →
        ∃ v c, o = some v ∧ Ends ds v c ∧ c.value t = .ok k := by
      intro o ho
      cases o with
      | none => cases ho
      | some v =>
        cases v with
        | constant c => exact ⟨_, c, rfl, .literal c, ho⟩
        | identifier m =>
          obtain ⟨c, h1, h2⟩ := ih ho
          exact ⟨_, c, rfl, h1, h2⟩
    rw [resolve_name_succ] at h
    unfold GR.orElse at h
    split at h
    · obtain ⟨v, c, h1, h2, h3⟩ := hv _ h
      exact ⟨c, .member h1 h2, h3⟩
    · obtain ⟨v, c, h1, h2, h3⟩ := hv _ h
      exact ⟨c, .const h1 h2, h3⟩

theorem resolve_value_ends (hwf : WellFormed ds) {t : IntTy} {n : Nat} {v : Value} {k : Int}
    (hv : ∀ a ∈ v.atoms, a ∈ atoms ds) (h : (setup_context ds cfg).resolve_value t n v = .ok k) :
    ∃ c, Ends ds v c ∧ c.number = k ∧ t.min ≤ k ∧ k ≤ t.max := by
  have : ∃ c, Ends ds v c ∧ c.value t = .ok k := by
    cases v with
    | constant c => exact ⟨c, .literal c, h⟩
    | identifier name => exact resolve_name_ends n h
  obtain ⟨c, h1, h2⟩ := this
  obtain ⟨s, hs⟩ := ends_text hwf h1 hv
  unfold Constant.value at h2
  rw [tryInto_eq hs] at h2
  split at h2
  · next hr =>
    cases GR.ok.inj h2
    exact ⟨c, h1, rfl, hr⟩
  · cases h2

theorem resolve_value_safe {cxt : Context} {t : IntTy} {n : Nat} {v : Value} : (cxt.resolve_value t n v).Safe := by
  intro p
  cases v with
  | constant c => exact value_ne_panic c t p
  | identifier name => exact resolve_name_no_panic n name p

/-! ## Types -/

/-- What the proofs use of the names. -/
structure Named (ds : List Definition) : Prop where
  wf : WellFormed ds
  letters : ∀ s, .ident s ∈ atoms ds → LetterFirst s

theorem Named.camel (H : Named ds) {s : Str} (h : .ident s ∈ atoms ds) : (upper_camel_case_ident s).Safe :=
  .of_ok (camel_ident (H.wf _ h) (H.letters s h))

theorem value_token_safe (H : Named ds) {t : IntTy} {v : Value} {b : Bool} (hv : ∀ a ∈ v.atoms, a ∈ atoms ds) :
    (convert_value_token t v b).Safe := by
  cases v with
  | constant c => exact GR.Safe.bind (value_ne_panic c t) fun _ _ => GR.safe_ok _
  | identifier i =>
    have hi : .ident i ∈ atoms ds := hv _ (by simp [Value.atoms])
    refine GR.Safe.bind ?_ fun _ _ => GR.safe_ok _
    cases b
    · exact .of_ok (mkIdent_ident (H.wf _ hi))
    · exact H.camel hi

theorem primitive_safe (H : Named ds) {ct : Declaration → GR (Option (RTy × OpaqueType))}
    (hct : ∀ d, (∀ a ∈ d.atoms, a ∈ atoms ds) → (ct d).Safe) {ts : TypeSpecifier}
    (hts : ∀ a ∈ ts.atoms, a ∈ atoms ds) : (convert_primitive_token ct (setup_context ds cfg) ts).Safe := by
  cases ts with
  | void => exact absurd (H.wf _ (hts .voidType (by simp [TypeSpecifier.atoms]))) id
  | identifier i =>
    have hi : .ident i ∈ atoms ds := hts _ (by simp [TypeSpecifier.atoms])
    have hc : ((upper_camel_case_ident i).bind fun name => GR.ok (RTy.path name, OpaqueType.none)).Safe :=
      (H.camel hi).bind fun _ _ => GR.safe_ok _
    change (resolve_type_token ct (setup_context ds cfg) i).Safe
    unfold resolve_type_token
    split
    · exact hc
    · split
      · next nm d hf =>
        refine GR.Safe.bind (hct d ?_) fun _ _ => GR.safe_okOr _ _
        have hm := List.mem_of_find?_eq_some hf
        obtain ⟨df, hdf, hx⟩ := List.mem_filterMap.1 hm
        cases df with
        | type td =>
          cases td with
          | declaration d' =>
            simp only [Option.map_eq_some_iff, Prod.mk.injEq] at hx
            obtain ⟨_, -, -, he⟩ := hx
            cases he
            exact fun a ha => mem_atoms_def hdf ha
          | enum _ _ => simp at hx
          | struct _ _ => simp at hx
          | union _ _ => simp at hx
        | constant _ => simp at hx
        | lineComment => simp at hx
        | program _ => simp at hx
      · exact hc
  | _ => first | exact GR.safe_ok _ | exact GR.safe_err _

theorem type_safe (H : Named ds) (n : Nat) {d : Declaration} (hd : ∀ a ∈ d.atoms, a ∈ atoms ds) :
    (convert_type_token (setup_context ds cfg) n d).Safe := by
  induction n generalizing d with
  | zero => exact GR.safe_depth
  | succ n ih =>
    unfold convert_type_token
    cases d with
    | «variable» ts nm =>
      exact GR.Safe.bind (primitive_safe H (fun d h => ih h) fun a ha => hd a (by simp [Declaration.atoms, ha]))
        fun _ _ => GR.safe_ok _
    | fixedArray ts nm v =>
      exact GR.Safe.bind (primitive_safe H (fun d h => ih h) fun a ha => hd a (by simp [Declaration.atoms, ha]))
        fun _ _ => GR.Safe.bind (value_token_safe H fun a ha => hd a (by simp [Declaration.atoms, ha]))
          fun _ _ => GR.safe_ok _
    | variableArray ts nm v =>
      refine GR.Safe.bind (primitive_safe H (fun d h => ih h) fun a ha => hd a (by simp [Declaration.atoms, ha]))
        fun p _ => ?_
      dsimp only
      split <;> exact GR.safe_ok _
    | opaqueFixedArray nm v =>
      exact GR.Safe.bind (value_token_safe H fun a ha => hd a (by simp [Declaration.atoms, ha]))
          fun _ _ => GR.safe_ok _
    | optionVariable ts nm =>
      exact GR.Safe.bind (primitive_safe H (fun d h => ih h) fun a ha => hd a (by simp [Declaration.atoms, ha]))
        fun _ _ => GR.safe_ok _
    | _ => exact GR.safe_ok _

/-! ## Constants -/

theorem constants_safe (H : Named ds) : (constants_token (setup_context ds cfg)).Safe := by
  apply GR.safe_mapM
  rintro ⟨name, value⟩ hm
  obtain ⟨df, hdf, hx⟩ := List.mem_filterMap.1 hm
  cases df with
  | constant a =>
    simp only [Option.some.injEq, Prod.mk.injEq] at hx
    obtain ⟨rfl, rfl⟩ := hx
    have ha : .ident a.identifier ∈ atoms ds := mem_atoms_def hdf (by simp [Definition.atoms, Assign.atoms])
    have hv : ∀ x ∈ a.value.atoms, x ∈ atoms ds := fun x hx =>
      mem_atoms_def hdf (by simp [Definition.atoms, Assign.atoms, hx])
    refine GR.Safe.bind (.of_ok (mkIdent_ident (H.wf _ ha))) fun i _ => ?_
    have h32 := value_token_safe H (t := .u32) (b := false) hv
    split
    · exact GR.safe_ok _
    · exact GR.Safe.bind (value_token_safe H hv) fun _ _ => GR.safe_ok _
    · next p hp => exact absurd hp (h32 p)
    · exact GR.safe_depth
  | type _ => simp at hx
  | lineComment => simp at hx
  | program _ => simp at hx

/-! ## Enums -/

theorem enumLoop_safe (H : Named ds) {c : Bool} {l : List (Int × Assign)} {s : Int}
    (h : ∀ x ∈ l, .ident x.2.identifier ∈ atoms ds ∧ x.1 < 2147483647 ∧ (c = true → 0 ≤ x.1))
    (hs : c = true → 0 ≤ s) : (enumLoop c l s).Safe := by
  induction l generalizing s with
  | nil => exact GR.safe_ok _
  | cons x rest ih =>
    obtain ⟨k, a⟩ := x
    obtain ⟨h1, h2, h3⟩ := h _ List.mem_cons_self
    unfold enumLoop
    refine GR.Safe.bind ?_ fun _ _ => GR.Safe.bind (H.camel h1) fun _ _ => ?_
    · split
      · next hc =>
        apply GR.safe_mapM
        intro i hi
        have := mem_intRange.1 hi
        have := hs hc
        exact GR.Safe.bind (.of_ok (reserved_ident (by omega))) fun _ _ => GR.safe_ok _
      · exact GR.safe_ok _
    · have : ¬ IntTy.i32.max < k + 1 := by
        have : IntTy.i32.max = 2147483647 := by decide
        simp only at h2
        omega
      rw [if_neg this]
      refine GR.Safe.bind (ih (fun y hy => h y (List.mem_cons_of_mem _ hy)) fun hc => ?_) fun _ _ => GR.safe_ok _
      have := h3 hc
      simp only at this
      omega

theorem enumLoop_ne_nil {c : Bool} {l : List (Int × Assign)} {s : Int} (hl : l ≠ [])
    (h : enumLoop c l s = .ok []) : False := by
  cases l with
  | nil => exact hl rfl
  | cons x rest =>
    obtain ⟨k, a⟩ := x
    simp only [enumLoop, GR.bind_eq_ok] at h
    obtain ⟨_, _, _, _, h⟩ := h
    split at h
    · cases h
    · simp only [GR.bind_eq_ok, GR.ok.injEq] at h
      obtain ⟨_, _, h⟩ := h
      cases h

theorem sortByKey_ne_nil {α : Type} {l : List (Int × α)} (h : l ≠ []) : sortByKey l ≠ [] := by
  obtain ⟨x, hx⟩ := List.exists_mem_of_ne_nil _ h
  exact List.ne_nil_of_mem (mem_sortByKey.2 hx)

theorem enum_safe (H : Named ds) (T : Tame ds cfg) {n : Nat} {e : Str} {as : List Assign}
    (hm : .type (.enum e as) ∈ ds) : (convert_enum_token (setup_context ds cfg) n e as).Safe := by
  have he : .ident e ∈ atoms ds := mem_atoms_def hm (by simp [Definition.atoms, TypeDef.atoms])
  refine GR.Safe.bind (GR.safe_mapM fun a _ => GR.Safe.bind resolve_value_safe fun _ _ => GR.safe_ok _)
    fun ix hix => GR.Safe.bind (H.camel he) fun _ _ => ?_
  have hf := GR.mapM_ok.1 hix
  have hne : ix ≠ [] := by
    rintro rfl
    have h0 := hf.length_eq
    have : Atom.body as.length ∈ atoms ds := mem_atoms_def hm (by simp [Definition.atoms, TypeDef.atoms, enumAtoms])
    exact H.wf _ this (by simpa using h0)
  refine GR.Safe.bind (enumLoop_safe H (fun x hx => ?_) fun _ => Int.le_refl 0) fun steps hs => ?_
  · obtain ⟨a, ha, hr⟩ := forall₂_mem_right hf (mem_sortByKey.1 hx)
    simp only [GR.bind_eq_ok, GR.ok.injEq] at hr
    obtain ⟨k, hk, rfl⟩ := hr
    obtain ⟨c, h1, h2, h3, h4⟩ := resolve_value_ends H.wf
      (fun x hx => mem_atoms_member hm ha (by simp [Assign.atoms, hx])) hk
    obtain ⟨h5, h6⟩ := T.enums e as hm a ha c h1
    have : IntTy.i32.max = 2147483647 := by decide
    refine ⟨mem_atoms_member hm ha (by simp [Assign.atoms]), by simp only; omega, fun hc => ?_⟩
    have hc : cfg.enum_impl_indexer = false ∧ cfg.enum_impl_std_trait = false := by
      have : (!cfg.enum_impl_indexer && !cfg.enum_impl_std_trait) = true := hc
      simpa using this
    have := h6 hc.1 hc.2
    simp only
    omega
  · split
    · exact absurd hs fun hs => enumLoop_ne_nil (sortByKey_ne_nil hne) hs
    · exact GR.safe_ok _

/-! ## Structures -/

theorem name_type_specifier {d : Declaration} {f : Str} (h : d.name = some f) : ∃ ts, d.type_specifier = some ts := by
  cases d <;> first | exact ⟨_, rfl⟩ | cases h

theorem name_atom {d : Declaration} {f : Str} (h : d.name = some f) : .ident f ∈ d.atoms := by
  cases d <;> first | (cases h; simp [Declaration.atoms]) | cases h

theorem struct_safe (H : Named ds) (T : Tame ds cfg) {n : Nat} {s : Str} {ms : List Declaration}
    (hm : .type (.struct s ms) ∈ ds) : (convert_struct_token (setup_context ds cfg) n s ms).Safe := by
  have he : .ident s ∈ atoms ds := mem_atoms_def hm (by simp [Definition.atoms, TypeDef.atoms])
  refine GR.Safe.bind (GR.safe_mapM fun d hd => ?_) fun _ _ => GR.Safe.bind (H.camel he) fun _ _ => GR.safe_ok _
  obtain ⟨f, hf, hp⟩ := T.members s ms hm d hd
  obtain ⟨ts, hts⟩ := name_type_specifier hf
  have hat : ∀ a ∈ d.atoms, a ∈ atoms ds := fun a ha => mem_atoms_struct hm hd ha
  unfold convertField
  rw [hf, hts]
  exact GR.Safe.bind (type_safe H n hat) fun _ _ => GR.Safe.bind (GR.safe_okOr _ _) fun _ _ =>
    GR.Safe.bind (.of_ok (field_ident (H.wf _ (hat _ (name_atom hf))) hp)) fun _ _ => GR.safe_ok _

/-! ## Unions -/

theorem condType_safe (H : Named ds) {n : Nat} {ts : TypeSpecifier} (hts : ∀ a ∈ ts.atoms, a ∈ atoms ds)
    (h : (∃ s, ts = .int s) ∨ (∃ i, ts = .identifier i) ∨ ts = .bool) :
    (condType (setup_context ds cfg) n ts).Safe := by
  rcases h with ⟨s, rfl⟩ | ⟨i, rfl⟩ | rfl
  · exact GR.safe_ok _
  · have := primitive_safe (cfg := cfg) H (fun d h => type_safe (cfg := cfg) H n h) hts
    unfold condType
    split
    · exact GR.safe_ok _
    · exact GR.Safe.bind (H.camel (hts _ (by simp [TypeSpecifier.atoms]))) fun _ _ => GR.safe_ok _
    · next p hp => exact absurd hp (this p)
    · exact GR.safe_depth
  · exact GR.safe_ok _

theorem case_safe (H : Named ds) {n : Nat} {v : Value} {d : Declaration} {ts : TypeSpecifier}
    (hv : ∀ a ∈ v.atoms, a ∈ atoms ds) (hd : ∀ a ∈ d.atoms, a ∈ atoms ds)
    (hts : ∀ a ∈ ts.atoms, a ∈ atoms ds)
    (h : (∃ s, ts = .int s) ∨ (∃ i, ts = .identifier i) ∨ ts = .bool) :
    (convert_case_token (setup_context ds cfg) n v d ts).Safe := by
  refine GR.Safe.bind (value_token_safe H hv) fun _ _ => GR.Safe.bind (condType_safe H hts h) fun _ _ =>
    GR.Safe.bind (type_safe H n hd) fun o _ => ?_
  dsimp only
  split
  · split <;> exact GR.safe_ok _
  · split <;> exact GR.safe_ok _

theorem byValue_safe (H : Named ds) {ts : TypeSpecifier} {k : Int} {v : Value} {t : Tok}
    (hv : ∀ a ∈ v.atoms, a ∈ atoms ds) (hts : ∀ a ∈ ts.atoms, a ∈ atoms ds) :
    (caseByValue (setup_context ds cfg) ts k v t).Safe := by
  unfold caseByValue
  split
  · split
    · refine GR.Safe.bind (H.camel (hts _ (by simp [TypeSpecifier.atoms]))) fun _ _ => ?_
      split
      · exact GR.Safe.bind (H.camel (hv _ (by simp [Value.atoms]))) fun _ _ => GR.safe_ok _
      · exact GR.safe_ok _
    · exact GR.safe_ok _
  · exact GR.safe_ok _

theorem unionLoop_safe (H : Named ds) {n : Nat} {ts : TypeSpecifier} (hts : ∀ a ∈ ts.atoms, a ∈ atoms ds)
    (hc : (∃ s, ts = .int s) ∨ (∃ i, ts = .identifier i) ∨ ts = .bool)
    {l : List (Int × Declaration × Value)} {s : Int}
    (h : ∀ x ∈ l, (∀ a ∈ x.2.1.atoms, a ∈ atoms ds) ∧ (∀ a ∈ x.2.2.atoms, a ∈ atoms ds) ∧
      0 ≤ x.1 ∧ x.1 < 4294967295) (hs : 0 ≤ s) : (unionLoop (setup_context ds cfg) n ts l s).Safe := by
  induction l generalizing s with
  | nil => exact GR.safe_ok _
  | cons x rest ih =>
    obtain ⟨k, d, v⟩ := x
    obtain ⟨h1, h2, h3, h4⟩ := h _ List.mem_cons_self
    simp only at h1 h2 h3 h4
    unfold unionLoop
    refine GR.Safe.bind ?_ fun _ _ => GR.Safe.bind (case_safe H h2 h1 hts hc) fun _ _ =>
      GR.Safe.bind (byValue_safe H h2 hts) fun _ _ => ?_
    · split
      · apply GR.safe_mapM
        intro i hi
        have := mem_intRange.1 hi
        exact GR.Safe.bind (.of_ok (reserved_ident (by omega))) fun _ _ => GR.safe_ok _
      · exact GR.safe_ok _
    · have : ¬ IntTy.u32.max < k + 1 := by
        have : IntTy.u32.max = 4294967295 := by decide
        omega
      rw [if_neg this]
      exact GR.Safe.bind (ih (fun y hy => h y (List.mem_cons_of_mem _ hy)) (by omega)) fun _ _ => GR.safe_ok _

theorem unionLoop_ne_nil {cxt : Context} {n : Nat} {ts : TypeSpecifier}
    {l : List (Int × Declaration × Value)} {s : Int} (hl : l ≠ []) (h : unionLoop cxt n ts l s = .ok []) :
    False := by
  cases l with
  | nil => exact hl rfl
  | cons x rest =>
    obtain ⟨k, d, v⟩ := x
    simp only [unionLoop, GR.bind_eq_ok] at h
    obtain ⟨_, _, _, _, _, _, h⟩ := h
    split at h
    · cases h
    · simp only [GR.bind_eq_ok, GR.ok.injEq] at h
      obtain ⟨_, _, h⟩ := h
      cases h

theorem union_int_safe (H : Named ds) (T : Tame ds cfg) {n : Nat} {u : Str} {b : UnionBody}
    (hm : .type (.union u b) ∈ ds) {ts : TypeSpecifier} {nm : Str} (hb : b.cond = .variable ts nm)
    (hc : (∃ s, ts = .int s) ∨ ∃ i, ts = .identifier i) :
    GR.Safe ((unionIndexed (setup_context ds cfg) n b.specs).bind fun values =>
      (unionLoop (setup_context ds cfg) n ts (sortByKey values) 0).bind fun steps =>
      GR.ok (ts, UnionAcc.ofSteps steps)) ∧
    ∀ r, ((unionIndexed (setup_context ds cfg) n b.specs).bind fun values =>
      (unionLoop (setup_context ds cfg) n ts (sortByKey values) 0).bind fun steps =>
      GR.ok (ts, UnionAcc.ofSteps steps)) = .ok r → r.2.default ≠ none := by
  have hts : ∀ a ∈ ts.atoms, a ∈ atoms ds := fun a ha =>
    mem_atoms_cond hm (by rw [hb]; simp [Declaration.atoms, ha])
  have hmem : ∀ (d : Declaration) (v : Value),
      (d, v) ∈ (b.specs.flatMap fun spec => spec.values.map fun v => (spec.declaration, v)) →
      (∀ a ∈ d.atoms, a ∈ atoms ds) ∧ (∀ a ∈ v.atoms, a ∈ atoms ds) ∧ (v, d) ∈ b.labels := by
    intro d v h
    simp only [List.mem_flatMap, List.mem_map] at h
    obtain ⟨sp, hsp, w, hw, he⟩ := h
    cases he
    refine ⟨fun a ha => mem_atoms_case hm hsp (spec_decl_atoms ha), fun a ha =>
      mem_atoms_case hm hsp (spec_case_atoms hw ha), ?_⟩
    simp only [UnionBody.labels, List.mem_flatMap, List.mem_map]
    exact ⟨sp, hsp, v, hw, rfl⟩
  constructor
  · refine GR.Safe.bind (GR.safe_mapM fun a _ => GR.Safe.bind resolve_value_safe fun _ _ => GR.safe_ok _)
      fun ix hix => GR.Safe.bind (unionLoop_safe H hts (hc.imp_right .inl) (fun x hx => ?_) (Int.le_refl 0))
        fun _ _ => GR.safe_ok _
    obtain ⟨⟨d, v⟩, ha, hr⟩ := forall₂_mem_right (GR.mapM_ok.1 hix) (mem_sortByKey.1 hx)
    simp only [GR.bind_eq_ok, GR.ok.injEq] at hr
    obtain ⟨k, hk, rfl⟩ := hr
    obtain ⟨h1, h2, h3⟩ := hmem d v ha
    obtain ⟨c, h4, h5, h6, h7⟩ := resolve_value_ends H.wf h2 hk
    have h8 := T.labels u b hm _ h3 c h4
    have : IntTy.u32.max = 4294967295 := by decide
    have : IntTy.u32.min = 0 := by decide
    exact ⟨h1, h2, by simp only; omega, by simp only; omega⟩
  · intro r hr
    simp only [GR.bind_eq_ok, GR.ok.injEq] at hr
    obtain ⟨ix, hix, steps, hst, rfl⟩ := hr
    have hl : (b.specs.flatMap fun spec => spec.values.map fun v => (spec.declaration, v)) ≠ [] := by
      have hb0 : Atom.body b.specs.length ∈ atoms ds := mem_atoms_def hm (by
        obtain ⟨cond, specs, dflt⟩ := b
        exact List.mem_cons_of_mem _ List.mem_cons_self)
      have hsp : b.specs ≠ [] := fun h => H.wf _ hb0 (by rw [h]; rfl)
      obtain ⟨sp, hsp⟩ := List.exists_mem_of_ne_nil _ hsp
      have hv : sp.values ≠ [] := fun h => by
        have : Atom.body sp.values.length ∈ atoms ds := mem_atoms_case hm hsp (by
          obtain ⟨vs, d⟩ := sp
          exact List.mem_cons_self)
        exact H.wf _ this (by rw [h]; rfl)
      obtain ⟨v, hv⟩ := List.exists_mem_of_ne_nil _ hv
      exact List.ne_nil_of_mem (List.mem_flatMap.2 ⟨sp, hsp, List.mem_map_of_mem hv⟩)
    have hix0 : ix ≠ [] := by
      rintro rfl
      have := (GR.mapM_ok.1 hix).length_eq
      exact hl (List.eq_nil_of_length_eq_zero (by simpa using this))
    cases steps with
    | nil => exact absurd hst fun h => unionLoop_ne_nil (sortByKey_ne_nil hix0) h
    | cons s ss => simp [UnionAcc.ofSteps]

theorem boolCase_safe (H : Named ds) {n : Nat} {u : Str} {b : UnionBody}
    (hm : .type (.union u b) ∈ ds) {l : Value → Bool} {x : Bool} :
    (boolCase (setup_context ds cfg) n .bool b.specs l x).Safe := by
  unfold boolCase
  split
  · exact GR.safe_ok _
  · next cs hcs =>
    have hsp := List.mem_of_find?_eq_some hcs
    split
    · next hn =>
      have h1 := List.find?_some hcs
      obtain ⟨v, hv, hl⟩ := List.any_eq_true.1 h1
      exact absurd hl (by simpa using List.find?_eq_none.1 hn v hv)
    · next v hv =>
      refine GR.Safe.bind (case_safe H ?_ ?_ ?_ (.inr (.inr rfl))) fun _ _ => GR.safe_ok _
      · exact fun a ha => mem_atoms_case hm hsp (spec_case_atoms (List.mem_of_find?_eq_some hv) ha)
      · exact fun a ha => mem_atoms_case hm hsp (spec_decl_atoms ha)
      · intro a ha
        simp [TypeSpecifier.atoms] at ha

theorem boolCase_some {cxt : Context} {n : Nat} {ts : TypeSpecifier} {specs : List CaseSpec}
    {l : Value → Bool} {x : Bool} {sp : CaseSpec} (hsp : sp ∈ specs) {v : Value} (hv : v ∈ sp.values)
    (hl : l v = true) {o : Option CaseStep} (h : boolCase cxt n ts specs l x = .ok o) : o ≠ none := by
  unfold boolCase at h
  split at h
  · next hn =>
    have := List.find?_eq_none.1 hn sp hsp
    exact absurd (List.any_eq_true.2 ⟨v, hv, hl⟩) (by simpa using this)
  · split at h
    · cases h
    · simp only [GR.bind_eq_ok, GR.ok.injEq] at h
      obtain ⟨_, _, rfl⟩ := h
      simp

theorem cases_safe (H : Named ds) (T : Tame ds cfg) {n : Nat} {u : Str} {b : UnionBody}
    (hm : .type (.union u b) ∈ ds) : (unionCases (setup_context ds cfg) n b).Safe ∧
    ∀ r, unionCases (setup_context ds cfg) n b = .ok r → b.default = none → r.2.default ≠ none := by
  unfold unionCases
  cases hb : b.cond with
  | «variable» ts nm =>
    cases ts with
    | int s =>
      obtain ⟨h1, h2⟩ := union_int_safe (n := n) H T hm hb (.inl ⟨s, rfl⟩)
      exact ⟨h1, fun r hr _ => h2 r hr⟩
    | identifier i =>
      obtain ⟨h1, h2⟩ := union_int_safe (n := n) H T hm hb (.inr ⟨i, rfl⟩)
      exact ⟨h1, fun r hr _ => h2 r hr⟩
    | bool =>
      refine ⟨GR.Safe.bind (boolCase_safe H hm) fun _ _ => GR.Safe.bind (boolCase_safe H hm) fun _ _ =>
        GR.safe_ok _, fun r hr hdf => ?_⟩
      simp only [GR.bind_eq_ok, GR.ok.injEq] at hr
      obtain ⟨f, hf, t, ht, rfl⟩ := hr
      obtain ⟨⟨v, d⟩, hl, hv⟩ := T.bools u b nm hm hb hdf
      simp only [UnionBody.labels, List.mem_flatMap, List.mem_map] at hl
      obtain ⟨sp, hsp, w, hw, he⟩ := hl
      cases he
      simp only at hv
      rcases hv with rfl | rfl
      · have := boolCase_some hsp hw (by rfl) ht
        cases t with
        | none => exact absurd rfl this
        | some t => cases f <;> simp
      · have := boolCase_some hsp hw (by rfl) hf
        cases f with
        | none => exact absurd rfl this
        | some t => simp
    | _ => exact ⟨GR.safe_err _, fun r hr => by cases hr⟩
  | _ => exact ⟨GR.safe_err _, fun r hr => by cases hr⟩

theorem union_safe (H : Named ds) (T : Tame ds cfg) {n : Nat} {u : Str} {b : UnionBody}
    (hm : .type (.union u b) ∈ ds) : (convert_union_token (setup_context ds cfg) n u b).Safe := by
  have he : .ident u ∈ atoms ds := mem_atoms_def hm (by simp [Definition.atoms, TypeDef.atoms])
  obtain ⟨h1, h2⟩ := cases_safe (n := n) H T hm
  refine GR.Safe.bind (H.camel he) fun _ _ => GR.Safe.bind h1 fun r hr => ?_
  obtain ⟨ts, acc⟩ := r
  refine GR.Safe.bind ?_ fun df hdf => ?_
  · cases hb : b.default with
    | none => exact GR.safe_ok _
    | some d =>
      exact GR.Safe.bind (type_safe H n fun a ha => mem_atoms_default hm hb ha) fun _ _ => GR.safe_ok _
  · split
    · next hn =>
      rw [Option.or_eq_none_iff] at hn
      obtain ⟨hn1, hn2⟩ := hn
      cases hb : b.default with
      | none => exact absurd hn2 (h2 _ hr hb)
      | some d =>
        rw [hb] at hdf
        simp only [unionDefault, GR.bind_eq_ok, GR.ok.injEq] at hdf
        obtain ⟨o, -, rfl⟩ := hdf
        cases hn1
    · exact GR.safe_ok _

/-! ## Files -/

theorem gen_safe (hwf : WellFormed ds) (T : Tame ds cfg) (n : Nat) : (gen_code n ds cfg).Safe := by
  have H : Named ds := ⟨hwf, T.names⟩
  refine GR.Safe.bind (constants_safe H) fun _ _ => GR.Safe.bind (GR.Safe.bind (GR.safe_mapM ?_)
    fun _ _ => GR.safe_ok _) fun _ _ => GR.safe_ok _
  rintro ⟨name, td⟩ hmt
  obtain ⟨df, hdf, hx⟩ := List.mem_filterMap.1 hmt
  cases df with
  | type t =>
    cases t with
    | declaration d =>
      simp only [Option.map_eq_some_iff, Prod.mk.injEq] at hx
      obtain ⟨nm, hnm, rfl, rfl⟩ := hx
      simp only [typeToken]
      split
      · exact GR.safe_ok _
      · refine GR.Safe.bind (type_safe H n fun a ha => mem_atoms_def hdf ha) fun _ _ =>
          GR.Safe.bind (GR.safe_okOr _ _) fun p _ => ?_
        split
        · exact GR.safe_err _
        · exact GR.Safe.bind (H.camel (mem_atoms_def hdf (name_atom hnm))) fun _ _ => GR.safe_ok _
    | enum e as =>
      simp only [Option.some.injEq, Prod.mk.injEq] at hx
      obtain ⟨rfl, rfl⟩ := hx
      exact GR.Safe.bind (enum_safe H T hdf) fun _ _ => GR.safe_ok _
    | struct s ms =>
      simp only [Option.some.injEq, Prod.mk.injEq] at hx
      obtain ⟨rfl, rfl⟩ := hx
      exact GR.Safe.bind (struct_safe H T hdf) fun _ _ => GR.safe_ok _
    | union u b =>
      simp only [Option.some.injEq, Prod.mk.injEq] at hx
      obtain ⟨rfl, rfl⟩ := hx
      exact GR.Safe.bind (union_safe H T hdf) fun _ _ => GR.safe_ok _
  | constant _ => simp at hx
  | lineComment => simp at hx
  | program _ => simp at hx

end Xdr.Rpcgen
