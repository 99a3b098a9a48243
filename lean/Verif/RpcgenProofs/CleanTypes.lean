import Verif.Spec.Clean
import Verif.RpcgenProofs.Types
import Verif.RpcgenProofs.Union
import Verif.Props.Consts
/-!
# Constants and types of a file whose source compiles
-/

namespace Xdr.Rpcgen

/-! ## The values of constants -/

theorem constValue_mono {cs : List ConstItem} {t : IntTy} {n m : Nat} (h : n ≤ m) {tok : Tok} {v : Int}
    (hv : constValue cs t n tok = some v) : constValue cs t m tok = some v := by
  induction n generalizing m tok with
  | zero => cases hv
  | succ n ih =>
    obtain ⟨m, rfl⟩ : ∃ k, m = k + 1 := ⟨m - 1, by omega⟩
    cases tok with
    | lit t' k => exact hv
    | ident i =>
      simp only [constValue] at hv ⊢
      split at hv
      · next c hc =>
        split at hv
        · next ht =>
          rw [if_pos ht]
          exact ih (by omega) hv
        · cases hv
      · cases hv

theorem constEval_fuel {cs : List ConstItem} {t : IntTy} {tok : Tok} {v : Int} (h : ConstEval cs t tok v) :
    ∃ n, constValue cs t n tok = some v := by
  induction h with
  | lit => exact ⟨1, by simp [constValue]⟩
  | @name i c v hc _ ih =>
    obtain ⟨n, hn⟩ := ih
    refine ⟨n + 1, ?_⟩
    simp only [constValue, hc]
    rw [if_pos trivial]
    exact hn

/-- The least bound with which a token has a value. -/
def LeastFuel (cs : List ConstItem) (t : IntTy) (tok : Tok) (n : Nat) : Prop :=
  (constValue cs t n tok).isSome ∧ ∀ m < n, constValue cs t m tok = none

theorem leastFuel_exists {cs : List ConstItem} {t : IntTy} (n : Nat) {tok : Tok}
    (h : (constValue cs t n tok).isSome) : ∃ m, LeastFuel cs t tok m := by
  induction n with
  | zero => cases h
  | succ n ih =>
    by_cases hn : (constValue cs t n tok).isSome
    · exact ih hn
    · refine ⟨n + 1, h, fun m hm => ?_⟩
      cases hv : constValue cs t m tok with
      | none => rfl
      | some v => exact absurd (by rw [constValue_mono (by omega) hv]; rfl) hn

theorem leastFuel_unique {cs : List ConstItem} {t : IntTy} {tok : Tok} {n m : Nat} (hn : LeastFuel cs t tok n)
    (hm : LeastFuel cs t tok m) : n = m := by
  rcases Nat.lt_trichotomy n m with h | h | h
  · have h1 := hn.1
    rw [hm.2 n h] at h1
    cases h1
  · exact h
  · have h1 := hm.1
    rw [hn.2 m h] at h1
    cases h1

/-- The names on the way to a value are different. -/
theorem leastFuel_names {cs : List ConstItem} {t : IntTy} (n : Nat) {tok : Tok} (h : LeastFuel cs t tok n) :
    ∃ l : List RIdent, l.Nodup ∧ l ⊆ cs.map (·.name) ∧ l.length + 1 = n ∧
      ∀ i ∈ l, ∃ m ≤ n, LeastFuel cs t (.ident i) m := by
  induction n generalizing tok with
  | zero => cases h.1
  | succ n ih =>
    cases tok with
    | lit t' k =>
      refine ⟨[], List.nodup_nil, by simp, ?_, by simp⟩
      have h1 := h.1
      simp only [constValue] at h1
      by_cases hn : n = 0
      · simp [hn]
      · have := h.2 1 (by omega)
        simp only [constValue] at this
        rw [this] at h1
        cases h1
    | ident i =>
      have h1 := h.1
      simp only [constValue] at h1
      split at h1
      · next c hc =>
        split at h1
        · next ht =>
          have hleast : LeastFuel cs t c.value n := by
            refine ⟨h1, fun m hm => ?_⟩
            have := h.2 (m + 1) (by omega)
            simp only [constValue, hc] at this
            rwa [if_pos ht] at this
          obtain ⟨l, g1, g2, g3, g4⟩ := ih hleast
          refine ⟨i :: l, List.nodup_cons.2 ⟨fun hi => ?_, g1⟩, ?_, by simp [g3], ?_⟩
          · obtain ⟨m, hm, hl⟩ := g4 i hi
            have := leastFuel_unique h hl
            omega
          · refine List.cons_subset.2 ⟨?_, g2⟩
            have hp := List.find?_some hc
            simp only [decide_eq_true_eq] at hp
            exact List.mem_map.2 ⟨c, List.mem_of_find?_eq_some hc, hp⟩
          · intro j hj
            rcases List.mem_cons.1 hj with rfl | hj
            · exact ⟨n + 1, Nat.le_refl _, h⟩
            · obtain ⟨m, hm, hl⟩ := g4 j hj
              exact ⟨m, by omega, hl⟩
        · cases h1
      · cases h1

/-- What Rust computes is found within the number of constants. -/
theorem constValue_of_eval {cs : List ConstItem} {t : IntTy} {tok : Tok} {v : Int} (h : ConstEval cs t tok v) :
    constValue cs t (cs.length + 1) tok = some v := by
  obtain ⟨n, hn⟩ := constEval_fuel h
  obtain ⟨m, hm⟩ := leastFuel_exists n (tok := tok) (by rw [hn]; rfl)
  obtain ⟨l, h1, h2, h3, -⟩ := leastFuel_names m hm
  have hl : l.length ≤ cs.length := by
    have := (List.subperm_of_subset h1 h2).length_le
    simpa using this
  obtain ⟨w, hw⟩ := Option.isSome_iff_exists.1 hm.1
  have e1 := constValue_mono (Nat.le_max_left n m) hn
  have e2 := constValue_mono (Nat.le_max_right n m) hw
  rw [e1] at e2
  cases e2
  exact constValue_mono (by omega) hw

theorem declared_name {a : Assign} {c : ConstItem} (h : DeclaredAs a c) : c.name = ⟨false, a.identifier⟩ := by
  cases h <;> rfl

theorem constants_sublist (ds : List Definition) :
    ((constants ds).map (·.identifier)).Sublist (definedNames ds) := by
  induction ds with
  | nil => exact .slnil
  | cons d ds ih =>
    cases d with
    | constant a => exact ih.cons_cons _
    | _ => exact ih.trans (List.sublist_append_right _ _)

theorem clean_constants {ds : List Definition} {cfg : Config} (hc : Clean ds cfg) {cs : List ConstItem}
    (hd : List.Forall₂ DeclaredAs (constants ds) cs) : constantsOk cs = true := by
  have h1 : (cs.map (·.name.str)).Nodup := by
    have hn : ((constants ds).map (·.identifier)).Nodup := hc.unambiguous.values.sublist (constants_sublist ds)
    have he : cs.map (·.name.str) = ((constants ds).map (·.identifier)).map String.ofList := by
      clear hn hc
      generalize constants ds = l at hd
      induction hd with
      | nil => rfl
      | cons h _ ih =>
        simp only [List.map_cons, ih]
        rw [declared_name h]
        rfl
    rw [he]
    exact hn.map fun a b h => String.ofList_injective h
  have h2 : ∀ c ∈ cs, c.name.usable = true ∧ (constValue cs c.ty (cs.length + 1) c.value).isSome = true := by
    intro c hcs
    obtain ⟨a, ha, hac⟩ := forall₂_mem_right hd hcs
    obtain ⟨g1, g2, k, g3, g4⟩ := hc.constants a ha
    refine ⟨?_, ?_⟩
    · rw [declared_name hac]
      simp only [RIdent.usable, g1, Bool.not_false, Bool.false_or, Bool.true_and]
      simpa using g2
    · rw [constValue_of_eval ((eval_iff hd hac).2 ⟨g3, g4⟩)]
      rfl
  simp only [constantsOk, decide_eq_true_eq]
  exact ⟨h1, h2⟩

/-! ## Lengths -/

theorem len_literal {c : Constant} {len : Tok} (h : LenTok (.constant c) len) (hok : ∃ s, ConstantText c s)
    (cs : List ConstItem) (cast : Bool) : arrayLen cs len cast = some c.number.toNat := by
  cases h with
  | literal h =>
    obtain ⟨s, hs⟩ := hok
    have := C38_value hs .usize
    rw [h] at this
    split at this
    · cases this
      simp [arrayLen]
    · cases this

theorem len_name {ds : List Definition} (hwf : WellFormed ds) {cs : List ConstItem}
    (hd : List.Forall₂ DeclaredAs (constants ds) cs)
    (hcs : ∀ a ∈ constants ds, ∃ k, ThroughConstants ds a.value k ∧ ((∃ name, a.value = .identifier name) → k < 2 ^ 32))
    {i : Str} {len : Tok} (h : LenTok (.identifier i) len) {k : Int}
    (hk : ThroughConstants ds (.identifier i) k) : arrayLen cs len true = some k.toNat := by
  cases h with
  | name h =>
    cases hk with
    | @name _ v _ hv hk =>
      rw [constOf_find] at hv
      obtain ⟨a, ha, rfl⟩ := Option.map_eq_some_iff.1 hv
      have hai := List.find?_some ha
      simp only [decide_eq_true_eq] at hai
      subst hai
      have hmem := List.mem_of_find?_eq_some ha
      rw [mkIdent_plain (atoms_constant hwf hmem).1] at h
      cases h
      have hf := declared_find hd a.identifier
      rw [ha] at hf
      obtain ⟨c, h1, h2⟩ := hf
      obtain ⟨k', h3, h4⟩ := hcs a hmem
      have he := constValue_of_eval ((eval_iff hd h2).2 ⟨h3, h4⟩)
      have : k' = k := stands_unique (through_stands h3) (through_stands hk)
      subst this
      simp only [arrayLen, if_true, h1, he]
      rfl

theorem arrayTy_isSome {n : Nat} (h : n ≤ 32) (k : Nat → Ty) : (arrayTy (some n) k).isSome := by
  simp [arrayTy, maxArray, h]

/-! ## Types -/

theorem typedefIn_of {ds : List Definition} {name : Str} {d : Declaration}
    (h : typeOf ds name = some (.declaration d)) : DeclIn ds d := .inl (typeOf_mem h).1

section
variable {ds : List Definition} {cfg : Config} (hwf : WellFormed ds) (hc : Clean ds cfg) {cs : List ConstItem}
  (hd : List.Forall₂ DeclaredAs (constants ds) cs)

/-- The literal of a length is one of the file. -/
theorem declIn_atoms {d : Declaration} (h : DeclIn ds d) : ∀ a ∈ d.atoms, a ∈ atoms ds := by
  intro a ha
  rcases h with h | ⟨s, ms, h, hm⟩ | ⟨u, b, v, h, hm⟩ | ⟨u, b, h, hm⟩ | ⟨u, b, h, rfl⟩
  · exact mem_atoms_def h (by simpa [Definition.atoms, TypeDef.atoms] using ha)
  · exact mem_atoms_struct h hm ha
  · obtain ⟨sp, hsp, hl⟩ := List.mem_flatMap.1 hm
    obtain ⟨v', -, hv⟩ := List.mem_map.1 hl
    cases hv
    exact mem_atoms_case h hsp (spec_decl_atoms ha)
  · exact mem_atoms_default h hm ha
  · exact mem_atoms_cond h ha

include hwf hc in
theorem clean_fixed_len {ts : TypeSpecifier} {nm : Str} {v : Value} {len : Tok} (hin : DeclIn ds (.fixedArray ts nm v))
    (hl : LenTok v len) (cs : List ConstItem) (k : Nat → Ty) : (arrayTy (arrayLen cs len false) k).isSome := by
  obtain ⟨c, rfl, hk⟩ := hc.lengths ts nm v hin
  have hok : ∃ s, ConstantText c s := hwf (.number c) (declIn_atoms hin _ (by simp [Declaration.atoms, Value.atoms]))
  rw [len_literal hl hok]
  exact arrayTy_isSome (by omega) k

include hwf hc hd in
theorem clean_opaque_len {nm : Str} {v : Value} {len : Tok} (hin : DeclIn ds (.opaqueFixedArray nm v))
    (hl : LenTok v len) (k : Nat → Ty) : (arrayTy (arrayLen cs len true) k).isSome := by
  obtain ⟨n, hn, hk⟩ := hc.opaqueLengths nm v hin
  cases v with
  | constant c =>
    have hok : ∃ s, ConstantText c s := hwf (.number c) (declIn_atoms hin _ (by simp [Declaration.atoms, Value.atoms]))
    rw [len_literal hl hok]
    cases hn
    exact arrayTy_isSome (by omega) k
  | identifier i =>
    rw [len_name hwf hd (fun a ha => (hc.constants a ha).2.2) hl hn]
    exact arrayTy_isSome (by omega) k

mutual
theorem SpecType.means (hwf : WellFormed ds) (hc : Clean ds cfg) (hd : List.Forall₂ DeclaredAs (constants ds) cs) :
    ∀ {ts ty op}, SpecType ds true ts ty op → (ty.meaning cs).isSome
  | _, _, _, .int | _, _, _, .uint | _, _, _, .hyper | _, _, _, .uhyper | _, _, _, .float | _, _, _, .double
  | _, _, _, .bool | _, _, _, .char | _, _, _, .uchar | _, _, _, .short | _, _, _, .ushort => rfl
  | _, _, _, .typedef _ ht h => DeclType.means hwf hc hd h (typedefIn_of ht)
  | _, _, _, .name _ _ => rfl

theorem DeclType.means (hwf : WellFormed ds) (hc : Clean ds cfg) (hd : List.Forall₂ DeclaredAs (constants ds) cs) :
    ∀ {d ty op}, DeclType ds true d ty op → DeclIn ds d → (ty.meaning cs).isSome
  | _, _, _, .variable h, _ => SpecType.means hwf hc hd h
  | _, _, _, .fixedArray h hl, hin => by
    obtain ⟨t, ht⟩ := Option.isSome_iff_exists.1 (SpecType.means hwf hc hd h)
    simp only [RTy.meaning, ht, Option.bind_some]
    exact clean_fixed_len hwf hc hin hl _ _
  | _, _, _, .variableArray h _, _ => by
    simpa [RTy.meaning] using SpecType.means hwf hc hd h
  | _, _, _, .opaqueArray h, _ => rfl
  | _, _, _, .opaqueFixed hl, hin => by
    simp only [RTy.meaning, Option.bind_some]
    exact clean_opaque_len hwf hc hd hin hl _
  | _, _, _, .opaqueVar, _ => rfl
  | _, _, _, .string, _ => rfl
  | _, _, _, .option h, _ => by
    simpa [RTy.meaning] using SpecType.means hwf hc hd h
end

theorem plainOpaque_op {d : Declaration} (h : PlainOpaque ds d) {ty : RTy} {op : OpaqueType}
    (ht : DeclType ds true d ty op) : op = .variable := by
  induction h generalizing ty op with
  | direct => cases ht; rfl
  | typedef h1 _ ih =>
    cases ht with
    | «variable» hs =>
      cases hs with
      | typedef _ h2 h3 =>
        rw [h1] at h2
        cases h2
        exact ih h3
      | name h2 _ => exact absurd h1 (h2 rfl _)

mutual
theorem SpecType.opaqueType (hc : Clean ds cfg) : ∀ {ts ty op}, SpecType ds true ts ty op → ∀ nm, op ≠ .none →
    IsOpaque ds (.variable ts nm) ∧ (op = .fixed → ∃ len, ty = .array .u8 len true) ∧ (op = .variable → ty = .vec .u8)
  | _, _, _, .int, _, h | _, _, _, .uint, _, h | _, _, _, .hyper, _, h | _, _, _, .uhyper, _, h
  | _, _, _, .float, _, h | _, _, _, .double, _, h | _, _, _, .bool, _, h | _, _, _, .char, _, h
  | _, _, _, .uchar, _, h | _, _, _, .short, _, h | _, _, _, .ushort, _, h | _, _, _, .name _ _, _, h =>
    absurd rfl h
  | _, _, _, .typedef _ ht h, nm, ho => by
    obtain ⟨h1, h2, h3⟩ := DeclType.opaqueType hc h (typedefIn_of ht) ho
    exact ⟨.typedef ht h1, h2, h3⟩

theorem DeclType.opaqueType (hc : Clean ds cfg) : ∀ {d ty op}, DeclType ds true d ty op → DeclIn ds d →
    op ≠ .none →
    IsOpaque ds d ∧ (op = .fixed → ∃ len, ty = .array .u8 len true) ∧ (op = .variable → ty = .vec .u8)
  | _, _, _, .variable (nm := nm) h, _, ho => SpecType.opaqueType hc h nm ho
  | _, _, _, .fixedArray (nm := nm) h _, hin, ho =>
    absurd (SpecType.opaqueType hc h nm ho).1 (hc.fixedArrays _ _ _ hin)
  | _, _, _, .variableArray (nm := nm) h hv, hin, ho =>
    absurd (plainOpaque_op (hc.arrays _ _ _ hin (SpecType.opaqueType hc h nm ho).1) (.variable h)) hv
  | _, _, _, .opaqueArray _, _, ho => absurd rfl ho
  | _, _, _, .opaqueFixed _, _, _ => ⟨.fixed, fun _ => ⟨_, rfl⟩, nofun⟩
  | _, _, _, .opaqueVar, _, _ => ⟨.variable, nofun, fun _ => rfl⟩
  | _, _, _, .string, _, ho => absurd rfl ho
  | _, _, _, .option (nm := nm) h, hin, ho =>
    absurd (SpecType.opaqueType hc h nm ho).1 (hc.pointers _ _ hin)
end

/-- The type of a declaration with the attribute of opaque data. -/
theorem DeclType.field (hwf : WellFormed ds) (hc : Clean ds cfg) (hd : List.Forall₂ DeclaredAs (constants ds) cs)
    {d : Declaration} {ty : RTy} {op : OpaqueType} (h : DeclType ds true d ty op) (hin : DeclIn ds d)
    (enums : List EnumItem) : (fieldMeaning cs enums op.attr ty).isSome := by
  have hm := DeclType.means hwf hc hd h hin
  cases op with
  | none => exact hm
  | fixed =>
    obtain ⟨-, h2, -⟩ := DeclType.opaqueType hc h hin nofun
    obtain ⟨len, rfl⟩ := h2 rfl
    simp only [RTy.meaning, Option.bind_some, OpaqueType.attr, fieldMeaning, arrayTy] at hm ⊢
    split at hm
    · split at hm
      · next hle =>
        rw [if_pos hle]
        rfl
      · cases hm
    · cases hm
  | «variable» =>
    obtain ⟨-, -, h3⟩ := DeclType.opaqueType hc h hin nofun
    rw [h3 rfl]
    rfl

end

/-! ## Names in types -/

section
variable {ds : List Definition} {cfg : Config}

mutual
/-- The names left in a type are those of enums, structures and unions of the file. -/
theorem SpecType.items (hc : Clean ds cfg) : ∀ {ts ty op}, SpecType ds true ts ty op →
    (∀ name, ts = .identifier name → typeOf ds name ≠ none) → ∀ i ∈ ty.paths,
    ∃ name t, typeOf ds name = some t ∧ t.itemName = some name ∧ upper_camel_case_ident name = .ok i
  | _, _, _, .int, _ | _, _, _, .uint, _ | _, _, _, .hyper, _ | _, _, _, .uhyper, _ | _, _, _, .float, _
  | _, _, _, .double, _ | _, _, _, .bool, _ | _, _, _, .char, _ | _, _, _, .uchar, _ | _, _, _, .short, _
  | _, _, _, .ushort, _ => by simp [RTy.paths]
  | _, _, _, .typedef _ ht h, _ => DeclType.items hc h (typedefIn_of ht)
  | _, _, _, .name (name := name) hn hid, hdef => by
    intro i hi
    simp only [RTy.paths, List.mem_singleton] at hi
    subst hi
    obtain ⟨t, ht⟩ := Option.ne_none_iff_exists'.1 (hdef name rfl)
    refine ⟨name, t, ht, ?_, hid⟩
    have := (typeOf_mem ht).2
    cases t with
    | declaration d => exact absurd ht (hn rfl d)
    | _ => exact this

theorem DeclType.items (hc : Clean ds cfg) : ∀ {d ty op}, DeclType ds true d ty op → DeclIn ds d →
    ∀ i ∈ ty.paths,
    ∃ name t, typeOf ds name = some t ∧ t.itemName = some name ∧ upper_camel_case_ident name = .ok i
  | _, _, _, .variable h, hin => SpecType.items hc h fun name hn => hc.defined _ name hin (by rw [hn]; rfl)
  | _, _, _, .fixedArray h _, hin => by
    simp only [RTy.paths]
    exact SpecType.items hc h fun name hn => hc.defined _ name hin (by rw [hn]; rfl)
  | _, _, _, .variableArray h _, hin => by
    simp only [RTy.paths]
    exact SpecType.items hc h fun name hn => hc.defined _ name hin (by rw [hn]; rfl)
  | _, _, _, .opaqueArray h, _ => by simp [RTy.paths]
  | _, _, _, .opaqueFixed _, _ => by simp [RTy.paths]
  | _, _, _, .opaqueVar, _ => by simp [RTy.paths]
  | _, _, _, .string, _ => by simp [RTy.paths]
  | _, _, _, .option h, hin => by
    simp only [RTy.paths]
    exact SpecType.items hc h fun name hn => hc.defined _ name hin (by rw [hn]; rfl)
end

end

end Xdr.Rpcgen
