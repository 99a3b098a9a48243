import Verif.RpcgenProofs.SizeTypes
import Verif.RpcgenProofs.Enum
/-!
# How long the items of the generated source are
-/

namespace Xdr.Rpcgen

/-! ## Parts of a file -/

theorem atomsSize_flatMap_mem {α : Type} {f : α → List Atom} {l : List α} {x : α} (h : x ∈ l) :
    atomsSize (f x) ≤ atomsSize (l.flatMap f) := by
  induction l with
  | nil => cases h
  | cons y l ih =>
    rw [List.flatMap_cons, atomsSize_append]
    rcases List.mem_cons.1 h with rfl | h
    · omega
    · have := ih h
      omega

theorem atomsSize_flatMap_length {α : Type} {f : α → List Atom} {l : List α} (h : ∀ x ∈ l, 1 ≤ atomsSize (f x)) :
    l.length ≤ atomsSize (l.flatMap f) := by
  induction l with
  | nil => simp
  | cons y l ih =>
    rw [List.flatMap_cons, atomsSize_append, List.length_cons]
    have h1 := h y (by simp)
    have h2 := ih fun x hx => h x (by simp [hx])
    omega

theorem declsAtoms_eq (l : List Declaration) : declsAtoms l = l.flatMap Declaration.atoms := by
  induction l with
  | nil => simp [declsAtoms]
  | cons d l ih => simp [declsAtoms, ih]

theorem casesAtoms_eq (l : List CaseSpec) : casesAtoms l = l.flatMap CaseSpec.atoms := by
  induction l with
  | nil => simp [casesAtoms]
  | cons d l ih => simp [casesAtoms, ih]

theorem ident_pos {s : Str} (h : Ident s) : 1 ≤ s.length := by
  obtain ⟨⟨c, cs, rfl, -⟩, -⟩ := h
  simp

theorem value_pos {v : Value} (h : ∀ a ∈ v.atoms, a.Ok) : 1 ≤ atomsSize v.atoms := by
  cases v with
  | constant c => simp [Value.atoms, atomsSize, Atom.size]
  | identifier s =>
    have : Ident s := h (.ident s) (by simp [Value.atoms])
    simpa [Value.atoms, atomsSize, Atom.size] using ident_pos this

theorem assign_pos {a : Assign} (h : ∀ x ∈ a.atoms, x.Ok) : 1 ≤ atomsSize a.atoms := by
  have : Ident a.identifier := h (.ident a.identifier) (by simp [Assign.atoms])
  have := ident_pos this
  simp only [Assign.atoms, atomsSize, Atom.size]
  omega

theorem named_pos {d : Declaration} {s : Str} (hn : d.name = some s) (h : ∀ a ∈ d.atoms, a.Ok) :
    1 ≤ atomsSize d.atoms := by
  have h1 := name_atom hn
  have h2 := size_le_of_mem h1
  have h3 : Ident s := h _ h1
  have h4 := ident_pos h3
  simp only [Atom.size] at h2
  omega

variable {ds : List Definition} {cfg : Config}

theorem wf_def (hwf : WellFormed ds) {d : Definition} (h : d ∈ ds) : ∀ a ∈ d.atoms, a.Ok :=
  fun a ha => hwf a (mem_atoms_def h ha)

theorem def_size {d : Definition} (h : d ∈ ds) : atomsSize d.atoms ≤ atomsSize (atoms ds) :=
  atomsSize_flatMap_mem h

/-- The definition an entry of the context comes from. -/
theorem typedef_def {name : Str} {d : TypeDef} (h : (name, d) ∈ (setup_context ds cfg).typedefs) :
    .type d ∈ ds ∧ (∀ e, d = .declaration e → e.name = some name) ∧ (∀ s as, d = .enum s as → s = name) ∧
      (∀ s ms, d = .struct s ms → s = name) ∧ ∀ s b, d = .union s b → s = name := by
  obtain ⟨x, hx, h⟩ := List.mem_filterMap.1 h
  cases x with
  | type td =>
    cases td with
    | declaration e =>
      simp only [Option.map_eq_some_iff, Prod.mk.injEq] at h
      obtain ⟨s, hs, rfl, rfl⟩ := h
      exact ⟨hx, by simp [hs], by simp, by simp, by simp⟩
    | enum s as =>
      simp only [Option.some.injEq, Prod.mk.injEq] at h
      obtain ⟨rfl, rfl⟩ := h
      exact ⟨hx, by simp, by simp, by simp, by simp⟩
    | struct s ms =>
      simp only [Option.some.injEq, Prod.mk.injEq] at h
      obtain ⟨rfl, rfl⟩ := h
      exact ⟨hx, by simp, by simp, by simp, by simp⟩
    | union s b =>
      simp only [Option.some.injEq, Prod.mk.injEq] at h
      obtain ⟨rfl, rfl⟩ := h
      exact ⟨hx, by simp, by simp, by simp, by simp⟩
  | constant _ => cases h
  | lineComment => cases h
  | program _ => cases h

theorem setup_typedefs_cons (d : Definition) (ds : List Definition) :
    (setup_context (d :: ds) cfg).typedefs = (setup_context [d] cfg).typedefs ++ (setup_context ds cfg).typedefs := by
  simp only [setup_context]
  rw [← List.filterMap_append, List.singleton_append]

theorem chainSize_append (p : Declaration → Bool) (a b : List (Str × TypeDef)) :
    chainSize p (a ++ b) = chainSize p a + chainSize p b := by
  induction a with
  | nil => simp [chainSize]
  | cons x xs ih => simp only [List.cons_append, chainSize, ih]; omega

theorem wf_cons {d : Definition} (h : WellFormed (d :: ds)) : (∀ a ∈ d.atoms, a.Ok) ∧ WellFormed ds := by
  simp only [WellFormed, atoms, List.flatMap_cons, List.forall_mem_append] at h
  exact ⟨h.1, h.2⟩

theorem atomsSize_cons_def (d : Definition) (ds : List Definition) :
    atomsSize (atoms (d :: ds)) = atomsSize d.atoms + atomsSize (atoms ds) := by
  simp only [atoms, List.flatMap_cons, atomsSize_append]

/-- All typedefs together. -/
theorem chainSize_le_size (hwf : WellFormed ds) :
    chainSize (fun _ => true) (setup_context ds cfg).typedefs ≤ 81 * atomsSize (atoms ds) := by
  induction ds with
  | nil => simp [setup_context, chainSize]
  | cons d ds ih =>
    have h1 := ih (wf_cons hwf).2
    have h2 := (wf_cons hwf).1
    rw [setup_typedefs_cons, chainSize_append, atomsSize_cons_def]
    have : chainSize (fun _ => true) (setup_context [d] cfg).typedefs ≤ 81 * atomsSize d.atoms := by
      cases d with
      | type td =>
        cases td with
        | declaration e =>
          simp only [setup_context, List.filterMap_cons, List.filterMap_nil]
          cases hn : e.name with
          | none => simp [chainSize]
          | some s =>
            have := named_pos hn h2
            simp only [Option.map_some, chainSize, levelSize, if_true, Definition.atoms, TypeDef.atoms]
            omega
        | _ => simp [setup_context, chainSize, levelSize]
      | _ => simp [setup_context, chainSize]
    omega

/-- Lengths of names. -/
abbrev nameBound (ds : List Definition) : Nat := 2 * atomsSize (atoms ds) + 30

/-- Weights of types. -/
abbrev typeBound (ds : List Definition) : Nat := 82 * atomsSize (atoms ds) + 100

theorem convert_type_fits (hwf : WellFormed ds) {n : Nat} {d : Declaration} {r : RTy × OpaqueType}
    (hd : atomsSize d.atoms ≤ atomsSize (atoms ds)) (h : convert_type_token (setup_context ds cfg) n d = .ok (some r)) :
    r.1.weight ≤ 82 * atomsSize (atoms ds) + 80 := by
  have h1 := type_weight h
  have h2 := chainSize_le_size (cfg := cfg) hwf
  omega

/-! ## Constants -/

theorem constants_fit {cs : List ConstItem} (h : constants_token (setup_context ds cfg) = .ok cs) :
    cs.length ≤ ds.length ∧ ∀ c ∈ cs, c.Fits (nameBound ds) := by
  unfold constants_token at h
  refine ⟨?_, fun c hc => ?_⟩
  · rw [← (GR.mapM_ok.1 h).length_eq]
    exact List.length_filterMap_le _ _
  · obtain ⟨⟨name, value⟩, hm, h⟩ := GR.mapM_mem h hc
    obtain ⟨d, hd, hm⟩ := List.mem_filterMap.1 hm
    cases d with
    | constant a =>
      simp only [Option.some.injEq, Prod.mk.injEq] at hm
      obtain ⟨rfl, rfl⟩ := hm
      have h0 := def_size hd
      simp only [Definition.atoms, Assign.atoms, atomsSize, Atom.size] at h0
      simp only [GR.bind_eq_ok] at h
      obtain ⟨i, hi, h⟩ := h
      have hi' : i.text.length ≤ nameBound ds := by
        rw [mkIdent_text hi]
        simp only [nameBound]
        omega
      have hv : atomsSize a.value.atoms ≤ nameBound ds := by
        simp only [nameBound]
        omega
      split at h
      · rename_i w hw
        cases h
        exact ⟨hi', value_fits hw hv⟩
      · simp only [GR.bind_eq_ok] at h
        obtain ⟨w, hw, h⟩ := h
        cases h
        exact ⟨hi', value_fits hw hv⟩
      · cases h
      · cases h
    | _ => cases hm

/-! ## Structures -/

theorem struct_fits (hwf : WellFormed ds) {n : Nat} {name : Str} {ms : List Declaration} {s : StructItem}
    (hm : .type (.struct name ms) ∈ ds) (h : convert_struct_token (setup_context ds cfg) n name ms = .ok s) :
    s.Fits (nameBound ds) (typeBound ds) ms.length ∧ ms.length + 1 ≤ atomsSize (TypeDef.struct name ms).atoms := by
  obtain ⟨h1, h2⟩ := convert_struct_ok h
  have h0 := def_size hm
  have hw := wf_def hwf hm
  simp only [Definition.atoms, TypeDef.atoms, atomsSize, Atom.size] at h0 hw ⊢
  have hwf' : ∀ d ∈ ms, ∀ a ∈ d.atoms, a.Ok := fun d hd a ha => hwf a (mem_atoms_struct hm hd ha)
  have hds : ∀ d ∈ ms, atomsSize d.atoms ≤ atomsSize (declsAtoms ms) := fun d hd => by
    rw [declsAtoms_eq]; exact atomsSize_flatMap_mem hd
  have hn : Ident name := hw (.ident name) (by simp)
  have hnl := ident_pos hn
  refine ⟨⟨?_, h2.length_eq ▸ Nat.le_refl _, fun f hf => ?_⟩, ?_⟩
  · have := camel_length h1
    simp only [nameBound]
    omega
  · obtain ⟨d, hdm, hd⟩ := forall₂_mem_right h2 hf
    have hd1 := hds d hdm
    unfold convertField at hd
    split at hd
    · rename_i fname ts hname hts
      simp only [GR.bind_eq_ok] at hd
      obtain ⟨o, ho, ⟨ty, op⟩, hop, i, hi, hd⟩ := hd
      cases o with
      | none => cases hop
      | some p =>
        cases hop
        cases hd
        have h3 := convert_type_fits hwf (by omega) ho
        have h4 := field_length hi
        have h5 := size_le_of_mem (name_atom hname)
        simp only [Atom.size] at h5
        refine ⟨by simp only [nameBound]; omega, ?_⟩
        simp only [RTy.weight] at h3
        simp only [TyFits, typeBound]
        split
        · simp only [RTy.tokens]
          weigh []
          omega
        · omega
    · cases hd
  · have h3 : ms.length ≤ atomsSize (declsAtoms ms) := by
      rw [declsAtoms_eq]
      refine atomsSize_flatMap_length fun d hdm => ?_
      obtain ⟨f, hf, hd⟩ := forall₂_mem_left h2 hdm
      unfold convertField at hd
      split at hd
      · rename_i fname ts hname hts
        exact named_pos hname (hwf' d hdm)
      · cases hd
    omega

/-! ## Numbered members -/

theorem reservedIdent_nonneg {k : Int} {i : RIdent} (h : reservedIdent k = .ok i) : 0 ≤ k := by
  refine Decidable.byContradiction fun hk => ?_
  have hk : k < 0 := by omega
  unfold reservedIdent at h
  have h1 := (mkIdent_Ok h).1
  have hs : intToString k = '-' :: digitsFuel (k.natAbs + 1) k.natAbs := by
    unfold intToString
    rw [if_pos hk]
  rcases mkIdent_ok h with ⟨-, h2⟩ | ⟨-, h2⟩
  · simp at h2
  · rw [h2, hs] at h1
    simp only [List.cons_append, List.nil_append, identOk, List.all_cons, Bool.and_eq_true] at h1
    exact absurd h1.2 (by simp [isWord, isAlpha, isLower, isUpper, isDigit])

theorem reservedIdent_length {k : Int} {i : RIdent} (h : reservedIdent k = .ok i) (hk : Small k) :
    i.text.length ≤ 30 := by
  rw [mkIdent_text h]
  have := intToString_length hk
  simp only [List.length_append, List.length_cons, List.length_nil]
  omega

/-- The numbers skipped before a member. -/
theorem range_length {α : Type} {f : Int → GR α} {a e : Int} {r : List α} {b : Nat}
    (h : GR.mapM f (intRange a e) = .ok r) (hf : ∀ i x, f i = .ok x → 0 ≤ i) (he : e ≤ b) : r.length ≤ b := by
  rw [← (GR.mapM_ok.1 h).length_eq]
  by_cases hlt : a < e
  · have hm : a ∈ intRange a e := by
      simp only [intRange, List.mem_map, List.mem_range]
      exact ⟨0, by omega, by simp⟩
    obtain ⟨x, -, hx⟩ := forall₂_mem_left (GR.mapM_ok.1 h) hm
    have := hf a x hx
    simp only [intRange, List.length_map, List.length_range]
    omega
  · simp only [intRange, List.length_map, List.length_range]
    omega

theorem enumLoop_fits {c : Bool} {b n : Nat} {l : List (Int × Assign)} {s : Int}
    {steps : List (List (RIdent × Int) × RIdent × Int)} (h : enumLoop c l s = .ok steps)
    (hb : c = true → ∀ p ∈ l, p.1 ≤ b) (hr : ∀ p ∈ l, Small p.1 ∧ p.1 ≤ 4294967295)
    (hn : ∀ p ∈ l, p.2.identifier.length ≤ n) (h30 : 30 ≤ n) :
    ∀ st ∈ steps, st.1.length ≤ b ∧ (∀ p ∈ st.1, ArmFits n p.1 p.2) ∧ ArmFits n st.2.1 st.2.2 := by
  induction l generalizing s steps with
  | nil =>
    cases h
    simp
  | cons p l ih =>
    obtain ⟨e, a⟩ := p
    simp only [enumLoop, GR.bind_eq_ok] at h
    obtain ⟨r, hr', i, hi, h⟩ := h
    split at h
    · cases h
    · simp only [GR.bind_eq_ok] at h
      obtain ⟨steps', h', h⟩ := h
      cases h
      have hf : ∀ (k : Int) (x : RIdent × Int), ((reservedIdent k).bind fun r => GR.ok (r, k)) = .ok x →
          reservedIdent k = .ok x.1 ∧ x.2 = k := by
        intro k x hx
        simp only [GR.bind_eq_ok, GR.ok.injEq] at hx
        obtain ⟨y, hy, rfl⟩ := hx
        exact ⟨hy, rfl⟩
      intro st hst
      rcases List.mem_cons.1 hst with rfl | hst
      · refine ⟨?_, ?_, ?_, (hr (e, a) (by simp)).1⟩
        · cases c with
          | false => cases hr'; simp
          | true =>
            rw [if_pos rfl] at hr'
            exact range_length hr' (fun k x hx => reservedIdent_nonneg (hf k x hx).1) (hb rfl (e, a) (by simp))
        · intro p hp
          cases c with
          | false => cases hr'; cases hp
          | true =>
            rw [if_pos rfl] at hr'
            obtain ⟨k, hk, hx⟩ := GR.mapM_mem hr' hp
            obtain ⟨h1, h2⟩ := hf k p hx
            have h3 := reservedIdent_nonneg h1
            have h4 := mem_intRange.1 hk
            have h5 := (hr (e, a) (by simp)).2
            have h6 : Small k := Small.of_range (by omega) (by simp only at h5; omega)
            exact ⟨Nat.le_trans (reservedIdent_length h1 h6) h30, h2 ▸ h6⟩
        · have := camel_length hi
          have := hn (e, a) (by simp)
          simp only at this ⊢
          omega
      · exact ih h' (fun hc p hp => hb hc p (by simp [hp])) (fun p hp => hr p (by simp [hp]))
          (fun p hp => hn p (by simp [hp])) st hst

/-- Reserved variants and one more, for each step. -/
theorem flatMap_steps_length {α β : Type} {f : α → List β} {b : Nat} {l : List α} (h : ∀ x ∈ l, (f x).length ≤ b + 1) :
    (l.flatMap f).length ≤ l.length * (b + 1) := by
  induction l with
  | nil => simp
  | cons x l ih =>
    have h1 := h x (by simp)
    have h2 := ih fun y hy => h y (by simp [hy])
    simp only [List.flatMap_cons, List.length_append, List.length_cons, Nat.add_mul]
    omega

theorem ends_number_atom {v : Value} {c : Constant} (h : Ends ds v c)
    (hv : ∀ a ∈ v.atoms, a ∈ atoms ds) : .number c ∈ atoms ds := by
  induction h with
  | literal c => exact hv _ (by simp [Value.atoms])
  | const hl _ ih => exact ih fun a ha => constOf_atoms hl ha
  | member hl _ ih => exact ih fun a ha => memberOf_atoms hl ha

theorem enum_fits (hwf : WellFormed ds) {b n : Nat}
    (hb : cfg.enum_complement_index = true → ∀ c, .number c ∈ atoms ds → c.number ≤ (b : Int)) {name : Str} {as : List Assign}
    {e : EnumItem} (hm : .type (.enum name as) ∈ ds) (h : convert_enum_token (setup_context ds cfg) n name as = .ok e) :
    e.Fits (nameBound ds) (as.length * (b + 1)) ∧ as.length + 1 ≤ atomsSize (TypeDef.enum name as).atoms := by
  obtain ⟨indexed, steps, hidx, hname, hl, ⟨st, hst, hd⟩, -, hv, ha, ht, hi⟩ := convert_enum_ok h
  have h0 := def_size hm
  have hw := wf_def hwf hm
  simp only [Definition.atoms, TypeDef.atoms, enumAtoms, atomsSize, Atom.size] at h0 hw ⊢
  have hwf' : ∀ a ∈ as, ∀ x ∈ a.atoms, x.Ok := fun a ha x hx => hwf x (mem_atoms_member hm ha hx)
  have hn : Ident name := hw (.ident name) (by simp)
  have hnl := ident_pos hn
  have hidx' := GR.mapM_ok.1 hidx
  have hmem : ∀ p ∈ indexed, p.2 ∈ as ∧ (setup_context ds cfg).resolve_value .i32 n p.2.value = .ok p.1 := by
    intro p hp
    obtain ⟨a, ha, h⟩ := forall₂_mem_right hidx' hp
    simp only [GR.bind_eq_ok, GR.ok.injEq] at h
    obtain ⟨k, hk, rfl⟩ := h
    exact ⟨ha, hk⟩
  have hval : ∀ p ∈ indexed, ∃ c, .number c ∈ atoms ds ∧ c.number = p.1 ∧ IntTy.i32.min ≤ p.1 ∧ p.1 ≤ IntTy.i32.max := by
    intro p hp
    obtain ⟨h1, h2⟩ := hmem p hp
    have h3 : ∀ a ∈ p.2.value.atoms, a ∈ atoms ds := fun a ha => mem_atoms_member hm h1 (by simp [Assign.atoms, ha])
    obtain ⟨c, hc, h4, h5⟩ := resolve_value_ends hwf h3 h2
    exact ⟨c, ends_number_atom hc h3, h4, h5⟩
  have hall := enumLoop_fits (b := b) (n := nameBound ds) hl
    (fun hc p hp => by
      obtain ⟨c, h1, h2, -⟩ := hval p (mem_sortByKey.1 hp)
      have := hb hc c h1
      omega)
    (fun p hp => by
      obtain ⟨c, -, -, h1, h2⟩ := hval p (mem_sortByKey.1 hp)
      simp only [IntTy.min, IntTy.max] at h1 h2
      exact ⟨Small.of_range (by omega) (by omega), by omega⟩)
    (fun p hp => by
      have h1 := (hmem p (mem_sortByKey.1 hp)).1
      have h2 := atomsSize_flatMap_mem (f := Assign.atoms) h1
      simp only [Assign.atoms, atomsSize, Atom.size] at h2
      simp only [nameBound]
      omega)
    (by simp only [nameBound]; omega)
  have hlen : steps.length = as.length := by
    rw [← (enumLoop_ok hl).length_eq, (sortByKey_perm indexed).length_eq, hidx'.length_eq]
  have hle : steps.length ≤ as.length * (b + 1) := by
    rw [hlen]
    exact Nat.le_mul_of_pos_right _ (by omega)
  have hdf : e.default.text.length ≤ nameBound ds := by
    rw [hd]
    exact (hall st (List.mem_of_head? hst)).2.2.1
  refine ⟨⟨?_, ⟨?_, ?_⟩, hdf, ?_, ?_, ?_, ?_, ?_⟩, ?_⟩
  · have := camel_length hname
    simp only [nameBound]
    omega
  · rw [hv, ← hlen]
    refine flatMap_steps_length fun s hs => ?_
    have := (hall s hs).1
    simp only [List.length_append, List.length_cons, List.length_nil]
    omega
  · intro v hmv
    rw [hv] at hmv
    simp only [List.mem_flatMap, List.mem_append, List.mem_singleton] at hmv
    obtain ⟨s, hs, hmv | rfl⟩ := hmv
    · exact (hall s hs).2.1 v hmv
    · exact (hall s hs).2.2
  · intro arms h1
    rw [ha] at h1
    split at h1
    · cases h1
      refine ⟨by simpa using hle, fun a ham => ?_⟩
      obtain ⟨s, hs, rfl⟩ := List.mem_map.1 ham
      exact (hall s hs).2.2
    · cases h1
  · intro arms h1
    rw [ht] at h1
    split at h1
    · cases h1
      refine ⟨by simpa using hle, fun a ham => ?_⟩
      obtain ⟨s, hs, rfl⟩ := List.mem_map.1 ham
      exact (hall s hs).2.2
    · cases h1
  · intro ix h1
    rw [hi] at h1
    split at h1
    · cases h1
      refine ⟨by simpa using hle, fun a ham => ?_⟩
      obtain ⟨s, hs, rfl⟩ := List.mem_map.1 ham
      exact (hall s hs).2.2
    · cases h1
  · intro ix h1
    rw [hi] at h1
    split at h1
    · cases h1
      exact hdf
    · cases h1
  · intro ix h1
    rw [hi] at h1
    split at h1
    · cases h1
      refine ⟨by simpa using hle, fun a ham => ?_⟩
      obtain ⟨s, hs, rfl⟩ := List.mem_map.1 ham
      exact (hall s hs).2.2
    · cases h1
  · have := atomsSize_flatMap_length (l := as) (f := Assign.atoms) fun a ha => assign_pos (hwf' a ha)
    omega

end Xdr.Rpcgen
