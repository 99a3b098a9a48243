import Verif.RpcgenProofs.LexRust
import Verif.RpcgenProofs.Union
import Verif.RpcgenProofs.Safe
/-!
# The generated tokens can be printed and read back
-/

namespace Xdr.Rpcgen

/-! ## Identifiers of a generated file -/

def Tok.Ok : Tok → Prop
  | .ident i => i.Ok
  | .lit _ _ => True

def RTy.Ok : RTy → Prop
  | .path i => i.Ok
  | .array t len _ => t.Ok ∧ len.Ok
  | .vec t => t.Ok
  | .option t => t.Ok
  | .box t => t.Ok
  | _ => True

structure EnumItem.Ok (e : EnumItem) : Prop where
  name : e.name.Ok
  variants : ∀ v ∈ e.variants, v.1.Ok
  default : e.default.Ok
  asRef : ∀ arms, e.asRef = some arms → ∀ a ∈ arms, a.1.Ok
  tryFrom : ∀ arms, e.tryFrom = some arms → ∀ a ∈ arms, a.2.Ok
  indexer : ∀ ix, e.indexer = some ix → (∀ a ∈ ix.byIndex, a.2.Ok) ∧ ix.otherwise.Ok ∧ ∀ a ∈ ix.index, a.1.Ok

structure StructItem.Ok (s : StructItem) : Prop where
  name : s.name.Ok
  fields : ∀ f ∈ s.fields, f.2.1.Ok ∧ f.2.2.Ok

structure Variant.Ok (v : Variant) : Prop where
  name : v.name.Ok
  fields : ∀ t ∈ v.fields, t.Ok

def Pat.Ok : Pat → Prop
  | .path c v => c.Ok ∧ v.Ok
  | _ => True

structure UnionItem.Ok (u : UnionItem) : Prop where
  name : u.name.Ok
  variants : ∀ v ∈ u.variants, v.Ok
  default : u.default.1.Ok
  indexer : ∀ ix, u.indexer = some ix → (∀ a ∈ ix.byIndex, a.2.Ok) ∧ ∀ a ∈ ix.index, a.1.Ok
  union : ∀ un, u.union = some un → (∀ t, un.cond = some t → t.Ok) ∧ ∀ a ∈ un.byValue, a.1.Ok ∧ a.2.Ok

def Item.Ok : Item → Prop
  | .alias name ty => name.Ok ∧ ty.Ok
  | .enum e => e.Ok
  | .struct s => s.Ok
  | .union u => u.Ok

structure RustFile.Ok (f : RustFile) : Prop where
  constants : ∀ c ∈ f.constants, c.name.Ok ∧ c.value.Ok
  types : ∀ i ∈ f.types, i.Ok

theorem mkIdent_Ok {s : Str} {i : RIdent} (h : mkIdent s = .ok i) : i.Ok := by
  unfold mkIdent at h
  split at h
  · split at h
    · cases h
    · rename_i h1
      split at h
      · cases h
      · rename_i h2
        cases h
        refine ⟨by simpa using h1, fun _ hm => h2 ?_⟩
        simp only [notRaw, List.mem_cons, List.not_mem_nil, or_false] at hm
        rcases hm with h | h | h | h | h <;> simp [h]
  · split at h
    · rename_i h1
      cases h
      exact ⟨h1, nofun⟩
    · cases h

theorem camel_Ok {s : Str} {i : RIdent} (h : upper_camel_case_ident s = .ok i) : i.Ok := mkIdent_Ok h

theorem convert_value_Ok {t : IntTy} {v : Value} {b : Bool} {r : Tok} (h : convert_value_token t v b = .ok r) : r.Ok := by
  unfold convert_value_token at h
  split at h
  · simp only [GR.bind_eq_ok] at h
    obtain ⟨k, -, h⟩ := h
    cases h
    trivial
  · split at h <;>
    · simp only [GR.bind_eq_ok] at h
      obtain ⟨k, hk, h⟩ := h
      cases h
      exact mkIdent_Ok hk

theorem constants_Ok {cxt : Context} {cs : List ConstItem} (h : constants_token cxt = .ok cs) {c : ConstItem}
    (hc : c ∈ cs) : c.name.Ok ∧ c.value.Ok := by
  obtain ⟨⟨name, v⟩, -, h⟩ := GR.mapM_mem h hc
  simp only [GR.bind_eq_ok] at h
  obtain ⟨i, hi, h⟩ := h
  split at h
  · rename_i w hw
    cases h
    exact ⟨mkIdent_Ok hi, convert_value_Ok hw⟩
  · simp only [GR.bind_eq_ok] at h
    obtain ⟨w, hw, h⟩ := h
    cases h
    exact ⟨mkIdent_Ok hi, convert_value_Ok hw⟩
  · cases h
  · cases h

theorem primitive_Ok {ct : Declaration → GR (Option (RTy × OpaqueType))} {cxt : Context}
    (hct : ∀ d r, ct d = .ok (some r) → r.1.Ok) {ts : TypeSpecifier} {r : RTy × OpaqueType}
    (h : convert_primitive_token ct cxt ts = .ok r) : r.1.Ok := by
  cases ts <;> simp only [convert_primitive_token] at h
  case identifier id =>
    unfold resolve_type_token at h
    split at h
    · simp only [GR.bind_eq_ok] at h
      obtain ⟨i, hi, h⟩ := h
      cases h
      exact camel_Ok hi
    · split at h
      · simp only [GR.bind_eq_ok] at h
        obtain ⟨o, ho, h⟩ := h
        cases o with
        | none => cases h
        | some p => cases h; exact hct _ _ ho
      · simp only [GR.bind_eq_ok] at h
        obtain ⟨i, hi, h⟩ := h
        cases h
        exact camel_Ok hi
  all_goals first
    | (cases h; done)
    | (cases h; split <;> trivial)
    | (cases h; trivial)

theorem convert_type_Ok {cxt : Context} {n : Nat} : ∀ {d : Declaration} {r : RTy × OpaqueType},
    convert_type_token cxt n d = .ok (some r) → r.1.Ok := by
  induction n with
  | zero => intro d r h; cases h
  | succ n ih =>
    intro d r h
    have hp := fun {ts r} => primitive_Ok (cxt := cxt) (ts := ts) (r := r) fun d r => ih (d := d) (r := r)
    rw [convert_type_token] at h
    cases d <;> simp only [convertTypeWith] at h
    · simp only [GR.bind_eq_ok] at h
      obtain ⟨p, h1, h⟩ := h
      cases h
      exact hp h1
    · simp only [GR.bind_eq_ok] at h
      obtain ⟨⟨ty, o⟩, h1, len, h2, h⟩ := h
      cases h
      exact ⟨hp h1, convert_value_Ok h2⟩
    · simp only [GR.bind_eq_ok] at h
      obtain ⟨⟨ty, o⟩, h1, h⟩ := h
      dsimp only at h
      split at h
      · cases h; trivial
      · cases h; exact hp (r := (ty, o)) h1
    · simp only [GR.bind_eq_ok] at h
      obtain ⟨len, h2, h⟩ := h
      cases h
      exact ⟨trivial, convert_value_Ok h2⟩
    · cases h; trivial
    · cases h; trivial
    · simp only [GR.bind_eq_ok] at h
      obtain ⟨⟨ty, o⟩, h1, h⟩ := h
      cases h
      exact hp (r := (ty, o)) h1
    · cases h

theorem reserved_Ok {c : Bool} {a b : Int} {r : List (RIdent × Int)}
    (h : (if c then GR.mapM (fun index => (reservedIdent index).bind fun r => .ok (r, index)) (intRange a b)
      else GR.ok []) = .ok r) : ∀ p ∈ r, p.1.Ok := by
  intro p hp
  split at h
  · obtain ⟨k, -, h⟩ := GR.mapM_mem h hp
    simp only [GR.bind_eq_ok] at h
    obtain ⟨i, hi, h⟩ := h
    cases h
    exact mkIdent_Ok hi
  · cases h
    cases hp

theorem enumLoop_Ok {c : Bool} {l : List (Int × Assign)} {s : Int}
    {steps : List (List (RIdent × Int) × RIdent × Int)} (h : enumLoop c l s = .ok steps) :
    ∀ st ∈ steps, (∀ p ∈ st.1, p.1.Ok) ∧ st.2.1.Ok := by
  induction l generalizing s steps with
  | nil =>
    cases h
    simp
  | cons p l ih =>
    obtain ⟨e, a⟩ := p
    simp only [enumLoop, GR.bind_eq_ok] at h
    obtain ⟨r, hr, i, hi, h⟩ := h
    split at h
    · cases h
    · simp only [GR.bind_eq_ok] at h
      obtain ⟨steps', h', h⟩ := h
      cases h
      intro st hst
      rcases List.mem_cons.1 hst with rfl | hst
      · exact ⟨reserved_Ok hr, camel_Ok hi⟩
      · exact ih h' st hst

theorem convert_enum_Ok {cxt : Context} {n : Nat} {name : Str} {as : List Assign} {e : EnumItem}
    (h : convert_enum_token cxt n name as = .ok e) : e.Ok := by
  obtain ⟨indexed, steps, -, hname, hl, ⟨st, hst, hd⟩, -, hv, ha, ht, hi⟩ := convert_enum_ok h
  have hall := enumLoop_Ok hl
  refine ⟨camel_Ok hname, ?_, ?_, ?_, ?_, ?_⟩
  · intro v hm
    rw [hv] at hm
    simp only [List.mem_flatMap, List.mem_append, List.mem_singleton] at hm
    obtain ⟨s, hs, hm | rfl⟩ := hm
    · exact (hall s hs).1 v hm
    · exact (hall s hs).2
  · rw [hd]
    exact (hall st (List.mem_of_head? hst)).2
  · intro arms h1 a ham
    rw [ha] at h1
    split at h1
    · cases h1
      obtain ⟨s, hs, rfl⟩ := List.mem_map.1 ham
      exact (hall s hs).2
    · cases h1
  · intro arms h1 a ham
    rw [ht] at h1
    split at h1
    · cases h1
      obtain ⟨s, hs, rfl⟩ := List.mem_map.1 ham
      exact (hall s hs).2
    · cases h1
  · intro ix h1
    rw [hi] at h1
    split at h1
    · cases h1
      refine ⟨?_, ?_, ?_⟩
      · intro a ham
        obtain ⟨s, hs, rfl⟩ := List.mem_map.1 ham
        exact (hall s hs).2
      · rw [hd]
        exact (hall st (List.mem_of_head? hst)).2
      · intro a ham
        obtain ⟨s, hs, rfl⟩ := List.mem_map.1 ham
        exact (hall s hs).2
    · cases h1

theorem convert_struct_Ok {cxt : Context} {n : Nat} {name : Str} {ds : List Declaration} {s : StructItem}
    (h : convert_struct_token cxt n name ds = .ok s) : s.Ok := by
  obtain ⟨h1, h2⟩ := convert_struct_ok h
  refine ⟨camel_Ok h1, fun f hf => ?_⟩
  obtain ⟨d, -, hd⟩ := forall₂_mem_right h2 hf
  unfold convertField at hd
  split at hd
  · simp only [GR.bind_eq_ok] at hd
    obtain ⟨o, ho, ⟨ty, op⟩, hop, i, hi, hd⟩ := hd
    cases o with
    | none => cases hop
    | some p =>
      cases hop
      cases hd
      refine ⟨mkIdent_Ok hi, ?_⟩
      dsimp only
      split
      · exact convert_type_Ok ho
      · exact convert_type_Ok ho
  · cases hd

theorem cond_Ok {cxt : Context} {n : Nat} {ts : TypeSpecifier} {t : RTy} (h : condType cxt n ts = .ok t) : t.Ok := by
  unfold condType at h
  split at h
  · rename_i p hp
    cases h
    exact primitive_Ok (fun d r => convert_type_Ok (d := d) (r := r)) hp
  · split at h
    · simp only [GR.bind_eq_ok] at h
      obtain ⟨i, hi, h⟩ := h
      cases h
      exact camel_Ok hi
    · cases h
  · cases h
  · cases h

theorem convert_case_Ok {cxt : Context} {n : Nat} {v : Value} {d : Declaration} {ts : TypeSpecifier} {c : CaseTok}
    (h : convert_case_token cxt n v d ts = .ok c) :
    c.variant.Ok ∧ c.value.Ok ∧ c.default.1.Ok ∧ c.cond.Ok := by
  unfold convert_case_token at h
  simp only [GR.bind_eq_ok] at h
  obtain ⟨t, ht, cond, hc, o, ho, h⟩ := h
  have h1 := convert_value_Ok ht
  have h2 := cond_Ok hc
  cases o with
  | none =>
    dsimp only at h
    split at h <;> cases h
    · exact ⟨h1, ⟨h1, by simpa using h2⟩, h1, h2⟩
    · exact ⟨h1, ⟨h1, by simp⟩, h1, h2⟩
  | some p =>
    obtain ⟨ty, op⟩ := p
    have h3 := convert_type_Ok ho
    dsimp only at h
    split at h
    · cases h
      refine ⟨h1, ⟨h1, ?_⟩, h1, h2⟩
      intro t ht
      simp only [List.mem_cons, List.not_mem_nil, or_false] at ht
      rcases ht with rfl | rfl
      · exact h2
      · split
        · trivial
        · exact h3
    · cases h
      refine ⟨h1, ⟨h1, ?_⟩, h1, h2⟩
      intro t ht
      simp only [List.mem_cons, List.not_mem_nil, or_false] at ht
      subst ht
      split
      · trivial
      · exact h3

structure CaseStep.Ok (st : CaseStep) : Prop where
  variants : ∀ v ∈ st.variants, v.Ok
  byIndex : st.byIndex.2.Ok
  index : st.index.1.Ok
  byValue : ∀ a ∈ st.byValue, a.1.Ok ∧ a.2.Ok
  default : st.default.1.Ok
  cond : st.cond.Ok

theorem caseByValue_Ok {cxt : Context} {ts : TypeSpecifier} {k : Int} {v : Value} {t : Tok}
    (ht : t.Ok) {l : List (Pat × Tok)} (h : caseByValue cxt ts k v t = .ok l) : ∀ a ∈ l, a.1.Ok ∧ a.2.Ok := by
  unfold caseByValue at h
  intro a ha
  split at h
  · split at h
    · simp only [GR.bind_eq_ok] at h
      obtain ⟨i, hi, h⟩ := h
      split at h
      · simp only [GR.bind_eq_ok] at h
        obtain ⟨j, hj, h⟩ := h
        cases h
        simp only [List.mem_singleton] at ha
        subst ha
        exact ⟨⟨camel_Ok hi, camel_Ok hj⟩, ht⟩
      · cases h; cases ha
    · cases h; cases ha
  · cases h
    simp only [List.mem_singleton] at ha
    subst ha
    exact ⟨trivial, ht⟩

theorem unionLoop_Ok {cxt : Context} {n : Nat} {cond : TypeSpecifier} {l : List (Int × Declaration × Value)} {s : Int}
    {steps : List CaseStep} (h : unionLoop cxt n cond l s = .ok steps) : ∀ st ∈ steps, st.Ok := by
  induction l generalizing s steps with
  | nil =>
    cases h
    simp
  | cons p l ih =>
    obtain ⟨e, d, v⟩ := p
    simp only [unionLoop, GR.bind_eq_ok] at h
    obtain ⟨r, hr, c, hc, b, hb, h⟩ := h
    split at h
    · cases h
    · simp only [GR.bind_eq_ok] at h
      obtain ⟨steps', h', h⟩ := h
      cases h
      intro st hst
      rcases List.mem_cons.1 hst with rfl | hst
      · obtain ⟨h1, h2, h3, h4⟩ := convert_case_Ok hc
        refine ⟨?_, h1, h1, caseByValue_Ok h1 hb, h3, h4⟩
        intro x hx
        simp only [List.mem_append, List.mem_singleton] at hx
        rcases hx with hx | rfl
        · split at hr
          · obtain ⟨k, -, hr⟩ := GR.mapM_mem hr hx
            simp only [GR.bind_eq_ok] at hr
            obtain ⟨i, hi, hr⟩ := hr
            cases hr
            exact ⟨mkIdent_Ok hi, by simp⟩
          · cases hr
            cases hx
        · exact h2
      · exact ih h' st hst

theorem boolCase_Ok {cxt : Context} {n : Nat} {cond : TypeSpecifier} {specs : List CaseSpec} {label : Value → Bool}
    {b : Bool} {st : CaseStep} (h : boolCase cxt n cond specs label b = .ok (some st)) : st.Ok := by
  unfold boolCase at h
  split at h
  · cases h
  · split at h
    · cases h
    · simp only [GR.bind_eq_ok] at h
      obtain ⟨c, hc, h⟩ := h
      cases h
      obtain ⟨h1, h2, h3, h4⟩ := convert_case_Ok hc
      exact ⟨by simpa using h2, h1, h1, by simpa [Pat.Ok] using h1, h3, trivial⟩

structure UnionAcc.Ok (acc : UnionAcc) : Prop where
  variants : ∀ v ∈ acc.variants, v.Ok
  byIndex : ∀ a ∈ acc.byIndex, a.2.Ok
  index : ∀ a ∈ acc.index, a.1.Ok
  byValue : ∀ a ∈ acc.byValue, a.1.Ok ∧ a.2.Ok
  default : ∀ d, acc.default = some d → d.1.Ok
  cond : ∀ t, acc.cond = some t → t.Ok

theorem ofSteps_Ok {steps : List CaseStep} (h : ∀ st ∈ steps, st.Ok) : (UnionAcc.ofSteps steps).Ok := by
  refine ⟨?_, ?_, ?_, ?_, ?_, ?_⟩ <;> simp only [UnionAcc.ofSteps]
  · intro v hv
    obtain ⟨st, hst, hv⟩ := List.mem_flatMap.1 hv
    exact (h st hst).variants v hv
  · intro a ha
    obtain ⟨st, hst, rfl⟩ := List.mem_map.1 ha
    exact (h st hst).byIndex
  · intro a ha
    obtain ⟨st, hst, rfl⟩ := List.mem_map.1 ha
    exact (h st hst).index
  · intro a ha
    obtain ⟨st, hst, ha⟩ := List.mem_flatMap.1 ha
    exact (h st hst).byValue a ha
  · intro d hd
    obtain ⟨st, hst, rfl⟩ := Option.map_eq_some_iff.1 hd
    exact (h st (List.mem_of_head? hst)).default
  · intro t ht
    obtain ⟨st, hst, rfl⟩ := Option.map_eq_some_iff.1 ht
    exact (h st (List.mem_of_getLast? hst)).cond

theorem boolReserved_Ok {cxt : Context} {s : Str} (h : identOk s = true) : ∀ v ∈ boolReserved cxt s, v.Ok := by
  intro v hv
  unfold boolReserved at hv
  split at hv
  · simp only [List.mem_singleton] at hv
    subst hv
    exact ⟨⟨h, nofun⟩, by simp⟩
  · cases hv

theorem unionCases_Ok {cxt : Context} {n : Nat} {b : UnionBody} {ct : TypeSpecifier} {acc : UnionAcc}
    (h : unionCases cxt n b = .ok (ct, acc)) : acc.Ok := by
  unfold unionCases at h
  split at h
  · split at h
    · simp only [GR.bind_eq_ok] at h
      obtain ⟨values, -, steps, hs, h⟩ := h
      cases h
      exact ofSteps_Ok (unionLoop_Ok hs)
    · simp only [GR.bind_eq_ok] at h
      obtain ⟨values, -, steps, hs, h⟩ := h
      cases h
      exact ofSteps_Ok (unionLoop_Ok hs)
    · simp only [GR.bind_eq_ok] at h
      obtain ⟨f, hf, t, ht, h⟩ := h
      cases h
      have hft : ∀ st ∈ f.toList ++ t.toList, st.Ok := by
        intro st hst
        simp only [List.mem_append, Option.mem_toList] at hst
        rcases hst with rfl | rfl
        · exact boolCase_Ok hf
        · exact boolCase_Ok ht
      refine ⟨?_, ?_, ?_, ?_, ?_, ?_⟩
      · intro v hv
        rcases List.mem_append.1 hv with hv | hv
        · cases f with
          | none => exact boolReserved_Ok (by decide) v hv
          | some st => exact (boolCase_Ok hf).variants v hv
        · cases t with
          | none => exact boolReserved_Ok (by decide) v hv
          | some st => exact (boolCase_Ok ht).variants v hv
      · intro a ha
        obtain ⟨st, hst, rfl⟩ := List.mem_map.1 ha
        exact (hft st hst).byIndex
      · intro a ha
        obtain ⟨st, hst, rfl⟩ := List.mem_map.1 ha
        exact (hft st hst).index
      · intro a ha
        obtain ⟨st, hst, ha⟩ := List.mem_flatMap.1 ha
        exact (hft st hst).byValue a ha
      · intro d hd
        obtain ⟨st, hst, rfl⟩ := Option.map_eq_some_iff.1 hd
        refine (hft st ?_).default
        cases f with
        | none => simp only [Option.none_or] at hst; simp [hst]
        | some x => cases hst; simp
      · rintro t ⟨⟩
        trivial
    · cases h
  · cases h

theorem unionDefault_Ok {cxt : Context} {n : Nat} {cond : Option RTy} (hc : ∀ t, cond = some t → t.Ok)
    {d : Option Declaration} {r : Option (Variant × (Tok × Nat))} (h : unionDefault cxt n cond d = .ok r) :
    ∀ p, r = some p → p.1.Ok ∧ p.2.1.Ok := by
  rintro p rfl
  have hd : defaultTok.Ok := ⟨by decide, nofun⟩
  cases d with
  | none => cases h
  | some d =>
    simp only [unionDefault, GR.bind_eq_ok] at h
    obtain ⟨o, ho, h⟩ := h
    cases h
    refine ⟨⟨hd, ?_⟩, hd⟩
    intro t ht
    rcases List.mem_append.1 ht with ht | ht
    · split at ht
      · exact hc t (by simpa using ht)
      · cases ht
    · cases o with
      | none => cases ht
      | some p =>
        simp only [List.mem_singleton] at ht
        subst ht
        exact convert_type_Ok ho

theorem convert_union_Ok {cxt : Context} {n : Nat} {name : Str} {b : UnionBody} {u : UnionItem}
    (h : convert_union_token cxt n name b = .ok u) : u.Ok := by
  unfold convert_union_token at h
  simp only [GR.bind_eq_ok] at h
  obtain ⟨i, hi, ⟨ct, acc⟩, ha, dflt, hd, h⟩ := h
  dsimp only at h hd
  have h1 := unionCases_Ok ha
  have h2 := unionDefault_Ok h1.cond hd
  split at h
  · cases h
  · rename_i dv hdv
    cases h
    refine ⟨camel_Ok hi, ?_, ?_, ?_, ?_⟩
    · intro v hv
      rcases List.mem_append.1 hv with hv | hv
      · exact h1.variants v hv
      · cases dflt with
        | none => cases hv
        | some p =>
          simp only [Option.map_some, Option.toList_some, List.mem_singleton] at hv
          subst hv
          exact (h2 p rfl).1
    · cases dflt with
      | none => exact h1.default dv (by simpa using hdv)
      | some p =>
        cases hdv
        exact (h2 p rfl).2
    · intro ix hix
      dsimp only at hix
      split at hix
      · cases hix
        exact ⟨h1.byIndex, h1.index⟩
      · cases hix
    · intro un hun
      dsimp only at hun
      split at hun
      · cases hun
        exact ⟨h1.cond, h1.byValue⟩
      · cases hun

/-- Every identifier of a generated file is one. -/
theorem gen_code_Ok {n : Nat} {ds : List Definition} {cfg : Config} {file : RustFile}
    (h : gen_code n ds cfg = .ok file) : file.Ok := by
  obtain ⟨h1, h2, -⟩ := gen_code_ok.1 h
  refine ⟨fun c hc => constants_Ok h1 hc, fun i hi => ?_⟩
  obtain ⟨name, d, l, -, hl, hi⟩ := types_token_mem h2 hi
  cases d with
  | declaration d =>
    simp only [typeToken] at hl
    split at hl
    · cases hl
      cases hi
    · simp only [GR.bind_eq_ok] at hl
      obtain ⟨o, ho, ⟨ty, op⟩, hop, hl⟩ := hl
      cases o with
      | none => cases hop
      | some p =>
        cases hop
        dsimp only at hl
        split at hl
        · cases hl
        · simp only [GR.bind_eq_ok] at hl
          obtain ⟨i', hi', hl⟩ := hl
          cases hl
          simp only [List.mem_singleton] at hi
          subst hi
          exact ⟨camel_Ok hi', convert_type_Ok ho⟩
  | enum _ as =>
    simp only [typeToken, GR.bind_eq_ok] at hl
    obtain ⟨e, he, hl⟩ := hl
    cases hl
    simp only [List.mem_singleton] at hi
    subst hi
    exact convert_enum_Ok he
  | struct _ ms =>
    simp only [typeToken, GR.bind_eq_ok] at hl
    obtain ⟨e, he, hl⟩ := hl
    cases hl
    simp only [List.mem_singleton] at hi
    subst hi
    exact convert_struct_Ok he
  | union _ b =>
    simp only [typeToken, GR.bind_eq_ok] at hl
    obtain ⟨e, he, hl⟩ := hl
    cases hl
    simp only [List.mem_singleton] at hi
    subst hi
    exact convert_union_Ok he

/-! ## Tokens -/

theorem tokensOk_append {a b : List Token} : TokensOk (a ++ b) ↔ TokensOk a ∧ TokensOk b := by
  induction a with
  | nil => simp [TokensOk]
  | cons t ts ih => simp [TokensOk, ih, and_assoc]

theorem tokensOk_cons {t : Token} {ts : List Token} : TokensOk (t :: ts) ↔ t.Ok ∧ TokensOk ts := Iff.rfl

theorem tokensOk_nil : TokensOk [] ↔ True := Iff.rfl

theorem kw_ok {s : Str} : (kw s).Ok ↔ identOk s = true := by
  simp [kw, Token.Ok, RIdent.Ok]

theorem op_ok {s : Str} : (Token.op s).Ok ↔ s ∈ templateOps := Iff.rfl

theorem group_ok {d : Delim} {ts : List Token} : (Token.group d ts).Ok ↔ TokensOk ts := Iff.rfl

theorem ident_ok {i : RIdent} : (Token.ident i).Ok ↔ i.Ok := Iff.rfl

open Lean.Parser.Tactic in
/-- Splits `TokensOk` of a template and settles its fixed parts. -/
macro "tok_auto" "[" ls:simpLemma,* "]" : tactic => `(tactic|
  simp (decide := true) only [tokensOk_append, tokensOk_cons, tokensOk_nil, kw_ok, op_ok, group_ok, ident_ok,
    List.cons_append, List.nil_append, and_true, true_and, and_self, $ls,*])

theorem commaSep_ok {l : List (List Token)} (h : ∀ ts ∈ l, TokensOk ts) : TokensOk (commaSep l) := by
  match l, h with
  | [], _ => trivial
  | [x], h => exact h x (by simp)
  | x :: y :: xs, h =>
    rw [commaSep, tokensOk_append]
    exact ⟨h x (by simp), op_ok.2 (by decide), commaSep_ok fun ts hts => h ts (by simp at hts ⊢; tauto)⟩

theorem flatMap_ok {α : Type} {f : α → List Token} {l : List α} (h : ∀ x ∈ l, TokensOk (f x)) :
    TokensOk (l.flatMap f) := by
  induction l with
  | nil => trivial
  | cons x xs ih =>
    rw [List.flatMap_cons, tokensOk_append]
    exact ⟨h x (by simp), ih fun y hy => h y (by simp [hy])⟩

theorem digits_digit {f n : Nat} : ∀ c ∈ digitsFuel f n, isDigit c = true := by
  induction f generalizing n with
  | zero => simp [digitsFuel]
  | succ f ih =>
    intro c hc
    have hd : ∀ k < 10, isDigit (Char.ofNat (48 + k)) = true := by decide
    unfold digitsFuel at hc
    split at hc
    · rename_i h
      simp only [List.mem_singleton] at hc
      subst hc
      exact hd n h
    · simp only [List.mem_append, List.mem_singleton] at hc
      rcases hc with hc | rfl
      · exact ih c hc
      · exact hd _ (Nat.mod_lt _ (by decide))

theorem digits_ne {f n : Nat} : digitsFuel (f + 1) n ≠ [] := by
  unfold digitsFuel
  split <;> simp

theorem intTokens_ok (t : IntTy) (v : Int) : TokensOk (intTokens t v) := by
  unfold intTokens
  rw [tokensOk_append]
  refine ⟨by split <;> tok_auto [], ⟨.inl ?_, trivial⟩⟩
  have h1 : intToString (v.natAbs : Int) = digitsFuel (v.natAbs + 1) v.natAbs := by
    unfold intToString
    rw [if_neg (by omega), Int.natAbs_natCast]
  rw [h1]
  cases hs : digitsFuel (v.natAbs + 1) v.natAbs with
  | nil => exact absurd hs digits_ne
  | cons c cs =>
    have hd : ∀ x ∈ c :: cs, isDigit x = true := by
      rw [← hs]
      exact digits_digit
    refine ⟨c, cs ++ t.suffix, rfl, hd c (by simp), ?_⟩
    intro x hx
    rcases List.mem_append.1 hx with hx | hx
    · simp [isWord, hd x (by simp [hx])]
    · have : ∀ x ∈ t.suffix, isWord x = true := by cases t <;> decide
      exact this x hx

theorem tok_tokens_ok {t : Tok} (h : t.Ok) : TokensOk t.tokens := by
  cases t with
  | lit t v => exact intTokens_ok t v
  | ident i => exact ⟨h, trivial⟩

theorem rty_tokens_ok {t : RTy} (h : t.Ok) : TokensOk t.tokens := by
  induction t with
  | path i => exact ⟨h, trivial⟩
  | array t len cast ih =>
    unfold RTy.tokens
    tok_auto [ih h.1, tok_tokens_ok h.2]
    cases cast
    · trivial
    · exact ⟨kw_ok.2 (by decide), kw_ok.2 (by decide), trivial⟩
  | vec t ih => unfold RTy.tokens; tok_auto [ih h]
  | option t ih => unfold RTy.tokens; tok_auto [ih h]
  | box t ih => unfold RTy.tokens; tok_auto [ih h]
  | _ => unfold RTy.tokens; tok_auto []

theorem serdeWith_ok {f : Str} (h : ∀ x ∈ f, (x != '"' && x != '\\') = true) : TokensOk (serdeWith f) := by
  have : (Token.lit ('"' :: (f ++ c!"\""))).Ok := .inr ⟨f, rfl, h⟩
  unfold serdeWith
  tok_auto [this]

theorem attr_tokens_ok (a : Attr) : TokensOk a.tokens := by
  cases a with
  | none => trivial
  | fixed => exact serdeWith_ok (by decide)
  | «variable» => exact serdeWith_ok (by decide)
  | signed32 => exact serdeWith_ok (by decide)

theorem derive_ok {l : List Str} (h : ∀ s ∈ l, identOk s = true) : TokensOk (deriveTokens l) := by
  have : TokensOk (commaSep (l.map fun n => [kw n])) := commaSep_ok (by
    intro ts hts
    obtain ⟨n, hn, rfl⟩ := List.mem_map.1 hts
    exact ⟨kw_ok.2 (h n hn), trivial⟩)
  unfold deriveTokens
  tok_auto [this]

theorem globalError_ok : TokensOk globalError := by
  unfold globalError; tok_auto []

theorem localError_ok : TokensOk localError := by
  unfold localError; tok_auto []

theorem okStringify_ok {t : List Token} (h : TokensOk t) : TokensOk (okStringify t) := by
  unfold okStringify; tok_auto [h]

theorem errArm_ok {t : List Token} (h : TokensOk t) : TokensOk (errArm t) := by
  unfold errArm; tok_auto [h]

theorem impl_ok {h : List Token} {i : RIdent} {b : List Token} (h1 : TokensOk h) (h2 : i.Ok) (h3 : TokensOk b) :
    TokensOk (implTokens h i b) := by
  unfold implTokens; tok_auto [h1, h2, h3]

theorem fn_ok {name : Str} {p r b : List Token} (h0 : identOk name = true) (h1 : TokensOk p) (h2 : TokensOk r)
    (h3 : TokensOk b) : TokensOk (fnTokens name p r b) := by
  unfold fnTokens; tok_auto [h0, h1, h2, h3]

theorem match_ok {on : Str} {arms : List Token} (h0 : identOk on = true) (h1 : TokensOk arms) :
    TokensOk (matchTokens on arms) := by
  unfold matchTokens; tok_auto [h0, h1]

theorem refSelf_ok : TokensOk refSelf := by unfold refSelf; tok_auto []

theorem nameResult_ok : TokensOk nameResult := by
  have : (Token.lifetime c!"static").Ok := by show identOk c!"static" = true; decide
  unfold nameResult; tok_auto [this]

theorem errorType_ok {e : List Token} (h : TokensOk e) : TokensOk (errorType e) := by
  unfold errorType; tok_auto [h]

theorem indexParam_ok : TokensOk indexParam := by unfold indexParam; tok_auto []

theorem implDefault_ok {i : RIdent} (h : i.Ok) {v : List Token} (hv : TokensOk v) : TokensOk (implDefault i v) :=
  impl_ok (by tok_auto []) h (fn_ok (by decide) trivial (by tok_auto []) (by tok_auto [h, hv]))

theorem const_tokens_ok {c : ConstItem} (h : c.name.Ok ∧ c.value.Ok) : TokensOk c.tokens := by
  have : identOk c.ty.suffix = true := by cases c.ty <;> decide
  unfold ConstItem.tokens
  tok_auto [h.1, tok_tokens_ok h.2, this]

theorem variantArm_ok {i : RIdent} (h : i.Ok) {b : List Token} (hb : TokensOk b) {a : RIdent × Int} (ha : a.1.Ok) :
    TokensOk (variantArm i b a) := by
  unfold variantArm
  tok_auto [h, hb, ha, intTokens_ok]

theorem sepMap_ok {α : Type} {f : α → List Token} {l : List α} (h : ∀ x ∈ l, TokensOk (f x)) :
    TokensOk (commaSep (l.map f)) := commaSep_ok (by
  intro ts hts
  obtain ⟨n, hn, rfl⟩ := List.mem_map.1 hts
  exact h n hn)

theorem asRef_ok {i : RIdent} (h : i.Ok) {arms : List (RIdent × Int)} (ha : ∀ a ∈ arms, a.1.Ok) :
    TokensOk (asRefTokens i arms) := by
  have : (Token.lifetime c!"static").Ok := by show identOk c!"static" = true; decide
  exact impl_ok (by tok_auto []) h (fn_ok (by decide) refSelf_ok (by tok_auto [this])
    (match_ok (by decide) (sepMap_ok fun a h' => variantArm_ok h (by tok_auto []) (ha a h'))))

theorem tryFrom_ok {i : RIdent} (h : i.Ok) {arms : List (Int × RIdent)} (ha : ∀ a ∈ arms, a.2.Ok) :
    TokensOk (tryFromTokens i arms) := by
  have h1 : TokensOk (commaSep (arms.map fun a =>
      intTokens .i32 a.1 ++ [.op c!"=>", kw c!"Ok", .group .paren [.ident i, .op c!"::", .ident a.2]])) :=
    sepMap_ok fun a h' => by tok_auto [intTokens_ok, h, ha a h']
  refine impl_ok (by tok_auto []) h ?_
  rw [tokensOk_append]
  refine ⟨errorType_ok localError_ok, fn_ok (by decide) (by tok_auto []) (by tok_auto [localError_ok])
    (match_ok (by decide) ?_)⟩
  tok_auto [h1, errArm_ok localError_ok]

theorem enumIndexer_ok {i : RIdent} (h : i.Ok) {ix : EnumIndexer}
    (hi : (∀ a ∈ ix.byIndex, a.2.Ok) ∧ ix.otherwise.Ok ∧ ∀ a ∈ ix.index, a.1.Ok) : TokensOk (ix.tokens i) := by
  have h1 : TokensOk (commaSep (ix.byIndex.map fun a => intTokens .i32 a.1 ++ .op c!"=>" :: okStringify [.ident a.2])) :=
    sepMap_ok fun a h' => by
      have : TokensOk [.ident a.2] := ⟨hi.1 a h', trivial⟩
      tok_auto [intTokens_ok, okStringify_ok this]
  have h2 : TokensOk (commaSep (ix.index.map (variantArm i []))) :=
    sepMap_ok fun a h' => variantArm_ok h (b := []) trivial (hi.2.2 a h')
  have h3 : TokensOk [.ident ix.otherwise] := ⟨hi.2.1, trivial⟩
  refine impl_ok (by tok_auto []) h ?_
  rw [tokensOk_append, tokensOk_append]
  refine ⟨⟨errorType_ok globalError_ok, fn_ok (by decide) indexParam_ok nameResult_ok (match_ok (by decide) ?_)⟩,
    fn_ok (by decide) refSelf_ok (by tok_auto []) (match_ok (by decide) ?_)⟩
  · tok_auto [h1, okStringify_ok h3]
  · tok_auto [h2]

theorem enum_tokens_ok {e : EnumItem} (h : e.Ok) : TokensOk e.tokens := by
  unfold EnumItem.tokens
  simp only [tokensOk_append]
  refine ⟨⟨⟨⟨⟨⟨?_, by tok_auto []⟩, ?_⟩, ?_⟩, ?_⟩, ?_⟩, ?_⟩
  · refine derive_ok ?_
    split <;> decide
  · have := sepMap_ok (f := fun v : RIdent × Int => .ident v.1 :: .op c!"=" :: intTokens .i32 v.2) (l := e.variants)
      fun v hv => by tok_auto [intTokens_ok, h.variants v hv]
    tok_auto [h.name, this]
  · exact implDefault_ok h.name ⟨h.default, trivial⟩
  · split
    · next arms ha => exact asRef_ok h.name (h.asRef arms ha)
    · trivial
  · split
    · next arms ha => exact tryFrom_ok h.name (h.tryFrom arms ha)
    · trivial
  · split
    · next ix ha => exact enumIndexer_ok h.name (h.indexer ix ha)
    · trivial

theorem struct_tokens_ok {s : StructItem} (h : s.Ok) : TokensOk s.tokens := by
  have h1 := derive_ok (l := [c!"Clone", c!"Debug", c!"Default", c!"Deserialize", c!"Serialize"]) (by decide)
  have h2 := sepMap_ok (f := fun f : Attr × RIdent × RTy => f.1.tokens ++ kw c!"pub" :: .ident f.2.1 :: .op c!":" :: f.2.2.tokens)
    (l := s.fields) fun f hf => by
      tok_auto [attr_tokens_ok, (h.fields f hf).1, rty_tokens_ok (h.fields f hf).2]
  unfold StructItem.tokens
  tok_auto [h1, h2, h.name]

theorem variant_tokens_ok {v : Variant} (h : v.Ok) : TokensOk v.tokens := by
  have h1 := sepMap_ok (f := RTy.tokens) (l := v.fields) fun t ht => rty_tokens_ok (h.fields t ht)
  unfold Variant.tokens
  tok_auto [attr_tokens_ok, tok_tokens_ok h.name]
  split
  · trivial
  · tok_auto [h1]

theorem default_tokens_ok {d : Tok × Nat} (h : d.1.Ok) : TokensOk (defaultTokens d) := by
  unfold defaultTokens
  tok_auto [tok_tokens_ok h]
  split
  · trivial
  · have : TokensOk (commaSep (List.replicate d.2 [kw c!"Default", .op c!"::", kw c!"default", .group .paren []])) :=
      commaSep_ok (by
        intro ts hts
        rw [List.eq_of_mem_replicate hts]
        tok_auto [])
    tok_auto [this]

theorem defaultArm_ok : TokensOk defaultArm := by
  have : TokensOk [kw c!"Default"] := by tok_auto []
  unfold defaultArm
  tok_auto [okStringify_ok this]

theorem unionIndexer_ok {i : RIdent} (h : i.Ok) {ix : UnionIndexer}
    (hi : (∀ a ∈ ix.byIndex, a.2.Ok) ∧ ∀ a ∈ ix.index, a.1.Ok) : TokensOk (ix.tokens i) := by
  have h1 : TokensOk (commaSep (ix.byIndex.map fun a => intTokens .i32 a.1 ++ .op c!"=>" :: okStringify a.2.tokens)) :=
    sepMap_ok fun a h' => by tok_auto [intTokens_ok, okStringify_ok (tok_tokens_ok (hi.1 a h'))]
  have h2 : TokensOk (commaSep (ix.index.map fun a =>
      .ident i :: .op c!"::" :: a.1.tokens ++ (if a.2.1 then [.group .paren [kw c!"_"]] else []) ++
        .op c!"=>" :: intTokens .i32 a.2.2)) :=
    sepMap_ok fun a h' => by
      have : TokensOk (if a.2.1 then [.group .paren [kw c!"_"]] else []) := by
        split
        · tok_auto []
        · trivial
      tok_auto [intTokens_ok, h, tok_tokens_ok (hi.2 a h'), this]
  refine impl_ok (by tok_auto []) h ?_
  rw [tokensOk_append, tokensOk_append]
  refine ⟨⟨errorType_ok globalError_ok, fn_ok (by decide) indexParam_ok nameResult_ok (match_ok (by decide) ?_)⟩,
    fn_ok (by decide) refSelf_ok (by tok_auto []) (match_ok (by decide) ?_)⟩
  · have : TokensOk (if ix.otherwise then defaultArm else errArm globalError) := by
      split
      · exact defaultArm_ok
      · exact errArm_ok globalError_ok
    tok_auto [h1, this]
  · have : TokensOk (if ix.indexOtherwise then
        [kw c!"_", .op c!"=>", kw c!"unimplemented", .op c!"!", .group .paren [], .op c!","] else []) := by
      split
      · tok_auto []
      · trivial
    rw [tokensOk_append, tokensOk_cons]
    exact ⟨h2, op_ok.2 (by decide), this⟩

theorem pat_tokens_ok {p : Pat} (h : p.Ok) : TokensOk p.tokens := by
  cases p with
  | path c v => unfold Pat.tokens; tok_auto [h.1, h.2]
  | lit v => exact intTokens_ok _ _
  | bool b => cases b <;> (unfold Pat.tokens; tok_auto [])

theorem cond_tokens_ok {c : Option RTy} (h : ∀ t, c = some t → t.Ok) : TokensOk (condTokens c) := by
  cases c with
  | none => trivial
  | some t => exact rty_tokens_ok (h t rfl)

theorem unionUnion_ok {i : RIdent} (h : i.Ok) {un : UnionUnion}
    (hi : (∀ t, un.cond = some t → t.Ok) ∧ ∀ a ∈ un.byValue, a.1.Ok ∧ a.2.Ok) : TokensOk (un.tokens i) := by
  have h1 : TokensOk (commaSep (un.byValue.map fun a => a.1.tokens ++ .op c!"=>" :: okStringify a.2.tokens)) :=
    sepMap_ok fun a h' => by
      tok_auto [pat_tokens_ok (hi.2 a h').1, okStringify_ok (tok_tokens_ok (hi.2 a h').2)]
  have h2 := cond_tokens_ok hi.1
  refine impl_ok (by tok_auto [h2]) h ?_
  rw [tokensOk_append]
  refine ⟨errorType_ok globalError_ok, fn_ok (by decide) (by tok_auto [h2]) nameResult_ok (match_ok (by decide) ?_)⟩
  cases un.otherwise
  · tok_auto [h1]
  · tok_auto [h1, defaultArm_ok]
  · tok_auto [h1, errArm_ok globalError_ok]

theorem union_tokens_ok {u : UnionItem} (h : u.Ok) : TokensOk u.tokens := by
  unfold UnionItem.tokens
  simp only [tokensOk_append]
  refine ⟨⟨⟨⟨?_, ?_⟩, ?_⟩, ?_⟩, ?_⟩
  · refine derive_ok ?_
    split <;> decide
  · have := sepMap_ok (f := Variant.tokens) (l := u.variants) fun v hv => variant_tokens_ok (h.variants v hv)
    tok_auto [h.name, this]
  · exact implDefault_ok h.name (default_tokens_ok h.default)
  · split
    · next ix ha => exact unionIndexer_ok h.name (h.indexer ix ha)
    · trivial
  · split
    · next ix ha => exact unionUnion_ok h.name (h.union ix ha)
    · trivial

theorem item_tokens_ok {i : Item} (h : i.Ok) : TokensOk i.tokens := by
  cases i with
  | «alias» n t =>
    unfold Item.tokens
    tok_auto [show n.Ok from h.1, rty_tokens_ok (show t.Ok from h.2)]
  | enum e => exact enum_tokens_ok h
  | struct s => exact struct_tokens_ok h
  | union u => exact union_tokens_ok h

theorem file_tokens_ok {f : RustFile} (h : f.Ok) : TokensOk f.tokens := by
  unfold RustFile.tokens
  simp only [tokensOk_append]
  refine ⟨⟨⟨⟨⟨by tok_auto [], ?_⟩, ?_⟩, ?_⟩, flatMap_ok fun c hc => const_tokens_ok (h.constants c hc)⟩,
    flatMap_ok fun i hi => item_tokens_ok (h.types i hi)⟩ <;>
  · split
    · simp only [useTokens]; tok_auto []
    · trivial

/-- The generated text is read back as the tokens of the templates. -/
theorem lex_file {n : Nat} {ds : List Definition} {cfg : Config} {file : RustFile} (h : gen_code n ds cfg = .ok file) :
    lexRust file.text = some (lexemes file.tokens) := lexRust_tokens (file_tokens_ok (gen_code_Ok h))

end Xdr.Rpcgen
