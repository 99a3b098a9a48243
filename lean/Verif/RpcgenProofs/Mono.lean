import Verif.Rpcgen.Gen
import Verif.RpcgenProofs.Gen
import Verif.RpcgenProofs.Resolve
import Verif.RpcgenProofs.EndToEnd
import Verif.Spec.RustTypes
import Verif.RpcgenProofs.Union
/-!
# The bound on chains of names does not matter once it is large enough
-/

namespace Xdr.Rpcgen

/-- `b` is what comes of `a` with a larger bound. -/
def GR.Le {α : Type} (a b : GR α) : Prop := a = .depth ∨ a = b

namespace GR.Le

theorem refl {α : Type} (a : GR α) : GR.Le a a := .inr rfl

theorem bind {α β : Type} {a a' : GR α} {f f' : α → GR β} (h : GR.Le a a') (hf : ∀ x, GR.Le (f x) (f' x)) :
    GR.Le (a.bind f) (a'.bind f') := by
  rcases h with rfl | rfl
  · exact .inl rfl
  · cases a with
    | ok x => exact hf x
    | _ => exact .inr rfl

theorem mapM {α β : Type} {f f' : α → GR β} (hf : ∀ x, GR.Le (f x) (f' x)) (l : List α) :
    GR.Le (GR.mapM f l) (GR.mapM f' l) := by
  induction l with
  | nil => exact refl _
  | cons a l ih => exact (hf a).bind fun _ => ih.bind fun _ => refl _

theorem orElse {α : Type} {a a' b b' : GR α} (h : GR.Le a a') (hb : GR.Le b b') :
    GR.Le (GR.orElse a b) (GR.orElse a' b') := by
  rcases h with rfl | rfl
  · exact .inl rfl
  · cases a with
    | err e => exact hb
    | _ => exact .inr rfl

theorem eq {α : Type} {a b : GR α} (h : GR.Le a b) (hd : a ≠ .depth) : b = a := by
  rcases h with h | h
  · exact absurd h hd
  · exact h.symm

end GR.Le

theorem resolveFound_le {f f' : Str → GR Int} (hf : ∀ x, GR.Le (f x) (f' x)) (t : IntTy) (name : Str)
    (o : Option Value) : GR.Le (resolveFound f t name o) (resolveFound f' t name o) := by
  cases o with
  | none => exact .refl _
  | some v =>
    cases v with
    | constant c => exact .refl _
    | identifier i => exact hf i

theorem resolve_name_le (cxt : Context) (t : IntTy) {n m : Nat} (h : n ≤ m) (name : Str) :
    GR.Le (cxt.resolve_name t n name) (cxt.resolve_name t m name) := by
  induction n generalizing m name with
  | zero => exact .inl rfl
  | succ n ih =>
    cases m with
    | zero => omega
    | succ m =>
      have := fun x => ih (m := m) (by omega) x
      exact (resolveFound_le this t name _).orElse (resolveFound_le this t name _)

theorem resolve_value_le (cxt : Context) (t : IntTy) {n m : Nat} (h : n ≤ m) (v : Value) :
    GR.Le (cxt.resolve_value t n v) (cxt.resolve_value t m v) := by
  cases v with
  | constant c => exact .refl _
  | identifier i => exact resolve_name_le cxt t h i

theorem primitive_le {ct ct' : Declaration → GR (Option (RTy × OpaqueType))} (h : ∀ d, GR.Le (ct d) (ct' d))
    (cxt : Context) (ts : TypeSpecifier) :
    GR.Le (convert_primitive_token ct cxt ts) (convert_primitive_token ct' cxt ts) := by
  cases ts with
  | identifier i =>
    simp only [convert_primitive_token, resolve_type_token]
    split
    · exact .refl _
    · split
      · exact (h _).bind fun _ => .refl _
      · exact .refl _
  | _ => exact .refl _

theorem convert_type_le (cxt : Context) {n m : Nat} (h : n ≤ m) (d : Declaration) :
    GR.Le (convert_type_token cxt n d) (convert_type_token cxt m d) := by
  induction n generalizing m d with
  | zero => exact .inl rfl
  | succ n ih =>
    cases m with
    | zero => omega
    | succ m =>
      have h' := primitive_le (fun d => ih (m := m) (by omega) d) cxt
      simp only [convert_type_token]
      cases d <;> first | exact .refl _ | exact (h' _).bind fun _ => .refl _

theorem convert_enum_le (cxt : Context) {n m : Nat} (h : n ≤ m) (name : Str) (as : List Assign) :
    GR.Le (convert_enum_token cxt n name as) (convert_enum_token cxt m name as) :=
  (GR.Le.mapM (f := fun a : Assign => (cxt.resolve_value .i32 n a.value).bind fun index => .ok (index, a))
    (f' := fun a : Assign => (cxt.resolve_value .i32 m a.value).bind fun index => .ok (index, a))
    (fun a => (resolve_value_le cxt .i32 h a.value).bind fun _ => .refl _) as).bind fun _ => .refl _

theorem convertField_le (cxt : Context) {n m : Nat} (h : n ≤ m) (name : Str) (d : Declaration) :
    GR.Le (convertField cxt n name d) (convertField cxt m name d) := by
  unfold convertField
  split
  · exact (convert_type_le cxt h d).bind fun _ => .refl _
  · exact .refl _

theorem convert_struct_le (cxt : Context) {n m : Nat} (h : n ≤ m) (name : Str) (ms : List Declaration) :
    GR.Le (convert_struct_token cxt n name ms) (convert_struct_token cxt m name ms) :=
  (GR.Le.mapM (convertField_le cxt h name) ms).bind fun _ => .refl _

theorem condType_le (cxt : Context) {n m : Nat} (h : n ≤ m) (ts : TypeSpecifier) :
    GR.Le (condType cxt n ts) (condType cxt m ts) := by
  have := primitive_le (convert_type_le cxt h) cxt ts
  unfold condType
  rcases this with h | h
  · rw [h]
    exact .inl rfl
  · rw [h]
    exact .refl _

theorem convert_case_le (cxt : Context) {n m : Nat} (h : n ≤ m) (v : Value) (d : Declaration) (ts : TypeSpecifier) :
    GR.Le (convert_case_token cxt n v d ts) (convert_case_token cxt m v d ts) :=
  (GR.Le.refl _).bind fun _ => (condType_le cxt h ts).bind fun _ => (convert_type_le cxt h d).bind fun _ => .refl _

theorem unionLoop_le (cxt : Context) {n m : Nat} (h : n ≤ m) (ts : TypeSpecifier)
    (l : List (Int × Declaration × Value)) (s : Int) :
    GR.Le (unionLoop cxt n ts l s) (unionLoop cxt m ts l s) := by
  induction l generalizing s with
  | nil => exact .refl _
  | cons p l ih =>
    obtain ⟨e, d, v⟩ := p
    simp only [unionLoop]
    refine (GR.Le.refl _).bind fun r => (convert_case_le cxt h v d ts).bind fun c => (GR.Le.refl _).bind fun b => ?_
    split
    · exact .refl _
    · exact (ih _).bind fun _ => .refl _

theorem boolCase_le (cxt : Context) {n m : Nat} (h : n ≤ m) (ts : TypeSpecifier) (specs : List CaseSpec)
    (label : Value → Bool) (b : Bool) :
    GR.Le (boolCase cxt n ts specs label b) (boolCase cxt m ts specs label b) := by
  unfold boolCase
  split
  · exact .refl _
  · split
    · exact .refl _
    · exact (convert_case_le cxt h _ _ ts).bind fun _ => .refl _

theorem unionCases_le (cxt : Context) {n m : Nat} (h : n ≤ m) (b : UnionBody) :
    GR.Le (unionCases cxt n b) (unionCases cxt m b) := by
  have hi : ∀ ct, GR.Le ((unionIndexed cxt n b.specs).bind fun values =>
      (unionLoop cxt n ct (sortByKey values) 0).bind fun steps => .ok (ct, UnionAcc.ofSteps steps))
      ((unionIndexed cxt m b.specs).bind fun values =>
      (unionLoop cxt m ct (sortByKey values) 0).bind fun steps => .ok (ct, UnionAcc.ofSteps steps)) := fun ct =>
    (GR.Le.mapM (f := fun p : Declaration × Value => (cxt.resolve_value .u32 n p.2).bind fun index => .ok (index, p.1, p.2))
      (f' := fun p : Declaration × Value => (cxt.resolve_value .u32 m p.2).bind fun index => .ok (index, p.1, p.2))
      (fun p => (resolve_value_le cxt .u32 h p.2).bind fun _ => .refl _) _).bind fun _ =>
      (unionLoop_le cxt h ct _ _).bind fun _ => .refl _
  unfold unionCases
  split
  · split
    · exact hi _
    · exact hi _
    · exact (boolCase_le cxt h ..).bind fun _ => (boolCase_le cxt h ..).bind fun _ => .refl _
    · exact .refl _
  · exact .refl _

theorem unionDefault_le (cxt : Context) {n m : Nat} (h : n ≤ m) (ct : Option RTy) (o : Option Declaration) :
    GR.Le (unionDefault cxt n ct o) (unionDefault cxt m ct o) := by
  cases o with
  | none => exact .refl _
  | some d => exact (convert_type_le cxt h d).bind fun _ => .refl _

theorem convert_union_le (cxt : Context) {n m : Nat} (h : n ≤ m) (name : Str) (b : UnionBody) :
    GR.Le (convert_union_token cxt n name b) (convert_union_token cxt m name b) :=
  (GR.Le.refl _).bind fun _ => (unionCases_le cxt h b).bind fun p => (unionDefault_le cxt h p.2.cond b.default).bind
    fun _ => .refl _

theorem typeToken_le (cxt : Context) {n m : Nat} (h : n ≤ m) (name : Str) (t : TypeDef) :
    GR.Le (typeToken cxt n name t) (typeToken cxt m name t) := by
  cases t with
  | declaration d =>
    simp only [typeToken]
    split
    · exact .refl _
    · exact (convert_type_le cxt h d).bind fun _ => .refl _
  | enum _ as => exact (convert_enum_le cxt h name as).bind fun _ => .refl _
  | struct _ ms => exact (convert_struct_le cxt h name ms).bind fun _ => .refl _
  | union _ b => exact (convert_union_le cxt h name b).bind fun _ => .refl _

theorem gen_code_le {n m : Nat} (h : n ≤ m) (ds : List Definition) (cfg : Config) :
    GR.Le (gen_code n ds cfg) (gen_code m ds cfg) :=
  (GR.Le.refl _).bind fun _ => (((GR.Le.mapM (fun p : Str × TypeDef => typeToken_le _ h p.1 p.2) _).bind fun _ => .refl _ :
    GR.Le (types_token (setup_context ds cfg) n) (types_token (setup_context ds cfg) m))).bind fun _ => .refl _

/-! ## Without cycles the bound is not used up -/

theorem GR.bind_ne {α β : Type} {a : GR α} {f : α → GR β} (h : a ≠ .depth) (hf : ∀ x, f x ≠ .depth) :
    a.bind f ≠ .depth := by
  cases a with
  | ok x => exact hf x
  | depth => exact absurd rfl h
  | _ => exact nofun

theorem GR.mapM_ne {α β : Type} {f : α → GR β} (hf : ∀ x, f x ≠ .depth) (l : List α) : GR.mapM f l ≠ .depth := by
  induction l with
  | nil => exact nofun
  | cons a l ih => exact GR.bind_ne (hf a) fun _ => GR.bind_ne ih fun _ => nofun

theorem mkIdent_ne (s : Str) : mkIdent s ≠ .depth := by
  unfold mkIdent
  split
  · split
    · exact nofun
    · split <;> exact nofun
  · split <;> exact nofun

theorem okOr_ne {α : Type} (o : Option α) (e : GenError) : GR.okOr o e ≠ .depth := by cases o <;> exact nofun

theorem value_token_ne (t : IntTy) (v : Value) (b : Bool) : convert_value_token t v b ≠ .depth := by
  cases v with
  | constant c => exact GR.bind_ne (okOr_ne _ _) fun _ => nofun
  | identifier i =>
    refine GR.bind_ne ?_ fun _ => nofun
    split <;> exact mkIdent_ne _

theorem constants_token_ne (cxt : Context) : constants_token cxt ≠ .depth := by
  refine GR.mapM_ne (fun p => ?_) _
  refine GR.bind_ne (mkIdent_ne _) fun i => ?_
  split
  · exact nofun
  · exact GR.bind_ne (value_token_ne _ _ _) fun _ => nofun
  · exact nofun
  · next h => exact absurd h (value_token_ne _ _ _)

theorem LeadsTo.snoc {ds : List Definition} {a b c : Str} {d : Declaration} (h : LeadsTo ds a b)
    (hb : typeOf ds b = some (.declaration d)) (hd : d.element = some (.identifier c)) : LeadsTo ds a c := by
  induction h with
  | step h1 h2 => exact .more h1 h2 (.step hb hd)
  | more h1 h2 _ ih => exact .more h1 h2 (ih hb)

theorem typeNames_length (ds : List Definition) : (typeNames ds).length ≤ ds.length := by
  induction ds with
  | nil => exact Nat.le_refl _
  | cons d ds ih =>
    simp only [typeNames, List.flatMap_cons, List.length_append, List.length_cons] at ih ⊢
    cases d with
    | type t =>
      cases h : t.name with
      | none => dsimp only; rw [h]; simp only [Option.toList_none, List.length_nil]; omega
      | some x => dsimp only; rw [h]; simp only [Option.toList_some, List.length_cons, List.length_nil]; omega
    | _ => simp only [List.length_nil]; omega

/-- Without cycles, as many steps as there are types suffice. `path` are the typedefs passed so far. -/
theorem convert_type_ne {ds : List Definition} {cfg : Config} (hac : ∀ a, ¬ LeadsTo ds a a) (n : Nat)
    (d : Declaration) (path : List Str) (hnd : path.Nodup) (hsub : path ⊆ typeNames ds)
    (hr : ∀ a ∈ path, ∀ b, d.element = some (.identifier b) → LeadsTo ds a b)
    (hn : (typeNames ds).length < n + path.length) :
    convert_type_token (setup_context ds cfg) n d ≠ .depth := by
  induction n generalizing d path with
  | zero =>
    have := (List.subperm_of_subset hnd hsub).length_le
    omega
  | succ n ih =>
    have hp : ∀ ts, d.element = some ts →
        convert_primitive_token (convert_type_token (setup_context ds cfg) n) (setup_context ds cfg) ts ≠ .depth := by
      intro ts hts
      cases ts with
      | identifier b =>
        simp only [convert_primitive_token, resolve_type_token]
        split
        · exact GR.bind_ne (mkIdent_ne _) fun _ => nofun
        · split
          · next x d' hf =>
            refine GR.bind_ne ?_ fun _ => okOr_ne _ _
            have hb : typeOf ds b = some (.declaration d') := by
              have := typedefs_find ds cfg b
              rw [hf] at this
              cases ht : typeOf ds b with
              | none => rw [ht] at this; cases this
              | some t => rw [ht] at this; cases this; rfl
            have hnew : b ∉ path := fun hb' => hac b (hr b hb' b hts)
            refine ih d' (b :: path) (List.nodup_cons.2 ⟨hnew, hnd⟩) (List.cons_subset.2 ⟨?_, hsub⟩) ?_ ?_
            · obtain ⟨h1, h2⟩ := typeOf_mem hb
              exact List.mem_flatMap.2 ⟨_, h1, by simp [h2]⟩
            · intro a ha c hc
              rcases List.mem_cons.1 ha with rfl | ha
              · exact .step hb hc
              · exact (hr a ha b hts).snoc hb hc
            · simp only [List.length_cons]
              omega
          · exact GR.bind_ne (mkIdent_ne _) fun _ => nofun
      | _ => exact nofun
    simp only [convert_type_token]
    cases d with
    | «variable» ts nm => exact GR.bind_ne (hp ts rfl) fun _ => nofun
    | fixedArray ts nm v =>
      exact GR.bind_ne (hp ts rfl) fun _ => GR.bind_ne (value_token_ne _ _ _) fun _ => nofun
    | variableArray ts nm v =>
      refine GR.bind_ne (hp ts rfl) fun p => ?_
      dsimp only
      split <;> exact nofun
    | opaqueFixedArray nm v => exact GR.bind_ne (value_token_ne _ _ _) fun _ => nofun
    | optionVariable ts nm => exact GR.bind_ne (hp ts rfl) fun _ => nofun
    | _ => exact nofun

section
variable {cxt : Context} {n : Nat} (ht : ∀ d, convert_type_token cxt n d ≠ .depth)
  (hv : ∀ t v, cxt.resolve_value t n v ≠ .depth)

theorem reserved_ne (i : Int) : reservedIdent i ≠ .depth := mkIdent_ne _

theorem enumLoop_ne (b : Bool) (l : List (Int × Assign)) (s : Int) : enumLoop b l s ≠ .depth := by
  induction l generalizing s with
  | nil => exact nofun
  | cons p l ih =>
    obtain ⟨e, a⟩ := p
    simp only [enumLoop]
    refine GR.bind_ne ?_ fun _ => GR.bind_ne (mkIdent_ne _) fun _ => ?_
    · split
      · exact GR.mapM_ne (by intro i; exact GR.bind_ne (reserved_ne i) fun _ => nofun) _
      · exact nofun
    · split
      · exact nofun
      · exact GR.bind_ne (ih _) fun _ => nofun

include hv in
theorem convert_enum_ne (name : Str) (as : List Assign) : convert_enum_token cxt n name as ≠ .depth := by
  refine GR.bind_ne (GR.mapM_ne (by intro a; exact GR.bind_ne (hv _ _) fun _ => nofun) _) fun ix =>
    GR.bind_ne (mkIdent_ne _) fun _ => GR.bind_ne (enumLoop_ne _ _ _) fun steps => ?_
  split <;> exact nofun

include ht in
theorem convert_struct_ne (name : Str) (ms : List Declaration) : convert_struct_token cxt n name ms ≠ .depth := by
  refine GR.bind_ne (GR.mapM_ne (fun d => ?_) _) fun _ => GR.bind_ne (mkIdent_ne _) fun _ => nofun
  unfold convertField
  split
  · exact GR.bind_ne (ht _) fun _ => GR.bind_ne (okOr_ne _ _) fun _ => GR.bind_ne (mkIdent_ne _) fun _ => nofun
  · exact nofun

include ht in
theorem condType_ne (ts : TypeSpecifier) : condType cxt n ts ≠ .depth := by
  unfold condType
  split
  · exact nofun
  · split
    · exact GR.bind_ne (mkIdent_ne _) fun _ => nofun
    · exact nofun
  · exact nofun
  · next h =>
    exfalso
    revert h
    cases ts with
    | identifier b =>
      simp only [convert_primitive_token, resolve_type_token]
      split
      · exact GR.bind_ne (mkIdent_ne _) fun _ => nofun
      · split
        · exact GR.bind_ne (ht _) fun _ => okOr_ne _ _
        · exact GR.bind_ne (mkIdent_ne _) fun _ => nofun
    | _ => exact nofun

include ht in
theorem convert_case_ne (v : Value) (d : Declaration) (ts : TypeSpecifier) :
    convert_case_token cxt n v d ts ≠ .depth := by
  refine GR.bind_ne (value_token_ne _ _ _) fun _ => GR.bind_ne (condType_ne ht ts) fun _ =>
    GR.bind_ne (ht _) fun o => ?_
  split
  · dsimp only
    split <;> exact nofun
  · split <;> exact nofun

theorem caseByValue_ne (cond : TypeSpecifier) (e : Int) (v : Value) (t : Tok) :
    caseByValue cxt cond e v t ≠ .depth := by
  unfold caseByValue
  split
  · split
    · refine GR.bind_ne (mkIdent_ne _) fun _ => ?_
      split
      · exact GR.bind_ne (mkIdent_ne _) fun _ => nofun
      · exact nofun
    · exact nofun
  · exact nofun

include ht in
theorem unionLoop_ne (cond : TypeSpecifier) (l : List (Int × Declaration × Value)) (s : Int) :
    unionLoop cxt n cond l s ≠ .depth := by
  induction l generalizing s with
  | nil => exact nofun
  | cons p l ih =>
    obtain ⟨e, d, v⟩ := p
    simp only [unionLoop]
    refine GR.bind_ne ?_ fun _ => GR.bind_ne (convert_case_ne ht _ _ _) fun _ =>
      GR.bind_ne (caseByValue_ne _ _ _ _) fun _ => ?_
    · split
      · exact GR.mapM_ne (by intro i; exact GR.bind_ne (reserved_ne i) fun _ => nofun) _
      · exact nofun
    · split
      · exact nofun
      · exact GR.bind_ne (ih _) fun _ => nofun

include ht in
theorem boolCase_ne (ts : TypeSpecifier) (specs : List CaseSpec) (label : Value → Bool) (b : Bool) :
    boolCase cxt n ts specs label b ≠ .depth := by
  unfold boolCase
  split
  · exact nofun
  · split
    · exact nofun
    · exact GR.bind_ne (convert_case_ne ht _ _ _) fun _ => nofun

include ht hv in
theorem convert_union_ne (name : Str) (b : UnionBody) : convert_union_token cxt n name b ≠ .depth := by
  refine GR.bind_ne (mkIdent_ne _) fun _ => GR.bind_ne ?_ fun p => GR.bind_ne ?_ fun o => ?_
  · have hi : ∀ ct, ((unionIndexed cxt n b.specs).bind fun values =>
      (unionLoop cxt n ct (sortByKey values) 0).bind fun steps => GR.ok (ct, UnionAcc.ofSteps steps)) ≠ .depth :=
      fun ct => GR.bind_ne (GR.mapM_ne (by intro a; exact GR.bind_ne (hv _ _) fun _ => nofun) _) fun _ =>
        GR.bind_ne (unionLoop_ne ht _ _ _) fun _ => nofun
    unfold unionCases
    split
    · split
      · exact hi _
      · exact hi _
      · exact GR.bind_ne (boolCase_ne ht _ _ _ _) fun _ => GR.bind_ne (boolCase_ne ht _ _ _ _) fun _ => nofun
      · exact nofun
    · exact nofun
  · unfold unionDefault
    split
    · exact nofun
    · exact GR.bind_ne (ht _) fun _ => nofun
  · split <;> exact nofun

include ht hv in
theorem typeToken_ne (name : Str) (t : TypeDef) : typeToken cxt n name t ≠ .depth := by
  cases t with
  | declaration d =>
    simp only [typeToken]
    split
    · exact nofun
    · refine GR.bind_ne (ht _) fun _ => GR.bind_ne (okOr_ne _ _) fun p => ?_
      split
      · exact nofun
      · exact GR.bind_ne (mkIdent_ne _) fun _ => nofun
  | enum _ as => exact GR.bind_ne (convert_enum_ne hv _ _) fun _ => nofun
  | struct _ ms => exact GR.bind_ne (convert_struct_ne ht _ _) fun _ => nofun
  | union _ b => exact GR.bind_ne (convert_union_ne ht hv _ _) fun _ => nofun

end

theorem gen_code_ne {ds : List Definition} {cfg : Config} {n : Nat} (hc : Acyclic ds)
    (hac : ∀ a, ¬ LeadsTo ds a a) (h1 : (definedNames ds).length < n) (h2 : ds.length < n) :
    gen_code n ds cfg ≠ .depth := by
  have ht : ∀ d, convert_type_token (setup_context ds cfg) n d ≠ .depth := fun d =>
    convert_type_ne hac n d [] List.nodup_nil (List.nil_subset _) (by simp)
      (by have := typeNames_length ds; simp only [List.length_nil]; omega)
  have hv : ∀ t v, (setup_context ds cfg).resolve_value t n v ≠ .depth := fun t v => resolve_value_acyclic hc n v h1
  exact GR.bind_ne (constants_token_ne _) fun _ => GR.bind_ne
    (GR.bind_ne (GR.mapM_ne (fun p : Str × TypeDef => typeToken_ne ht hv p.1 p.2) _) fun _ => nofun) fun _ => nofun

end Xdr.Rpcgen
