import Verif.Spec.Bounds
import Verif.RpcgenProofs.Gen
/-!
# The generator does not look at bounds
-/

namespace Xdr.Rpcgen

variable {f : Option Value → Option Value}

theorem rebound_name (d : Declaration) : (d.rebound f).name = d.name := by cases d <;> rfl

theorem rebound_type (d : Declaration) : (d.rebound f).type_specifier = d.type_specifier := by
  cases d <;> rfl

/-- The context with other bounds. -/
def Context.rebound (f : Option Value → Option Value) (cxt : Context) : Context where
  config := cxt.config
  constants := cxt.constants
  typedefs := cxt.typedefs.map fun d => (d.1, d.2.rebound f)

theorem setup_rebound (ds : List Definition) (cfg : Config) :
    setup_context (ds.map (Definition.rebound f)) cfg = (setup_context ds cfg).rebound f := by
  unfold setup_context Context.rebound
  congr 1
  · rw [List.filterMap_map]
    congr 1
    funext d
    cases d <;> rfl
  · rw [List.filterMap_map, List.map_filterMap]
    congr 1
    funext d
    cases d with
    | type t =>
      cases t with
      | declaration d =>
        simp only [Function.comp_apply, Definition.rebound, TypeDef.rebound, rebound_name, Option.map_map]
        rfl
      | _ => rfl
    | _ => rfl

theorem is_enum_rebound (cxt : Context) (ts : TypeSpecifier) :
    (cxt.rebound f).is_enum_type ts = cxt.is_enum_type ts := by
  unfold Context.is_enum_type Context.rebound
  cases ts with
  | identifier name =>
    simp only [List.any_map]
    congr 1
    funext d
    obtain ⟨_, t⟩ := d
    cases t <;> rfl
  | _ => rfl

theorem find_rebound (l : List (Str × TypeDef)) (name : Str) :
    ((l.map fun d => (d.1, d.2.rebound f)).find? fun d => d.1 == name) =
      (l.find? fun d => d.1 == name).map fun d => (d.1, d.2.rebound f) := by
  induction l with
  | nil => rfl
  | cons d l ih =>
    simp only [List.map_cons, List.find?_cons, ih]
    cases d.1 == name <;> rfl

theorem members_rebound (l : List (Str × TypeDef)) (name : Str) :
    ((l.map fun d => (d.1, d.2.rebound f)).findSome? fun d => enumMember name d.2) =
      l.findSome? fun d => enumMember name d.2 := by
  rw [List.findSome?_map]
  congr 1
  funext d
  obtain ⟨_, t⟩ := d
  cases t <;> rfl

theorem resolve_name_rebound (cxt : Context) (t : IntTy) (n : Nat) :
    (cxt.rebound f).resolve_name t n = cxt.resolve_name t n := by
  induction n with
  | zero => rfl
  | succ n ih =>
    funext name
    simp only [Context.resolve_name, ih]
    congr 2
    exact members_rebound _ _

theorem resolve_value_rebound (cxt : Context) (t : IntTy) (n : Nat) (v : Value) :
    (cxt.rebound f).resolve_value t n v = cxt.resolve_value t n v := by
  simp only [Context.resolve_value, resolve_name_rebound]

theorem primitive_rebound {ct ct' : Declaration → GR (Option (RTy × OpaqueType))}
    (h : ∀ d : Declaration, ct' (d.rebound f) = ct d) (cxt : Context) (ts : TypeSpecifier) :
    convert_primitive_token ct' (cxt.rebound f) ts = convert_primitive_token ct cxt ts := by
  cases ts with
  | identifier name =>
    simp only [convert_primitive_token, resolve_type_token]
    have h1 : (cxt.rebound f).config = cxt.config := rfl
    have h2 : (cxt.rebound f).typedefs = cxt.typedefs.map fun d => (d.1, d.2.rebound f) := rfl
    rw [h1, h2, find_rebound]
    split
    · rfl
    · cases (cxt.typedefs.find? fun d => d.1 == name) with
      | none => rfl
      | some p =>
        obtain ⟨nm, t⟩ := p
        cases t with
        | declaration d => simp only [Option.map_some, TypeDef.rebound, h]
        | _ => rfl
  | _ => rfl

theorem convert_type_rebound (cxt : Context) (n : Nat) (d : Declaration) :
    convert_type_token (cxt.rebound f) n (d.rebound f) = convert_type_token cxt n d := by
  induction n generalizing d with
  | zero => rfl
  | succ n ih =>
    have hp := primitive_rebound (f := f) ih cxt
    cases d <;> simp only [convert_type_token, convertTypeWith, Declaration.rebound, hp]

theorem field_rebound (cxt : Context) (n : Nat) (name : Str) (d : Declaration) :
    convertField (cxt.rebound f) n name (d.rebound f) = convertField cxt n name d := by
  unfold convertField
  rw [rebound_name, rebound_type]
  simp only [convert_type_rebound, is_enum_rebound]
  rfl

theorem mapM_map {α β γ : Type} (g : α → β) (h : β → GR γ) (l : List α) :
    GR.mapM h (l.map g) = GR.mapM (fun a => h (g a)) l := by
  induction l with
  | nil => rfl
  | cons a l ih => simp only [List.map_cons, GR.mapM, ih]

theorem struct_rebound (cxt : Context) (n : Nat) (name : Str) (ds : List Declaration) :
    convert_struct_token (cxt.rebound f) n name (ds.map (Declaration.rebound f)) =
      convert_struct_token cxt n name ds := by
  unfold convert_struct_token
  rw [mapM_map]
  simp only [field_rebound]

theorem enum_rebound (cxt : Context) (n : Nat) (name : Str) (as : List Assign) :
    convert_enum_token (cxt.rebound f) n name as = convert_enum_token cxt n name as := by
  unfold convert_enum_token enumIndexed
  simp only [resolve_value_rebound]
  rfl

theorem condType_rebound (cxt : Context) (n : Nat) (ts : TypeSpecifier) :
    condType (cxt.rebound f) n ts = condType cxt n ts := by
  unfold condType
  rw [primitive_rebound (convert_type_rebound (f := f) cxt n)]

theorem case_rebound (cxt : Context) (n : Nat) (v : Value) (d : Declaration) (ts : TypeSpecifier) :
    convert_case_token (cxt.rebound f) n v (d.rebound f) ts = convert_case_token cxt n v d ts := by
  unfold convert_case_token
  rw [condType_rebound]
  simp only [convert_type_rebound]
  rfl

/-- A numbered label with its arm. -/
def caseRebound (f : Option Value → Option Value) (p : Int × Declaration × Value) :
    Int × Declaration × Value := (p.1, p.2.1.rebound f, p.2.2)

theorem insert_rebound (x : Int × Declaration × Value) (l : List (Int × Declaration × Value)) :
    insertByKey (caseRebound f x) (l.map (caseRebound f)) = (insertByKey x l).map (caseRebound f) := by
  induction l with
  | nil => rfl
  | cons y ys ih =>
    simp only [List.map_cons, insertByKey, caseRebound]
    split
    · rfl
    · rw [List.map_cons, ← ih]
      rfl

theorem sort_rebound (l : List (Int × Declaration × Value)) :
    sortByKey (l.map (caseRebound f)) = (sortByKey l).map (caseRebound f) := by
  unfold sortByKey
  rw [List.foldl_map]
  have : ∀ (acc : List (Int × Declaration × Value)),
      List.foldl (fun acc x => insertByKey (caseRebound f x) acc) (acc.map (caseRebound f)) l =
        (List.foldl (fun acc x => insertByKey x acc) acc l).map (caseRebound f) := by
    induction l with
    | nil => exact fun _ => rfl
    | cons x l ih =>
      intro acc
      simp only [List.foldl_cons]
      rw [insert_rebound, ih]
  exact this []

theorem mapM_then {α β γ : Type} (g : α → GR β) (h : β → γ) (l : List α) :
    GR.mapM (fun a => (g a).bind fun b => .ok (h b)) l = (GR.mapM g l).bind fun bs => .ok (bs.map h) := by
  induction l with
  | nil => rfl
  | cons a l ih =>
    simp only [GR.mapM, ih]
    cases g a with
    | ok b => cases GR.mapM g l <;> rfl
    | _ => rfl

theorem indexed_rebound (cxt : Context) (n : Nat) (specs : List CaseSpec) :
    unionIndexed (cxt.rebound f) n (specs.map (CaseSpec.rebound f)) =
      (unionIndexed cxt n specs).bind fun l => .ok (l.map (caseRebound f)) := by
  unfold unionIndexed
  have : ((specs.map (CaseSpec.rebound f)).flatMap fun spec => spec.values.map fun v => (spec.declaration, v)) =
      (specs.flatMap fun spec => spec.values.map fun v => (spec.declaration, v)).map
        fun p => (p.1.rebound f, p.2) := by
    rw [List.flatMap_map, List.map_flatMap]
    congr 1
    funext s
    rw [List.map_map]
    rfl
  rw [this, mapM_map, ← mapM_then]
  congr 1
  funext p
  simp only [resolve_value_rebound]
  cases cxt.resolve_value .u32 n p.2 <;> rfl

theorem loop_rebound (cxt : Context) (n : Nat) (ts : TypeSpecifier) (l : List (Int × Declaration × Value))
    (s : Int) : unionLoop (cxt.rebound f) n ts (l.map (caseRebound f)) s = unionLoop cxt n ts l s := by
  induction l generalizing s with
  | nil => rfl
  | cons p l ih =>
    obtain ⟨e, d, v⟩ := p
    simp only [List.map_cons, caseRebound, unionLoop, case_rebound, caseByValue, is_enum_rebound]
    have ih' := ih (e + 1)
    simp only [ih']
    rfl

theorem boolCase_rebound (cxt : Context) (n : Nat) (ts : TypeSpecifier) (specs : List CaseSpec)
    (label : Value → Bool) (b : Bool) :
    boolCase (cxt.rebound f) n ts (specs.map (CaseSpec.rebound f)) label b =
      boolCase cxt n ts specs label b := by
  unfold boolCase
  have : ((specs.map (CaseSpec.rebound f)).find? fun s => s.values.any label) =
      (specs.find? fun s => s.values.any label).map (CaseSpec.rebound f) := by
    rw [List.find?_map]
    rfl
  rw [this]
  cases specs.find? fun s => s.values.any label with
  | none => rfl
  | some c =>
    have hv : (c.rebound f).values = c.values := rfl
    have hd : (c.rebound f).declaration = c.declaration.rebound f := rfl
    simp only [Option.map_some, hv, hd, case_rebound]

theorem cases_rebound (cxt : Context) (n : Nat) (b : UnionBody) :
    unionCases (cxt.rebound f) n (b.rebound f) = unionCases cxt n b := by
  have hc : (b.rebound f).cond = b.cond := rfl
  have hs : (b.rebound f).specs = b.specs.map (CaseSpec.rebound f) := rfl
  have key : ∀ ts, ((unionIndexed (cxt.rebound f) n (b.specs.map (CaseSpec.rebound f))).bind fun values =>
      (unionLoop (cxt.rebound f) n ts (sortByKey values) 0).bind fun steps =>
        GR.ok (ts, UnionAcc.ofSteps steps)) =
      ((unionIndexed cxt n b.specs).bind fun values =>
      (unionLoop cxt n ts (sortByKey values) 0).bind fun steps => GR.ok (ts, UnionAcc.ofSteps steps)) := by
    intro ts
    rw [indexed_rebound]
    cases unionIndexed cxt n b.specs with
    | ok l => simp only [GR.bind, sort_rebound, loop_rebound]
    | _ => rfl
  unfold unionCases
  rw [hc, hs]
  simp only [boolCase_rebound]
  cases b.cond with
  | «variable» ts nm =>
    cases ts with
    | int s => exact key _
    | identifier s => exact key _
    | _ => rfl
  | _ => rfl

theorem default_rebound (cxt : Context) (n : Nat) (cond : Option RTy) (d : Option Declaration) :
    unionDefault (cxt.rebound f) n cond (d.map (Declaration.rebound f)) = unionDefault cxt n cond d := by
  cases d with
  | none => rfl
  | some d =>
    simp only [Option.map_some, unionDefault, convert_type_rebound]
    rfl

theorem union_rebound (cxt : Context) (n : Nat) (name : Str) (b : UnionBody) :
    convert_union_token (cxt.rebound f) n name (b.rebound f) = convert_union_token cxt n name b := by
  have hd : (b.rebound f).default = b.default.map (Declaration.rebound f) := rfl
  have hs : (b.default.map (Declaration.rebound f)).isSome = b.default.isSome := by
    cases b.default <;> rfl
  unfold convert_union_token
  simp only [cases_rebound, hd, default_rebound, hs]
  rfl

theorem gen_rebound (n : Nat) (ds : List Definition) (cfg : Config) :
    gen_code n (ds.map (Definition.rebound f)) cfg = gen_code n ds cfg := by
  unfold gen_code
  rw [setup_rebound]
  have ht : types_token ((setup_context ds cfg).rebound f) n = types_token (setup_context ds cfg) n := by
    unfold types_token
    have : ((setup_context ds cfg).rebound f).typedefs =
        (setup_context ds cfg).typedefs.map fun d => (d.1, d.2.rebound f) := rfl
    rw [this, mapM_map]
    congr 2
    funext p
    obtain ⟨nm, t⟩ := p
    cases t with
    | declaration d =>
      simp only [typeToken, TypeDef.rebound, convert_type_rebound]
      rfl
    | enum name as => simp only [typeToken, TypeDef.rebound, enum_rebound]
    | struct name ms => simp only [typeToken, TypeDef.rebound, struct_rebound]
    | union name b => simp only [typeToken, TypeDef.rebound, union_rebound]
  simp only [ht]
  rfl

end Xdr.Rpcgen
