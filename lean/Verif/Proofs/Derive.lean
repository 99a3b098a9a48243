import Verif.Model.Derive
import Verif.Proofs.Basic
/-!
# Lemmas: the derive macros and the code they produce
-/

namespace Xdr.Derive

/-! ## Variable names -/

theorem repr_inj {i j : Nat} (h : i.repr = j.repr) : i = j := by
  have h := congrArg String.toList h
  rw [Nat.toList_repr, Nat.toList_repr] at h
  have hi := Nat.ofDigitChars_toDigits (b := 10) (n := i) (by decide) (by decide)
  rw [h, Nat.ofDigitChars_toDigits (by decide) (by decide)] at hi
  exact hi.symm

theorem argIdent_inj {i j : Nat} (h : argIdent i = argIdent j) : i = j := by
  have h := congrArg String.toList h
  simp only [argIdent, String.toList_append] at h
  exact repr_inj (String.toList_inj.1 (List.append_cancel_left h))

theorem retIdent_inj {i j : Nat} (h : retIdent i = retIdent j) : i = j := by
  have h := congrArg String.toList h
  simp only [retIdent, String.toList_append] at h
  exact repr_inj (String.toList_inj.1 (List.append_cancel_left h))

theorem retIdent_ne_value (i : Nat) : "value" ≠ retIdent i := by
  intro h
  have h := congrArg String.toList h
  simp only [retIdent, String.toList_append] at h
  have := congrArg List.head? h
  simp at this

/-! ## The expansion in closed form -/

def args : Nat → List Ty → List String
  | _, [] => []
  | n, _ :: ts => argIdent n :: args (n + 1) ts

def rets : Nat → List Ty → List String
  | _, [] => []
  | n, _ :: ts => retIdent n :: rets (n + 1) ts

def lets : Nat → List Ty → List (String × Ty)
  | _, [] => []
  | n, t :: ts => (retIdent n, t) :: lets (n + 1) ts

theorem indexerFields_eq (c : FieldCode) (n : Nat) (ts : List Ty) : indexerFields c n ts =
    ⟨c.serArgs ++ args n ts, c.serStmts ++ args n ts, c.deStmts ++ lets n ts, c.deRets ++ rets n ts⟩ := by
  induction ts generalizing c n with
  | nil => simp [indexerFields, args, lets, rets]
  | cons t ts ih => simp [indexerFields, ih, args, lets, rets]

/-- The fields of an enum variant: unit, or a list of types. -/
def fieldsOf : Option (List Ty) → Fields
  | none => .unit
  | some ts => .unnamed ts

def itemOf (vars : List (String × Option (List Ty))) : List Variant :=
  vars.map fun v => ⟨v.1, fieldsOf v.2⟩

def serArm (v : String × Option (List Ty)) : SerArm :=
  match v.2 with
  | none => ⟨v.1, none, []⟩
  | some ts => ⟨v.1, some (args 0 ts), args 0 ts⟩

def indexerArm (v : String × Option (List Ty)) : DeArm :=
  match v.2 with
  | none => ⟨v.1, [], v.1, none⟩
  | some ts => ⟨v.1, lets 0 ts, v.1, some (rets 0 ts)⟩

def unionArm (v : String × Option (List Ty)) : DeArm :=
  match v.2 with
  | none => ⟨v.1, [], v.1, none⟩
  | some [] => ⟨v.1, [], v.1, some []⟩
  | some (_ :: ts) => ⟨v.1, lets 1 ts, v.1, some ("value" :: rets 1 ts)⟩

theorem indexerVariants_eq (c : Code) (vars : List (String × Option (List Ty))) :
    indexerVariants c (itemOf vars) =
      .ok ⟨c.ser ++ vars.map serArm, c.de ++ vars.map indexerArm⟩ := by
  induction vars generalizing c with
  | nil => simp [itemOf, indexerVariants]
  | cons v vars ih =>
    obtain ⟨n, o⟩ := v
    cases o with
    | none =>
      change indexerVariants ⟨c.ser ++ [⟨n, none, []⟩], c.de ++ [⟨n, [], n, none⟩]⟩ (itemOf vars) = _
      rw [ih]
      simp [serArm, indexerArm]
    | some ts =>
      change indexerVariants
        ⟨c.ser ++ [⟨n, some (indexerFields {} 0 ts).serArgs, (indexerFields {} 0 ts).serStmts⟩],
         c.de ++ [⟨n, (indexerFields {} 0 ts).deStmts, n, some (indexerFields {} 0 ts).deRets⟩]⟩
        (itemOf vars) = _
      rw [ih, indexerFields_eq]
      simp [serArm, indexerArm]

theorem unionFields_rest (c : FieldCode) (vt : Option Ty) (n : Nat) (ts : List Ty) (hv : vt ≠ none) :
    unionFields c false vt n ts =
    (⟨c.serArgs ++ args n ts, c.serStmts ++ args n ts, c.deStmts ++ lets n ts, c.deRets ++ rets n ts⟩,
      vt) := by
  induction ts generalizing c n with
  | nil => simp [unionFields, args, lets, rets]
  | cons t ts ih =>
    cases vt with
    | none => exact absurd rfl hv
    | some vt => simp [unionFields, ih, args, lets, rets]

/-- The first field, or what was found before. -/
def firstTy (vt : Option Ty) : List Ty → Option Ty
  | [] => vt
  | t :: _ => if vt.isNone then some t else vt

theorem firstTy_none {ts : List Ty} : firstTy none ts = ts.head? := by
  cases ts <;> rfl

theorem unionFields_eq (vt : Option Ty) (ts : List Ty) : unionFields {} true vt 0 ts =
    (⟨args 0 ts, args 0 ts, (unionArm ("", some ts)).stmts, (unionArm ("", some ts)).rets.getD []⟩,
      firstTy vt ts) := by
  cases ts with
  | nil => simp [unionFields, args, unionArm, firstTy]
  | cons t ts =>
    simp only [unionFields, ↓reduceIte]
    rw [unionFields_rest]
    · simp [args, unionArm, firstTy]
    · cases vt <;> simp

/-- The discriminant type: the first field of the first variant that has one. -/
def valueTy (vars : List (String × Option (List Ty))) : Option Ty :=
  vars.findSome? fun v => v.2.bind List.head?

theorem unionVariants_eq (c : Code) (vt : Option Ty) (vars : List (String × Option (List Ty))) :
    unionVariants c vt (itemOf vars) =
      .ok (⟨c.ser ++ vars.map serArm, c.de ++ vars.map unionArm⟩, vt.or (valueTy vars)) := by
  induction vars generalizing c vt with
  | nil => simp [itemOf, unionVariants, valueTy]
  | cons v vars ih =>
    obtain ⟨n, o⟩ := v
    cases o with
    | none =>
      change unionVariants ⟨c.ser ++ [⟨n, none, []⟩], c.de ++ [⟨n, [], n, none⟩]⟩ vt (itemOf vars) = _
      rw [ih]
      simp [serArm, unionArm, valueTy]
    | some ts =>
      change unionVariants
        ⟨c.ser ++ [⟨n, some (unionFields {} true vt 0 ts).1.serArgs,
            (unionFields {} true vt 0 ts).1.serStmts⟩],
         c.de ++ [⟨n, (unionFields {} true vt 0 ts).1.deStmts, n,
            some (unionFields {} true vt 0 ts).1.deRets⟩]⟩
        (unionFields {} true vt 0 ts).2 (itemOf vars) = _
      rw [ih, unionFields_eq]
      cases ts with
      | nil => simp [serArm, unionArm, firstTy, valueTy, List.findSome?_cons]
      | cons t ts => cases vt <;> simp [serArm, unionArm, firstTy, valueTy, List.findSome?_cons]

/-! ## Which enums expand -/

/-- Every variant is a unit or tuple variant. -/
theorem itemOf_of {vs : List Variant} (h : ∀ v ∈ vs, ∀ fs, v.fields ≠ .named fs) :
    ∃ vars, vs = itemOf vars := by
  induction vs with
  | nil => exact ⟨[], rfl⟩
  | cons v vs ih =>
    rw [List.forall_mem_cons] at h
    obtain ⟨vars, rfl⟩ := ih h.2
    obtain ⟨n, f⟩ := v
    cases f with
    | named fs => exact absurd rfl (h.1 fs)
    | unnamed ts => exact ⟨(n, some ts) :: vars, rfl⟩
    | unit => exact ⟨(n, none) :: vars, rfl⟩

theorem indexerVariants_named {vs : List Variant} {v : Variant} {fs : List (String × Ty)}
    (hv : v ∈ vs) (hf : v.fields = .named fs) (c : Code) :
    indexerVariants c vs = .panic .unimplemented := by
  induction vs generalizing c with
  | nil => simp at hv
  | cons w vs ih =>
    unfold indexerVariants
    rcases List.mem_cons.1 hv with rfl | hv
    · rw [hf]
    · split <;> first | rfl | exact ih hv _

theorem unionVariants_named {vs : List Variant} {v : Variant} {fs : List (String × Ty)}
    (hv : v ∈ vs) (hf : v.fields = .named fs) (c : Code) (vt : Option Ty) :
    unionVariants c vt vs = .panic .unimplemented := by
  induction vs generalizing c vt with
  | nil => simp at hv
  | cons w vs ih =>
    unfold unionVariants
    rcases List.mem_cons.1 hv with rfl | hv
    · rw [hf]
    · split <;> first | rfl | exact ih hv _ _

/-! ## Writing -/

theorem lookup_append_of {α : Type} {x : String} {a b : List (String × α)} (h : ∀ p ∈ a, p.1 ≠ x) :
    lookup x (a ++ b) = lookup x b := by
  have : a.find? (fun p => decide (p.1 = x)) = none := by
    simpa [List.find?_eq_none] using fun p q hp => h (p, q) hp
  simp [lookup, List.find?_append, this]

theorem serStmts_eq (env : Env) (ts : List Ty) : ∀ (vs : List Val) (n : Nat)
    (pre : List (String × Ty × Val)), (∀ p ∈ pre, ∀ m, n ≤ m → p.1 ≠ argIdent m) →
    ((bindArgs (args n ts) ts vs).bind fun b => serStmts env (pre ++ b) (args n ts)) =
      presentEach env ts vs := by
  induction ts with
  | nil =>
    intro vs n pre _
    cases vs <;> simp [args, bindArgs, serStmts, presentEach]
  | cons t ts ih =>
    intro vs n pre hpre
    cases vs with
    | nil => simp [args, bindArgs, presentEach]
    | cons v vs =>
      have ih := ih vs (n + 1) (pre ++ [(argIdent n, t, v)]) (by
        intro p hp m hm
        rcases List.mem_append.1 hp with hp | hp
        · exact hpre p hp m (by omega)
        · rw [List.mem_singleton] at hp
          subst hp
          exact fun h => absurd (argIdent_inj h) (by omega))
      simp only [args, bindArgs, presentEach]
      rw [← ih]
      cases hb : bindArgs (args (n + 1) ts) ts vs with
      | none => simp
      | some b =>
        have hl : lookup (argIdent n) (pre ++ (argIdent n, t, v) :: b) = some (t, v) := by
          rw [lookup_append_of fun p hp => hpre p hp n (Nat.le_refl _)]
          simp [lookup]
        simp only [Option.map_some, Option.bind_some, serStmts, hl, List.append_assoc,
          List.singleton_append]
        rfl

theorem find_arm {α : Type} {f : String × Option (List Ty) → α} {k : α → String}
    (hk : ∀ v, k (f v) = v.1) (vars : List (String × Option (List Ty))) (n : String) :
    (vars.map f).find? (fun a => decide (k a = n)) = (vars.find? fun v => decide (v.1 = n)).map f := by
  induction vars with
  | nil => rfl
  | cons v vars ih =>
    simp only [List.map_cons, List.find?_cons, hk]
    split <;> simp_all

theorem serArm_variant (v : String × Option (List Ty)) : (serArm v).variant = v.1 := by
  unfold serArm; split <;> rfl

theorem indexerArm_key (v : String × Option (List Ty)) : (indexerArm v).key = v.1 := by
  unfold indexerArm; split <;> rfl

theorem unionArm_key (v : String × Option (List Ty)) : (unionArm v).key = v.1 := by
  unfold unionArm; split <;> rfl

theorem find_self {α : Type} {vars : List (String × α)} (hn : (vars.map (·.1)).Nodup)
    {i : Nat} {v : String × α} (h : vars[i]? = some v) :
    vars.find? (fun w => decide (w.1 = v.1)) = some v := by
  induction vars generalizing i with
  | nil => simp at h
  | cons w vars ih =>
    rw [List.map_cons, List.nodup_cons] at hn
    cases i with
    | zero =>
      simp only [List.getElem?_cons_zero, Option.some.injEq] at h
      subst h
      simp
    | succ i =>
      simp only [List.getElem?_cons_succ] at h
      have hne : w.1 ≠ v.1 := fun he => hn.1 (he ▸ List.mem_map.2 ⟨v, List.mem_of_getElem? h, rfl⟩)
      rw [List.find?_cons]
      simp only [hne, decide_false]
      exact ih hn.2 h

/-- The fields of a value, written. -/
def presentFields (env : Env) : Option (List Ty) → List Val → Option (List SVal)
  | none, vs => if vs.isEmpty then some [] else none
  | some ts, vs => presentEach env ts vs

theorem serMatch_eq (env : Env) (name : String) (vars : List (String × Option (List Ty)))
    (hn : (vars.map (·.1)).Nodup) (de : List DeArm) (i : Nat) (vs : List Val) :
    serMatch env ⟨name, itemOf vars⟩ ⟨vars.map serArm, de⟩ i vs =
      (vars[i]?).bind fun v => presentFields env v.2 vs := by
  simp only [serMatch, itemOf, List.getElem?_map]
  cases h : vars[i]? with
  | none => rfl
  | some v =>
    simp only [Option.map_some, Option.bind_some]
    rw [find_arm serArm_variant, find_self hn h]
    obtain ⟨n, o⟩ := v
    cases o with
    | none =>
      cases vs <;> simp [serArm, fieldsOf, Fields.types, bindArgs, serStmts, presentFields]
    | some ts =>
      have := serStmts_eq env ts vs 0 [] (by simp)
      simp only [List.nil_append] at this
      simp only [Option.map_some, serArm, fieldsOf, Fields.types, Option.getD_some, presentFields]
      rw [← this]
      cases bindArgs (args 0 ts) ts vs <;> rfl

/-! ## Reading -/

/-- The variables after the statements. -/
def bound : Nat → List Val → List (String × Val) → List (String × Val)
  | _, [], b => b
  | n, v :: vs, b => bound (n + 1) vs ((retIdent n, v) :: b)

theorem lookup_bound {x : String} (vs : List Val) : ∀ (n : Nat) (b : List (String × Val)),
    (∀ m, n ≤ m → x ≠ retIdent m) → lookup x (bound n vs b) = lookup x b := by
  induction vs with
  | nil => intro n b _; rfl
  | cons v vs ih =>
    intro n b h
    rw [bound, ih (n + 1) _ fun m hm => h m (by omega)]
    simp [lookup, (h n (Nat.le_refl _)).symm]

theorem values_bound (ts : List Ty) : ∀ (vs : List Val) (n : Nat) (b : List (String × Val)),
    vs.length = ts.length → values (bound n vs b) (rets n ts) = some vs := by
  induction ts with
  | nil =>
    intro vs n b h
    rw [List.length_nil, List.length_eq_zero_iff] at h
    subst h
    rfl
  | cons t ts ih =>
    intro vs n b h
    cases vs with
    | nil => simp at h
    | cons v vs =>
      simp only [List.length_cons, Nat.add_right_cancel_iff] at h
      simp only [bound, rets, values]
      rw [ih vs (n + 1) _ h, lookup_bound]
      · simp [lookup]
      · exact fun m hm he => absurd (retIdent_inj he) (by omega)

theorem deStmts_eq {β : Type} (field : Ty → De Val) (ts : List Ty) : ∀ (n : Nat) (seq : Seq)
    (b : List (String × Val)) (k : List (String × Val) → De β),
    (deStmts field (lets n ts) seq b >>= k) =
      (visitUnwrap (ts.map field) seq >>= fun vs => k (bound n vs b)) := by
  induction ts with
  | nil => intro n seq b k; rfl
  | cons t ts ih =>
    intro n seq b k
    simp only [lets, deStmts, List.map_cons, visitUnwrap, M.bind_assoc']
    congr 1
    funext p
    obtain ⟨o, seq'⟩ := p
    cases o with
    | none => rfl
    | some v =>
      simp only [M.bind_assoc', M.pure_bind', bound]
      exact ih _ _ _ _

theorem visitUnwrap_congr {β : Type} (ds : List (De Val)) : ∀ (seq : Seq)
    (k k' : List Val → De β), (∀ vs, vs.length = ds.length → k vs = k' vs) →
    (visitUnwrap ds seq >>= k) = (visitUnwrap ds seq >>= k') := by
  induction ds with
  | nil => intro seq k k' h; exact h [] rfl
  | cons d ds ih =>
    intro seq k k' h
    simp only [visitUnwrap, M.bind_assoc']
    congr 1
    funext p
    obtain ⟨o, seq'⟩ := p
    cases o with
    | none => rfl
    | some v =>
      simp only [M.bind_assoc', M.pure_bind']
      exact ih _ _ _ fun vs hl => h (v :: vs) (by simp [hl])

theorem findVariant_none {α : Type} {name : String} : ∀ {vars : List (String × α)} {k : Nat},
    findVariant name vars k = none → vars.find? (fun v => decide (v.1 = name)) = none
  | [], _, _ => rfl
  | (n, a) :: vs, k, h => by
    unfold findVariant at h
    split at h
    · cases h
    · rename_i hne
      simp only [List.find?_cons, hne, decide_false]
      exact findVariant_none h

theorem findVariant_some {α : Type} {name : String} {i : Nat} {a : α} :
    ∀ {vars : List (String × α)} {k : Nat}, findVariant name vars k = some (i, a) →
    vars.find? (fun v => decide (v.1 = name)) = some (name, a) ∧ k ≤ i ∧
      vars.findIdx? (fun v => decide (v.1 = name)) = some (i - k)
  | [], _, h => by simp [findVariant] at h
  | (n, a') :: vs, k, h => by
    unfold findVariant at h
    split at h
    · rename_i heq
      simp only [Option.some.injEq, Prod.mk.injEq] at h
      obtain ⟨rfl, rfl⟩ := h
      subst heq
      simp [List.findIdx?_cons]
    · rename_i hne
      obtain ⟨h1, h2, h3⟩ := findVariant_some h
      refine ⟨by simp only [List.find?_cons, hne, decide_false]; exact h1, by omega, ?_⟩
      rw [List.findIdx?_cons]
      simp only [hne, decide_false, h3, Bool.false_eq_true, ↓reduceIte, Option.map_some]
      congr 1
      omega

theorem findIdx_item (vars : List (String × Option (List Ty))) (name : String) :
    (itemOf vars).findIdx? (fun v => decide (v.ident = name)) =
      vars.findIdx? (fun v => decide (v.1 = name)) := by
  induction vars with
  | nil => rfl
  | cons v vars ih =>
    simp only [itemOf, List.map_cons, List.findIdx?_cons] at ih ⊢
    rw [ih]

theorem deMatch_indexer (field : Ty → De Val) (ident : String)
    (vars : List (String × Option (List Ty))) (ser : List SerArm) (name : String) (seq : Seq) :
    deMatch field ⟨ident, itemOf vars⟩ ⟨ser, vars.map indexerArm⟩ name seq [] =
      match findVariant name vars 0 with
      | none => M.panic .unimplemented
      | some (i, none) => pure (.variant i [])
      | some (i, some ts) => visitUnwrap (ts.map field) seq >>= fun vs => pure (.variant i vs) := by
  unfold deMatch
  rw [find_arm indexerArm_key]
  cases h : findVariant name vars 0 with
  | none =>
    rw [findVariant_none h]
    rfl
  | some p =>
    obtain ⟨i, o⟩ := p
    obtain ⟨h1, _, h3⟩ := findVariant_some h
    rw [h1]
    cases o with
    | none =>
      simp only [Option.map_some, indexerArm, findIdx_item, h3, deStmts, M.pure_bind']
      rfl
    | some ts =>
      simp only [Option.map_some, indexerArm, findIdx_item, h3]
      rw [deStmts_eq]
      refine visitUnwrap_congr _ _ _ _ fun vs hl => ?_
      rw [List.length_map] at hl
      simp only [Option.getD_some, values_bound ts vs 0 [] hl, Nat.sub_zero]

theorem deMatch_union (field : Ty → De Val) (ident : String)
    (vars : List (String × Option (List Ty))) (ser : List SerArm) (name : String) (seq : Seq)
    (value : Val) :
    deMatch field ⟨ident, itemOf vars⟩ ⟨ser, vars.map unionArm⟩ name seq [("value", value)] =
      match findVariant name vars 0 with
      | none => M.panic .unimplemented
      | some (i, none) => pure (.variant i [])
      | some (i, some []) => pure (.variant i [])
      | some (i, some (_ :: ts)) =>
        visitUnwrap (ts.map field) seq >>= fun vs => pure (.variant i (value :: vs)) := by
  unfold deMatch
  rw [find_arm unionArm_key]
  cases h : findVariant name vars 0 with
  | none =>
    rw [findVariant_none h]
    rfl
  | some p =>
    obtain ⟨i, o⟩ := p
    obtain ⟨h1, _, h3⟩ := findVariant_some h
    rw [h1]
    cases o with
    | none =>
      simp only [Option.map_some, unionArm, findIdx_item, h3, deStmts, M.pure_bind']
      rfl
    | some ts =>
      cases ts with
      | nil =>
        simp only [Option.map_some, unionArm, findIdx_item, h3, deStmts, M.pure_bind']
        rfl
      | cons t ts =>
        simp only [Option.map_some, unionArm, findIdx_item, h3]
        rw [deStmts_eq]
        refine visitUnwrap_congr _ _ _ _ fun vs hl => ?_
        rw [List.length_map] at hl
        have hv : lookup "value" (bound 1 vs [("value", value)]) = some value := by
          rw [lookup_bound _ _ _ fun m _ => retIdent_ne_value m]
          simp [lookup]
        simp only [Option.getD_some, values, hv, values_bound ts vs 1 _ hl, Nat.sub_zero]

end Xdr.Derive
