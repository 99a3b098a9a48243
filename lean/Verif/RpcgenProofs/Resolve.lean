import Verif.Rpcgen.Gen
import Verif.Spec.Resolve
import Verif.RpcgenProofs.Number
import Mathlib.Data.List.Perm.Subperm
/-!
# Lemmas on resolving names
-/

namespace Xdr.Rpcgen

theorem constants_find (ds : List Definition) (cfg : Config) (name : Str) :
    ((setup_context ds cfg).constants.find? fun c => c.1 == name).map (·.2) = constOf ds name := by
  simp only [setup_context, constOf]
  induction ds with
  | nil => rfl
  | cons d ds ih =>
    cases d with
    | constant a =>
      simp only [List.filterMap_cons, List.find?_cons, List.findSome?_cons]
      by_cases h : a.identifier = name
      · simp [h]
      · simp only [h, if_false, beq_iff_eq, ih]
        have : (a.identifier == name) = false := by simpa using h
        simp only [this, ih]
    | type t => cases t <;> simpa [List.filterMap_cons, List.findSome?_cons] using ih
    | lineComment => simpa [List.filterMap_cons, List.findSome?_cons] using ih
    | program p => simpa [List.filterMap_cons, List.findSome?_cons] using ih

theorem members_find (ds : List Definition) (cfg : Config) (name : Str) :
    ((setup_context ds cfg).typedefs.findSome? fun d => enumMember name d.2) = memberOf ds name := by
  simp only [setup_context, memberOf]
  induction ds with
  | nil => rfl
  | cons d ds ih =>
    cases d with
    | type t =>
      cases t with
      | declaration d =>
        cases hd : d.name with
        | none => simpa [List.filterMap_cons, List.findSome?_cons, hd] using ih
        | some x => simpa [List.filterMap_cons, List.findSome?_cons, hd, enumMember] using ih
      | enum e members =>
        simp only [List.filterMap_cons, List.findSome?_cons, ih]
        unfold enumMember
        have : (fun a : Assign => a.identifier == name) = fun a => decide (a.identifier = name) := by
          funext a
          by_cases h : a.identifier = name <;> simp [h]
        rw [this]
      | struct s b => simpa [List.filterMap_cons, List.findSome?_cons, enumMember] using ih
      | union s b => simpa [List.filterMap_cons, List.findSome?_cons, enumMember] using ih
    | constant a => simpa [List.filterMap_cons, List.findSome?_cons] using ih
    | lineComment => simpa [List.filterMap_cons, List.findSome?_cons] using ih
    | program p => simpa [List.filterMap_cons, List.findSome?_cons] using ih

variable {ds : List Definition} {cfg : Config} {t : IntTy}

/-- One step of `resolve_name`, in terms of the definitions. -/
theorem resolve_name_succ (n : Nat) (name : Str) :
    (setup_context ds cfg).resolve_name t (n + 1) name =
      GR.orElse
        (resolveFound ((setup_context ds cfg).resolve_name t n) t name (constOf ds name))
        (resolveFound ((setup_context ds cfg).resolve_name t n) t name (memberOf ds name)) := by
  rw [Context.resolve_name, members_find, constants_find]

theorem resolve_value_name (n : Nat) (name : Str) :
    (setup_context ds cfg).resolve_value t n (.identifier name) =
      (setup_context ds cfg).resolve_name t n name := rfl

theorem resolve_value_lit (n : Nat) (c : Constant) :
    (setup_context ds cfg).resolve_value t n (.constant c) = c.value t := rfl

theorem value_ne_depth (c : Constant) (t : IntTy) : c.value t ≠ .depth := by
  unfold Constant.value GR.okOr
  split <;> simp

theorem value_ne_panic (c : Constant) (t : IntTy) (p : GenPanic) : c.value t ≠ .panic p := by
  unfold Constant.value GR.okOr
  split <;> simp

theorem GR.orElse_ne {α : Type} {a b r : GR α} (ha : a ≠ r) (hb : b ≠ r) : GR.orElse a b ≠ r := by
  unfold GR.orElse
  split
  · exact hb
  · exact ha

/-- Resolving never panics. -/
theorem resolve_name_no_panic {cxt : Context} (n : Nat) (name : Str) (p : GenPanic) :
    cxt.resolve_name t n name ≠ .panic p := by
  induction n generalizing name with
  | zero => simp [Context.resolve_name]
  | succ n ih =>
    have hv : ∀ o, resolveFound (cxt.resolve_name t n) t name o ≠ .panic p := by
      intro o
      cases o with
      | none => simp [resolveFound]
      | some v =>
        cases v with
        | constant c => exact value_ne_panic c t p
        | identifier m => exact ih m
    exact GR.orElse_ne (hv _) (hv _)

/-- A larger bound does not change a result. -/
theorem resolve_name_mono {cxt : Context} (n : Nat) (name : Str)
    (h : cxt.resolve_name t n name ≠ .depth) :
    cxt.resolve_name t (n + 1) name = cxt.resolve_name t n name := by
  induction n generalizing name with
  | zero => exact absurd rfl h
  | succ n ih =>
    have hv : ∀ o, resolveFound (cxt.resolve_name t n) t name o ≠ .depth →
        resolveFound (cxt.resolve_name t (n + 1)) t name o
          = resolveFound (cxt.resolve_name t n) t name o := by
      intro o hv
      cases o with
      | none => rfl
      | some v =>
        cases v with
        | constant c => rfl
        | identifier m => exact ih m hv
    rw [Context.resolve_name] at h ⊢
    rw [Context.resolve_name]
    generalize (cxt.constants.find? fun c => c.1 == name).map (·.2) = oc at h ⊢
    generalize (cxt.typedefs.findSome? fun d => enumMember name d.2) = om at h ⊢
    rcases hc : resolveFound (cxt.resolve_name t n) t name oc with a | e | p | _
    · rw [hv _ (by rw [hc]; simp), hc]; rfl
    · rw [hc] at h
      rw [hv _ (by rw [hc]; simp), hc]
      exact hv om h
    · rw [hv _ (by rw [hc]; simp), hc]; rfl
    · rw [hc] at h; exact absurd rfl h

theorem resolve_value_mono {cxt : Context} {n : Nat} {v : Value}
    (h : cxt.resolve_value t n v ≠ .depth) {m : Nat} (hm : n ≤ m) :
    cxt.resolve_value t m v = cxt.resolve_value t n v := by
  induction hm with
  | refl => rfl
  | step _ ih =>
    cases v with
    | constant c => rfl
    | identifier name =>
      rw [← ih]
      exact resolve_name_mono _ _ (by rw [← ih] at h; exact h)

/-- Everything that stands for a literal the type holds resolves to its number. -/
theorem resolve_denotes {v : Value} {c : Constant} (h : Denotes ds v c)
    (hw : c.value t = .ok c.number) :
    ∃ n, (setup_context ds cfg).resolve_value t n v = .ok c.number := by
  induction h with
  | literal c => exact ⟨0, hw⟩
  | name hl _ ih =>
    obtain ⟨n, hn⟩ := ih hw
    refine ⟨n + 1, ?_⟩
    rw [resolve_value_name, resolve_name_succ]
    unfold lookup at hl
    cases hc : constOf ds _ with
    | some v' =>
      rw [hc] at hl
      simp only [Option.some_or, Option.some.injEq] at hl
      subst hl
      unfold resolveFound
      unfold Context.resolve_value at hn
      simp only [hn]
      rfl
    | none =>
      rw [hc] at hl
      simp only [Option.none_or] at hl
      rw [hl]
      exact hn

/-- An error at the end of the chain is an error, if there is no second definition to fall back on. -/
theorem resolve_error_step (hnc : NoClash ds) {name : Str} {v : Value} (hl : lookup ds name = some v)
    {n : Nat} {e : GenError} (h : (setup_context ds cfg).resolve_value t n v = .err e) :
    ∃ e, (setup_context ds cfg).resolve_name t (n + 1) name = .err e := by
  rw [resolve_name_succ]
  unfold lookup at hl
  unfold Context.resolve_value at h
  rcases hnc name with hc | hc
  · rw [hc] at hl ⊢
    simp only [Option.none_or] at hl
    simp only [hl, resolveFound, h]
    exact ⟨_, rfl⟩
  · rw [hc] at hl ⊢
    simp only [Option.or_none] at hl
    simp only [hl, resolveFound, h]
    exact ⟨_, rfl⟩

/-! ## Acyclic definitions -/

theorem mem_definedNames_const {name : Str} {v : Value} (h : constOf ds name = some v) :
    name ∈ definedNames ds := by
  obtain ⟨d, hd, hv⟩ := List.exists_of_findSome?_eq_some h
  cases d with
  | constant a =>
    by_cases ha : a.identifier = name
    · exact List.mem_flatMap.2 ⟨_, hd, by simp [ha]⟩
    · simp [ha] at hv
  | type t => simp at hv
  | lineComment => simp at hv
  | program p => simp at hv

theorem mem_definedNames_member {name : Str} {v : Value} (h : memberOf ds name = some v) :
    name ∈ definedNames ds := by
  obtain ⟨d, hd, hv⟩ := List.exists_of_findSome?_eq_some h
  cases d with
  | type t =>
    cases t with
    | enum e members =>
      simp only [Option.map_eq_some_iff] at hv
      obtain ⟨a, ha, -⟩ := hv
      have h1 := List.mem_of_find?_eq_some ha
      have h2 := List.find?_some ha
      simp only [decide_eq_true_eq] at h2
      exact List.mem_flatMap.2 ⟨_, hd, List.mem_map.2 ⟨a, h1, h2⟩⟩
    | declaration d => simp at hv
    | struct s b => simp at hv
    | union s b => simp at hv
  | constant t => simp at hv
  | lineComment => simp at hv
  | program p => simp at hv

/-- Without cycles, as many steps as there are names suffice. `path` are the names passed so far. -/
theorem resolve_name_acyclic (hac : Acyclic ds) (n : Nat) (name : Str) (path : List Str)
    (hnd : path.Nodup) (hsub : path ⊆ definedNames ds) (hr : ∀ a ∈ path, Reaches ds a name)
    (hn : (definedNames ds).length < n + path.length) :
    (setup_context ds cfg).resolve_name t n name ≠ .depth := by
  induction n generalizing name path with
  | zero =>
    have := (List.subperm_of_subset hnd hsub).length_le
    omega
  | succ n ih =>
    have hnew : name ∉ path := fun h => hac name (hr name h)
    have key : ∀ o, (∀ v, o = some v → constOf ds name = some v ∨ memberOf ds name = some v) →
        resolveFound ((setup_context ds cfg).resolve_name t n) t name o ≠ .depth := by
      intro o ho
      cases o with
      | none => simp [resolveFound]
      | some v =>
        have hv := ho v rfl
        cases v with
        | constant c => exact value_ne_depth c t
        | identifier m =>
          refine ih m (name :: path) (List.nodup_cons.2 ⟨hnew, hnd⟩) ?_ ?_ ?_
          · refine List.cons_subset.2 ⟨?_, hsub⟩
            rcases hv with hv | hv
            · exact mem_definedNames_const hv
            · exact mem_definedNames_member hv
          · intro a ha
            rcases List.mem_cons.1 ha with rfl | ha
            · exact .step hv
            · exact .more (hr a ha) hv
          · simp only [List.length_cons]
            omega
    rw [resolve_name_succ]
    exact GR.orElse_ne (key _ fun v h => .inl h) (key _ fun v h => .inr h)

theorem resolve_value_acyclic (hac : Acyclic ds) (n : Nat) (v : Value)
    (hn : (definedNames ds).length < n) :
    (setup_context ds cfg).resolve_value t n v ≠ .depth := by
  cases v with
  | constant c =>
    exact value_ne_depth c t
  | identifier m =>
    exact resolve_name_acyclic hac n m [] List.nodup_nil (List.nil_subset _) (by simp) (by simpa using hn)

/-- An endless chain of names uses up every bound. -/
theorem resolve_endless (f : Nat → Str) (hf : ∀ i, lookup ds (f i) = some (.identifier (f (i + 1))))
    (n i : Nat) : (setup_context ds cfg).resolve_name t n (f i) = .depth := by
  induction n generalizing i with
  | zero => rfl
  | succ n ih =>
    rw [resolve_name_succ]
    have hl := hf i
    unfold lookup at hl
    cases hc : constOf ds (f i) with
    | some v =>
      rw [hc] at hl
      simp only [Option.some_or, Option.some.injEq] at hl
      subst hl
      simp only [resolveFound, resolveValueWith, ih]
      rfl
    | none =>
      rw [hc] at hl
      simp only [Option.none_or] at hl
      simp only [hl, resolveFound, resolveValueWith, ih]
      rfl

end Xdr.Rpcgen
