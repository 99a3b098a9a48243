import Verif.RpcgenProofs.SizeText
import Verif.RpcgenProofs.SizeTokens
import Verif.RpcgenProofs.Mono
import Verif.RpcgenProofs.Safe
import Verif.RpcgenProofs.Default
/-!
# How long the names and types of the generated source are
-/

namespace Xdr.Rpcgen

/-! ## Names -/

theorem upper_camel_case_length (s : Str) : (upper_camel_case s).length ≤ s.length := by
  have h := congrArg List.length (upper_camel_case_letters s)
  simp only [List.length_map] at h
  rw [h]
  exact List.length_filter_le _ _

theorem flatMap_underscore_length (l : List Str) (h : ∀ p ∈ l, p ≠ []) :
    (l.flatMap with_underscore).length ≤ 2 * l.flatten.length := by
  induction l with
  | nil => simp
  | cons a l ih =>
    have h1 := List.length_pos_iff.2 (h a (by simp))
    have h2 := ih fun p hp => h p (by simp [hp])
    simp only [List.flatMap_cons, List.flatten_cons, List.length_append, with_underscore, lowercase,
      List.length_cons, List.length_map]
    omega

theorem splitBefore_ne (p : Char → Bool) (s : Str) : ∀ q ∈ (splitBefore p s).2, q ≠ [] := by
  induction s with
  | nil => simp [splitBefore]
  | cons c cs ih =>
    unfold splitBefore
    rcases h : splitBefore p cs with ⟨a, b⟩
    rw [h] at ih
    simp only at ih ⊢
    split
    · simpa using ih
    · exact ih

theorem snake_case_length (s : Str) : (snake_case s).length ≤ 2 * s.length := by
  have hl := congrArg List.length (snakeCapitalized_lower s)
  simp only [List.length_map] at hl
  have ha := splitBefore_append isUpper (snakeCapitalized s)
  have hn := splitBefore_ne isUpper (snakeCapitalized s)
  have key : ∀ (h : Str) (ps : List Str), h ++ ps.flatten = snakeCapitalized s → (∀ q ∈ ps, q ≠ []) →
      (lowercase h ++ ps.flatMap with_underscore).length ≤ 2 * s.length := by
    intro h ps he hq
    have h1 := congrArg List.length he
    have h2 := flatMap_underscore_length ps hq
    simp only [List.length_append, lowercase, List.length_map] at h1 ⊢
    omega
  unfold snake_case
  revert ha hn
  rcases splitBefore isUpper (snakeCapitalized s) with ⟨h, t⟩
  intro ha hn
  simp only at ha hn ⊢
  split
  · exact key _ _ (by simpa using ha) fun q hq => hn q (by simp [hq])
  · exact key _ _ ha hn

theorem mkIdent_text {s : Str} {i : RIdent} (h : mkIdent s = .ok i) : i.text = s := by
  rcases mkIdent_ok h with ⟨h1, h2⟩ | ⟨h1, h2⟩
  · simp [RIdent.text, h1, h2]
  · simp [RIdent.text, h1, h2]

theorem camel_length {s : Str} {i : RIdent} (h : upper_camel_case_ident s = .ok i) : i.text.length ≤ s.length := by
  rw [mkIdent_text h]
  exact upper_camel_case_length s

theorem field_length {s : Str} {i : RIdent} (h : fieldIdent s = .ok i) : i.text.length ≤ 2 * s.length + 4 := by
  unfold fieldIdent at h
  rw [mkIdent_text h]
  refine Nat.le_trans (snake_case_length _) ?_
  split
  · simp only [List.length_append, List.length_cons, List.length_nil]
    omega
  · omega

/-! ## Values -/

theorem small_of_value {t : IntTy} {c : Constant} {k : Int} (h : c.value t = .ok k) : Small k := by
  have := constant_value_range h
  cases t <;> exact Small.of_range (by simp only [IntTy.min, IntTy.max] at this; omega)
    (by simp only [IntTy.min, IntTy.max] at this; omega)

theorem value_fits {t : IntTy} {v : Value} {b : Bool} {tok : Tok} {n : Nat}
    (h : convert_value_token t v b = .ok tok) (hn : atomsSize v.atoms ≤ n) : tok.Fits n := by
  cases v with
  | constant c =>
    simp only [convert_value_token, GR.bind_eq_ok, GR.ok.injEq] at h
    obtain ⟨k, hk, rfl⟩ := h
    exact small_of_value hk
  | identifier s =>
    simp only [convert_value_token, GR.bind_eq_ok, GR.ok.injEq] at h
    obtain ⟨i, hi, rfl⟩ := h
    simp only [Value.atoms, atomsSize, Atom.size] at hn
    show i.text.length ≤ n
    split at hi
    · have := camel_length hi
      omega
    · rw [mkIdent_text hi]
      omega

/-! ## Types -/

/-- The weight of a type. -/
abbrev RTy.weight (t : RTy) : Nat := weights t.tokens

theorem primitive_weight {ct : Declaration → GR (Option (RTy × OpaqueType))} {cxt : Context} {ts : TypeSpecifier}
    {r : RTy × OpaqueType} (h : convert_primitive_token ct cxt ts = .ok r) :
    r.1.weight ≤ atomsSize ts.atoms + 10 ∨
      ∃ name e, (name, .declaration e) ∈ cxt.typedefs ∧ ct e = .ok (some r) := by
  have hpath : ∀ {s : Str} {i : RIdent}, upper_camel_case_ident s = .ok i →
      (RTy.path i).weight ≤ atomsSize (TypeSpecifier.atoms (.identifier s)) + 10 := by
    intro s i hi
    have := camel_length hi
    simp only [RTy.weight, RTy.tokens, TypeSpecifier.atoms, atomsSize, Atom.size]
    weigh []
    omega
  cases ts <;> simp only [convert_primitive_token] at h
  case identifier id =>
    unfold resolve_type_token at h
    split at h
    · simp only [GR.bind_eq_ok] at h
      obtain ⟨i, hi, h⟩ := h
      cases h
      exact .inl (hpath hi)
    · split at h
      · rename_i nm declaration hfind
        simp only [GR.bind_eq_ok] at h
        obtain ⟨o, ho, h⟩ := h
        cases o with
        | none => cases h
        | some p =>
          cases h
          exact .inr ⟨nm, declaration, List.mem_of_find?_eq_some hfind, ho⟩
      · simp only [GR.bind_eq_ok] at h
        obtain ⟨i, hi, h⟩ := h
        cases h
        exact .inl (hpath hi)
  all_goals first
    | (cases h; done)
    | (cases h; left; simp only [RTy.weight]; (repeat' split) <;> simp only [RTy.tokens] <;> weigh [] <;> omega)

/-- One level of a declaration: what it adds to the type of the typedef it names. -/
theorem convertTypeWith_weight {ct : Declaration → GR (Option (RTy × OpaqueType))} {cxt : Context} {d : Declaration}
    {r : RTy × OpaqueType} (h : convertTypeWith ct cxt d = .ok (some r)) :
    r.1.weight ≤ atomsSize d.atoms + 80 ∨
      ∃ name e r', (name, .declaration e) ∈ cxt.typedefs ∧ ct e = .ok (some r') ∧
        r.1.weight ≤ atomsSize d.atoms + 80 + r'.1.weight := by
  cases d <;> simp only [convertTypeWith] at h
  · simp only [GR.bind_eq_ok] at h
    obtain ⟨p, h1, h⟩ := h
    cases h
    simp only [Declaration.atoms, atomsSize]
    rcases primitive_weight h1 with h2 | ⟨nm, e, h2, h3⟩
    · left; omega
    · exact .inr ⟨nm, e, _, h2, h3, by omega⟩
  · simp only [GR.bind_eq_ok] at h
    obtain ⟨⟨ty, o⟩, h1, len, h2, h⟩ := h
    cases h
    have h4 := (value_fits h2 (Nat.le_refl _)).weights
    simp only [Declaration.atoms, atomsSize, atomsSize_append, RTy.weight, RTy.tokens]
    rcases primitive_weight h1 with h3 | ⟨nm, e, h3, h5⟩
    · left
      simp only [RTy.weight] at h3
      weigh [Bool.false_eq_true, if_false]
      omega
    · refine .inr ⟨nm, e, _, h3, h5, ?_⟩
      weigh [Bool.false_eq_true, if_false]
      omega
  · simp only [GR.bind_eq_ok] at h
    obtain ⟨⟨ty, o⟩, h1, h⟩ := h
    dsimp only at h
    split at h
    · cases h
      left
      simp only [RTy.weight, RTy.tokens]
      weigh []
      omega
    · cases h
      simp only [Declaration.atoms, atomsSize, atomsSize_append, RTy.weight, RTy.tokens]
      rcases primitive_weight h1 with h3 | ⟨nm, e, h3, h5⟩
      · left
        simp only [RTy.weight] at h3
        weigh []
        omega
      · refine .inr ⟨nm, e, _, h3, h5, ?_⟩
        weigh []
        omega
  · simp only [GR.bind_eq_ok] at h
    obtain ⟨len, h2, h⟩ := h
    cases h
    have h4 := (value_fits h2 (Nat.le_refl _)).weights
    left
    simp only [Declaration.atoms, atomsSize, RTy.weight, RTy.tokens, if_true]
    weigh []
    omega
  · cases h
    left
    simp only [RTy.weight, RTy.tokens]
    weigh []
    omega
  · cases h
    left
    simp only [RTy.weight, RTy.tokens]
    weigh []
    omega
  · simp only [GR.bind_eq_ok] at h
    obtain ⟨⟨ty, o⟩, h1, h⟩ := h
    cases h
    simp only [Declaration.atoms, atomsSize, RTy.weight, RTy.tokens]
    rcases primitive_weight h1 with h3 | ⟨nm, e, h3, h5⟩
    · left
      simp only [RTy.weight] at h3
      weigh []
      omega
    · refine .inr ⟨nm, e, _, h3, h5, ?_⟩
      weigh []
      omega
  · cases h

/-- What a definition counts in a chain of typedefs, if it belongs to it. -/
def levelSize (p : Declaration → Bool) : TypeDef → Nat
  | .declaration e => if p e then atomsSize e.atoms + 80 else 0
  | _ => 0

/-- Of all definitions. -/
def chainSize (p : Declaration → Bool) : List (Str × TypeDef) → Nat
  | [] => 0
  | d :: ds => levelSize p d.2 + chainSize p ds

theorem levelSize_le {p q : Declaration → Bool} (h : ∀ e, p e = true → q e = true) (d : TypeDef) :
    levelSize p d ≤ levelSize q d := by
  cases d <;> simp only [levelSize] <;> try omega
  rename_i e
  have := h e
  split <;> rename_i hp
  · rw [this hp]; simp
  · omega

theorem chainSize_le {p q : Declaration → Bool} (h : ∀ e, p e = true → q e = true) (l : List (Str × TypeDef)) :
    chainSize p l ≤ chainSize q l := by
  induction l with
  | nil => exact Nat.le_refl _
  | cons d l ih =>
    have := levelSize_le h d.2
    simp only [chainSize]
    omega

theorem chainSize_lt {p q : Declaration → Bool} (h : ∀ e, p e = true → q e = true) {l : List (Str × TypeDef)}
    {nm : Str} {e : Declaration} (hm : (nm, .declaration e) ∈ l) (hp : p e = false) (hq : q e = true) :
    atomsSize e.atoms + 80 + chainSize p l ≤ chainSize q l := by
  induction l with
  | nil => cases hm
  | cons d l ih =>
    simp only [chainSize]
    rcases List.mem_cons.1 hm with rfl | hm
    · have := chainSize_le h l
      simp only [levelSize, hp, hq, if_true, Bool.false_eq_true, if_false]
      omega
    · have := ih hm
      have := levelSize_le h d.2
      omega

/-- The bound suffices to expand the declaration. -/
def expandsAt (cxt : Context) (k : Nat) (d : Declaration) : Bool :=
  match convert_type_token cxt k d with
  | .ok _ => true
  | _ => false

theorem expandsAt_mono {cxt : Context} {j k : Nat} (h : j ≤ k) (e : Declaration) :
    expandsAt cxt j e = true → expandsAt cxt k e = true := by
  unfold expandsAt
  intro he
  rcases convert_type_le cxt h e with h1 | h1
  · rw [h1] at he; cases he
  · rw [← h1]; exact he

theorem least {p : Nat → Bool} (k : Nat) (h : p k = true) : ∃ j, p j = true ∧ ∀ i, i < j → p i = false := by
  induction k using Nat.strongRecOn with
  | ind k ih =>
    by_cases hk : ∃ i, i < k ∧ p i = true
    · obtain ⟨i, hi, hp⟩ := hk
      exact ih i hi hp
    · refine ⟨k, h, fun i hi => ?_⟩
      cases hp : p i with
      | false => rfl
      | true => exact absurd ⟨i, hi, hp⟩ hk

/-- A type is no longer than the declarations of the typedefs it comes from, each of which counts once. -/
theorem convert_type_weight {cxt : Context} (k : Nat) : ∀ {d : Declaration} {r : RTy × OpaqueType},
    convert_type_token cxt k d = .ok (some r) →
    r.1.weight ≤ atomsSize d.atoms + 80 + chainSize (expandsAt cxt (k - 1)) cxt.typedefs := by
  induction k using Nat.strongRecOn with
  | ind k ih =>
    intro d r h
    cases k with
    | zero => cases h
    | succ k =>
      rw [convert_type_token] at h
      rcases convertTypeWith_weight h with h1 | ⟨nm, e, r', h1, h2, h3⟩
      · omega
      · -- the least bound that suffices for the typedef
        obtain ⟨j, hj, hmin⟩ := least (p := fun j => expandsAt cxt j e) k (by unfold expandsAt; rw [h2])
        have hjk : j ≤ k := by
          refine Nat.le_of_not_lt fun hlt => ?_
          have := hmin k hlt
          unfold expandsAt at this
          rw [h2] at this
          cases this
        have hj0 : j ≠ 0 := by
          rintro rfl
          unfold expandsAt at hj
          rw [convert_type_token] at hj
          cases hj
        have h2' : convert_type_token cxt j e = .ok (some r') := by
          rcases convert_type_le cxt hjk e with h4 | h4
          · unfold expandsAt at hj
            rw [h4] at hj
            cases hj
          · rw [h4, h2]
        have h5 := ih j (by omega) h2'
        have h6 := chainSize_lt (p := expandsAt cxt (j - 1)) (q := expandsAt cxt k)
          (fun e => expandsAt_mono (by omega) e) h1 (hmin _ (by omega)) (expandsAt_mono hjk e hj)
        simp only [Nat.add_sub_cancel]
        omega

/-- A bound for all types of a file. -/
theorem type_weight {cxt : Context} {k : Nat} {d : Declaration} {r : RTy × OpaqueType}
    (h : convert_type_token cxt k d = .ok (some r)) :
    r.1.weight ≤ atomsSize d.atoms + 80 + chainSize (fun _ => true) cxt.typedefs := by
  have h1 := convert_type_weight k h
  have h2 := chainSize_le (p := expandsAt cxt (k - 1)) (q := fun _ => true) (fun _ _ => rfl) cxt.typedefs
  omega

theorem primitive_weight' {cxt : Context} {k : Nat} {ts : TypeSpecifier} {r : RTy × OpaqueType}
    (h : convert_primitive_token (convert_type_token cxt k) cxt ts = .ok r) :
    r.1.weight ≤ atomsSize ts.atoms + 80 + chainSize (fun _ => true) cxt.typedefs := by
  have h1 : convert_type_token cxt (k + 1) (.variable ts []) = .ok (some r) := by
    rw [convert_type_token]
    simp only [convertTypeWith, h, GR.bind]
  have h2 := type_weight h1
  simpa [Declaration.atoms, atomsSize, Atom.size] using h2

end Xdr.Rpcgen
