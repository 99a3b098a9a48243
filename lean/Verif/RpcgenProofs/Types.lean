import Verif.Spec.RustTypes
import Verif.RpcgenProofs.EndToEnd
/-!
# `convert_type_token` and the table of types
-/

namespace Xdr.Rpcgen

variable {ds : List Definition} {cfg : Config}

/-- What a type name becomes. -/
theorem resolve_type_eq (ct : Declaration → GR (Option (RTy × OpaqueType))) (name : Str) :
    (cfg.remove_typedef = true → ∀ d, typeOf ds name = some (.declaration d) →
      resolve_type_token ct (setup_context ds cfg) name = (ct d).bind fun o => GR.okOr o .notSupported) ∧
    ((cfg.remove_typedef = true → ∀ d, typeOf ds name ≠ some (.declaration d)) →
      resolve_type_token ct (setup_context ds cfg) name =
        (upper_camel_case_ident name).bind fun i => .ok (.path i, .none)) := by
  have hcfg : (setup_context ds cfg).config = cfg := rfl
  unfold resolve_type_token
  rw [hcfg, typedefs_find]
  constructor
  · intro h d hd
    simp [h, hd]
  · intro h
    cases hr : cfg.remove_typedef with
    | false => simp
    | true =>
      have h' := h hr
      cases ht : typeOf ds name with
      | none => simp
      | some t =>
        cases t with
        | declaration d => exact absurd ht (h' d)
        | _ => simp

theorem lenTok_iff {v : Value} {len : Tok} : convert_value_token .usize v false = .ok len ↔ LenTok v len := by
  constructor
  · intro h
    cases v with
    | constant c =>
      simp only [convert_value_token, GR.bind_eq_ok, GR.ok.injEq] at h
      obtain ⟨k, hk, rfl⟩ := h
      exact .literal hk
    | identifier i =>
      simp only [convert_value_token, GR.bind_eq_ok, GR.ok.injEq, Bool.false_eq_true, if_false] at h
      obtain ⟨id, hid, rfl⟩ := h
      exact .name hid
  · rintro (h | h) <;> simp [convert_value_token, h, GR.bind]

/-- A type specifier, given the typedefs. -/
theorem spec_sound {ct : Declaration → GR (Option (RTy × OpaqueType))}
    (ih : ∀ {d ty op}, ct d = .ok (some (ty, op)) → DeclType ds cfg.remove_typedef d ty op)
    {ts : TypeSpecifier} {ty : RTy} {op : OpaqueType}
    (h : convert_primitive_token ct (setup_context ds cfg) ts = .ok (ty, op)) :
    SpecType ds cfg.remove_typedef ts ty op := by
  cases ts with
  | identifier name =>
    simp only [convert_primitive_token] at h
    by_cases hd : cfg.remove_typedef = true ∧ ∃ d, typeOf ds name = some (.declaration d)
    · obtain ⟨hr, d, hd⟩ := hd
      rw [(resolve_type_eq ct name).1 hr d hd, GR.bind_eq_ok] at h
      obtain ⟨o, ho, h⟩ := h
      cases o with
      | none => cases h
      | some p =>
        simp only [GR.okOr, GR.ok.injEq] at h
        subst h
        exact .typedef hr hd (ih ho)
    · have hd' : cfg.remove_typedef = true → ∀ d, typeOf ds name ≠ some (.declaration d) :=
        fun hr d he => hd ⟨hr, d, he⟩
      rw [(resolve_type_eq ct name).2 hd', GR.bind_eq_ok] at h
      obtain ⟨id, hid, h⟩ := h
      simp only [GR.ok.injEq, Prod.mk.injEq] at h
      obtain ⟨rfl, rfl⟩ := h
      exact .name hd' hid
  | int s =>
    cases s <;> simp only [convert_primitive_token, GR.ok.injEq, Prod.mk.injEq, Bool.false_eq_true, if_true, if_false] at h <;>
      obtain ⟨rfl, rfl⟩ := h <;> constructor
  | hyper s =>
    cases s <;> simp only [convert_primitive_token, GR.ok.injEq, Prod.mk.injEq, Bool.false_eq_true, if_true, if_false] at h <;>
      obtain ⟨rfl, rfl⟩ := h <;> constructor
  | char s =>
    cases s <;> simp only [convert_primitive_token, GR.ok.injEq, Prod.mk.injEq, Bool.false_eq_true, if_true, if_false] at h <;>
      obtain ⟨rfl, rfl⟩ := h <;> constructor
  | short s =>
    cases s <;> simp only [convert_primitive_token, GR.ok.injEq, Prod.mk.injEq, Bool.false_eq_true, if_true, if_false] at h <;>
      obtain ⟨rfl, rfl⟩ := h <;> constructor
  | float =>
    simp only [convert_primitive_token, GR.ok.injEq, Prod.mk.injEq] at h
    obtain ⟨rfl, rfl⟩ := h
    constructor
  | double =>
    simp only [convert_primitive_token, GR.ok.injEq, Prod.mk.injEq] at h
    obtain ⟨rfl, rfl⟩ := h
    constructor
  | bool =>
    simp only [convert_primitive_token, GR.ok.injEq, Prod.mk.injEq] at h
    obtain ⟨rfl, rfl⟩ := h
    constructor
  | _ => simp [convert_primitive_token] at h

/-- What the generator writes is in the table. -/
theorem decl_sound {n : Nat} {d : Declaration} {ty : RTy} {op : OpaqueType}
    (h : convert_type_token (setup_context ds cfg) n d = .ok (some (ty, op))) :
    DeclType ds cfg.remove_typedef d ty op := by
  induction n generalizing d ty op with
  | zero => cases h
  | succ n ih =>
    simp only [convert_type_token] at h
    have prim : ∀ {ts ty op}, convert_primitive_token (convert_type_token (setup_context ds cfg) n)
        (setup_context ds cfg) ts = .ok (ty, op) → SpecType ds cfg.remove_typedef ts ty op :=
      fun h => spec_sound (fun h => ih h) h
    cases d with
    | «variable» ts nm =>
      simp only [convertTypeWith, GR.bind_eq_ok, GR.ok.injEq, Option.some.injEq] at h
      obtain ⟨p, hp, rfl⟩ := h
      exact .variable (prim hp)
    | fixedArray ts nm v =>
      simp only [convertTypeWith, GR.bind_eq_ok, GR.ok.injEq, Option.some.injEq, Prod.mk.injEq] at h
      obtain ⟨⟨ty', op'⟩, hp, len, hl, rfl, rfl⟩ := h
      exact .fixedArray (prim hp) (lenTok_iff.1 hl)
    | variableArray ts nm m =>
      simp only [convertTypeWith, GR.bind_eq_ok] at h
      obtain ⟨⟨ty', op'⟩, hp, he⟩ := h
      simp only at he
      split at he
      · next ho =>
        simp only [GR.ok.injEq, Option.some.injEq, Prod.mk.injEq] at he
        obtain ⟨rfl, rfl⟩ := he
        subst ho
        exact .opaqueArray (prim hp)
      · next ho =>
        simp only [GR.ok.injEq, Option.some.injEq, Prod.mk.injEq] at he
        obtain ⟨rfl, rfl⟩ := he
        exact .variableArray (prim hp) ho
    | optionVariable ts nm =>
      simp only [convertTypeWith, GR.bind_eq_ok, GR.ok.injEq, Option.some.injEq, Prod.mk.injEq] at h
      obtain ⟨⟨ty', op'⟩, hp, rfl, rfl⟩ := h
      exact .option (prim hp)
    | opaqueFixedArray nm v =>
      simp only [convertTypeWith, GR.bind_eq_ok, GR.ok.injEq, Option.some.injEq, Prod.mk.injEq] at h
      obtain ⟨len, hl, rfl, rfl⟩ := h
      exact .opaqueFixed (lenTok_iff.1 hl)
    | opaqueVariableArray nm m =>
      simp only [convertTypeWith, GR.ok.injEq, Option.some.injEq, Prod.mk.injEq] at h
      obtain ⟨rfl, rfl⟩ := h
      exact .opaqueVar
    | string nm m =>
      simp only [convertTypeWith, GR.ok.injEq, Option.some.injEq, Prod.mk.injEq] at h
      obtain ⟨rfl, rfl⟩ := h
      exact .string
    | void => simp [convertTypeWith] at h

mutual
/-- What is in the table is what the generator writes, if the stack is deep enough. -/
theorem SpecType.convert : ∀ {ts ty op}, SpecType ds cfg.remove_typedef ts ty op → ∃ m : Nat, ∀ n, m ≤ n →
    convert_primitive_token (convert_type_token (setup_context ds cfg) n) (setup_context ds cfg) ts =
      .ok (ty, op)
  | _, _, _, .int => ⟨0, fun _ _ => rfl⟩
  | _, _, _, .uint => ⟨0, fun _ _ => rfl⟩
  | _, _, _, .hyper => ⟨0, fun _ _ => rfl⟩
  | _, _, _, .uhyper => ⟨0, fun _ _ => rfl⟩
  | _, _, _, .float => ⟨0, fun _ _ => rfl⟩
  | _, _, _, .double => ⟨0, fun _ _ => rfl⟩
  | _, _, _, .bool => ⟨0, fun _ _ => rfl⟩
  | _, _, _, .char => ⟨0, fun _ _ => rfl⟩
  | _, _, _, .uchar => ⟨0, fun _ _ => rfl⟩
  | _, _, _, .short => ⟨0, fun _ _ => rfl⟩
  | _, _, _, .ushort => ⟨0, fun _ _ => rfl⟩
  | _, _, _, .typedef hr hd h => by
    obtain ⟨m, hm⟩ := DeclType.convert h
    refine ⟨m, fun n hn => ?_⟩
    simp only [convert_primitive_token, (resolve_type_eq _ _).1 hr _ hd, hm n hn, GR.bind, GR.okOr]
  | _, _, _, .name hd hid => ⟨0, fun n _ => by
    simp only [convert_primitive_token, (resolve_type_eq _ _).2 hd, hid, GR.bind]⟩

theorem DeclType.convert : ∀ {d ty op}, DeclType ds cfg.remove_typedef d ty op → ∃ m : Nat, ∀ n, m ≤ n →
    convert_type_token (setup_context ds cfg) n d = .ok (some (ty, op))
  | _, _, _, .variable h => by
    obtain ⟨m, hm⟩ := SpecType.convert h
    refine ⟨m + 1, fun n hn => ?_⟩
    obtain ⟨n, rfl⟩ : ∃ k, n = k + 1 := ⟨n - 1, by omega⟩
    simp only [convert_type_token, convertTypeWith, hm n (by omega), GR.bind]
  | _, _, _, .fixedArray h hl => by
    obtain ⟨m, hm⟩ := SpecType.convert h
    refine ⟨m + 1, fun n hn => ?_⟩
    obtain ⟨n, rfl⟩ : ∃ k, n = k + 1 := ⟨n - 1, by omega⟩
    simp only [convert_type_token, convertTypeWith, hm n (by omega), lenTok_iff.2 hl, GR.bind]
  | _, _, _, .variableArray h ho => by
    obtain ⟨m, hm⟩ := SpecType.convert h
    refine ⟨m + 1, fun n hn => ?_⟩
    obtain ⟨n, rfl⟩ : ∃ k, n = k + 1 := ⟨n - 1, by omega⟩
    simp only [convert_type_token, convertTypeWith, hm n (by omega), GR.bind, if_neg ho]
  | _, _, _, .opaqueArray h => by
    obtain ⟨m, hm⟩ := SpecType.convert h
    refine ⟨m + 1, fun n hn => ?_⟩
    obtain ⟨n, rfl⟩ : ∃ k, n = k + 1 := ⟨n - 1, by omega⟩
    simp only [convert_type_token, convertTypeWith, hm n (by omega), GR.bind, if_true]
  | _, _, _, .opaqueFixed hl => ⟨1, fun n hn => by
    obtain ⟨n, rfl⟩ : ∃ k, n = k + 1 := ⟨n - 1, by omega⟩
    simp only [convert_type_token, convertTypeWith, lenTok_iff.2 hl, GR.bind]⟩
  | _, _, _, .opaqueVar => ⟨1, fun n hn => by
    obtain ⟨n, rfl⟩ : ∃ k, n = k + 1 := ⟨n - 1, by omega⟩
    rfl⟩
  | _, _, _, .string => ⟨1, fun n hn => by
    obtain ⟨n, rfl⟩ : ∃ k, n = k + 1 := ⟨n - 1, by omega⟩
    rfl⟩
  | _, _, _, .option h => by
    obtain ⟨m, hm⟩ := SpecType.convert h
    refine ⟨m + 1, fun n hn => ?_⟩
    obtain ⟨n, rfl⟩ : ∃ k, n = k + 1 := ⟨n - 1, by omega⟩
    simp only [convert_type_token, convertTypeWith, hm n (by omega), GR.bind]
end

/-! ## Names left in a type -/

mutual
theorem SpecType.paths : ∀ {ts ty op}, SpecType ds true ts ty op → ∀ i ∈ ty.paths,
    ∃ name, (∀ d, typeOf ds name ≠ some (.declaration d)) ∧ upper_camel_case_ident name = .ok i
  | _, _, _, .int => by simp [RTy.paths]
  | _, _, _, .uint => by simp [RTy.paths]
  | _, _, _, .hyper => by simp [RTy.paths]
  | _, _, _, .uhyper => by simp [RTy.paths]
  | _, _, _, .float => by simp [RTy.paths]
  | _, _, _, .double => by simp [RTy.paths]
  | _, _, _, .bool => by simp [RTy.paths]
  | _, _, _, .char => by simp [RTy.paths]
  | _, _, _, .uchar => by simp [RTy.paths]
  | _, _, _, .short => by simp [RTy.paths]
  | _, _, _, .ushort => by simp [RTy.paths]
  | _, _, _, .typedef _ _ h => DeclType.paths h
  | _, _, _, .name hd hid => by
    intro i hi
    simp only [RTy.paths, List.mem_singleton] at hi
    subst hi
    exact ⟨_, hd rfl, hid⟩

theorem DeclType.paths : ∀ {d ty op}, DeclType ds true d ty op → ∀ i ∈ ty.paths,
    ∃ name, (∀ d, typeOf ds name ≠ some (.declaration d)) ∧ upper_camel_case_ident name = .ok i
  | _, _, _, .variable h => SpecType.paths h
  | _, _, _, .fixedArray h _ => by
    simp only [RTy.paths]
    exact SpecType.paths h
  | _, _, _, .variableArray h _ => by
    simp only [RTy.paths]
    exact SpecType.paths h
  | _, _, _, .opaqueArray h => by simp [RTy.paths]
  | _, _, _, .opaqueFixed _ => by simp [RTy.paths]
  | _, _, _, .opaqueVar => by simp [RTy.paths]
  | _, _, _, .string => by simp [RTy.paths]
  | _, _, _, .option h => by
    simp only [RTy.paths]
    exact SpecType.paths h
end

/-! ## Typedefs that lead to themselves -/

/-- Arrays of, pointers to and other names for what needs too much stack need it too. -/
theorem element_depth {ct : Declaration → GR (Option (RTy × OpaqueType))} {cxt : Context} {d : Declaration}
    {ts : TypeSpecifier} (hd : d.element = some ts) (h : convert_primitive_token ct cxt ts = .depth) :
    convertTypeWith ct cxt d = .depth := by
  cases d <;> simp only [Declaration.element, Option.some.injEq, reduceCtorEq] at hd <;> subst hd <;>
    simp only [convertTypeWith, h, GR.bind]

theorem cycle_depth (hr : cfg.remove_typedef = true) {a : Str} (ha : LeadsTo ds a a) (n : Nat) {b : Str}
    (hb : LeadsTo ds b a) : convert_primitive_token (convert_type_token (setup_context ds cfg) n)
      (setup_context ds cfg) (.identifier b) = .depth := by
  have step : ∃ c d, typeOf ds b = some (.declaration d) ∧ d.element = some (.identifier c) ∧
      LeadsTo ds c a := by
    cases hb with
    | step h1 h2 => exact ⟨a, _, h1, h2, ha⟩
    | more h1 h2 h3 => exact ⟨_, _, h1, h2, h3⟩
  induction n generalizing b with
  | zero =>
    obtain ⟨c, d, h1, h2, h3⟩ := step
    simp only [convert_primitive_token, (resolve_type_eq _ _).1 hr d h1, convert_type_token, GR.bind]
  | succ n ih =>
    obtain ⟨c, d, h1, h2, h3⟩ := step
    have := ih h3 (by
      cases h3 with
      | step h1 h2 => exact ⟨a, _, h1, h2, ha⟩
      | more h1 h2 h3 => exact ⟨_, _, h1, h2, h3⟩)
    simp only [convert_primitive_token, (resolve_type_eq _ _).1 hr d h1, convert_type_token,
      element_depth h2 this, GR.bind]

end Xdr.Rpcgen
