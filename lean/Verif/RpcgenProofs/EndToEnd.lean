import Verif.Spec.Fragment
import Verif.RpcgenProofs.Values
import Verif.RpcgenProofs.UnionWire
/-!
# Lemmas for the generated code as a whole
-/

namespace Xdr.Rpcgen

open Rfc (XVal)

/-! ## Typedefs -/

theorem typedefs_cons (t : TypeDef) (ds : List Definition) (cfg : Config) :
    (setup_context (.type t :: ds) cfg).typedefs =
      (t.name.map fun nm => (nm, t)).toList ++ (setup_context ds cfg).typedefs := by
  cases t with
  | declaration d =>
    simp only [setup_context, TypeDef.name, List.filterMap_cons]
    cases d.name <;> rfl
  | _ => simp [setup_context, TypeDef.name]

theorem typedefs_find (ds : List Definition) (cfg : Config) (name : Str) :
    ((setup_context ds cfg).typedefs.find? fun d => d.1 == name) = (typeOf ds name).map fun t => (name, t) := by
  induction ds with
  | nil => rfl
  | cons d ds ih =>
    cases d with
    | type t =>
      rw [typedefs_cons]
      simp only [typeOf, List.findSome?_cons] at ih ⊢
      cases hn : t.name with
      | none => simpa using ih
      | some nm =>
        simp only [Option.map_some, Option.toList_some, List.singleton_append, List.find?_cons]
        by_cases he : nm = name
        · subst he
          simp
        · have : (nm == name) = false := by simpa using he
          simp only [this, Option.some.injEq, he, if_false]
          exact ih
    | _ => exact ih

/-- How a name is translated, `--remove-typedef`. -/
theorem resolve_type_ok {ds : List Definition} {cfg : Config} (hrt : cfg.remove_typedef = true)
    {ct : Declaration → GR (Option (RTy × OpaqueType))} {name : Str} {r : RTy × OpaqueType}
    (h : resolve_type_token ct (setup_context ds cfg) name = .ok r) :
    (∃ d, typeOf ds name = some (.declaration d) ∧ ct d = .ok (some r)) ∨
    ((∀ d, typeOf ds name ≠ some (.declaration d)) ∧ ∃ id, upper_camel_case_ident name = .ok id ∧
      r = (.path id, .none)) := by
  simp only [resolve_type_token] at h
  have h' : (setup_context ds cfg).config.remove_typedef = true := hrt
  simp only [h', Bool.not_true, Bool.false_eq_true, if_false, typedefs_find] at h
  cases ht : typeOf ds name with
  | none =>
    simp only [ht, Option.map_none, GR.bind_eq_ok, GR.ok.injEq] at h
    obtain ⟨id, hid, rfl⟩ := h
    exact .inr ⟨by simp, id, hid, rfl⟩
  | some t =>
    rw [ht, Option.map_some] at h
    cases t with
    | declaration d =>
      simp only [GR.bind_eq_ok] at h
      obtain ⟨o, ho, hr⟩ := h
      cases o with
      | none => cases hr
      | some p =>
        simp only [GR.okOr, GR.ok.injEq] at hr
        subst hr
        exact .inl ⟨d, rfl, ho⟩
    | _ =>
      simp only [GR.bind_eq_ok, GR.ok.injEq] at h
      obtain ⟨id, hid, rfl⟩ := h
      exact .inr ⟨by simp, id, hid, rfl⟩

/-- Opaque data comes from opaque declarations. -/
theorem hasOpaque_of {ds : List Definition} {cfg : Config} (hrt : cfg.remove_typedef = true) {n : Nat}
    {d : Declaration} {ty : RTy} {op : OpaqueType}
    (h : convert_type_token (setup_context ds cfg) n d = .ok (some (ty, op))) (hop : op ≠ .none) :
    HasOpaque ds d ∧ ((∃ t l c, ty = .array t l c) ∨ (∃ t, ty = .vec t) ∨ ∃ t, ty = .option t) := by
  induction n generalizing d ty op with
  | zero => cases h
  | succ n ih =>
    have prim : ∀ ts ty, convert_primitive_token (convert_type_token (setup_context ds cfg) n)
        (setup_context ds cfg) ts = .ok (ty, op) → ∃ name d', ts = .identifier name ∧
          typeOf ds name = some (.declaration d') ∧ HasOpaque ds d' ∧
          ((∃ t l c, ty = .array t l c) ∨ (∃ t, ty = .vec t) ∨ ∃ t, ty = .option t) := by
      intro ts ty h
      cases ts with
      | identifier name =>
        simp only [convert_primitive_token] at h
        rcases resolve_type_ok hrt h with ⟨d', hd', hc⟩ | ⟨-, id, -, hr⟩
        · exact ⟨name, d', rfl, hd', (ih hc hop).1, (ih hc hop).2⟩
        · cases hr
          exact absurd rfl hop
      | _ =>
        simp only [convert_primitive_token] at h
        first
        | (have := GR.ok.inj h
           cases this
           exact absurd rfl hop)
        | cases h
    simp only [convert_type_token] at h
    cases d with
    | «variable» ts nm =>
      simp only [convertTypeWith, GR.bind_eq_ok, GR.ok.injEq, Option.some.injEq] at h
      obtain ⟨p, hp, rfl⟩ := h
      obtain ⟨name, d', rfl, h1, h2, h3⟩ := prim _ _ hp
      exact ⟨.typedef rfl h1 h2, h3⟩
    | fixedArray ts nm v =>
      simp only [convertTypeWith, GR.bind_eq_ok, GR.ok.injEq, Option.some.injEq] at h
      obtain ⟨⟨ty', op'⟩, hp, len, hl, he⟩ := h
      cases he
      obtain ⟨name, d', rfl, h1, h2, h3⟩ := prim _ _ hp
      exact ⟨.typedef rfl h1 h2, .inl ⟨_, _, _, rfl⟩⟩
    | variableArray ts nm m =>
      simp only [convertTypeWith, GR.bind_eq_ok] at h
      obtain ⟨⟨ty', op'⟩, hp, he⟩ := h
      simp only at he
      split at he
      · simp only [GR.ok.injEq, Option.some.injEq] at he
        cases he
        exact absurd rfl hop
      · simp only [GR.ok.injEq, Option.some.injEq] at he
        cases he
        obtain ⟨name, d', rfl, h1, h2, h3⟩ := prim _ _ hp
        exact ⟨.typedef rfl h1 h2, .inr (.inl ⟨_, rfl⟩)⟩
    | optionVariable ts nm =>
      simp only [convertTypeWith, GR.bind_eq_ok, GR.ok.injEq, Option.some.injEq] at h
      obtain ⟨⟨ty', op'⟩, hp, he⟩ := h
      cases he
      obtain ⟨name, d', rfl, h1, h2, h3⟩ := prim _ _ hp
      exact ⟨.typedef rfl h1 h2, .inr (.inr ⟨_, rfl⟩)⟩
    | opaqueFixedArray nm v =>
      simp only [convertTypeWith, GR.bind_eq_ok, GR.ok.injEq, Option.some.injEq] at h
      obtain ⟨len, hl, he⟩ := h
      cases he
      exact ⟨.fixed, .inl ⟨_, _, _, rfl⟩⟩
    | opaqueVariableArray nm m =>
      simp only [convertTypeWith, GR.ok.injEq, Option.some.injEq] at h
      cases h
      exact ⟨.variable, .inr (.inl ⟨_, rfl⟩)⟩
    | string nm m =>
      simp only [convertTypeWith, GR.ok.injEq, Option.some.injEq] at h
      cases h
      exact absurd rfl hop
    | void => cases h

/-- The same, of a type specifier. -/
theorem hasOpaque_prim {ds : List Definition} {cfg : Config} (hrt : cfg.remove_typedef = true) {n : Nat}
    {ts : TypeSpecifier} {ty : RTy} {op : OpaqueType}
    (h : convert_primitive_token (convert_type_token (setup_context ds cfg) n) (setup_context ds cfg) ts =
      .ok (ty, op)) (hop : op ≠ .none) (nm : Str) :
    HasOpaque ds (.variable ts nm) ∧
      ((∃ t l c, ty = .array t l c) ∨ (∃ t, ty = .vec t) ∨ ∃ t, ty = .option t) := by
  refine hasOpaque_of (n := n + 1) hrt (d := .variable ts nm) (ty := ty) (op := op) ?_ hop
  simp only [convert_type_token, convertTypeWith, h, GR.bind]

/-- Opaque data of variable length is translated to a `Vec<u8>` with the attribute. -/
theorem plainOpaque_type {ds : List Definition} {cfg : Config} (hrt : cfg.remove_typedef = true)
    {d : Declaration} (hp : PlainOpaque ds d) {n : Nat} {o : Option (RTy × OpaqueType)}
    (h : convert_type_token (setup_context ds cfg) n d = .ok o) : o = some (.vec .u8, .variable) := by
  induction hp generalizing n o with
  | direct =>
    cases n with
    | zero => cases h
    | succ n =>
      simp only [convert_type_token, convertTypeWith, GR.ok.injEq] at h
      exact h.symm
  | @typedef name nm d hd _ ih =>
    cases n with
    | zero => cases h
    | succ n =>
      simp only [convert_type_token, convertTypeWith, convert_primitive_token, GR.bind_eq_ok,
        GR.ok.injEq] at h
      obtain ⟨p, hp, rfl⟩ := h
      rcases resolve_type_ok hrt hp with ⟨d', hd', hc⟩ | ⟨hno, -⟩
      · rw [hd] at hd'
        cases hd'
        exact ih hc
      · exact absurd hd (hno _)

/-- The values of opaque data of variable length. -/
theorem plainOpaque_value {ds : List Definition} {dflt : Bool} {d : Declaration} (hp : PlainOpaque ds d)
    {x : XVal} (h : Declared ds dflt d x) : ∃ bs : Bytes, x = .opaqueVar bs ∧ bs.length < 2 ^ 32 := by
  induction hp with
  | direct =>
    cases h with
    | opaqueVar h _ => exact ⟨_, rfl, h⟩
  | typedef hd _ ih =>
    cases h with
    | «variable» h =>
    cases h with
    | name h1 h2 =>
    rw [hd] at h1
    cases h1
    cases h2 with
    | typedef h => exact ih h

/-! ## Numbers -/

/-- The number of a literal. -/
theorem value_number {c : Constant} {s : Str} (h : ConstantText c s) {t : IntTy} {k : Int}
    (hv : c.value t = .ok k) : k = c.number := by
  unfold Constant.value at hv
  rw [tryInto_eq h] at hv
  split at hv
  · exact (GR.ok.inj hv).symm
  · cases hv

/-- The length of an array that is no opaque data is a literal. -/
theorem array_len {ds : List Definition} {cs : List ConstItem} {v : Value} {len : Tok}
    (hok : ∀ a ∈ v.atoms, a.Ok) (h : convert_value_token .usize v false = .ok len) {m : Nat}
    (hm : arrayLen cs len false = some m) {k : Nat} (hs : Stands ds v k) : m = k := by
  cases v with
  | identifier i =>
    simp only [convert_value_token, GR.bind_eq_ok, GR.ok.injEq] at h
    obtain ⟨id, -, rfl⟩ := h
    simp [arrayLen] at hm
  | constant c =>
    simp only [convert_value_token, GR.bind_eq_ok, GR.ok.injEq] at h
    obtain ⟨n, hn, rfl⟩ := h
    obtain ⟨c', hc', hk⟩ := hs
    cases hc'
    obtain ⟨s, hs⟩ := hok (.number c) (by simp [Value.atoms])
    have := value_number hs hn
    simp only [arrayLen, if_true, Option.some.injEq] at hm
    omega

theorem mkIdent_inj {a b : Str} {i : RIdent} (ha : mkIdent a = .ok i) (hb : mkIdent b = .ok i) : a = b := by
  rcases mkIdent_ok ha with ⟨h1, h2⟩ | ⟨h1, h2⟩ <;> rcases mkIdent_ok hb with ⟨h3, h4⟩ | ⟨h3, h4⟩
  · rw [h2, h4]
  · rw [h1] at h3
    cases h3
  · rw [h1] at h3
    cases h3
  · rw [← h2, h4]

/-- The constants of the generated file are those of the interface. -/
theorem const_item {ds : List Definition} {cfg : Config} {cs : List ConstItem}
    (h : constants_token (setup_context ds cfg) = .ok cs) {name : Str} {i : RIdent}
    (hi : mkIdent name = .ok i) {c : ConstItem} (hc : (cs.find? fun c => c.name = i) = some c) :
    ∃ v, constOf ds name = some v ∧ convert_value_token c.ty v false = .ok c.value := by
  rw [← constants_find ds cfg]
  unfold constants_token at h
  have hf := GR.mapM_ok.1 h
  generalize (setup_context ds cfg).constants = l at hf
  clear h
  induction hf with
  | nil => cases hc
  | @cons a b l r hab _ ih =>
    obtain ⟨nm, v⟩ := a
    simp only [GR.bind_eq_ok] at hab
    obtain ⟨id, hid, hb⟩ := hab
    have hbb : b.name = id ∧ convert_value_token b.ty v false = .ok b.value := by
      cases h32 : convert_value_token .u32 v false with
      | ok t =>
        rw [h32] at hb
        cases hb
        exact ⟨rfl, h32⟩
      | err e =>
        rw [h32] at hb
        simp only [GR.bind_eq_ok] at hb
        obtain ⟨t, ht, hb⟩ := hb
        cases hb
        exact ⟨rfl, ht⟩
      | panic p => rw [h32] at hb; cases hb
      | depth => rw [h32] at hb; cases hb
    simp only [List.find?_cons] at hc ⊢
    by_cases he : b.name = i
    · simp only [he, decide_true, Option.some.injEq] at hc
      subst hc
      have : nm = name := mkIdent_inj (hbb.1.symm.trans he ▸ hid) hi
      subst this
      exact ⟨v, by simp, hbb.2⟩
    · simp only [he, decide_false] at hc
      have hne : (nm == name) = false := by
        simp only [beq_eq_false_iff_ne, ne_eq]
        rintro rfl
        rw [hi] at hid
        cases hid
        exact he hbb.1
      simp only [hne]
      exact ih hc

/-- The value of a constant in the generated file. -/
theorem const_value {ds : List Definition} {cfg : Config} {cs : List ConstItem}
    (h : constants_token (setup_context ds cfg) = .ok cs) {t : IntTy} {c : Constant} {s : Str}
    (hs : ConstantText c s) {n : Nat} {v : Value} {tok : Tok} (hv : convert_value_token t v false = .ok tok)
    {k : Int} (hk : constValue cs t n tok = some k) (hd : Denotes ds v c) : k = c.number := by
  induction n generalizing v tok with
  | zero => cases hk
  | succ n ih =>
    cases v with
    | constant c' =>
      cases hd
      simp only [convert_value_token, GR.bind_eq_ok, GR.ok.injEq] at hv
      obtain ⟨n, hn, rfl⟩ := hv
      simp only [constValue, if_true, Option.some.injEq] at hk
      rw [← hk]
      exact value_number hs hn
    | identifier nm =>
      simp only [convert_value_token, GR.bind_eq_ok, GR.ok.injEq, Bool.false_eq_true, if_false] at hv
      obtain ⟨id, hid, rfl⟩ := hv
      simp only [constValue] at hk
      split at hk
      · next c' hc' =>
        split at hk
        · next hty =>
          obtain ⟨v', hv', hcv⟩ := const_item h hid hc'
          rw [hty] at hcv
          refine ih hcv hk ?_
          cases hd with
          | name hl hd =>
            simp only [lookup, hv', Option.some_or, Option.some.injEq] at hl
            subst hl
            exact hd
        · cases hk
      · cases hk

/-- The length of fixed-length opaque data, a literal or a constant. -/
theorem opaque_len {ds : List Definition} (hwf : WellFormed ds) {cfg : Config} {cs : List ConstItem}
    (hcs : constants_token (setup_context ds cfg) = .ok cs) {v : Value} {len : Tok}
    (hok : ∀ a ∈ v.atoms, a.Ok) (h : convert_value_token .usize v false = .ok len) {m : Nat}
    (hm : arrayLen cs len true = some m) {k : Nat} (hs : Stands ds v k) : m = k := by
  cases v with
  | constant c =>
    refine array_len (cs := cs) hok h ?_ hs
    simp only [convert_value_token, GR.bind_eq_ok, GR.ok.injEq] at h
    obtain ⟨n, hn, rfl⟩ := h
    exact hm
  | identifier nm =>
    simp only [convert_value_token, GR.bind_eq_ok, GR.ok.injEq, Bool.false_eq_true, if_false] at h
    obtain ⟨id, hid, rfl⟩ := h
    simp only [arrayLen, if_true] at hm
    split at hm
    · next c' hc' =>
      simp only [Option.map_eq_some_iff] at hm
      obtain ⟨k', hk', hm⟩ := hm
      obtain ⟨c, hc, hck⟩ := hs
      obtain ⟨s, hs⟩ := denotes_text hwf hc hok
      obtain ⟨v', hv', hcv⟩ := const_item hcs hid hc'
      have hd : Denotes ds v' c := by
        cases hc with
        | name hl hd =>
          simp only [lookup, hv', Option.some_or, Option.some.injEq] at hl
          subst hl
          exact hd
      have := const_value hcs hs hcv hk' hd
      omega
    · cases hm

/-! ## Encodings exist -/

theorem signed_some (n : Nat) {k : Int} (h1 : -(2 ^ (8 * n - 1) : Int) ≤ k) (h2 : k < 2 ^ (8 * n - 1)) :
    (Rfc.signed n k).isSome := by
  unfold Rfc.signed
  rw [if_pos ⟨h1, h2⟩]
  rfl

theorem unsigned_some (n : Nat) {k : Nat} (h : k < 2 ^ (8 * n)) : (Rfc.unsigned n k).isSome := by
  unfold Rfc.unsigned
  rw [if_pos h]
  rfl

theorem cat_some {a b : Option Bytes} (ha : a.isSome) (hb : b.isSome) : (Rfc.cat a b).isSome := by
  cases a <;> cases b <;> simp_all [Rfc.cat]

section
variable {ds : List Definition} {dflt : Bool} (hen : NumberedEnums ds)
include hen

mutual
theorem Typed.encodes : ∀ {ts x}, Typed ds dflt ts x → (Rfc.encode x).isSome
  | _, _, .int h1 h2 => by simp only [Rfc.encode]; exact signed_some 4 (by simp; omega) (by simp; omega)
  | _, _, .uint h => by simp only [Rfc.encode]; exact unsigned_some 4 h
  | _, _, .hyper h1 h2 => by simp only [Rfc.encode]; exact signed_some 8 (by simp; omega) (by simp; omega)
  | _, _, .uhyper h => by simp only [Rfc.encode]; exact unsigned_some 8 h
  | _, _, .float h => by simp only [Rfc.encode]; exact unsigned_some 4 h
  | _, _, .double h => by simp only [Rfc.encode]; exact unsigned_some 8 h
  | _, _, .bool => by simp only [Rfc.encode]; exact signed_some 4 (by split <;> simp) (by split <;> simp)
  | _, _, .char h1 h2 => by simp only [Rfc.encode]; exact signed_some 4 (by simp; omega) (by simp; omega)
  | _, _, .uchar h => by simp only [Rfc.encode]; exact unsigned_some 4 (by omega)
  | _, _, .short h1 h2 => by simp only [Rfc.encode]; exact signed_some 4 (by simp; omega) (by simp; omega)
  | _, _, .ushort h => by simp only [Rfc.encode]; exact unsigned_some 4 (by omega)
  | _, _, .name h1 h2 => Defined.encodes h2 (typeOf_mem h1).1

theorem Defined.encodes : ∀ {t x}, Defined ds dflt t x → .type t ∈ ds → (Rfc.encode x).isSome
  | _, _, .typedef h, _ => Declared.encodes h
  | _, _, .enum (e := e) (as := as) ha hk, hm => by
    obtain ⟨ks, hn⟩ := hen e as hm
    obtain ⟨k', hk', hs⟩ := forall₂_mem_left hn.stands ha
    have := stands_unique hk hs
    subst this
    obtain ⟨bs, hb⟩ := encode_enum (hn.range _ hk')
    rw [hb]
    rfl
  | _, _, .struct h, _ => by simp only [Rfc.encode]; exact Members.encodes h
  | _, _, .arm _ _ _ h1 _ h2, _ => by
    simp only [Rfc.encode]; exact cat_some (Typed.encodes h1) (Declared.encodes h2)
  | _, _, .default _ _ _ h1 _ _ h2, _ => by
    simp only [Rfc.encode]; exact cat_some (Typed.encodes h1) (Declared.encodes h2)

theorem Declared.encodes : ∀ {d x}, Declared ds dflt d x → (Rfc.encode x).isSome
  | _, _, .variable h => Typed.encodes h
  | _, _, .fixedArray _ h => by simp only [Rfc.encode]; exact Each.encodes h
  | _, _, .variableArray hl _ h => by
    simp only [Rfc.encode]; exact cat_some (unsigned_some 4 hl) (Each.encodes h)
  | _, _, .opaqueFixed _ => by simp [Rfc.encode]
  | _, _, .opaqueVar hl _ => by
    simp only [Rfc.encode]; exact cat_some (unsigned_some 4 hl) rfl
  | _, _, .string hl _ => by
    simp only [Rfc.encode]; exact cat_some (unsigned_some 4 hl) rfl
  | _, _, .absent => by simp only [Rfc.encode]; exact signed_some 4 (by decide) (by decide)
  | _, _, .present h => by
    simp only [Rfc.encode]; exact cat_some (signed_some 4 (by decide) (by decide)) (Typed.encodes h)
  | _, _, .void => rfl

theorem Each.encodes : ∀ {ts xs}, Each ds dflt ts xs → (Rfc.encodeAll xs).isSome
  | _, _, .nil => rfl
  | _, _, .cons h h' => by simp only [Rfc.encodeAll]; exact cat_some (Typed.encodes h) (Each.encodes h')

theorem Members.encodes : ∀ {ds' xs}, Members ds dflt ds' xs → (Rfc.encodeAll xs).isSome
  | _, _, .nil => rfl
  | _, _, .cons h h' => by simp only [Rfc.encodeAll]; exact cat_some (Declared.encodes h) (Members.encodes h')
end
end

/-- A discriminant is encoded as its number. -/
theorem encode_discriminant {d : XVal} {k : Int} (h : discriminant d = some k) (hk : 0 ≤ k)
    {bs : Bytes} (hb : Rfc.encode d = some bs) : bs = Rfc.beBytes 4 k.toNat := by
  have e : (2 ^ (8 * 4) : Int) = 4294967296 := by decide
  have e' : (2 ^ (8 * 4 - 1) : Int) = 2147483648 := by decide
  have sgn : ∀ j : Int, 0 ≤ j → Rfc.signed 4 j = some bs → bs = Rfc.beBytes 4 j.toNat := by
    intro j hj hb
    unfold Rfc.signed at hb
    rw [e, e'] at hb
    split at hb
    · next hr =>
      cases hb
      rw [Int.emod_eq_of_lt hj (by omega)]
    · cases hb
  cases d with
  | int j => cases h; exact sgn _ hk hb
  | enum j => cases h; exact sgn _ hk hb
  | bool b => cases h; exact sgn _ hk hb
  | uint j =>
    cases h
    simp only [Rfc.encode, Rfc.unsigned] at hb
    split at hb
    · cases hb
      rfl
    · cases hb
  | _ => cases h

/-! ## Enums -/

theorem sorted_ge {l : List Int} (h : l.Pairwise (· < ·)) {s : Int} (hs : ∀ x ∈ l, s ≤ x) {i : Nat} {x : Int}
    (hi : l[i]? = some x) : s + i ≤ x := by
  induction l generalizing s i with
  | nil => cases hi
  | cons a l ih =>
    cases i with
    | zero =>
      cases hi
      have := hs x (by simp)
      omega
    | succ i =>
      simp only [List.getElem?_cons_succ] at hi
      obtain ⟨h1, h2⟩ := List.pairwise_cons.1 h
      have := ih h2 (s := s + 1) (fun y hy => by
        have := h1 y hy
        have := hs a (by simp)
        omega) hi
      omega

theorem sorted_le {l : List Int} (h : l.Pairwise (· < ·)) {u : Int} (hs : ∀ x ∈ l, x < u) {i : Nat} {x : Int}
    (hi : l[i]? = some x) : x + l.length ≤ u + i := by
  induction l generalizing i x with
  | nil => cases hi
  | cons a l ih =>
    obtain ⟨h1, h2⟩ := List.pairwise_cons.1 h
    cases i with
    | zero =>
      cases hi
      cases l with
      | nil =>
        have := hs a (by simp)
        simp
        omega
      | cons b l =>
        have := ih h2 (fun y hy => hs y (List.mem_cons_of_mem _ hy)) (i := 0) rfl
        have := h1 b (by simp)
        simp only [List.length_cons] at *
        omega
    | succ i =>
      simp only [List.getElem?_cons_succ] at hi
      have := ih h2 (fun y hy => hs y (List.mem_cons_of_mem _ hy)) hi
      simp only [List.length_cons]
      omega

/-- Members numbered by position are at the position of their number. -/
theorem positional_index {ds : List Definition} {as : List Assign} {ks : List Int} (hn : Numbered ds as ks)
    (hp : Positional ds as) {ms : List (RIdent × Int)} (hs : ms.Pairwise fun a b => a.2 < b.2)
    (h1 : ∀ p ∈ as.zip ks, ∃ id : RIdent, (id, p.2) ∈ ms) (h2 : ∀ m ∈ ms, m.2 ∈ ks) {i : Nat} {m : RIdent × Int}
    (hi : ms[i]? = some m) : m.2 = i := by
  obtain ⟨ks', hn', hr⟩ := hp
  have hks : ks' = ks := by
    have := hn'.stands
    have h := hn.stands
    clear * - this h
    induction this generalizing ks with
    | nil => cases h; rfl
    | cons a _ ih =>
      cases h with
      | cons b h =>
        rw [stands_unique a b, ih h]
  subst hks
  have hlen : ms.length = as.length := by
    have hperm : (ms.map (·.2)).Perm ks' := by
      refine (List.perm_ext_iff_of_nodup (pairwise_lt_nodup hs) hn.distinct).2 fun k => ⟨?_, ?_⟩
      · intro hk
        obtain ⟨m, hm, rfl⟩ := List.mem_map.1 hk
        exact h2 m hm
      · intro hk
        obtain ⟨a, ha⟩ := zip_mem_right hn.stands.length_eq hk
        obtain ⟨id, hid⟩ := h1 _ ha
        exact List.mem_map.2 ⟨_, hid, rfl⟩
    have := hperm.length_eq
    rw [List.length_map] at this
    rw [this, ← hn.stands.length_eq]
  have hsort : (ms.map (·.2)).Pairwise (· < ·) := List.pairwise_map.2 hs
  have hi' : (ms.map (·.2))[i]? = some m.2 := by simp [hi]
  have hb : ∀ x : Int, x ∈ ms.map (·.2) → 0 ≤ x ∧ x < as.length := by
    intro x hx
    obtain ⟨m, hm, rfl⟩ := List.mem_map.1 hx
    exact hr _ (h2 m hm)
  have a1 := sorted_ge hsort (fun x hx => (hb x hx).1) hi'
  have a2 := sorted_le hsort (fun x hx => (hb x hx).2) hi'
  rw [List.length_map, hlen] at a2
  omega

/-- The values of a generated enum. -/
theorem enum_values {ds : List Definition} (hwf : WellFormed ds) {cfg : Config}
    (hx : ¬ (cfg.enum_impl_indexer = true ∧ cfg.enum_impl_std_trait = true)) {n : Nat} {file : RustFile}
    (hg : gen_code n ds cfg = .ok file) {defs : List (String × Def)} (hd : file.defs = some defs)
    {name : Str} {as : List Assign} {ks : List Int} (hm : .type (.enum name as) ∈ ds)
    (hnum : Numbered ds as ks) (hpos : cfg.enum_complement_index = true → ∀ k ∈ ks, 0 ≤ k)
    {a : Assign} (ha : a ∈ as) {k : Int} (hk : Stands ds a.value k) {ty : RIdent}
    (hty : upper_camel_case_ident name = .ok ty) :
    ∃ e i id, .enum e ∈ file.types ∧ e.name = ty ∧ e.variants[i]? = some (id, k) ∧
      ((cfg.enum_impl_std_trait = true → Positional ds as) →
        Rep (Xdr.program defs) (.named ty.str) (.variant i []) (.enum k)) ∧
      (∀ t, fieldMeaning file.constants file.enums .signed32 (.path ty) = some t →
        Rep (Xdr.program defs) t (.variant i []) (.enum k)) := by
  obtain ⟨e, he, hmem⟩ := gen_code_enum hg hm
  obtain ⟨ms, h1, h2, h3, h4, h5, h6, -, h7, h8, h9, h10, h11, h12, -⟩ :=
    enum_members hwf (members_ok hwf hm) hnum.stands hnum.distinct hnum.range he
  have hnm : e.name = ty := by
    rw [h8] at hty
    exact GR.ok.inj hty
  subst hnm
  obtain ⟨d, hd1, hd2⟩ := defs_lookup hd hmem
  obtain ⟨hnd, hdef⟩ := enum_meaning_ok hd1
  have hks : k ∈ ks ∧ (a, k) ∈ as.zip ks := by
    obtain ⟨k', hk'⟩ := zip_mem_left hnum.stands.length_eq ha
    have := stands_unique hk (forall₂_zip hnum.stands hk')
    subst this
    exact ⟨(List.of_mem_zip hk').2, hk'⟩
  obtain ⟨id, hid, hmm⟩ := h1 _ hks.2
  simp only at hmm
  have hr := hnum.range k hks.1
  by_cases hc : cfg.enum_complement_index = true
  · have h0 := hpos hc k hks.1
    obtain ⟨-, hp⟩ := (h6 hc (hpos hc)).pos (h5 _ hmm)
    simp only [Int.sub_zero] at hp
    have hci : cfg.enum_impl_indexer = false ∧ cfg.enum_impl_std_trait = false := by
      simpa [Config.enum_complement_index] using hc
    refine ⟨e, k.toNat, id, hmem, rfl, hp, fun _ => ?_, ?_⟩
    · rcases hdef with ⟨-, rfl⟩ | ⟨hx, -⟩
      · have hi : (e.variants.map fun v => (v.1.str, Shape.unit))[k.toNat]? = some (id.str, .unit) := by
          simp [hp]
        have hrep := rep_enum hd2 hi (by omega)
        have hcast : ((k.toNat : Nat) : Int) = k := by omega
        rw [hcast] at hrep
        exact hrep
      · rw [h9, hci.1] at hx
        cases hx
    · intro t ht
      simp only [fieldMeaning, enums_find (defs_ok hd).1 hmem, h10, hci.2] at ht
      cases ht
  · have hv := h7 (by simpa using hc)
    have hn1 : (ms.map (·.1)).Nodup := by
      rw [← hv]
      exact nodup_of_str hnd
    have hk1 := pairwise_lt_nodup h3
    obtain ⟨i, hi⟩ := List.mem_iff_getElem?.1 hmm
    refine ⟨e, i, id, hmem, rfl, by rw [hv]; exact hi, ?_, ?_⟩
    · intro hposn
      rcases hdef with ⟨hix, rfl⟩ | ⟨hix, ix, hix', rfl⟩
      · have hst : cfg.enum_impl_std_trait = true := by
          rw [h9] at hix
          simpa [Config.enum_complement_index, hix] using hc
        have hki := positional_index hnum (hposn hst) h3 (fun p hp => by
            obtain ⟨id, -, h⟩ := h1 p hp
            exact ⟨id, h⟩) (fun m hm => by
            obtain ⟨a, h, -⟩ := h2 m hm
            exact (List.of_mem_zip h).2) hi
        simp only at hki
        have hi' : (e.variants.map fun v => (v.1.str, Shape.unit))[i]? = some (id.str, .unit) := by
          rw [hv]
          simp [hi]
        have hrep := rep_enum hd2 hi' (by omega)
        rw [hki]
        exact hrep
      · rw [h12] at hix'
        rw [h9] at hix
        rw [hix] at hix'
        simp only [if_true, Option.some.injEq] at hix'
        subst hix'
        obtain ⟨g1, g2⟩ := enumIndexer_member (otherwise := e.default) hn1 hk1 hi hr
        have hi' : (e.variants.map fun v => (v.1.str, (none : Option (List Ty))))[i]? = some (id.str, none) := by
          rw [hv]
          simp [hi]
        rw [← hv] at g1 g2
        have hrep := rep_indexer_unit hd2 hi' (k := Int32.ofInt k) (by rw [hv] at g1 ⊢; exact g1)
          (by rw [hv] at g2 ⊢; exact g2)
          (fun j hj x hx => first_of_nodup (by
            simpa [List.map_map, Function.comp_def] using hnd) hi' j hj x hx)
        rw [toInt_ofInt hr] at hrep
        exact hrep
    · intro t ht
      simp only [fieldMeaning, enums_find (defs_ok hd).1 hmem] at ht
      split at ht
      · next r f hr' hf' =>
        cases ht
        have hst : cfg.enum_impl_std_trait = true := by
          by_contra hst
          simp [hst] at h10
          rw [h10] at hr'
          cases hr'
        have hni : cfg.enum_impl_indexer = false := by
          by_contra hni
          exact hx ⟨by simpa using hni, hst⟩
        rw [hst] at h10 h11
        simp only [if_true] at h10 h11
        rw [h10] at hr'
        rw [h11] at hf'
        cases hr'
        cases hf'
        obtain ⟨g1, g2⟩ := signed32Of_member hn1 hk1 hi hr
        rcases hdef with ⟨-, rfl⟩ | ⟨hix, -⟩
        · have hi' : (e.variants.map fun v => (v.1.str, Shape.unit))[i]? = some (id.str, .unit) := by
            rw [hv]
            simp [hi]
          rw [hv]
          rw [hv] at hi'
          have hd2' := hd2
          simp only [Item.name] at hd2'
          rw [hv] at hd2'
          have hrep := rep_signed32 hd2' hi' (impl := signed32Of ms ms (ms.map fun m => (m.2, m.1)))
            (by rw [g1]; exact g2)
          rw [g1, toInt_ofInt hr] at hrep
          exact hrep
        · rw [h9, hni] at hix
          cases hix
      · cases ht

/-! ## Discriminants -/

/-- The type of a discriminant is no opaque data. -/
theorem selects_convert {ds : List Definition} {cfg : Config} (hrt : cfg.remove_typedef = true)
    {cond : TypeSpecifier} {v : Value} {k : Int} (h : Selects ds cond v k) (n : Nat) :
    (∀ e, convert_primitive_token (convert_type_token (setup_context ds cfg) n) (setup_context ds cfg) cond ≠
      .err e) ∧
    ∀ ty op, convert_primitive_token (convert_type_token (setup_context ds cfg) n) (setup_context ds cfg) cond =
      .ok (ty, op) → op = .none := by
  have camel : ∀ s e, upper_camel_case_ident s ≠ .err e := by
    intro s e h
    unfold upper_camel_case_ident mkIdent at h
    split at h
    · split at h
      · cases h
      · split at h <;> cases h
    · split at h <;> cases h
  induction h generalizing n with
  | int _ =>
    simp only [convert_primitive_token]
    exact ⟨fun e h => (by cases h), fun ty op h => by cases h; rfl⟩
  | false =>
    simp only [convert_primitive_token]
    exact ⟨fun e h => (by cases h), fun ty op h => by cases h; rfl⟩
  | true =>
    simp only [convert_primitive_token]
    exact ⟨fun e h => (by cases h), fun ty op h => by cases h; rfl⟩
  | @enum name e as a k ht _ _ =>
    have h' : (setup_context ds cfg).config.remove_typedef = true := hrt
    simp only [convert_primitive_token, resolve_type_token, h', Bool.not_true, Bool.false_eq_true, if_false,
      typedefs_find, ht, Option.map_some]
    cases hc : upper_camel_case_ident name with
    | err e => exact absurd hc (camel _ _)
    | ok i => exact ⟨fun e h => (by cases h), fun ty op h => by cases h; rfl⟩
    | panic p => exact ⟨fun e h => (by cases h), fun ty op h => by cases h⟩
    | depth => exact ⟨fun e h => (by cases h), fun ty op h => by cases h⟩
  | @typedef name nm ts v k ht _ _ ih =>
    have h' : (setup_context ds cfg).config.remove_typedef = true := hrt
    simp only [convert_primitive_token, resolve_type_token, h', Bool.not_true, Bool.false_eq_true, if_false,
      typedefs_find, ht, Option.map_some]
    cases n with
    | zero => exact ⟨fun e h => (by cases h), fun ty op h => by cases h⟩
    | succ n =>
      simp only [convert_type_token, convertTypeWith]
      obtain ⟨h1, h2⟩ := ih n
      cases hc : convert_primitive_token (convert_type_token (setup_context ds cfg) n) (setup_context ds cfg) ts with
      | err e => exact absurd hc (h1 _)
      | ok p =>
        obtain ⟨ty, op⟩ := p
        refine ⟨fun e h => (by cases h), fun ty' op' h => ?_⟩
        have := GR.ok.inj h
        cases this
        exact h2 _ _ hc
      | panic p => exact ⟨fun e h => (by cases h), fun ty op h => by cases h⟩
      | depth => exact ⟨fun e h => (by cases h), fun ty op h => by cases h⟩

end Xdr.Rpcgen
