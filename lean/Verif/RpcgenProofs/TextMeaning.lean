import Verif.RpcgenProofs.TextUse
/-!
# What the text of a generated file defines
-/

namespace Xdr.Rpcgen

/-! ## Literals -/

theorem digitsValue_append (s : Str) (c : Char) : digitsValue (s ++ [c]) = 10 * digitsValue s + (c.toNat - 48) := by
  simp [digitsValue, List.foldl_append]

theorem digit_toNat {n : Nat} (h : n < 10) : (Char.ofNat (48 + n)).toNat - 48 = n := by
  have : n = 0 ∨ n = 1 ∨ n = 2 ∨ n = 3 ∨ n = 4 ∨ n = 5 ∨ n = 6 ∨ n = 7 ∨ n = 8 ∨ n = 9 := by omega
  rcases this with rfl | rfl | rfl | rfl | rfl | rfl | rfl | rfl | rfl | rfl <;> rfl

theorem digitsValue_digits {f n : Nat} (h : n < f) : digitsValue (digitsFuel f n) = n := by
  induction f generalizing n with
  | zero => omega
  | succ f ih =>
    unfold digitsFuel
    split
    · rename_i h1
      have := digitsValue_append [] (Char.ofNat (48 + n))
      rw [List.nil_append] at this
      rw [this, digit_toNat h1]
      simp [digitsValue]
    · rw [digitsValue_append, ih (by omega), digit_toNat (by omega)]
      omega

theorem suffix_head (t : IntTy) : ∃ c s, t.suffix = c :: s ∧ isDigit c = false := by
  cases t <;> exact ⟨_, _, rfl, by decide⟩

theorem litValue_int (t : IntTy) (v : Int) :
    litValue (decide (v < 0)) (intToString (v.natAbs : Int) ++ t.suffix) = (v, t.suffix) := by
  have h1 : intToString (v.natAbs : Int) = digitsFuel (v.natAbs + 1) v.natAbs := by
    unfold intToString
    rw [if_neg (by omega)]
    rfl
  obtain ⟨c, s, hs, hc⟩ := suffix_head t
  have h2 : (digitsFuel (v.natAbs + 1) v.natAbs ++ t.suffix).takeWhile isDigit = digitsFuel (v.natAbs + 1) v.natAbs := by
    rw [List.takeWhile_append_of_pos digits_digit, hs, List.takeWhile_cons_of_neg (by simp [hc]), List.append_nil]
  have h3 : (digitsFuel (v.natAbs + 1) v.natAbs ++ t.suffix).dropWhile isDigit = t.suffix := by
    rw [List.dropWhile_append_of_pos digits_digit, hs, List.dropWhile_cons_of_neg (by simp [hc])]
  unfold litValue
  rw [h1]
  dsimp only
  rw [h2, h3, digitsValue_digits (by omega)]
  congr 1
  by_cases hv : v < 0
  · rw [decide_eq_true hv]
    simp only [if_true]
    omega
  · rw [decide_eq_false hv]
    simp only [Bool.false_eq_true, if_false]
    omega

theorem suffix_inj {s t : IntTy} (h : s.suffix = t.suffix) : s = t := by
  cases s <;> cases t <;> first | rfl | exact absurd h (by decide)

theorem identString_str (i : RIdent) : identString i = i.str := by
  unfold identString RIdent.str RIdent.text
  cases i.raw <;> rfl

/-! ## What an item of the file contributes -/

/-- Items that say nothing about enums, constants and impls. -/
theorem findSome_append {α β : Type} {p : α → Option β} {a b : List α} (h : ∀ x ∈ a, p x = none) :
    (a ++ b).findSome? p = b.findSome? p := by
  rw [List.findSome?_append, List.findSome?_eq_none_iff.2 h, Option.none_or]

theorem findSome_append_right {α β : Type} {p : α → Option β} {a b : List α} (h : ∀ x ∈ b, p x = none) :
    (a ++ b).findSome? p = a.findSome? p := by
  rw [List.findSome?_append, List.findSome?_eq_none_iff.2 h, Option.or_none]

/-- The imports. -/
def RustFile.uses (f : RustFile) : List RItem :=
  [.use [[nameOf c!"serde", nameOf c!"Deserialize"], [nameOf c!"serde", nameOf c!"Serialize"]]] ++
  (if f.useTuple then [useAst [c!"serde", c!"ser", c!"SerializeTuple"]] else []) ++
  (if f.useIndexer then [useAst [c!"serde_xdr", c!"XdrIndexer"], useAst [c!"serde_xdr_derive", c!"XdrIndexer"]]
    else []) ++
  (if f.useUnion then [useAst [c!"serde_xdr", c!"XdrUnion"], useAst [c!"serde_xdr_derive", c!"XdrUnion"]]
    else [])

theorem ast_eq (f : RustFile) : f.ast = f.uses ++ (f.constants.map ConstItem.ast ++ f.types.flatMap Item.ast) := by
  simp only [RustFile.ast, RustFile.uses, List.append_assoc]

theorem uses_use {f : RustFile} {i : RItem} (h : i ∈ f.uses) : ∃ ps, i = .use ps := by
  unfold RustFile.uses at h
  simp only [List.mem_append] at h
  rcases h with ((h | h) | h) | h
  · simp only [List.mem_singleton] at h
    exact ⟨_, h⟩
  · split at h
    · simp only [List.mem_singleton] at h
      exact ⟨_, h⟩
    · cases h
  · split at h
    · simp only [List.mem_cons, List.not_mem_nil, or_false] at h
      rcases h with h | h <;> exact ⟨_, h⟩
    · cases h
  · split at h
    · simp only [List.mem_cons, List.not_mem_nil, or_false] at h
      rcases h with h | h <;> exact ⟨_, h⟩
    · cases h

/-- An item of a type: the type itself or an impl for it. -/
def OfType (name : RIdent) : RItem → Prop
  | .alias _ n _ => n = name
  | .enum _ _ n _ => n = name
  | .struct _ _ n _ => n = name
  | .impl _ t _ => t = tyNamed name
  | _ => False

theorem item_ofType (i : Item) : ∀ x ∈ i.ast, OfType i.name x := by
  intro x hx
  cases i with
  | «alias» n t =>
    simp only [Item.ast, List.mem_singleton] at hx
    subst hx
    rfl
  | struct s =>
    simp only [Item.ast, StructItem.ast, List.mem_singleton] at hx
    subst hx
    rfl
  | enum e =>
    simp only [Item.ast, EnumItem.ast, List.mem_append, List.mem_cons, List.not_mem_nil, or_false, Option.mem_toList,
      Option.mem_def, Option.map_eq_some_iff] at hx
    rcases hx with (((rfl | rfl) | ⟨_, _, rfl⟩) | ⟨_, _, rfl⟩) | ⟨_, _, rfl⟩ <;> exact rfl
  | union u =>
    simp only [Item.ast, UnionItem.ast, List.mem_append, List.mem_cons, List.not_mem_nil, or_false, Option.mem_toList,
      Option.mem_def, Option.map_eq_some_iff, Option.bind_eq_some_iff] at hx
    rcases hx with ((rfl | rfl) | ⟨_, _, rfl⟩) | ⟨_, _, _, _, rfl⟩ <;> exact rfl

/-- Something that only items of one type have is found among the items of that type. -/
theorem find_type {f : RustFile} (hnd : (f.types.map (·.name.str)).Nodup) {i : Item} (hi : i ∈ f.types) {β : Type}
    {p : RItem → Option β} (hp : ∀ x, (p x).isSome = true → OfType i.name x) :
    f.ast.findSome? p = i.ast.findSome? p := by
  have hne : ∀ j ∈ f.types, j.name ≠ i.name → ∀ x ∈ j.ast, p x = none := by
    intro j _ hj x hx
    by_contra hc
    have h1 := hp x (Option.ne_none_iff_isSome.1 hc)
    have h2 := item_ofType j x hx
    cases x with
    | «alias» _ n _ => exact hj (h2.symm.trans h1)
    | enum _ _ n _ => exact hj (h2.symm.trans h1)
    | struct _ _ n _ => exact hj (h2.symm.trans h1)
    | impl _ t _ =>
      have h3 : tyNamed j.name = tyNamed i.name := h2.symm.trans h1
      simp only [tyNamed, RType.path.injEq, RPath.mk.injEq, List.cons.injEq, and_true, true_and] at h3
      exact hj h3
    | use _ => exact h2
    | const _ _ _ _ => exact h2
  have hnone : ∀ x ∈ f.uses, p x = none := by
    intro x hx
    obtain ⟨ps, rfl⟩ := uses_use hx
    by_contra hc
    exact hp _ (Option.ne_none_iff_isSome.1 hc)
  have hconst : ∀ x ∈ f.constants.map ConstItem.ast, p x = none := by
    intro x hx
    obtain ⟨c, -, rfl⟩ := List.mem_map.1 hx
    by_contra hc
    exact hp _ (Option.ne_none_iff_isSome.1 hc)
  rw [ast_eq, findSome_append hnone, findSome_append hconst]
  obtain ⟨a, b, hab⟩ := List.append_of_mem hi
  rw [hab, List.map_append, List.map_cons, List.nodup_append] at hnd
  obtain ⟨-, hnd2, hnd3⟩ := hnd
  rw [List.nodup_cons] at hnd2
  have ha : ∀ j ∈ a, j.name ≠ i.name := by
    intro j hj he
    exact hnd3 j.name.str (List.mem_map_of_mem hj) i.name.str (by simp) (by rw [he])
  have hb : ∀ j ∈ b, j.name ≠ i.name := by
    intro j hj he
    exact hnd2.1 (by rw [← he]; exact List.mem_map_of_mem hj)
  rw [hab, List.flatMap_append, List.flatMap_cons, findSome_append, findSome_append_right]
  · intro x hx
    obtain ⟨j, hj, hx⟩ := List.mem_flatMap.1 hx
    exact hne j (by rw [hab]; simp [hj]) (hb j hj) x hx
  · intro x hx
    obtain ⟨j, hj, hx⟩ := List.mem_flatMap.1 hx
    exact hne j (by rw [hab]; simp [hj]) (ha j hj) x hx

theorem findEnum_type {f : RustFile} (hnd : (f.types.map (·.name.str)).Nodup) {i : Item} (hi : i ∈ f.types) :
    findEnum f.ast i.name = findEnum i.ast i.name := by
  refine find_type hnd hi fun x hx => ?_
  cases x <;> dsimp only at hx
  all_goals first
    | (simp at hx; done)
    | (split at hx
       · assumption
       · simp at hx)

theorem findImpl_type {f : RustFile} (hnd : (f.types.map (·.name.str)).Nodup) {i : Item} (hi : i ∈ f.types) (tr : RType) :
    findImpl f.ast tr (tyNamed i.name) = findImpl i.ast tr (tyNamed i.name) := by
  refine find_type hnd hi fun x hx => ?_
  cases x <;> dsimp only at hx
  all_goals first
    | (simp at hx; done)
    | (split at hx
       · rename_i h
         exact h.2
       · simp at hx)

theorem findConst_ast (f : RustFile) (i : RIdent) :
    findConst f.ast i = (f.constants.find? fun c => c.name = i).map fun c =>
      (tyPath [c.ty.suffix], .operand c.value.operand) := by
  unfold findConst
  rw [ast_eq, findSome_append, findSome_append_right]
  · induction f.constants with
    | nil => rfl
    | cons c cs ih =>
      rw [List.map_cons, List.findSome?_cons, List.find?_cons]
      by_cases h : c.name = i
      · simp [ConstItem.ast, h]
      · simp only [ConstItem.ast, h, if_false, decide_false]
        exact ih
  · intro x hx
    obtain ⟨j, -, hx⟩ := List.mem_flatMap.1 hx
    have := item_ofType j x hx
    cases x with
    | const _ _ _ _ => cases this
    | _ => rfl
  · intro x hx
    obtain ⟨ps, rfl⟩ := uses_use hx
    rfl

/-! ## Constants and lengths -/

theorem constInt_of {f : RustFile} {t : IntTy} : ∀ {n m : Nat} {k : Tok} {v : Int}, n ≤ m →
    constValue f.constants t n k = some v → constInt f.ast t.suffix m k.operand = some v := by
  intro n
  induction n with
  | zero => intro m k v _ h; cases h
  | succ n ih =>
    intro m k v hm h
    obtain ⟨m, rfl⟩ : ∃ m', m = m' + 1 := ⟨m - 1, by omega⟩
    cases k with
    | lit t' w =>
      simp only [constValue] at h
      split at h
      · rename_i ht
        subst ht
        cases h
        rw [Tok.operand, intOperand, constInt, litValue_int, if_pos rfl]
      · cases h
    | ident i =>
      simp only [constValue] at h
      split at h
      · rename_i c hf
        split at h
        · rename_i ht
          rw [Tok.operand, constInt, findConst_ast, hf]
          dsimp only [Option.map_some]
          rw [if_pos (by rw [ht])]
          exact ih (by omega) h
        · cases h
      · cases h

theorem constants_le (f : RustFile) : f.constants.length + 2 ≤ f.ast.length + 1 := by
  have h : 1 ≤ f.uses.length := by
    simp only [RustFile.uses, List.length_append, List.length_singleton]
    omega
  rw [ast_eq, List.length_append, List.length_append, List.length_map]
  omega

/-- A constant has one type. -/
theorem constInt_other {f : RustFile} {ty : Str} {c : ConstItem} {i : RIdent}
    (hf : (f.constants.find? fun c => c.name = i) = some c) (h : c.ty.suffix ≠ ty) (n : Nat) :
    constInt f.ast ty n (Tok.ident i).operand = none := by
  cases n with
  | zero => rfl
  | succ n =>
    rw [Tok.operand, constInt, findConst_ast, hf]
    dsimp only [Option.map_some]
    rw [if_neg]
    intro he
    simp only [tyPath, List.map_cons, List.map_nil, RType.path.injEq, RPath.mk.injEq, List.cons.injEq, and_true, true_and,
      nameOf, RIdent.mk.injEq] at he
    exact h he

theorem constInt_lit_other {f : RustFile} {t : IntTy} {v : Int} {ty : Str} (h : t.suffix ≠ ty) (n : Nat) :
    constInt f.ast ty n (Tok.lit t v).operand = none := by
  cases n with
  | zero => rfl
  | succ n => rw [Tok.operand, intOperand, constInt, litValue_int, if_neg h]

theorem lengthOf_ast {f : RustFile} (hs : f.Scoped) {len : Tok} {cast : Bool} {n : Nat}
    (h : arrayLen f.constants len cast = some n) :
    lengthOf f.ast (if cast then .cast len.operand (wordsPath false [c!"usize"]) else len.operand) = some n := by
  cases len with
  | lit t v =>
    simp only [arrayLen] at h
    split at h
    · rename_i ht
      subst ht
      cases h
      have h1 : constInt f.ast c!"usize" (f.ast.length + 1) (Tok.lit .usize v).operand = some v :=
        constInt_of (t := .usize) (n := 1) (by omega) (by simp [constValue])
      cases cast
      · simp only [Bool.false_eq_true, if_false]
        rw [Tok.operand, intOperand] at h1 ⊢
        rw [lengthOf, h1]
        · rfl
        · simp
      · simp only [if_true]
        rw [lengthOf, if_pos (by decide)]
        simp only [List.findSome?_cons, h1]
        rw [constInt_lit_other (by decide), constInt_lit_other (by decide), constInt_lit_other (by decide),
          constInt_lit_other (by decide)]
        rfl
    · cases h
  | ident i =>
    simp only [arrayLen] at h
    split at h
    · rename_i hc
      split at h
      · rename_i c hf
        simp only [Option.map_eq_some_iff] at h
        obtain ⟨v, hv, rfl⟩ := h
        have h1 : constInt f.ast c.ty.suffix (f.ast.length + 1) (Tok.ident i).operand = some v := by
          refine constInt_of (n := f.constants.length + 2) (constants_le f) ?_
          simp only [constValue, hf, if_true]
          exact hv
        rw [if_pos hc, lengthOf, if_pos (by decide)]
        simp only [List.findSome?_cons]
        rcases hs.constants c (find_const hf).1 with ht | ht
        · rw [ht] at h1
          rw [show constInt f.ast c!"u32" _ _ = _ from h1, constInt_other hf (by rw [ht]; decide),
            constInt_other hf (by rw [ht]; decide)]
          rfl
        · rw [ht] at h1
          rw [show constInt f.ast c!"u64" _ _ = _ from h1, constInt_other hf (by rw [ht]; decide),
            constInt_other hf (by rw [ht]; decide), constInt_other hf (by rw [ht]; decide)]
          rfl
      · cases h
    · cases h

end Xdr.Rpcgen
