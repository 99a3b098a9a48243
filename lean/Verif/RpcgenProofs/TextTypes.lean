import Verif.RpcgenProofs.TextMeaning
/-!
# Types, functions and impls in the text of a generated file
-/

namespace Xdr.Rpcgen

/-! ## Types -/

/-- A name of a type of the file: not one of Rust's. -/
def OwnName (i : RIdent) : Prop := i.name ∉ usedTypes ∧ ∀ c, i.name.head? = some c → isLower c = false

theorem primitive_own {i : RIdent} (h : OwnName i) : primitive i.name = none := by
  obtain ⟨h1, h2⟩ := h
  unfold primitive
  rw [List.lookup_eq_none_iff]
  intro p hp
  rw [bne_iff_ne]
  intro he
  rw [he] at h1 h2
  simp only [List.mem_cons, List.not_mem_nil, or_false] at hp
  rcases hp with rfl | rfl | rfl | rfl | rfl | rfl | rfl | rfl | rfl | rfl | rfl | rfl
  all_goals first
    | exact absurd (h2 _ rfl) (by decide)
    | exact h1 (by decide)

theorem rustType_named {items : List RItem} {i : RIdent} (h : OwnName i) :
    rustType items (tyNamed i) = some (.named i.str) := by
  unfold tyNamed
  rw [rustType, primitive_own h, identString_str]
  split <;> rfl

theorem arrayOf_eq (len : Option Nat) (k : Nat → Ty) : arrayOf len k = arrayTy len k := by
  cases len <;> rfl

theorem rustType_ast {f : RustFile} (hs : f.Scoped) {t : RTy} (hp : ∀ p ∈ t.paths, OwnName p) :
    ∀ {r : Ty}, t.meaning f.constants = some r → rustType f.ast t.ast = some r := by
  induction t with
  | path i =>
    intro r h
    cases h
    exact rustType_named (hp i (by simp [RTy.paths]))
  | array t len b ih =>
    intro r h
    simp only [RTy.meaning, Option.bind_eq_some_iff] at h
    obtain ⟨r', h1, h2⟩ := h
    obtain ⟨k, hk, -⟩ := arrayTy_some h2
    rw [RTy.ast, rustType, ih hp h1, lengthOf_ast hs hk]
    dsimp only [Option.bind_some]
    rw [arrayOf_eq, ← hk, h2]
  | vec t ih =>
    intro r h
    simp only [RTy.meaning, Option.map_eq_some_iff] at h
    obtain ⟨r', h1, rfl⟩ := h
    rw [RTy.ast, tyPath, rustType, if_pos (by rfl), ih hp h1]
    rfl
  | option t ih =>
    intro r h
    simp only [RTy.meaning, Option.map_eq_some_iff] at h
    obtain ⟨r', h1, rfl⟩ := h
    rw [RTy.ast, tyPath, rustType, if_neg (by decide), if_pos (by rfl), ih hp h1]
    rfl
  | box t ih =>
    intro r h
    rw [RTy.ast, tyPath, rustType, if_neg (by decide), if_neg (by decide), if_pos (by rfl)]
    exact ih hp h
  | variableArray =>
    intro r h
    cases h
    rfl
  | _ =>
    intro r h
    cases h
    rfl

/-! ## Functions -/

theorem find_arms {X : Type} {g : X → RPattern × RExpr} {xs : List X} {a : Arg} {q : X → Bool}
    (h : ∀ x ∈ xs, (g x).1.takes a = q x) (rest : List (RPattern × RExpr)) :
    (xs.map g ++ rest).find? (fun arm => arm.1.takes a) =
      ((xs.find? q).map g).or (rest.find? fun arm => arm.1.takes a) := by
  induction xs with
  | nil => rfl
  | cons x xs ih =>
    rw [List.map_cons, List.cons_append, List.find?_cons, List.find?_cons, h x (by simp)]
    cases q x
    · exact ih fun y hy => h y (by simp [hy])
    · rfl

theorem bodyValue_match (w : Str) (a : Arg) (arms : List (RPattern × RExpr)) :
    bodyValue (nameOf w) a (matchWord w arms) =
      match arms.find? fun arm => arm.1.takes a with
      | some arm => arm.2.value
      | none => .stuck := by
  unfold matchWord
  rw [bodyValue, if_pos (by rfl)]
  cases arms.find? fun arm => arm.1.takes a <;> rfl

theorem value_int (v : Int) : (intExpr v).value = .int c!"i32" v := by
  unfold intExpr intOperand
  rw [RExpr.value, litValue_int]
  rfl

theorem value_okStringify (i : RIdent) : (okStringifyAst [identLex i]).value = .wrapped (wordsPath false [c!"Ok"]) (.str i.str) := by
  rw [← identString_str]
  rfl

theorem result_ok {α : Type} {g : RVal → Option α} {o : RVal} {a : α} (h : g o = some a) :
    (RVal.wrapped (wordsPath false [c!"Ok"]) o).result g = .ok a := by
  show (match g o with
    | some a => Res.ok a
    | none => .panic .illTyped) = _
  rw [h]

theorem result_none {α : Type} {g : RVal → Option α} {o : RVal} (h : g o = none) :
    (RVal.wrapped (wordsPath false [c!"Ok"]) o).result g = .panic .illTyped := by
  show (match g o with
    | some a => Res.ok a
    | none => .panic .illTyped) = _
  rw [h]

theorem result_err {α : Type} (g : RVal → Option α) (b : Bool) : (errExpr b).value.result g = .err .convert := by
  cases b <;> rfl

theorem takes_intPat_iff (t : IntTy) (a k : Int) : (intPat t a).takes (.int t.suffix k) = decide (a = k) := by
  unfold intPat
  rw [RPattern.takes, litValue_int]
  simp

theorem takes_variant_iff (name i j : RIdent) :
    (RPattern.path ⟨false, [name, i]⟩).takes (.variant [name, j] 0) = decide (i = j) := by
  rw [RPattern.takes]
  simp

/-- The variants of an enum without fields. -/
def enumVariants (vs : List (RIdent × Int)) : List RVariant :=
  vs.map fun v => ⟨[], v.1, none, some (intOperand .i32 v.2)⟩

theorem variantArg_enum (name : RIdent) (vs : List (RIdent × Int)) (i : Nat) :
    variantArg name (enumVariants vs) i = match vs[i]? with
      | some v => .variant [name, v.1] 0
      | none => .other := by
  unfold variantArg enumVariants
  rw [List.getElem?_map]
  cases vs[i]? <;> rfl

/-- A match on a variant. -/
theorem find_variant {X : Type} {name : RIdent} {vs : List (RIdent × Int)} {arms : List X} {k : X → RIdent} {e : X → RExpr}
    (i : Nat) :
    (arms.map fun a => (RPattern.path ⟨false, [name, k a]⟩, e a)).find?
        (fun arm => arm.1.takes (variantArg name (enumVariants vs) i)) =
      ((vs[i]?).bind fun v => arms.find? fun a => k a = v.1).map fun a => (RPattern.path ⟨false, [name, k a]⟩, e a) := by
  rw [variantArg_enum]
  have := find_arms (g := fun a => (RPattern.path ⟨false, [name, k a]⟩, e a)) (xs := arms)
    (a := match vs[i]? with
      | some v => .variant [name, v.1] 0
      | none => .other) (q := fun a => match vs[i]? with
      | some v => decide (k a = v.1)
      | none => false) (fun a _ => by
        cases vs[i]? with
        | none => rfl
        | some v => exact takes_variant_iff _ _ _) []
  rw [List.append_nil, List.find?_nil, Option.or_none] at this
  rw [this]
  cases vs[i]? with
  | none => simp
  | some v => rfl

theorem arm_eq {α β : Type} [DecidableEq α] (k : α) (arms : List (α × β)) :
    arm k arms = (arms.find? fun a => decide (a.1 = k)).map (·.2) := rfl

/-! ## Impls -/

theorem findImpl_nil (tr t : RType) : findImpl [] tr t = none := rfl

theorem findImpl_enum (a : List RAttr) (b : Bool) (n : RIdent) (vs : List RVariant) (l : List RItem) (tr t : RType) :
    findImpl (.enum a b n vs :: l) tr t = findImpl l tr t := rfl

theorem findImpl_hit (tr t : RType) (ms : List RMember) (l : List RItem) :
    findImpl (.impl tr t ms :: l) tr t = some ms := by
  simp [findImpl]

theorem findImpl_miss {tr' tr : RType} (h : tr' ≠ tr) (t' t : RType) (ms : List RMember) (l : List RItem) :
    findImpl (.impl tr' t' ms :: l) tr t = findImpl l tr t := by
  simp [findImpl, h]

theorem findFn_hit (n : Str) (x : RIdent) (t r : RType) (b : RExpr) (ms : List RMember) :
    findFn (.fn (nameOf n) [.typed x t] r b :: ms) n (some t) r = some (x, b) := by
  simp [findFn]

theorem findFn_self (n : Str) (r : RType) (b : RExpr) (ms : List RMember) :
    findFn (.fn (nameOf n) [.refSelf] r b :: ms) n none r = some (nameOf c!"self", b) := by
  simp [findFn]

theorem findFn_assoc (i : RIdent) (t : RType) (ms : List RMember) (n : Str) (p : Option RType) (r : RType) :
    findFn (.assoc i t :: ms) n p r = findFn ms n p r := rfl

theorem findFn_miss {m n : Str} (h : m ≠ n) (x : RIdent) (t r' : RType) (b : RExpr) (ms : List RMember) (p : Option RType)
    (r : RType) : findFn (.fn (nameOf m) [.typed x t] r' b :: ms) n p r = findFn ms n p r := by
  have : nameOf m ≠ nameOf n := by simpa [nameOf] using h
  simp [findFn, this]

theorem findAssoc_hit (n : Str) (t : RType) (ms : List RMember) : findAssoc (.assoc (nameOf n) t :: ms) n = some t := by
  simp [findAssoc]

theorem isError_error (b : Bool) : isError (errorTy b) = true := by cases b <;> decide

theorem findEnum_enum {f : RustFile} (hnd : (f.types.map (·.name.str)).Nodup) {e : EnumItem} (he : .enum e ∈ f.types) :
    findEnum f.ast e.name = some (enumVariants e.variants) := by
  have := findEnum_type hnd he
  rw [show (Item.enum e).name = e.name from rfl] at this
  rw [this]
  unfold findEnum Item.ast EnumItem.ast enumVariants
  simp

theorem asRef_impl {f : RustFile} (hnd : (f.types.map (·.name.str)).Nodup) {e : EnumItem} (he : .enum e ∈ f.types)
    {arms : List (RIdent × Int)} (ha : e.asRef = some arms) :
    findImpl f.ast (.app (tyPath [c!"AsRef"]) (tyPath [c!"i32"])) (tyNamed e.name) =
      some [.fn (nameOf c!"as_ref") [.refSelf] (.ref (some c!"static") (tyPath [c!"i32"]))
      (matchWord c!"self" (arms.map fun a => (.path ⟨false, [e.name, a.1]⟩, .ref (intExpr a.2))))] := by
  have := findImpl_type hnd he (.app (tyPath [c!"AsRef"]) (tyPath [c!"i32"]))
  rw [show (Item.enum e).name = e.name from rfl] at this
  rw [this, Item.ast, EnumItem.ast, ha]
  simp only [Option.map_some, Option.toList_some, List.cons_append, List.nil_append]
  rw [findImpl_enum, implDefaultAst, findImpl_miss (by decide), asRefAst, findImpl_hit]

theorem tryFrom_impl {f : RustFile} (hnd : (f.types.map (·.name.str)).Nodup) {e : EnumItem} (he : .enum e ∈ f.types)
    {arms : List (RIdent × Int)} (ha : e.asRef = some arms) {arms' : List (Int × RIdent)} (ht : e.tryFrom = some arms') :
    findImpl f.ast (.app (tyPath [c!"TryFrom"]) (tyPath [c!"i32"])) (tyNamed e.name) =
      some [.assoc (nameOf c!"Error") (errorTy false),
     .fn (nameOf c!"try_from") [.typed (nameOf c!"v") (tyPath [c!"i32"])]
      (.app (.app (tyPath [c!"Result"]) (tyPath [c!"Self"])) (errorTy false))
      (matchWord c!"v" (arms'.map (fun a => (intPat .i32 a.1,
          RExpr.call (wordsPath false [c!"Ok"]) [.operand (.path ⟨false, [e.name, a.2]⟩)])) ++
        [(.wild, errExpr false)]))] := by
  have := findImpl_type hnd he (.app (tyPath [c!"TryFrom"]) (tyPath [c!"i32"]))
  rw [show (Item.enum e).name = e.name from rfl] at this
  rw [this, Item.ast, EnumItem.ast, ha, ht]
  simp only [Option.map_some, Option.toList_some, List.cons_append, List.nil_append]
  rw [findImpl_enum, implDefaultAst, findImpl_miss (by decide), asRefAst, findImpl_miss (by decide), tryFromAst,
    findImpl_hit]

theorem as_ref_value {name : RIdent} {vs : List (RIdent × Int)} {arms : List (RIdent × Int)} (v : Val) :
    (match v with
      | .variant i _ =>
        match bodyValue (nameOf c!"self") (variantArg name (enumVariants vs) i)
            (matchWord c!"self" (arms.map fun a => (.path ⟨false, [name, a.1]⟩, .ref (intExpr a.2)))) with
        | .int ty k => if ty = c!"i32" then Int32.ofInt k else 0
        | _ => 0
      | _ => 0) = (match v with
    | .variant i _ => Int32.ofInt (((vs[i]?).bind fun v => arm v.1 arms).getD 0)
    | _ => 0) := by
  cases v with
  | variant i _ =>
    dsimp only
    rw [bodyValue_match, find_variant]
    cases vs[i]? with
    | none => rfl
    | some w =>
      simp only [Option.bind_some, arm_eq]
      cases arms.find? fun a => decide (a.1 = w.1) with
      | none => rfl
      | some a =>
        dsimp only [Option.map_some]
        rw [RExpr.value, value_int]
        rfl
  | _ => rfl

theorem try_from_value {name : RIdent} {vs : List (RIdent × Int)} {arms : List (Int × RIdent)} (k : Int32) :
    (bodyValue (nameOf c!"v") (.int c!"i32" k.toInt) (matchWord c!"v" (arms.map (fun a => (intPat .i32 a.1,
          RExpr.call (wordsPath false [c!"Ok"]) [.operand (.path ⟨false, [name, a.2]⟩)])) ++
        [(.wild, errExpr false)]))).result (RVal.variantOf name (enumVariants vs)) =
      match arm k.toInt arms with
      | some id =>
        match variantPos id vs with
        | some i => .ok (.variant i [])
        | none => .panic .illTyped
      | none => .err .convert := by
  rw [bodyValue_match, find_arms (q := fun a => decide (a.1 = k.toInt)) (fun a _ => takes_intPat_iff .i32 a.1 k.toInt), arm_eq]
  cases arms.find? fun a => decide (a.1 = k.toInt) with
  | none => exact result_err _ false
  | some a =>
    dsimp only [Option.map_some, Option.some_or]
    rw [RExpr.value, RExpr.value]
    have h1 : RVal.variantOf name (enumVariants vs) (.variant ⟨false, [name, a.2]⟩) =
        (variantPos a.2 vs).map fun i => .variant i [] := by
      rw [RVal.variantOf, enumVariants, List.findIdx?_map, variantPos]
      congr 2
      funext v
      simp only [Function.comp_apply, RPath.mk.injEq, List.cons.injEq, and_true, true_and]
      exact decide_eq_decide.2 eq_comm
    cases hv : variantPos a.2 vs with
    | none =>
      rw [hv] at h1
      exact result_none h1
    | some i =>
      rw [hv] at h1
      exact result_ok h1

theorem signed32_ast {f : RustFile} (hnd : (f.types.map (·.name.str)).Nodup) {e : EnumItem} (he : .enum e ∈ f.types)
    {a : List (RIdent × Int)} (ha : e.asRef = some a) {t : List (Int × RIdent)} (ht : e.tryFrom = some t) :
    signed32ImplOf f.ast e.name = some (signed32Of e.variants a t) := by
  unfold signed32ImplOf
  rw [findEnum_enum hnd he]
  dsimp only [Option.bind_some]
  rw [asRef_impl hnd he ha]
  dsimp only [Option.bind_some]
  rw [findFn_self]
  dsimp only [Option.bind_some]
  rw [tryFrom_impl hnd he ha ht]
  dsimp only [Option.bind_some]
  rw [findAssoc_hit]
  dsimp only [Option.bind_some]
  rw [findFn_assoc, findFn_hit]
  dsimp only [Option.bind_some]
  rw [if_pos (isError_error false)]
  congr 1
  unfold signed32Of
  congr 1
  · funext v
    exact as_ref_value v
  · funext k
    exact try_from_value k

/-! ## Fields -/

theorem field_ast {f : RustFile} (hs : f.Scoped) (hnd : (f.types.map (·.name.str)).Nodup) {a : Attr} {t : RTy}
    (hp : ∀ p ∈ t.paths, OwnName p) {r : Ty} (h : fieldMeaning f.constants f.enums a t = some r) :
    fieldOf f.ast a.ast t.ast = some r := by
  unfold fieldMeaning at h
  split at h
  · exact rustType_ast hs hp h
  · rename_i len cast
    obtain ⟨k, hk, -⟩ := arrayTy_some h
    show (if (RTy.u8.ast) = tyPath [c!"u8"] then arrayOf (lengthOf f.ast _) Ty.opaqueFixed else none) = _
    rw [if_pos (by rfl), lengthOf_ast hs hk, arrayOf_eq, ← hk, h]
  · cases h
    rfl
  · rename_i i
    split at h
    · rename_i e hf
      have he := mem_enums.1 (List.mem_of_find?_eq_some hf)
      have hn : e.name = i := by simpa using List.find?_some hf
      subst hn
      split at h
      · rename_i a' t' h1 h2
        cases h
        show ((signed32ImplOf f.ast e.name).map fun s => Ty.signed32 (identString e.name) s) = _
        rw [signed32_ast hnd he h1 h2, identString_str]
        rfl
      · cases h
    · cases h
  · cases h

end Xdr.Rpcgen
