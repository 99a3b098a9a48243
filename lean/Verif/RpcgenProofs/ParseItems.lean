import Verif.RpcgenProofs.ParseRust
/-!
# The generated file is parsed back
-/

namespace Xdr.Rpcgen

/-! ## Conditions -/

/-- The name of a variant. -/
def Tok.IsName (t : Tok) : Prop := ∃ i : RIdent, t = .ident i ∧ i.usable = true

structure EnumItem.Use (e : EnumItem) : Prop where
  name : e.name.usable = true
  variants : ∀ v ∈ e.variants, v.1.usable = true
  default : e.default.usable = true
  asRef : ∀ arms, e.asRef = some arms → ∀ a ∈ arms, a.1.usable = true
  tryFrom : ∀ arms, e.tryFrom = some arms → arms ≠ [] ∧ ∀ a ∈ arms, a.2.usable = true
  indexer : ∀ ix, e.indexer = some ix → ix.byIndex ≠ [] ∧ ix.index ≠ [] ∧ ∀ a ∈ ix.index, a.1.usable = true

structure StructItem.Use (s : StructItem) : Prop where
  name : s.name.usable = true
  fields : ∀ f ∈ s.fields, f.2.1.usable = true ∧ f.2.2.Use

structure Variant.Use (v : Variant) : Prop where
  name : v.name.IsName
  fields : ∀ t ∈ v.fields, t.Use

def Pat.Use : Pat → Prop
  | .path c v => c.usable = true ∧ v.usable = true
  | _ => True

structure UnionItem.Use (u : UnionItem) : Prop where
  name : u.name.usable = true
  variants : ∀ v ∈ u.variants, v.Use
  default : u.default.1.IsName
  indexer : ∀ ix, u.indexer = some ix → ix.byIndex ≠ [] ∧ ix.index ≠ [] ∧ (∀ a ∈ ix.byIndex, a.2.IsName) ∧
    ∀ a ∈ ix.index, a.1.IsName
  union : ∀ un, u.union = some un → (∃ t, un.cond = some t ∧ t.Use) ∧ un.byValue ≠ [] ∧
    ∀ a ∈ un.byValue, a.1.Use ∧ a.2.IsName

def Item.Use : Item → Prop
  | .alias name ty => name.usable = true ∧ ty.Use
  | .enum e => e.Use
  | .struct s => s.Use
  | .union u => u.Use

structure RustFile.Use (f : RustFile) : Prop where
  constants : ∀ c ∈ f.constants, c.name.usable = true ∧ c.value.Use
  types : ∀ i ∈ f.types, i.Use

/-! ## Arms -/

theorem Tok.IsName.tokens {t : Tok} (h : t.IsName) : lexemes t.tokens = [identLex t.id] ∧ t.id.usable = true := by
  obtain ⟨i, rfl, hi⟩ := h
  rw [Tok.tokens]
  lx
  exact ⟨rfl, hi⟩

/-- What follows an arm. -/
def armEnd (r : Toks) : Prop := ∃ s, (s = c!"," ∨ s = c!"}") ∧ ∃ t, r = .sym s :: t

theorem armEnd_as {r : Toks} (h : armEnd r) : r.head? ≠ some (key c!"as") := by
  obtain ⟨s, _, t, rfl⟩ := h
  exact head_ne (by simp [key]) _

/-- An arm followed by something. -/
def ArmOk (ts : List Token) (a : RPattern × RExpr) : Prop :=
  ∀ r, armEnd r → Takes 1 pArm (lexemes ts ++ r) a r ∧ (lexemes ts ++ r).head? ≠ some (.sym c!"}")

theorem armOk_of {pat body : List Token} {p : RPattern} {e : RExpr}
    (hp : ∀ r, Takes 1 pPat (lexemes pat ++ .sym c!"=>" :: r) p (.sym c!"=>" :: r))
    (he : ∀ r, armEnd r → Takes 1 pExpr (lexemes body ++ r) e r) : ArmOk (pat ++ .op c!"=>" :: body) (p, e) := by
  intro r hr
  have e1 : lexemes (pat ++ .op c!"=>" :: body) ++ r = lexemes pat ++ .sym c!"=>" :: (lexemes body ++ r) := by lx
  rw [e1]
  refine ⟨takes_arm (hp _) ?_ (he r hr), pPat_head (hp _)⟩
  simp only [List.length_append, List.length_cons]
  omega

theorem takes_arms_closed {X : Type} {f : X → List Token} {g : X → RPattern × RExpr} {xs : List X}
    (h : ∀ x ∈ xs, ArmOk (f x) (g x)) (rest : Toks) :
    Takes 2 pArms (lexemes (commaSep (xs.map f)) ++ .sym c!"}" :: rest) (xs.map g) rest :=
  pArms_isList.closed (by decide) xs fun x hx r hr => h x hx r hr

theorem takes_arms_more {X : Type} {f : X → List Token} {g : X → RPattern × RExpr} {xs : List X} (hne : xs ≠ [])
    (h : ∀ x ∈ xs, ArmOk (f x) (g x)) {ts rest : Toks} {as : List (RPattern × RExpr)} (hm : Takes 2 pArms ts as rest) :
    Takes 2 pArms (lexemes (commaSep (xs.map f)) ++ .sym c!"," :: ts) (xs.map g ++ as) rest :=
  pArms_isList.more hm xs hne fun x hx r hr => h x hx r hr

/-- One more arm with a comma after it. -/
theorem takes_arms_one {ts : List Token} {a : RPattern × RExpr} (h : ArmOk ts a) (rest : Toks) :
    Takes 2 pArms (lexemes ts ++ .sym c!"," :: .sym c!"}" :: rest) [a] rest := by
  obtain ⟨h1, h2⟩ := h (.sym c!"," :: .sym c!"}" :: rest) ⟨_, .inl rfl, _, rfl⟩
  refine pArms_isList.cons h1 h2 ?_ (pArms_isList.nil 1 rest)
  simp only [List.length_append, List.length_cons]
  omega

theorem armOk_variant {name i : RIdent} (hn : name.usable = true) (hi : i.usable = true) (v : Int) :
    ArmOk (variantArm name [] (i, v)) (.path ⟨false, [name, i]⟩, intExpr v) := by
  have h := armOk_of (pat := [.ident name, .op c!"::", .ident i]) (body := intTokens .i32 v)
    (fun r => by lx; exact takes_pathPat hn hi r) (fun r hr => takes_int .i32 v (armEnd_as hr))
  exact h

theorem armOk_variantRef {name i : RIdent} (hn : name.usable = true) (hi : i.usable = true) (v : Int) :
    ArmOk (variantArm name [.op c!"&"] (i, v)) (.path ⟨false, [name, i]⟩, .ref (intExpr v)) := by
  have h := armOk_of (pat := [.ident name, .op c!"::", .ident i]) (body := .op c!"&" :: intTokens .i32 v)
    (fun r => by lx; exact takes_pathPat hn hi r)
    (fun r hr => by
      rw [lexemes_cons, lexemes_op, List.cons_append, List.nil_append, List.cons_append]
      exact takes_ref (takes_int .i32 v (armEnd_as hr)))
  exact h

theorem armOk_int {body : List Token} {e : RExpr} (t : IntTy) (v : Int)
    (he : ∀ r, Takes 1 pExpr (lexemes body ++ r) e r) : ArmOk (intTokens t v ++ .op c!"=>" :: body) (intPat t v, e) :=
  armOk_of (fun r => takes_intPat t v _) fun r _ => he r

theorem armOk_wild {body : List Token} {e : RExpr}
    (he : ∀ r, Takes 1 pExpr (lexemes body ++ r) e r) : ArmOk (kw c!"_" :: .op c!"=>" :: body) (.wild, e) := by
  refine armOk_of (pat := [kw c!"_"]) (fun r => ?_) fun r _ => he r
  lx
  exact takes_wild _ 0

theorem armOk_err (global : Bool) : ArmOk (errArm (errorTokens global)) (.wild, errExpr global) :=
  armOk_wild (takes_err global)

theorem armOk_default : ArmOk defaultArm (.wild, okStringifyAst [key c!"Default"]) :=
  armOk_wild (takes_okStringify (by lx) ⟨_, _, rfl⟩)

/-! ## Members -/

/-- A member. -/
def MemberOk (ts : List Token) (m : RMember) : Prop :=
  ∀ rest, Takes 1 pMember (lexemes ts ++ rest) m rest ∧ (lexemes ts ++ rest).head? ≠ some (.sym c!"}")

theorem memberOk_fn {w : Str} (hw : plainIdent (key w) = some (nameOf w)) {params ret body : List Token}
    {ps : List RParam} {t : RType} {e : RExpr}
    (hp : ∀ r, Takes 2 pParams (lexemes params ++ .sym c!")" :: r) ps r)
    (ht : ∀ r, EndsTy r → Takes 1 pType (lexemes ret ++ r) t r)
    (he : ∀ r, Takes 1 pExpr (lexemes body ++ .sym c!"}" :: r) e (.sym c!"}" :: r)) :
    MemberOk (fnTokens w params ret body) (.fn (nameOf w) ps t e) := by
  intro rest
  have e1 : lexemes (fnTokens w params ret body) ++ rest = key c!"fn" :: key w :: .sym c!"(" :: (lexemes params ++
      .sym c!")" :: .sym c!"->" :: (lexemes ret ++ .sym c!"{" :: (lexemes body ++ .sym c!"}" :: rest))) := by
    unfold fnTokens
    lx
  rw [e1]
  refine ⟨?_, head_ne (by simp [key]) _⟩
  intro n hn
  simp only [List.length_cons, List.length_append] at hn
  rw [pMember, if_neg (head_ne (by decide) _), if_pos (head_is _ _), List.tail_cons, pIdent, hw]
  dsimp only [Option.bind_some, Option.map_some]
  rw [expect_self]
  dsimp only [Option.bind_some]
  rw [hp _ n (by simp only [List.length_cons, List.length_append]; omega)]
  dsimp only [Option.bind_some]
  rw [expect_self]
  dsimp only [Option.bind_some]
  rw [ht _ (endsTy_cons (by simp)) n (by simp only [List.length_cons, List.length_append]; omega)]
  dsimp only [Option.bind_some]
  rw [expect_self]
  dsimp only [Option.bind_some]
  rw [he _ n (by simp only [List.length_cons, List.length_append]; omega)]
  dsimp only [Option.bind_some]
  rw [expect_self]
  rfl

theorem memberOk_error (global : Bool) :
    MemberOk (errorType (errorTokens global)) (.assoc (nameOf c!"Error") (errorTy global)) := by
  intro rest
  have e1 : lexemes (errorType (errorTokens global)) ++ rest = key c!"type" :: key c!"Error" :: .sym c!"=" ::
      (lexemes (errorTokens global) ++ .sym c!";" :: rest) := by
    unfold errorType
    lx
  rw [e1]
  refine ⟨?_, head_ne (by simp [key]) _⟩
  intro n hn
  simp only [List.length_cons, List.length_append] at hn
  rw [pMember, if_pos (head_is _ _), List.tail_cons, pIdent,
    show plainIdent (key c!"Error") = some (nameOf c!"Error") by decide]
  dsimp only [Option.bind_some, Option.map_some]
  rw [expect_self]
  dsimp only [Option.bind_some]
  rw [takes_errorTy global (endsTy_cons (by simp)) n (by simp only [List.length_cons, List.length_append]; omega)]
  dsimp only [Option.bind_some]
  rw [expect_self]
  rfl

theorem takes_members : ∀ (ms : List (List Token × RMember)), (∀ m ∈ ms, MemberOk m.1 m.2) → ∀ rest,
    Takes 2 pMembers (lexemes (ms.flatMap (·.1)) ++ .sym c!"}" :: rest) (ms.map (·.2)) rest
  | [], _, rest => by
    intro n hn
    obtain ⟨m, rfl⟩ : ∃ m, n = m + 1 := ⟨n - 1, by omega⟩
    rw [List.flatMap_nil, lexemes_nil, List.nil_append, pMembers, if_pos (head_is _ _), List.tail_cons]
    rfl
  | m :: ms, h, rest => by
    intro n hn
    obtain ⟨k, rfl⟩ : ∃ m, n = m + 1 := ⟨n - 1, by omega⟩
    rw [List.flatMap_cons, lexemes_append, List.append_assoc] at hn ⊢
    obtain ⟨h1, h2⟩ := h m (by simp) (lexemes (ms.flatMap (·.1)) ++ .sym c!"}" :: rest)
    have h3 := takes_members ms (fun x hx => h x (by simp [hx])) rest
    rw [pMembers, if_neg h2, h1 k (by omega)]
    dsimp only [Option.bind_some]
    have hpos : 0 < (lexemes m.1).length := by
      rcases hm : lexemes m.1 with _ | ⟨l, ls⟩
      · have h4 := (h m (by simp) []).1 3 (by simp [hm])
        rw [hm] at h4
        simp [pMember] at h4
      · simp
    rw [h3 k (by simp only [List.length_append] at hn ⊢; omega)]
    rfl

theorem takes_refSelf (r : Toks) : Takes 2 pParams (lexemes refSelf ++ .sym c!")" :: r) [.refSelf] r := by
  unfold refSelf
  lx
  refine pParams_isList.last (by decide) ?_ (head_ne (by simp) _)
  intro n hn
  rw [pParam, if_pos (head_is _ _), List.tail_cons, expect_self]
  rfl

theorem takes_typed {w : Str} (hw : plainIdent (key w) = some (nameOf w)) {ts : List Token} {t : RType}
    (ht : ∀ r, EndsTy r → Takes 1 pType (lexemes ts ++ r) t r) (r : Toks) :
    Takes 2 pParams (lexemes (kw w :: .op c!":" :: ts) ++ .sym c!")" :: r) [.typed (nameOf w) t] r := by
  lx
  refine pParams_isList.last (by decide) ?_ (head_ne (by simp [key]) _)
  intro n hn
  simp only [List.length_cons, List.length_append] at hn
  rw [pParam, if_neg (head_ne (by simp [key]) _), pIdent, hw]
  dsimp only [Option.bind_some, Option.map_some]
  rw [expect_self]
  dsimp only [Option.bind_some]
  rw [ht _ (endsTy_cons (by simp)) n (by simp only [List.length_cons, List.length_append]; omega)]
  rfl

theorem takes_matchTokens {w : Str} (hw : segIdent (key w) = some (nameOf w)) {ts : List Token}
    {arms : List (RPattern × RExpr)} (h : ∀ r, Takes 2 pArms (lexemes ts ++ .sym c!"}" :: r) arms r) (r : Toks) :
    Takes 1 pExpr (lexemes (matchTokens w ts) ++ .sym c!"}" :: r) (matchWord w arms) (.sym c!"}" :: r) := by
  unfold matchTokens
  lx
  exact takes_match hw (h _)

theorem takes_nameResult (r : Toks) : Takes 1 pType (lexemes nameResult ++ r) nameResultTy r := by
  have h1 : ∀ rest, Takes 1 pType (.sym c!"&" :: .lifetime c!"static" :: key c!"str" :: .sym c!"," :: rest)
      (.ref (some c!"static") (tyPath [c!"str"])) (.sym c!"," :: rest) := by
    intro rest n hn
    obtain ⟨m, rfl⟩ : ∃ m, n = m + 1 := ⟨n - 1, by omega⟩
    simp only [List.length_cons] at hn
    rw [pType, if_pos (head_is _ _), List.tail_cons]
    dsimp only
    rw [takes_word (by decide) (endsTy_cons (by simp)) m (by simp only [List.length_cons]; omega)]
    rfl
  have h2 : Takes 1 pType (key c!"Self" :: .sym c!"::" :: key c!"Error" :: .sym c!">" :: r)
      (tyPath [c!"Self", c!"Error"]) (.sym c!">" :: r) :=
    pType_path (pSegs_words (by decide) (pSegs_word (by decide) (by simp))) (by simp) 1 (by omega)
  have h3 := (pTypes_isList c!">").cons (h1 _) (head_ne (by simp) _) (by simp only [List.length_cons]; omega)
    ((pTypes_isList c!">").last (by decide) h2 (head_ne (by simp [key]) _))
  unfold nameResult
  lx
  intro n hn
  obtain ⟨m, rfl⟩ : ∃ m, n = m + 1 := ⟨n - 1, by omega⟩
  simp only [List.length_cons] at hn
  rw [pType, if_neg (head_ne (by simp [key]) _), if_neg (head_ne (by simp [key]) _),
    pPath_segs (pSegs_word (by decide) (by simp))]
  dsimp only [Option.bind_some]
  rw [if_pos (head_is _ _), List.tail_cons, h3 m (by simp only [List.length_cons]; omega)]
  rfl

/-! ## Attributes -/

theorem takes_noAttrs {ts : Toks} (h : ts.head? ≠ some (.sym c!"#")) : Takes 2 pAttrs ts [] ts := by
  intro n hn
  obtain ⟨m, rfl⟩ : ∃ m, n = m + 1 := ⟨n - 1, by omega⟩
  rw [pAttrs, if_neg h]

theorem takes_attrs {ts more rest : Toks} {a : RAttr} {as : List RAttr} (h : Takes 1 pAttr ts a more)
    (hl : more.length ≤ ts.length) (hm : Takes 2 pAttrs more as rest) :
    Takes 2 pAttrs (.sym c!"#" :: ts) (a :: as) rest := by
  intro n hn
  obtain ⟨m, rfl⟩ : ∃ m, n = m + 1 := ⟨n - 1, by omega⟩
  simp only [List.length_cons] at hn
  rw [pAttrs, if_pos (head_is _ _), List.tail_cons, h m (by omega)]
  dsimp only [Option.bind_some]
  rw [hm m (by omega)]
  rfl

theorem takes_derive {names : List Str} (h : ∀ w ∈ names, plainIdent (key w) = some (nameOf w)) {as : List RAttr}
    {rest : Toks} {more : Toks} (hm : Takes 2 pAttrs more as rest) :
    Takes 2 pAttrs (lexemes (deriveTokens names) ++ more) (.derive (names.map nameOf) :: as) rest := by
  unfold deriveTokens
  lx
  refine takes_attrs (more := more) ?_ ?_ hm
  · intro n hn
    simp only [List.length_cons, List.length_append] at hn
    have h1 := (pIdents_isList c!")").closed (k := 0) (by decide) (f := fun n => [kw n]) (g := nameOf)
      (rest := .sym c!"]" :: more) names (fun w hw r hr => by
        lx
        refine ⟨fun n _ => ?_, head_ne (by simp [key]) _⟩
        show pIdent (key w :: r) = _
        rw [pIdent, h w hw]
        rfl)
    rw [pAttr, expect_self]
    dsimp only [Option.bind_some]
    rw [if_pos (head_is _ _), List.tail_cons, expect_self]
    dsimp only [Option.bind_some]
    rw [h1 n (by simp only [List.length_cons, List.length_append]; omega)]
    dsimp only [Option.bind_some]
    rw [expect_self]
    rfl
  · simp only [List.length_cons, List.length_append]
    omega

theorem takes_repr {as : List RAttr} {rest more : Toks} (hm : Takes 2 pAttrs more as rest) :
    Takes 2 pAttrs (lexemes [.op c!"#", .group .bracket [kw c!"repr", .group .paren [kw c!"i32"]]] ++ more)
      (.repr (nameOf c!"i32") :: as) rest := by
  lx
  refine takes_attrs (more := more) ?_ (by simp only [List.length_cons]; omega) hm
  intro n hn
  rw [pAttr, expect_self]
  dsimp only [Option.bind_some]
  rw [if_neg (head_ne (by decide) _), if_pos (head_is _ _), List.tail_cons, expect_self]
  dsimp only [Option.bind_some]
  rw [pIdent, show plainIdent (key c!"i32") = some (nameOf c!"i32") by decide]
  dsimp only [Option.bind_some, Option.map_some]
  rw [expect_self]
  dsimp only [Option.bind_some]
  rw [expect_self]
  rfl

theorem takes_serdeWith (f : Str) {as : List RAttr} {rest more : Toks} (hm : Takes 2 pAttrs more as rest) :
    Takes 2 pAttrs (lexemes (serdeWith f) ++ more) (.serdeWith ('"' :: f ++ c!"\"") :: as) rest := by
  unfold serdeWith
  lx
  refine takes_attrs (more := more) ?_ (by simp only [List.length_cons]; omega) hm
  intro n hn
  rw [pAttr, expect_self]
  dsimp only [Option.bind_some]
  rw [if_neg (head_ne (by decide) _), if_neg (head_ne (by decide) _), if_pos (head_is _ _), List.tail_cons, expect_self]
  dsimp only [Option.bind_some]
  rw [expect_self]
  dsimp only [Option.bind_some]
  rw [expect_self]
  dsimp only [Option.bind_some]
  rw [expect_self]
  dsimp only [Option.bind_some]
  rw [expect_self]
  rfl

theorem takes_attr (a : Attr) {more : Toks} (h : more.head? ≠ some (.sym c!"#")) :
    Takes 2 pAttrs (lexemes a.tokens ++ more) a.ast more := by
  cases a with
  | none => rw [Attr.tokens, lexemes_nil]; exact takes_noAttrs h
  | fixed => exact takes_serdeWith _ (takes_noAttrs h)
  | «variable» => exact takes_serdeWith _ (takes_noAttrs h)
  | signed32 => exact takes_serdeWith _ (takes_noAttrs h)

/-! ## Items -/

/-- An item. -/
def ItemOk (ts : List Token) (i : RItem) : Prop :=
  ∀ rest, Takes 2 pItem (lexemes ts ++ rest) i rest

theorem pPub_not {ts : Toks} (h : ts.head? ≠ some (key c!"pub")) : pPub ts = (false, ts) := by
  rw [pPub, if_neg h]

theorem pPub_pub (ts : Toks) : pPub (key c!"pub" :: ts) = (true, ts) := by
  rw [pPub, if_pos (head_is _ _), List.tail_cons]

theorem itemOk_impl {header : List Token} {t : RType} (ht : ∀ r, EndsTy r → Takes 1 pType (lexemes header ++ r) t r)
    {name : RIdent} (hn : name.usable = true) (ms : List (List Token × RMember)) (hm : ∀ m ∈ ms, MemberOk m.1 m.2) :
    ItemOk (implTokens header name (ms.flatMap (·.1))) (.impl t (tyNamed name) (ms.map (·.2))) := by
  intro rest
  have e1 : lexemes (implTokens header name (ms.flatMap (·.1))) ++ rest = key c!"impl" :: (lexemes header ++
      key c!"for" :: identLex name :: .sym c!"{" :: (lexemes (ms.flatMap (·.1)) ++ .sym c!"}" :: rest)) := by
    unfold implTokens
    lx
  rw [e1]
  intro n h
  simp only [List.length_cons, List.length_append] at h
  rw [pItem, takes_noAttrs (head_ne (by simp [key]) _) n
    (by simp only [List.length_cons, List.length_append]; omega)]
  dsimp only [Option.bind_some]
  rw [pPub_not (head_ne (by decide) _)]
  dsimp only
  rw [if_neg (head_ne (by decide) _), if_neg (head_ne (by decide) _), if_neg (by simp),
    if_neg (head_ne (by decide) _), if_neg (head_ne (by decide) _), if_neg (by decide),
    if_neg (head_ne (by decide) _), if_pos (head_is _ _), List.tail_cons,
    ht _ (endsTy_cons (by simp [key])) n (by simp only [List.length_cons, List.length_append]; omega)]
  dsimp only [Option.bind_some]
  rw [expect_self]
  dsimp only [Option.bind_some]
  rw [pType_path (pSegs_one (segIdent_usable hn) (by simp)) (by simp) 1 (by omega) n
    (by simp only [List.length_cons, List.length_append]; omega)]
  dsimp only [Option.bind_some]
  rw [expect_self]
  dsimp only [Option.bind_some]
  rw [takes_members ms hm rest n (by simp only [List.length_cons, List.length_append]; omega)]
  rfl

theorem itemOk_impl1 {header : List Token} {t : RType} (ht : ∀ r, EndsTy r → Takes 1 pType (lexemes header ++ r) t r)
    {name : RIdent} (hn : name.usable = true) {b1 : List Token} {m1 : RMember} (h1 : MemberOk b1 m1) :
    ItemOk (implTokens header name b1) (.impl t (tyNamed name) [m1]) := by
  have h := itemOk_impl ht hn [(b1, m1)] (by simpa using h1)
  simpa only [List.flatMap_cons, List.flatMap_nil, List.append_nil, List.map_cons, List.map_nil] using h

theorem itemOk_impl2 {header : List Token} {t : RType} (ht : ∀ r, EndsTy r → Takes 1 pType (lexemes header ++ r) t r)
    {name : RIdent} (hn : name.usable = true) {b1 b2 : List Token} {m1 m2 : RMember} (h1 : MemberOk b1 m1)
    (h2 : MemberOk b2 m2) : ItemOk (implTokens header name (b1 ++ b2)) (.impl t (tyNamed name) [m1, m2]) := by
  have h := itemOk_impl ht hn [(b1, m1), (b2, m2)] (by simpa using ⟨h1, h2⟩)
  simpa only [List.flatMap_cons, List.flatMap_nil, List.append_nil, List.map_cons, List.map_nil] using h

theorem itemOk_impl3 {header : List Token} {t : RType} (ht : ∀ r, EndsTy r → Takes 1 pType (lexemes header ++ r) t r)
    {name : RIdent} (hn : name.usable = true) {b1 b2 b3 : List Token} {m1 m2 m3 : RMember} (h1 : MemberOk b1 m1)
    (h2 : MemberOk b2 m2) (h3 : MemberOk b3 m3) :
    ItemOk (implTokens header name (b1 ++ b2 ++ b3)) (.impl t (tyNamed name) [m1, m2, m3]) := by
  have h := itemOk_impl ht hn [(b1, m1), (b2, m2), (b3, m3)] (by simpa using ⟨h1, h2, h3⟩)
  simpa only [List.flatMap_cons, List.flatMap_nil, List.append_nil, List.map_cons, List.map_nil, List.append_assoc]
    using h

/-- `&'static i32`. -/
theorem takes_static {w : Str} (hw : segIdent (key w) = some (nameOf w)) {rest : Toks} (hr : EndsTy rest) :
    Takes 1 pType (lexemes [.op c!"&", .lifetime c!"static", kw w] ++ rest) (.ref (some c!"static") (tyPath [w])) rest := by
  lx
  intro n hn
  obtain ⟨m, rfl⟩ : ∃ m, n = m + 1 := ⟨n - 1, by omega⟩
  simp only [List.length_cons] at hn
  rw [pType, if_pos (head_is _ _), List.tail_cons]
  dsimp only
  rw [takes_word hw hr m (by simp only [List.length_cons]; omega)]
  rfl

theorem takes_kw {w : Str} (hw : segIdent (key w) = some (nameOf w)) {rest : Toks} (hr : EndsTy rest) :
    Takes 1 pType (lexemes [kw w] ++ rest) (tyPath [w]) rest := by
  lx
  exact takes_word hw hr

theorem takes_kwApp {w x : Str} (hw : segIdent (key w) = some (nameOf w)) (hx : segIdent (key x) = some (nameOf x))
    (rest : Toks) :
    Takes 1 pType (lexemes [kw w, .op c!"<", kw x, .op c!">"] ++ rest) (.app (tyPath [w]) (tyPath [x])) rest := by
  lx
  exact takes_app hw (takes_word hx (endsTy_cons (by simp)))

theorem itemOk_asRef {name : RIdent} (hn : name.usable = true) {arms : List (RIdent × Int)}
    (ha : ∀ a ∈ arms, a.1.usable = true) : ItemOk (asRefTokens name arms) (asRefAst name arms) := by
  refine itemOk_impl1 (fun r _ => takes_kwApp (by decide) (by decide) r) hn
    (memberOk_fn (by decide) takes_refSelf (fun r hr => takes_static (by decide) hr)
        (takes_matchTokens (by decide) fun r => ?_))
  exact takes_arms_closed (fun a hm => armOk_variantRef hn (ha a hm) a.2) r

theorem takes_errArm_end (global : Bool) (r : Toks) :
    Takes 2 pArms (lexemes (errArm (errorTokens global) ++ [.op c!","]) ++ .sym c!"}" :: r) [(.wild, errExpr global)] r := by
  have h := takes_arms_one (armOk_err global) r
  rw [lexemes_append, List.append_assoc]
  exact h

theorem itemOk_tryFrom {name : RIdent} (hn : name.usable = true) {arms : List (Int × RIdent)} (hne : arms ≠ [])
    (ha : ∀ a ∈ arms, a.2.usable = true) : ItemOk (tryFromTokens name arms) (tryFromAst name arms) := by
  have harm : ∀ a ∈ arms, ArmOk
      (intTokens .i32 a.1 ++ [.op c!"=>", kw c!"Ok", .group .paren [.ident name, .op c!"::", .ident a.2]])
      (intPat .i32 a.1, RExpr.call (wordsPath false [c!"Ok"]) [.operand (.path ⟨false, [name, a.2]⟩)]) := by
    intro a hm
    refine armOk_int .i32 a.1 fun r => ?_
    lx
    refine takes_call (pOperand_word (by decide) (by simp)) (by decide) (by decide)
      (by simp only [List.length_cons]; omega)
      (pArgs_isList.last (by decide) ?_ (head_ne (by simp [identLex]) _))
    exact takes_operand (pOperand_path (pSegs_two hn (ha a hm) (by simp))) (fun p _ => ⟨by simp, by simp⟩)
      (by simp [key]) (by simp [identLex]) (head_ne (usable_ne_key hn (by decide)) _)
  have hret : ∀ r, EndsTy r → Takes 1 pType
      (lexemes (kw c!"Result" :: .op c!"<" :: kw c!"Self" :: .op c!"," :: localError ++ [.op c!">"]) ++ r)
      (.app (.app (tyPath [c!"Result"]) (tyPath [c!"Self"])) (errorTy false)) r := by
    intro r _
    have h2 := takes_errorTy false (rest := .sym c!">" :: r) (endsTy_cons (by simp))
    have h3 := (pTypes_isList c!">").cons
      (takes_word (w := c!"Self") (by decide)
        (endsTy_cons (l := .sym c!",") (ts := lexemes (errorTokens false) ++ .sym c!">" :: r) (by simp)))
      (head_ne (by simp [key]) _) (by simp only [List.length_cons]; omega)
      ((pTypes_isList c!">").last (by decide) h2 (pType_head h2 (by decide)))
    have e1 : lexemes (kw c!"Result" :: .op c!"<" :: kw c!"Self" :: .op c!"," :: localError ++ [.op c!">"]) ++ r =
        key c!"Result" :: .sym c!"<" :: key c!"Self" :: .sym c!"," ::
          (lexemes (errorTokens false) ++ .sym c!">" :: r) := by
      simp only [errorTokens, Bool.false_eq_true, if_false]
      lx
    rw [e1]
    intro n hn
    obtain ⟨m, rfl⟩ : ∃ m, n = m + 1 := ⟨n - 1, by omega⟩
    simp only [List.length_cons] at hn
    rw [pType, if_neg (head_ne (by simp [key]) _), if_neg (head_ne (by simp [key]) _),
      pPath_segs (pSegs_word (by decide) (by simp))]
    dsimp only [Option.bind_some]
    rw [if_pos (head_is _ _), List.tail_cons, h3 m (by simp only [List.length_cons]; omega)]
    rfl
  refine itemOk_impl2 (fun r _ => takes_kwApp (by decide) (by decide) r) hn (memberOk_error false)
    (memberOk_fn (by decide) (takes_typed (by decide) fun r hr => takes_kw (by decide) hr) hret
          (takes_matchTokens (by decide) fun r => ?_))
  have := takes_arms_more hne harm (takes_errArm_end false r)
  rw [List.append_assoc, lexemes_append, List.append_assoc]
  exact this

theorem itemOk_enumIndexer {name : RIdent} (hn : name.usable = true) {ix : EnumIndexer} (h1 : ix.byIndex ≠ [])
    (h2 : ix.index ≠ []) (ha : ∀ a ∈ ix.index, a.1.usable = true) : ItemOk (ix.tokens name) (ix.ast name) := by
  refine itemOk_impl3 (fun r hr => takes_kw (by decide) hr) hn (memberOk_error true)
    (memberOk_fn (by decide) (takes_typed (by decide) fun r hr => takes_kw (by decide) hr)
          (fun r _ => takes_nameResult r) (takes_matchTokens (by decide) fun r => ?_))
    (memberOk_fn (by decide) takes_refSelf (fun r hr => takes_kw (by decide) hr)
          (takes_matchTokens (by decide) fun r => ?_))
  · have := takes_arms_more h1 (fun a _ => armOk_int .i32 a.1 (takes_okStringify
      (body := [.ident a.2]) (l := identLex a.2) (by lx) ⟨_, _, rfl⟩))
      (takes_arms_one (armOk_wild (takes_okStringify (body := [.ident ix.otherwise])
        (l := identLex ix.otherwise) (by lx) ⟨_, _, rfl⟩)) r)
    simp only [lexemes_nil, lexemes_cons, lexemes_append, lexemes_kw, lexemes_op, List.cons_append, List.nil_append,
      List.append_assoc] at this ⊢
    exact this
  · have := takes_arms_more (g := fun a => (.path ⟨false, [name, a.1]⟩, intExpr a.2)) h2
      (fun a hm => armOk_variant hn (ha a hm) a.2) (pArms_isList.nil 1 r)
    rw [lexemes_append, List.append_assoc]
    rw [List.append_nil] at this
    exact this

end Xdr.Rpcgen
