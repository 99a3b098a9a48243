import Verif.RpcgenProofs.ParseItems
/-!
# The generated file is parsed back: enums, structs, unions and the file
-/

namespace Xdr.Rpcgen

/-! ## `impl Default` -/

theorem itemOk_default {name : RIdent} (hn : name.usable = true) {value : List Token} {e : RExpr}
    (he : ∀ r, Takes 1 pExpr (lexemes (.ident name :: .op c!"::" :: value) ++ .sym c!"}" :: r) e (.sym c!"}" :: r)) :
    ItemOk (implDefault name value) (implDefaultAst name e) :=
  itemOk_impl1 (fun r hr => takes_kw (by decide) hr) hn
    (memberOk_fn (by decide) (fun r => by rw [lexemes_nil]; exact pParams_isList.nil 1 r)
      (fun r hr => takes_kw (by decide) hr) he)

theorem takes_pathExpr {i j : RIdent} (hi : i.usable = true) (hj : j.usable = true) (r : Toks) :
    Takes 1 pExpr (identLex i :: .sym c!"::" :: identLex j :: .sym c!"}" :: r)
      (.operand (.path ⟨false, [i, j]⟩)) (.sym c!"}" :: r) :=
  takes_operand (pOperand_path (pSegs_two hi hj (by simp))) (fun p _ => ⟨by simp, by simp⟩)
    (by simp [key]) (by simp [identLex]) (head_ne (usable_ne_key hi (by decide)) _)

theorem takes_defaultCall (r : Toks) :
    Takes 1 pExpr (lexemes [kw c!"Default", .op c!"::", kw c!"default", .group .paren []] ++ r)
      (.call (wordsPath false [c!"Default", c!"default"]) []) r := by
  lx
  exact takes_call (pOperand_path (pSegs_words (by decide) (pSegs_word (by decide) (by simp)))) (by decide) (by decide)
    (by simp only [List.length_cons]; omega) (pArgs_isList.nil 1 r)

theorem itemOk_unionDefault {name : RIdent} (hn : name.usable = true) {d : Tok × Nat} (hd : d.1.IsName) :
    ItemOk (implDefault name (defaultTokens d)) (implDefaultAst name (unionDefaultAst name d)) := by
  obtain ⟨h1, h2⟩ := hd.tokens
  refine itemOk_default hn fun r => ?_
  unfold defaultTokens unionDefaultAst
  by_cases h0 : d.2 = 0
  · rw [if_pos h0, if_pos h0]
    lx
    rw [h1]
    exact takes_pathExpr hn h2 r
  · rw [if_neg h0, if_neg h0]
    lx
    rw [h1]
    have h3 := pArgs_isList.closed (k := 1) (by decide)
      (f := fun _ : Unit => [kw c!"Default", .op c!"::", kw c!"default", .group .paren []])
      (g := fun _ => .call (wordsPath false [c!"Default", c!"default"]) []) (rest := .sym c!"}" :: r)
      (List.replicate d.2 ()) (fun _ _ r _ => ⟨takes_defaultCall r, by lx; exact head_ne (by simp [key]) _⟩)
    rw [List.map_replicate, List.map_replicate] at h3
    exact takes_call (pOperand_path (pSegs_two hn h2 (by simp))) (by simp [identLex]) (usable_ne_key hn (by decide))
      (by simp only [List.length_cons, List.cons_append, List.nil_append]; omega) h3

/-! ## Enums -/

theorem takes_enumVariant {i : RIdent} (hi : i.usable = true) (v : Int) (r : Toks) :
    Takes 2 pVariant (lexemes (.ident i :: .op c!"=" :: intTokens .i32 v) ++ r)
      ⟨[], i, none, some (intOperand .i32 v)⟩ r := by
  lx
  intro n hn
  rw [pVariant, takes_noAttrs (head_ne (by simp [identLex]) _) n hn]
  dsimp only [Option.bind_some]
  rw [pIdent_usable hi]
  dsimp only [Option.bind_some]
  rw [pVariantFields, if_neg (head_ne (by simp) _)]
  dsimp only [Option.bind_some]
  rw [pDiscriminant, if_pos (head_is _ _), List.tail_cons, pOperand_int]
  rfl

/-- An enum item with its attributes. -/
theorem itemOk_enum {attrs : List Token} {as : List RAttr} {name : RIdent} (hn : name.usable = true)
    (ha : ∀ more, more.head? ≠ some (.sym c!"#") → Takes 2 pAttrs (lexemes attrs ++ more) as more)
    {body : List Token} {vs : List RVariant}
    (hb : ∀ r, Takes 3 pVariants (lexemes body ++ .sym c!"}" :: r) vs r) :
    ItemOk (attrs ++ [kw c!"pub", kw c!"enum", .ident name, .group .brace body]) (.enum as true name vs) := by
  intro rest
  have e1 : lexemes (attrs ++ [kw c!"pub", kw c!"enum", .ident name, .group .brace body]) ++ rest =
      lexemes attrs ++ key c!"pub" :: key c!"enum" :: identLex name :: .sym c!"{" ::
        (lexemes body ++ .sym c!"}" :: rest) := by
    lx
  rw [e1]
  intro n h
  rw [pItem, ha _ (head_ne (by simp [key]) _) n h]
  simp only [List.length_cons, List.length_append] at h
  dsimp only [Option.bind_some]
  rw [pPub_pub]
  dsimp only
  rw [if_pos (head_is _ _), List.tail_cons, pIdent_usable hn]
  dsimp only [Option.bind_some]
  rw [expect_self]
  dsimp only [Option.bind_some]
  rw [hb _ n (by simp only [List.length_cons, List.length_append]; omega)]
  rfl

theorem enumDerives_words (b : Bool) : ∀ w ∈ enumDerives b, plainIdent (key w) = some (nameOf w) := by
  cases b <;> decide

theorem itemOk_enumHead {e : EnumItem} (h : e.Use) :
    ItemOk (deriveTokens (enumDerives e.deriveIndexer) ++
      [.op c!"#", .group .bracket [kw c!"repr", .group .paren [kw c!"i32"]]] ++
      [kw c!"pub", kw c!"enum", .ident e.name,
        .group .brace (commaSep (e.variants.map fun v => .ident v.1 :: .op c!"=" :: intTokens .i32 v.2))])
      (.enum [.derive ((enumDerives e.deriveIndexer).map nameOf), .repr (nameOf c!"i32")] true e.name
        (e.variants.map fun v => ⟨[], v.1, none, some (intOperand .i32 v.2)⟩)) := by
  refine itemOk_enum h.name (fun more hm => ?_) fun r => ?_
  · rw [lexemes_append, List.append_assoc]
    exact takes_derive (enumDerives_words _) (takes_repr (takes_noAttrs hm))
  · refine pVariants_isList.closed (k := 2) (by decide) e.variants fun v hv r _ =>
      ⟨takes_enumVariant (h.variants v hv) v.2 r, ?_⟩
    lx
    exact head_ne (by simp [identLex]) _

theorem takes_item {ts : List Token} {i : RItem} (h : ItemOk ts i) {rest : Toks} {is : List RItem}
    (hr : ∀ n, 4 * rest.length + 3 ≤ n → pItems n rest = some is) :
    ∀ n, 4 * (lexemes ts ++ rest).length + 3 ≤ n → pItems n (lexemes ts ++ rest) = some (i :: is) := by
  have hpos : 0 < (lexemes ts).length := by
    rcases hm : lexemes ts with _ | ⟨l, ls⟩
    · have h4 := h [] 3 (by simp [hm])
      rw [hm] at h4
      simp [pItem, pAttrs, pPub] at h4
    · simp
  intro n hn
  obtain ⟨m, rfl⟩ : ∃ m, n = m + 1 := ⟨n - 1, by omega⟩
  have hne : lexemes ts ++ rest ≠ [] := by
    intro he
    rw [List.append_eq_nil_iff] at he
    rw [he.1] at hpos
    simp at hpos
  rw [pItems, if_neg hne, h rest m (by omega)]
  dsimp only [Option.bind_some]
  rw [hr m (by simp only [List.length_append] at hn; omega)]
  rfl

/-- A sequence of items. -/
def ItemsOk (ts : List Token) (is : List RItem) : Prop :=
  ∀ rest js, (∀ n, 4 * rest.length + 3 ≤ n → pItems n rest = some js) →
    ∀ n, 4 * (lexemes ts ++ rest).length + 3 ≤ n → pItems n (lexemes ts ++ rest) = some (is ++ js)

theorem ItemsOk.nil : ItemsOk [] [] := by
  intro rest js hr
  rw [lexemes_nil]
  exact hr

theorem ItemsOk.one {ts : List Token} {i : RItem} (h : ItemOk ts i) : ItemsOk ts [i] :=
  fun _ _ hr => takes_item h hr

theorem ItemsOk.append {a b : List Token} {is js : List RItem} (ha : ItemsOk a is) (hb : ItemsOk b js) :
    ItemsOk (a ++ b) (is ++ js) := by
  intro rest ks hr
  have h1 := hb rest ks hr
  have h2 := ha _ _ h1
  rw [lexemes_append, List.append_assoc, List.append_assoc]
  exact h2

theorem ItemsOk.flatMap {X : Type} {f : X → List Token} {g : X → List RItem} {xs : List X}
    (h : ∀ x ∈ xs, ItemsOk (f x) (g x)) : ItemsOk (xs.flatMap f) (xs.flatMap g) := by
  induction xs with
  | nil => exact ItemsOk.nil
  | cons x xs ih =>
    rw [List.flatMap_cons, List.flatMap_cons]
    exact (h x (by simp)).append (ih fun y hy => h y (by simp [hy]))

theorem itemsOk_enum {e : EnumItem} (h : e.Use) : ItemsOk e.tokens e.ast := by
  unfold EnumItem.tokens EnumItem.ast
  refine ItemsOk.append (ItemsOk.append (ItemsOk.append ?_ ?_) ?_) ?_
  · refine ItemsOk.append (is := [_]) (js := [_]) (.one (itemOk_enumHead h)) (.one (itemOk_default h.name fun r => ?_))
    lx
    exact takes_pathExpr h.name h.default r
  · cases ha : e.asRef with
    | none => exact .nil
    | some arms => exact .one (itemOk_asRef h.name (h.asRef arms ha))
  · cases ha : e.tryFrom with
    | none => exact .nil
    | some arms => exact .one (itemOk_tryFrom h.name (h.tryFrom arms ha).1 (h.tryFrom arms ha).2)
  · cases ha : e.indexer with
    | none => exact .nil
    | some ix => exact .one (itemOk_enumIndexer h.name (h.indexer ix ha).1 (h.indexer ix ha).2.1 (h.indexer ix ha).2.2)

/-! ## Structs -/

theorem takes_field (a : Attr) {i : RIdent} (hi : i.usable = true) {t : RTy} (ht : t.Use) {r : Toks} (hr : EndsTy r) :
    Takes 2 pField (lexemes (a.tokens ++ kw c!"pub" :: .ident i :: .op c!":" :: t.tokens) ++ r)
      ⟨a.ast, true, i, t.ast⟩ r := by
  lx
  intro n hn
  rw [pField, takes_attr a (head_ne (by simp [key]) _) n hn]
  simp only [List.length_cons, List.length_append] at hn
  dsimp only [Option.bind_some]
  rw [pPub_pub]
  dsimp only
  rw [pIdent_usable hi]
  dsimp only [Option.bind_some]
  rw [expect_self]
  dsimp only [Option.bind_some]
  rw [takes_type ht hr n (by simp only [List.length_cons, List.length_append]; omega)]
  rfl

theorem attr_head (a : Attr) {l : Lexeme} {ts : Toks} (hl : l ≠ .sym c!"}") :
    (lexemes a.tokens ++ l :: ts).head? ≠ some (.sym c!"}") := by
  cases a <;> simp only [Attr.tokens, serdeWith] <;> lx <;> exact head_ne (by first | exact hl | simp) _

theorem itemsOk_struct {s : StructItem} (h : s.Use) : ItemsOk s.tokens s.ast := by
  refine .one fun rest => ?_
  have e1 : lexemes s.tokens ++ rest = lexemes (deriveTokens structDerives) ++ key c!"pub" :: key c!"struct" ::
      identLex s.name :: .sym c!"{" :: (lexemes (commaSep (s.fields.map fun f =>
        f.1.tokens ++ kw c!"pub" :: .ident f.2.1 :: .op c!":" :: f.2.2.tokens)) ++ .sym c!"}" :: rest) := by
    unfold StructItem.tokens structDerives
    lx
  rw [e1]
  intro n hn
  rw [pItem, takes_derive (by decide) (takes_noAttrs (head_ne (by simp [key]) _)) n hn]
  simp only [List.length_cons, List.length_append] at hn
  dsimp only [Option.bind_some]
  rw [pPub_pub]
  dsimp only
  have hf := pFields_isList.closed (k := 2) (by decide)
    (f := fun f : Attr × RIdent × RTy => f.1.tokens ++ kw c!"pub" :: .ident f.2.1 :: .op c!":" :: f.2.2.tokens)
    (g := fun f => ⟨f.1.ast, true, f.2.1, f.2.2.ast⟩) (rest := rest) s.fields (fun f hf r hr => by
      obtain ⟨x, hx, t, rfl⟩ := hr
      refine ⟨takes_field f.1 (h.fields f hf).1 (h.fields f hf).2 (endsTy_cons ?_), ?_⟩
      · rcases hx with rfl | rfl <;> simp
      · lx
        exact attr_head f.1 (by simp [key]))
  rw [if_neg (head_ne (by decide) _), if_pos (head_is _ _), List.tail_cons, pIdent_usable h.name]
  dsimp only [Option.bind_some]
  rw [expect_self]
  dsimp only [Option.bind_some]
  rw [hf n (by simp only [List.length_cons, List.length_append]; omega)]
  rfl

/-! ## Unions -/

theorem takes_variant {v : Variant} (h : v.Use) {r : Toks} (hr : ∃ s, (s = c!"," ∨ s = c!"}") ∧ ∃ t, r = .sym s :: t) :
    Takes 2 pVariant (lexemes v.tokens ++ r) v.ast r ∧ (lexemes v.tokens ++ r).head? ≠ some (.sym c!"}") := by
  obtain ⟨h1, h2⟩ := h.name.tokens
  have hd : pDiscriminant r = some (none, r) := by
    obtain ⟨s, hs, t, rfl⟩ := hr
    rw [pDiscriminant, if_neg (head_ne (by rcases hs with rfl | rfl <;> simp) _)]
  unfold Variant.tokens
  lx
  rw [h1]
  simp only [List.cons_append, List.nil_append]
  refine ⟨?_, attr_head v.attr (by simp [identLex])⟩
  intro n hn
  rw [pVariant, takes_attr v.attr (head_ne (by simp [identLex]) _) n hn]
  simp only [List.length_cons, List.length_append, List.cons_append, List.nil_append] at hn
  dsimp only [Option.bind_some, List.cons_append, List.nil_append]
  rw [pIdent_usable h2]
  dsimp only [Option.bind_some]
  unfold Variant.ast
  rw [pVariantFields]
  by_cases hf : v.fields.isEmpty = true
  · rw [if_pos hf, if_pos hf, lexemes_nil, List.nil_append]
    have hne : r.head? ≠ some (.sym c!"(") := by
      obtain ⟨s, hs, t, rfl⟩ := hr
      exact head_ne (by rcases hs with rfl | rfl <;> simp) _
    rw [if_neg hne]
    dsimp only [Option.bind_some]
    rw [hd]
    rfl
  · rw [if_neg hf] at hn
    rw [if_neg hf, if_neg hf]
    have ht := (pTypes_isList c!")").closed (k := 1) (by decide) (f := RTy.tokens) (g := RTy.ast) (rest := r) v.fields
      (fun t ht r hr => by
        obtain ⟨x, hx, t', rfl⟩ := hr
        have h3 := takes_type (h.fields t ht) (rest := .sym x :: t')
          (endsTy_cons (by rcases hx with rfl | rfl <;> simp))
        exact ⟨h3, pType_head h3 (by decide)⟩)
    have e1 : lexemes [Token.group .paren (commaSep (v.fields.map RTy.tokens))] ++ r =
        .sym c!"(" :: (lexemes (commaSep (v.fields.map RTy.tokens)) ++ .sym c!")" :: r) := by
      lx
    have e2 := congrArg List.length e1
    simp only [List.length_append, List.length_cons] at e2
    rw [e1, if_pos (head_is _ _), List.tail_cons, ht n (by simp only [List.length_append, List.length_cons]; omega)]
    dsimp only [Option.bind_some, Option.map_some]
    rw [hd]
    rfl

theorem unionDerives_words (d : UnionDerive) : ∀ w ∈ unionDerives d, plainIdent (key w) = some (nameOf w) := by
  cases d <;> decide

theorem itemOk_unionHead {u : UnionItem} (h : u.Use) :
    ItemOk (deriveTokens (unionDerives u.derive) ++
      [kw c!"pub", kw c!"enum", .ident u.name, .group .brace (commaSep (u.variants.map Variant.tokens))])
      (.enum [.derive ((unionDerives u.derive).map nameOf)] true u.name (u.variants.map Variant.ast)) := by
  refine itemOk_enum h.name (fun more hm => takes_derive (unionDerives_words _) (takes_noAttrs hm)) fun r => ?_
  exact pVariants_isList.closed (k := 2) (by decide) u.variants fun v hv r hr => takes_variant (h.variants v hv) hr

theorem takes_okStringify_tok {t : Tok} (h : t.IsName) (r : Toks) :
    Takes 1 pExpr (lexemes (okStringify t.tokens) ++ r) (okStringifyAst [identLex t.id]) r :=
  takes_okStringify h.tokens.1 ⟨_, _, rfl⟩ r

theorem itemOk_unionIndexer {name : RIdent} (hn : name.usable = true) {ix : UnionIndexer} (h1 : ix.byIndex ≠ [])
    (h2 : ix.index ≠ []) (hb : ∀ a ∈ ix.byIndex, a.2.IsName) (ha : ∀ a ∈ ix.index, a.1.IsName) :
    ItemOk (ix.tokens name) (ix.ast name) := by
  refine itemOk_impl3 (fun r hr => takes_kw (by decide) hr) hn (memberOk_error true)
    (memberOk_fn (by decide) (takes_typed (by decide) fun r hr => takes_kw (by decide) hr)
          (fun r _ => takes_nameResult r) (takes_matchTokens (by decide) fun r => ?_))
    (memberOk_fn (by decide) takes_refSelf (fun r hr => takes_kw (by decide) hr)
          (takes_matchTokens (by decide) fun r => ?_))
  · have hw : ArmOk (if ix.otherwise then defaultArm else errArm globalError)
        (.wild, if ix.otherwise then okStringifyAst [key c!"Default"] else errExpr true) := by
      cases ix.otherwise
      · exact armOk_err true
      · exact armOk_default
    have := takes_arms_more h1 (fun a hm => armOk_int .i32 a.1 (takes_okStringify_tok (hb a hm)))
      (takes_arms_one hw r)
    simp only [lexemes_nil, lexemes_cons, lexemes_append, lexemes_op, List.cons_append, List.nil_append,
      List.append_assoc] at this ⊢
    exact this
  · have harm : ∀ a ∈ ix.index, ArmOk
        (.ident name :: .op c!"::" :: a.1.tokens ++ (if a.2.1 then [.group .paren [kw c!"_"]] else []) ++
          .op c!"=>" :: intTokens .i32 a.2.2)
        ((if a.2.1 then .tuple ⟨false, [name, a.1.id]⟩ [.wild] else .path ⟨false, [name, a.1.id]⟩ : RPattern),
            intExpr a.2.2) := by
      intro a hm
      obtain ⟨h3, h4⟩ := (ha a hm).tokens
      refine armOk_of (fun r => ?_) (fun r hr => takes_int .i32 a.2.2 (armEnd_as hr))
      cases a.2.1
      · simp only [Bool.false_eq_true, if_false]
        lx
        rw [h3]
        exact takes_pathPat hn h4 r
      · simp only [if_true]
        lx
        rw [h3]
        exact takes_tuplePat hn h4 _
    have hrest : Takes 2 pArms (lexemes (if ix.indexOtherwise then
          [kw c!"_", .op c!"=>", kw c!"unimplemented", .op c!"!", .group .paren [], .op c!","] else []) ++
          .sym c!"}" :: r)
        (if ix.indexOtherwise then [(.wild, RExpr.macroCall (wordsPath false [c!"unimplemented"]) [])] else []) r := by
      cases ix.indexOtherwise
      · simp only [Bool.false_eq_true, if_false]
        rw [lexemes_nil]
        exact pArms_isList.nil 1 r
      · simp only [if_true]
        have h5 := takes_arms_one (armOk_wild (body := [kw c!"unimplemented", .op c!"!", .group .paren []])
          (e := .macroCall (wordsPath false [c!"unimplemented"]) []) fun r => by
            lx
            exact takes_macro (pOperand_word (by decide) (by simp)) (by decide) (by decide) (by simp [pBody])) r
        simp only [lexemes_nil, lexemes_cons, lexemes_kw, lexemes_op, lexemes_group, List.cons_append, List.nil_append,
          List.append_assoc, Delim.open, Delim.close] at h5 ⊢
        exact h5
    have := takes_arms_more h2 harm hrest
    rw [lexemes_append, List.append_assoc, lexemes_cons, lexemes_op]
    exact this

theorem itemOk_unionUnion {name : RIdent} (hn : name.usable = true) {un : UnionUnion} {cond : RTy}
    (hc : un.cond = some cond) (hu : cond.Use) (h1 : un.byValue ≠ []) (hb : ∀ a ∈ un.byValue, a.1.Use ∧ a.2.IsName) :
    ItemOk (un.tokens name) (un.ast name cond) := by
  unfold UnionUnion.tokens UnionUnion.ast
  rw [hc, condTokens]
  have hhead : ∀ r, EndsTy r → Takes 1 pType (lexemes (kw c!"XdrUnion" :: .op c!"<" :: cond.tokens ++ [.op c!">"]) ++ r)
      (.app (tyPath [c!"XdrUnion"]) cond.ast) r := by
    intro r _
    lx
    exact takes_app (by decide) (takes_type hu (endsTy_cons (by simp)))
  have hparam : ∀ r, EndsTy r → Takes 1 pType (lexemes (.op c!"&" :: cond.tokens) ++ r) (.ref none cond.ast) r := by
    intro r hr
    rw [lexemes_cons, lexemes_op, List.append_assoc]
    have h2 := takes_type hu hr
    intro n hn
    obtain ⟨m, rfl⟩ : ∃ m, n = m + 1 := ⟨n - 1, by omega⟩
    simp only [List.cons_append, List.nil_append, List.length_cons] at hn ⊢
    rw [pType, if_pos (head_is _ _), List.tail_cons]
    have h3 := h2 m (by omega)
    split
    · rename_i l ts heq
      rw [heq] at h3
      exfalso
      have h4 : pType (m + 1) (.lifetime l :: ts) = some (cond.ast, r) := by
        rw [← heq]; exact h2 (m + 1) (by omega)
      simp [pType, pPath, pSegs, segIdent, plainIdent, key] at h4
    · rw [h3]
      rfl
  refine itemOk_impl2 hhead hn (memberOk_error true)
    (memberOk_fn (by decide) (takes_typed (by decide) hparam) (fun r _ => takes_nameResult r)
      (takes_matchTokens (by decide) fun r => ?_))
  have harm : ∀ a ∈ un.byValue, ArmOk (a.1.tokens ++ .op c!"=>" :: okStringify a.2.tokens)
      (a.1.ast, okStringifyAst [identLex a.2.id]) := by
    intro a hm
    obtain ⟨h2, h3⟩ := hb a hm
    refine armOk_of (fun r => ?_) fun r _ => takes_okStringify_tok h3 r
    cases hp : a.1 with
    | path c v =>
      rw [hp] at h2
      rw [Pat.tokens]
      lx
      exact takes_pathPat h2.1 h2.2 r
    | lit v => exact takes_intPat .u32 v _
    | bool b =>
      rw [Pat.tokens]
      lx
      exact takes_boolPat b _
  have hrest : Takes 2 pArms (lexemes (match un.otherwise with
        | .none => []
        | .default => defaultArm ++ [.op c!","]
        | .err => errArm globalError ++ [.op c!","]) ++ .sym c!"}" :: r)
      (match un.otherwise with
        | .none => []
        | .default => [(.wild, okStringifyAst [key c!"Default"])]
        | .err => [(.wild, errExpr true)]) r := by
    cases un.otherwise with
    | none => exact pArms_isList.nil 1 r
    | default =>
      have h5 := takes_arms_one armOk_default r
      dsimp only
      rw [lexemes_append, List.append_assoc]
      exact h5
    | err => exact takes_errArm_end true r
  have := takes_arms_more h1 harm hrest
  rw [lexemes_append, List.append_assoc, lexemes_cons, lexemes_op]
  exact this

theorem itemsOk_union {u : UnionItem} (h : u.Use) : ItemsOk u.tokens u.ast := by
  unfold UnionItem.tokens UnionItem.ast
  refine ItemsOk.append (ItemsOk.append ?_ ?_) ?_
  · refine ItemsOk.append (is := [_]) (js := [_]) (.one ?_) (.one (itemOk_unionDefault h.name h.default))
    have := itemOk_unionHead h
    unfold unionDerives at this
    exact this
  · cases ha : u.indexer with
    | none => exact .nil
    | some ix =>
      obtain ⟨h1, h2, h3, h4⟩ := h.indexer ix ha
      exact .one (itemOk_unionIndexer h.name h1 h2 h3 h4)
  · cases ha : u.union with
    | none => exact .nil
    | some un =>
      obtain ⟨⟨t, h1, h2⟩, h3, h4⟩ := h.union un ha
      dsimp only [Option.bind_some]
      rw [h1]
      exact .one (itemOk_unionUnion h.name h1 h2 h3 h4)

/-! ## The file -/

theorem itemOk_alias {name : RIdent} (hn : name.usable = true) {t : RTy} (ht : t.Use) :
    ItemOk (Item.alias name t).tokens (.alias false name t.ast) := by
  intro rest
  rw [Item.tokens]
  lx
  intro n h
  rw [pItem, takes_noAttrs (head_ne (by simp [key]) _) n h]
  simp only [List.length_cons, List.length_append] at h
  dsimp only [Option.bind_some]
  rw [pPub_not (head_ne (by decide) _)]
  dsimp only
  rw [if_neg (head_ne (by decide) _), if_neg (head_ne (by decide) _), if_neg (by simp),
    if_neg (head_ne (by decide) _), if_pos (head_is _ _), List.tail_cons, pIdent_usable hn]
  dsimp only [Option.bind_some]
  rw [expect_self]
  dsimp only [Option.bind_some]
  rw [takes_type ht (endsTy_cons (by simp)) n (by simp only [List.length_cons, List.length_append]; omega)]
  dsimp only [Option.bind_some]
  rw [expect_self]
  rfl

theorem suffix_seg (t : IntTy) : segIdent (key t.suffix) = some (nameOf t.suffix) := by cases t <;> decide

theorem itemOk_const {c : ConstItem} (hn : c.name.usable = true) (hv : c.value.Use) : ItemOk c.tokens c.ast := by
  intro rest
  unfold ConstItem.tokens ConstItem.ast
  lx
  intro n h
  rw [pItem, takes_noAttrs (head_ne (by simp [key]) _) n h]
  simp only [List.length_cons, List.length_append] at h
  dsimp only [Option.bind_some]
  rw [pPub_pub]
  dsimp only
  rw [if_neg (head_ne (by decide) _), if_neg (head_ne (by decide) _), if_neg (by simp),
    if_pos (head_is _ _), List.tail_cons, pIdent_usable hn]
  dsimp only [Option.bind_some]
  rw [expect_self]
  dsimp only [Option.bind_some]
  rw [takes_word (suffix_seg c.ty) (endsTy_cons (by simp)) n
    (by simp only [List.length_cons, List.length_append]; omega)]
  dsimp only [Option.bind_some]
  rw [expect_self]
  dsimp only [Option.bind_some]
  have he : Takes 1 pExpr (lexemes c.value.tokens ++ .sym c!";" :: rest) (.operand c.value.operand)
      (.sym c!";" :: rest) := by
    cases hc : c.value with
    | lit t v => exact takes_int t v (by simp [key])
    | ident i =>
      rw [hc] at hv
      rw [Tok.tokens]
      lx
      exact takes_operand (pOperand_path (pSegs_one (segIdent_usable hv) (by simp))) (fun p _ => ⟨by simp, by simp⟩)
        (by simp [key]) (by simp [identLex]) (head_ne (usable_ne_key hv (by decide)) _)
  rw [he n (by simp only [List.length_cons, List.length_append]; omega)]
  dsimp only [Option.bind_some]
  rw [expect_self]
  rfl

theorem pUse_words : ∀ (ws : List Str), ws ≠ [] → (∀ w ∈ ws, segIdent (key w) = some (nameOf w)) → ∀ rest,
    pUse (lexemes (useTokens ws) ++ rest) = some ([ws.map nameOf], rest)
  | [], hne, _, _ => absurd rfl hne
  | [w], _, h, rest => by
    rw [useTokens]
    lx
    rw [pUse, if_neg (by simp [key]), h w (by simp)]
    dsimp only
    rw [if_neg (by simp), if_pos rfl]
    rfl
  | w :: x :: ws, _, h, rest => by
    rw [useTokens]
    lx
    rw [pUse, if_neg (by simp [key]), h w (by simp)]
    dsimp only
    rw [if_pos rfl, pUse_words (x :: ws) (by simp) (fun y hy => h y (by simp only [List.mem_cons] at hy ⊢; tauto)) rest]
    rfl

theorem itemOk_useOf {ts : List Token} {ps : List (List RIdent)} (h : ∀ rest, pUse (lexemes ts ++ rest) = some (ps, rest)) :
    ItemOk (kw c!"use" :: ts) (.use ps) := by
  intro rest
  rw [lexemes_cons, lexemes_kw, List.append_assoc, List.cons_append, List.nil_append]
  intro n hn
  rw [pItem, takes_noAttrs (head_ne (by simp [key]) _) n hn]
  dsimp only [Option.bind_some]
  rw [pPub_not (head_ne (by decide) _)]
  dsimp only
  rw [if_neg (head_ne (by decide) _), if_neg (head_ne (by decide) _), if_neg (by simp),
    if_neg (head_ne (by decide) _), if_neg (head_ne (by decide) _), if_neg (by decide), if_pos (head_is _ _),
    List.tail_cons, h]
  rfl

theorem itemOk_use {ws : List Str} (hne : ws ≠ []) (h : ∀ w ∈ ws, segIdent (key w) = some (nameOf w)) :
    ItemOk (kw c!"use" :: useTokens ws) (useAst ws) := itemOk_useOf (pUse_words ws hne h)

theorem itemOk_useSerde : ItemOk [kw c!"use", kw c!"serde", .op c!"::",
    .group .brace [kw c!"Deserialize", .op c!",", kw c!"Serialize"], .op c!";"]
    (.use [[nameOf c!"serde", nameOf c!"Deserialize"], [nameOf c!"serde", nameOf c!"Serialize"]]) := by
  refine itemOk_useOf fun rest => ?_
  lx
  have h1 : ∀ n, pIdents c!"}" (n + 3) (key c!"Deserialize" :: .sym c!"," :: key c!"Serialize" :: .sym c!"}" ::
      .sym c!";" :: rest) = some ([nameOf c!"Deserialize", nameOf c!"Serialize"], .sym c!";" :: rest) := by
    intro n
    simp [pIdents, pIdent, plainIdent, key, rustKeywords, nameOf]
  rw [pUse, if_neg (by simp [key]), show segIdent (key c!"serde") = some (nameOf c!"serde") by decide]
  dsimp only
  rw [if_pos rfl, pUse, if_pos rfl]
  simp only [List.length_cons]
  rw [show rest.length + 1 + 1 + 1 + 1 + 1 + 1 = (rest.length + 3) + 3 by omega, h1]
  dsimp only [Option.bind_some]
  rw [expect_self]
  rfl

theorem itemsOk_item {i : Item} (h : i.Use) : ItemsOk i.tokens i.ast := by
  cases i with
  | «alias» name ty => exact .one (itemOk_alias h.1 h.2)
  | enum e => exact itemsOk_enum h
  | struct s => exact itemsOk_struct h
  | union u => exact itemsOk_union h

theorem itemsOk_file {f : RustFile} (h : f.Use) : ItemsOk f.tokens f.ast := by
  unfold RustFile.tokens RustFile.ast
  refine ItemsOk.append (ItemsOk.append (ItemsOk.append (ItemsOk.append (ItemsOk.append
    (.one itemOk_useSerde) ?_) ?_) ?_) ?_) (.flatMap fun i hi => itemsOk_item (h.types i hi))
  · cases f.useTuple
    · exact .nil
    · exact .one (itemOk_use (by simp) (by decide))
  · cases f.useIndexer
    · exact .nil
    · exact ItemsOk.append (is := [_]) (js := [_]) (.one (itemOk_use (by simp) (by decide)))
        (.one (itemOk_use (by simp) (by decide)))
  · cases f.useUnion
    · exact .nil
    · exact ItemsOk.append (is := [_]) (js := [_]) (.one (itemOk_use (by simp) (by decide)))
        (.one (itemOk_use (by simp) (by decide)))
  · have := ItemsOk.flatMap (f := ConstItem.tokens) (g := fun c => [c.ast]) (xs := f.constants)
      fun c hc => .one (itemOk_const (h.constants c hc).1 (h.constants c hc).2)
    rwa [show (fun c : ConstItem => [c.ast]) = (fun c => [ConstItem.ast c]) from rfl, ← List.map_eq_flatMap] at this

/-- The text of a generated file with usable names is parsed to its tree. -/
theorem parse_file {n : Nat} {ds : List Definition} {cfg : Config} {file : RustFile}
    (hg : gen_code n ds cfg = .ok file) (h : file.Use) : parseRust file.text = some file.ast := by
  unfold parseRust
  rw [lex_file hg]
  dsimp only [Option.bind_some]
  have := itemsOk_file h [] [] (fun n hn => by
    obtain ⟨m, rfl⟩ : ∃ m, n = m + 1 := ⟨n - 1, by omega⟩
    rw [pItems, if_pos rfl]) (4 * (lexemes file.tokens).length + 3) (by simp)
  simpa using this

end Xdr.Rpcgen
