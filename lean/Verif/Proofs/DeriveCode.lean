import Verif.Proofs.DeriveRead
/-!
# Lemmas: the derive macros in closed form, and their impls
-/

namespace Xdr.Derive

open Rpcgen (Str Token RIdent Delim kw commaSep lexemes tokensText lexRust Lexeme)
open RustCode

/-! ## The expansion in closed form -/

def fieldTokensOf : Option (List (List Token)) → FieldTokens
  | none => .unit
  | some ts => .unnamed ts

def variantTokensOf (vars : List (Var (List Token))) : List VariantTokens :=
  vars.map fun v => ⟨v.1, fieldTokensOf v.2⟩

theorem variantTokensOf_cons (n : RIdent) (o : Option (List (List Token))) (vars : List (Var (List Token))) :
    variantTokensOf ((n, o) :: vars) = ⟨n, fieldTokensOf o⟩ :: variantTokensOf vars := rfl

theorem indexerFieldTokens_eq (c : FieldVecs) (n : Nat) (ts : List (List Token)) : indexerFieldTokens c n ts =
    ⟨c.serArgs ++ (argNames n ts).map fun a => [.ident a],
      c.serStmts ++ (argNames n ts).map fun a => serializeElement [.ident a],
      c.deStmts ++ (letNames n ts).map fun b => nextElement b.1 b.2,
      c.deRets ++ (retNames n ts).map fun r => [.ident r]⟩ := by
  induction ts generalizing c n with
  | nil => simp [indexerFieldTokens, argNames, retNames, letNames]
  | cons t ts ih => simp [indexerFieldTokens, ih, argNames, retNames, letNames]

theorem indexerArms_eq (e : RIdent) (c : ArmVecs) (vars : List (Var (List Token))) :
    indexerArms e c (variantTokensOf vars) =
      .ok ⟨c.ser ++ vars.map (serTok e), c.de ++ vars.map fun v => deTok e v.1 (indexerShape v)⟩ := by
  induction vars generalizing c with
  | nil => simp [variantTokensOf, indexerArms]
  | cons v vars ih =>
    obtain ⟨n, o⟩ := v
    cases o with
    | none =>
      rw [variantTokensOf_cons, fieldTokensOf, indexerArms, ih]
      simp only [List.append_assoc, List.singleton_append, List.map_cons]
      rfl
    | some ts =>
      rw [variantTokensOf_cons, fieldTokensOf, indexerArms]
      simp only [indexerFieldTokens_eq, ih, List.append_assoc, List.singleton_append, List.map_cons]
      rfl

theorem unionFieldTokens_rest (c : FieldVecs) (vt : Option (List Token)) (n : Nat) (ts : List (List Token))
    (hv : vt ≠ none) : unionFieldTokens c false vt n ts =
    (⟨c.serArgs ++ (argNames n ts).map fun a => [.ident a],
      c.serStmts ++ (argNames n ts).map fun a => serializeElement [.ident a],
      c.deStmts ++ (letNames n ts).map fun b => nextElement b.1 b.2,
      c.deRets ++ (retNames n ts).map fun r => [.ident r]⟩, vt) := by
  induction ts generalizing c n with
  | nil => simp [unionFieldTokens, argNames, retNames, letNames]
  | cons t ts ih =>
    cases vt with
    | none => exact absurd rfl hv
    | some vt => simp [unionFieldTokens, ih, argNames, retNames, letNames]

/-- The type of the discriminant: the first field of the first variant that has one. -/
def valueTokens (vars : List (Var (List Token))) : Option (List Token) :=
  vars.findSome? fun v => v.2.bind List.head?

theorem unionArms_eq (e : RIdent) (c : ArmVecs) (vt : Option (List Token)) (vars : List (Var (List Token))) :
    unionArms e c vt (variantTokensOf vars) =
      .ok (⟨c.ser ++ vars.map (serTok e), c.de ++ vars.map fun v => deTok e v.1 (unionShape v)⟩,
        vt.or (valueTokens vars)) := by
  induction vars generalizing c vt with
  | nil => simp [variantTokensOf, unionArms, valueTokens]
  | cons v vars ih =>
    obtain ⟨n, o⟩ := v
    cases o with
    | none =>
      rw [variantTokensOf_cons, fieldTokensOf, unionArms, ih]
      simp only [List.append_assoc, List.singleton_append, List.map_cons]
      rfl
    | some ts =>
      cases ts with
      | nil =>
        rw [variantTokensOf_cons, fieldTokensOf, unionArms]
        simp only [unionFieldTokens, ih, List.append_assoc, List.singleton_append, List.map_cons]
        rfl
      | cons t ts =>
        rw [variantTokensOf_cons, fieldTokensOf, unionArms]
        simp only [unionFieldTokens, if_true]
        rw [unionFieldTokens_rest _ _ _ _ (by cases vt <;> simp)]
        simp only [ih, List.append_assoc, List.singleton_append, List.map_cons]
        cases vt <;> rfl

theorem xdr_indexer_tokens_eq (n : RIdent) (vars : List (Var (List Token))) :
    xdr_indexer_tokens (.enum ⟨n, variantTokensOf vars⟩) = .ok (serializeImpl n (indexerSerBody (vars.map (serTok n))) ++
      deserializeImpl n c!"XdrIndexerVisitor" (indexerDeBody (vars.map fun v => deTok n v.1 (indexerShape v)))) := by
  simp only [xdr_indexer_tokens, indexerArms_eq, List.nil_append]

theorem xdr_union_tokens_eq (n : RIdent) {vars : List (Var (List Token))} {ty : List Token}
    (h : valueTokens vars = some ty) :
    xdr_union_tokens (.enum ⟨n, variantTokensOf vars⟩) = .ok (serializeImpl n (unionSerBody (vars.map (serTok n))) ++
      deserializeImpl n c!"XdrUnionVisitor" (unionDeBody ty (vars.map fun v => deTok n v.1 (unionShape v)))) := by
  simp only [xdr_union_tokens, unionArms_eq, List.nil_append, Option.none_or, h]

theorem variantTokensOf_of {vs : List VariantTokens} (h : ∀ v ∈ vs, v.fields ≠ .named) :
    ∃ vars, vs = variantTokensOf vars := by
  induction vs with
  | nil => exact ⟨[], rfl⟩
  | cons v vs ih =>
    rw [List.forall_mem_cons] at h
    obtain ⟨vars, rfl⟩ := ih h.2
    obtain ⟨n, f⟩ := v
    cases f with
    | named => exact absurd rfl h.1
    | unnamed ts => exact ⟨(n, some ts) :: vars, rfl⟩
    | unit => exact ⟨(n, none) :: vars, rfl⟩

theorem indexerArms_named {vs : List VariantTokens} {v : VariantTokens} (hv : v ∈ vs) (hf : v.fields = .named)
    (e : RIdent) (c : ArmVecs) : indexerArms e c vs = .panic .unimplemented := by
  induction vs generalizing c with
  | nil => simp at hv
  | cons x vs ih =>
    unfold indexerArms
    rcases List.mem_cons.1 hv with rfl | hv
    · rw [hf]
    · split <;> first | rfl | exact ih hv _

theorem unionArms_named {vs : List VariantTokens} {v : VariantTokens} (hv : v ∈ vs) (hf : v.fields = .named)
    (e : RIdent) (c : ArmVecs) (vt : Option (List Token)) : unionArms e c vt vs = .panic .unimplemented := by
  induction vs generalizing c vt with
  | nil => simp at hv
  | cons x vs ih =>
    unfold unionArms
    rcases List.mem_cons.1 hv with rfl | hv
    · rw [hf]
    · split <;> first | rfl | exact ih hv _ _

/-! ## The impls -/

theorem isText_of {ts : List Token} {text : Str} {l : List Lexeme} {name : Option RIdent} (h : lexRust text = some l)
    (hl : lexemes ts = l ++ (name.map fun i => Lexeme.ident i.raw i.name).toList) : isText ts text name := by
  simp only [isText, h, hl, Option.map_some]

theorem readSerialize_eq (body : List Token) :
    readSerialize ([kw c!"fn", kw c!"serialize", .op c!"<", kw c!"S", .op c!">",
      .group .paren [.op c!"&", kw c!"self", .op c!",", kw c!"serializer", .op c!":", kw c!"S"], .op c!"->"] ++
      resultTokens [word c!"S", word c!"Ok"] c!"S" ++
      [kw c!"where", kw c!"S", .op c!":"] ++ globalPath [c!"serde", c!"ser", c!"Serializer"] ++
      [.op c!",", .group .brace body]) = some body := by
  rfl

theorem readVisitor_eq (e : RIdent) (body : List Token) :
    readVisitor e ([kw c!"type", kw c!"Value", .op c!"=", .ident e, .op c!";"] ++ expectingTokens e ++
      visitSeqTokens body) = some body := by
  simp only [kw, List.cons_append, List.nil_append, readVisitor]
  rw [if_pos (by simp [w])]
  rfl

theorem cutBrace_append {h : List Token} (hh : ∀ b, Token.group .brace b ∉ h) (body rest : List Token) :
    cutBrace (h ++ .group .brace body :: rest) = some (h, body, rest) := by
  induction h with
  | nil => rfl
  | cons t h ih =>
    have ih := ih fun b hb => hh b (by simp [hb])
    rw [List.cons_append, cutBrace, ih]
    · rfl
    · intro b hb
      exact hh b (by simp [hb])

theorem readBody_eq (e : RIdent) (visitor : Str) (hv : visitor = c!"XdrIndexerVisitor" ∨ visitor = c!"XdrUnionVisitor") (body : List Token) :
    readBody e ([kw c!"struct", kw visitor, .op c!";"] ++
      kw c!"impl" :: lifetimeDe ++ globalPath [c!"serde", c!"de", c!"Visitor"] ++ lifetimeDe ++
      [kw c!"for", kw visitor, .group .brace
        ([kw c!"type", kw c!"Value", .op c!"=", .ident e, .op c!";"] ++ expectingTokens e ++
          visitSeqTokens body)] ++
      [kw c!"deserializer", .op c!".", kw c!"deserialize_tuple",
        .group .paren [.lit c!"10", .op c!",", kw visitor]]) = some (10, body) := by
  have h1 : ∀ m rest, cutBrace (kw c!"impl" :: lifetimeDe ++ globalPath [c!"serde", c!"de", c!"Visitor"] ++ lifetimeDe ++
      [kw c!"for", kw visitor] ++ .group .brace m :: rest) = some (kw c!"impl" :: lifetimeDe ++
        globalPath [c!"serde", c!"de", c!"Visitor"] ++ lifetimeDe ++ [kw c!"for", kw visitor], m, rest) := fun m rest => rfl
  have h2 : isText (kw c!"impl" :: lifetimeDe ++
      globalPath [c!"serde", c!"de", c!"Visitor"] ++ lifetimeDe ++ [kw c!"for", kw visitor])
      c!"impl<'de> ::serde::de::Visitor<'de> for" (some (w visitor)) := by
    refine isText_of rfl ?_
    rfl
  have h3 : readExpr depth [kw c!"deserializer", .op c!".", kw c!"deserialize_tuple",
      .group .paren [.lit c!"10", .op c!",", kw visitor]] = some (.method (.path false [w c!"deserializer"])
        (w c!"deserialize_tuple") none [.lit c!"10", .path false [w visitor]]) := by
    rcases hv with rfl | rfl <;> rfl
  have h4 := h1 ([kw c!"type", kw c!"Value", .op c!"=", .ident e, .op c!";"] ++ expectingTokens e ++
          visitSeqTokens body) [kw c!"deserializer", .op c!".", kw c!"deserialize_tuple",
        .group .paren [.lit c!"10", .op c!",", kw visitor]]
  have h5 := readVisitor_eq e body
  simp only [List.cons_append, List.nil_append, List.append_assoc, kw, w] at h1 h2 h3 h4 h5 ⊢
  simp only [readBody]
  rw [if_pos (by simp [w]), h4]
  simp only
  rw [if_pos h2, h5, h3]
  simp only
  rw [if_pos (by simp [w])]
  rfl

theorem readImpls_eq (e : RIdent) (visitor : Str) (hv : visitor = c!"XdrIndexerVisitor" ∨ visitor = c!"XdrUnionVisitor") (ser body : List Token) :
    readImpls e (serializeImpl e ser ++ deserializeImpl e visitor body) = some ⟨ser, body, 10⟩ := by
  have h1 : isText (kw c!"impl" :: globalPath [c!"serde", c!"Serialize"] ++ [kw c!"for", .ident e])
      c!"impl ::serde::Serialize for" (some e) := isText_of rfl rfl
  have h2 : isText (kw c!"impl" :: lifetimeDe ++ globalPath [c!"serde", c!"Deserialize"] ++ lifetimeDe ++
      [kw c!"for", .ident e]) c!"impl<'de> ::serde::Deserialize<'de> for" (some e) := isText_of rfl rfl
  have h3 : ∀ b, readDeserialize e ([kw c!"fn", kw c!"deserialize", .op c!"<", kw c!"D", .op c!">",
        .group .paren [kw c!"deserializer", .op c!":", kw c!"D"], .op c!"->"] ++
        resultTokens [word c!"Self"] c!"D" ++
        [kw c!"where", kw c!"D", .op c!":"] ++ globalPath [c!"serde", c!"de", c!"Deserializer"] ++ lifetimeDe ++
        [.group .brace b]) = readBody e b := fun b => rfl
  have h4 := readSerialize_eq ser
  have h5 := readBody_eq e visitor hv body
  unfold readImpls
  rw [show cutBrace (serializeImpl e ser ++ deserializeImpl e visitor body) =
    some (_, _, deserializeImpl e visitor body) from rfl]
  simp only
  rw [show cutBrace (deserializeImpl e visitor body) = some (_, _, []) from rfl]
  simp only
  rw [if_pos ⟨h1, h2⟩, h4, h3, h5]

/-! ## The bodies -/

/-- The arms of `match self`. -/
theorem readArms_ser {e : RIdent} (he : e ∉ notPath) {vts : List (Var (List Token))} (hne : vts ≠ []) :
    readArms (commaSep (vts.map (serTok e)) ++ [.op c!",", kw c!"_", .op c!"=>", kw c!"unimplemented",
      .op c!"!", .group .paren [], .op c!","]) = some (vts.map (serRead e) ++ [otherwise]) := by
  refine readArms_eq (by simpa using hne) ?_ ?_
  · simp only [List.forall_mem_map]
    exact fun v _ => noOp_ser v
  · rw [List.forall₂_map_left_iff, List.forall₂_map_right_iff, List.forall₂_same]
    exact fun v _ => readArm_ser he v

/-- The arms of `match variant`. -/
theorem readArms_de {e : RIdent} (he : e ∉ notPath) {shape : Var (List Token) → DeShape}
    {vts : List (Var (List Token))} (hne : vts ≠ []) (ht : ∀ v ∈ vts, ∀ b ∈ (shape v).1, IsType b.2)
    (hr : ∀ v ∈ vts, ∀ rs, (shape v).2 = some rs → ∀ r ∈ rs, r ∉ notPath) :
    readArms (commaSep (vts.map fun v => deTok e v.1 (shape v)) ++ [.op c!",", kw c!"_", .op c!"=>",
      kw c!"unimplemented", .op c!"!", .group .paren [], .op c!","]) =
      some (vts.map (fun v => deRead e v.1 (shape v)) ++ [otherwise]) := by
  refine readArms_eq (by simpa using hne) ?_ ?_
  · simp only [List.forall_mem_map]
    exact fun v _ => noOp_de
  · rw [List.forall₂_map_left_iff, List.forall₂_map_right_iff, List.forall₂_same]
    exact fun v hv => readArm_de he (ht v hv) (hr v hv)

theorem serRead_means {meaning : List Token → Option Ty} {e : RIdent} {vts : List (Var (List Token))}
    {vs : List (Var Ty)} (hm : List.Forall₂ (VarMeans meaning) vts vs) : vts.map (serRead e) = vs.map (serRead e) := by
  induction hm with
  | nil => rfl
  | @cons vt v vts vs h _ ih =>
    rw [List.map_cons, List.map_cons, ih]
    congr 1
    obtain ⟨n, ot⟩ := vt
    obtain ⟨n', o⟩ := v
    obtain ⟨rfl, h⟩ := h
    cases h with
    | none => rfl
    | some h => simp only [serRead, argNames_congr h.length_eq]

theorem readBlock_indexerDe (arms : List (List Token)) : readBlock (indexerDeBody arms) = some
    ⟨[.bind (w c!"index") (nextExpr [kw c!"i32"]),
      .bind (w c!"variant") (.question (.method (.call (.path false [w c!"Self", w c!"Value", w c!"name_by_index"])
        [.path false [w c!"index"]]) (w c!"map_err") none [.closure (.call (.path true [w c!"serde", w c!"de",
          w c!"Error", w c!"custom"]) [.macroCall (w c!"format") [.lit c!"\"Can not convert from {}\"", .op c!",",
            kw c!"index"]])]))],
      .matchOn (.path false [w c!"variant"]) (commaSep arms ++ [.op c!",", kw c!"_", .op c!"=>", kw c!"unimplemented",
        .op c!"!", .group .paren [], .op c!","])⟩ := by
  rfl

theorem readBlock_unionDe {ty : List Token} (h : IsType ty) (arms : List (List Token)) :
    readBlock (unionDeBody ty arms) = some
    ⟨[.bind (w c!"value") (nextExpr ty),
      .bind (w c!"variant") (.question (.method (.call (.path false [w c!"Self", w c!"Value", w c!"name_by_value"])
        [.ref (.path false [w c!"value"])]) (w c!"map_err") none [.closure (.call (.path true [w c!"serde", w c!"de",
          w c!"Error", w c!"custom"]) [.macroCall (w c!"format") [.lit c!"\"Can not convert from {:?}\"", .op c!",",
            .op c!"&", kw c!"value"]])]))],
      .matchOn (.path false [w c!"variant"]) (commaSep arms ++ [.op c!",", kw c!"_", .op c!"=>", kw c!"unimplemented",
        .op c!"!", .group .paren [], .op c!","])⟩ := by
  have h1 := readStmt_next (r := word c!"value") h
  have h2 := noOp_next (r := word c!"value") h
  unfold unionDeBody readBlock
  rw [List.append_assoc, List.cons_append, splitAt_append h2]
  rw [show splitAt c!";" (variantTokens c!"name_by_value" [.op c!"&", kw c!"value"] c!"\"Can not convert from {:?}\""
    [.op c!"&", kw c!"value"] ++ matchArms c!"variant" arms) = [_, _] from rfl]
  simp only [readPieces, h1]
  rfl

theorem letNames_mem {ts : List (List Token)} {b : RIdent × List Token} :
    ∀ {n : Nat}, b ∈ letNames n ts → b.2 ∈ ts := by
  induction ts with
  | nil => simp [letNames]
  | cons t ts ih =>
    intro n h
    rcases List.mem_cons.1 h with rfl | h
    · simp
    · exact List.mem_cons_of_mem _ (ih h)

theorem retNames_path {α : Type} {ts : List α} : ∀ {n : Nat}, ∀ r ∈ retNames n ts, r ∉ notPath := by
  induction ts with
  | nil => simp [retNames]
  | cons t ts ih =>
    intro n r h
    rcases List.mem_cons.1 h with rfl | h
    · exact retTokens_path n
    · exact ih r h

theorem valueTokens_type {vts : List (Var (List Token))} (h : ∀ v ∈ vts, ∀ ts, v.2 = some ts → ∀ t ∈ ts, IsType t)
    {ty : List Token} (hty : valueTokens vts = some ty) : IsType ty := by
  obtain ⟨v, hv, hb⟩ := List.exists_of_findSome?_eq_some hty
  obtain ⟨ts, h1, h2⟩ := Option.bind_eq_some_iff.1 hb
  exact h v hv ts h1 ty (List.mem_of_mem_head? h2)

theorem indexerShape_types {vts : List (Var (List Token))} (h : ∀ v ∈ vts, ∀ ts, v.2 = some ts → ∀ t ∈ ts, IsType t) :
    ∀ v ∈ vts, ∀ b ∈ (indexerShape v).1, IsType b.2 := by
  intro v hv b hb
  unfold indexerShape at hb
  split at hb
  · simp at hb
  · next ts hts => exact h v hv ts hts _ (letNames_mem hb)

theorem indexerShape_path {v : Var (List Token)} : ∀ rs, (indexerShape v).2 = some rs → ∀ r ∈ rs, r ∉ notPath := by
  intro rs h
  unfold indexerShape at h
  split at h
  · cases h
  · cases h; exact retNames_path

theorem unionShape_types {vts : List (Var (List Token))} (h : ∀ v ∈ vts, ∀ ts, v.2 = some ts → ∀ t ∈ ts, IsType t) :
    ∀ v ∈ vts, ∀ b ∈ (unionShape v).1, IsType b.2 := by
  intro v hv b hb
  unfold unionShape at hb
  split at hb
  · simp at hb
  · simp at hb
  · next t ts hts => exact h v hv _ hts _ (List.mem_cons_of_mem _ (letNames_mem hb))

theorem unionShape_path {v : Var (List Token)} : ∀ rs, (unionShape v).2 = some rs → ∀ r ∈ rs, r ∉ notPath := by
  intro rs h
  unfold unionShape at h
  split at h
  · cases h
  · cases h; simp
  · cases h
    intro r hr
    rcases List.mem_cons.1 hr with rfl | hr
    · decide
    · exact retNames_path r hr

theorem valueTokens_means {meaning : List Token → Option Ty} {vts : List (Var (List Token))} {vs : List (Var Ty)}
    (hm : List.Forall₂ (VarMeans meaning) vts vs) {disc : Ty}
    (hd : vs.findSome? (fun v => v.2.bind List.head?) = some disc) :
    ∃ ty, valueTokens vts = some ty ∧ meaning ty = some disc := by
  induction hm with
  | nil => simp at hd
  | @cons vt v vts vs h _ ih =>
    obtain ⟨n, ot⟩ := vt
    obtain ⟨n', o⟩ := v
    obtain ⟨-, hrel⟩ := h
    simp only [valueTokens, List.findSome?_cons] at ih hd ⊢
    cases hrel with
    | none => exact ih hd
    | some hf =>
      cases hf with
      | nil => exact ih hd
      | @cons t ty ts tys h1 _ =>
        simp only [Option.bind_some, List.head?_cons, Option.some.injEq] at hd ⊢
        subst hd
        exact ⟨t, rfl, h1⟩

theorem next_element_map {α β : Type} (seq : Seq) (d : De α) (f : α → β) {γ : Type} (k : Option β × Seq → De γ) :
    (seq.next_element (d >>= fun a => pure (f a)) >>= k) = (seq.next_element d >>= fun p => k (p.1.map f, p.2)) := by
  unfold Seq.next_element
  split
  · rfl
  · simp only [M.bind_assoc', M.pure_bind']
    rfl

end Xdr.Derive
