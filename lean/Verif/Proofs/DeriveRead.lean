import Verif.Proofs.DeriveTokens
import Verif.Rpcgen.Meaning
/-!
# Lemmas: what `visit_seq` of the derive macros does
-/

namespace Xdr.Derive

open Rpcgen (Str Token RIdent Delim kw commaSep lexemes tokensText lexRust Lexeme)
open RustCode

/-! ## Reading: statements and arms -/

/-- `seq.next_element::<ty>()?.unwrap()` -/
def nextExpr (ty : List Token) : Expr :=
  .method (.question (.method (.path false [w c!"seq"]) (w c!"next_element") (some ty) [])) (w c!"unwrap") none []

theorem closeAngle_rest {a b : List Token} (rest : List Token) : ∀ {ts : List Token} {d : Nat},
    closeAngle d ts = some (a, b) → closeAngle d (ts ++ rest) = some (a, b ++ rest) := by
  intro ts
  induction ts generalizing a with
  | nil => intro d h; simp [closeAngle] at h
  | cons t ts ih =>
    intro d h
    have step : ∀ {d : Nat} {t : Token}, (closeAngle d ts).map (fun p => (t :: p.1, p.2)) = some (a, b) →
        (closeAngle d (ts ++ rest)).map (fun p => (t :: p.1, p.2)) = some (a, b ++ rest) := by
      intro d t h
      obtain ⟨⟨a', b'⟩, hc, he⟩ := Option.map_eq_some_iff.1 h
      simp only [Prod.mk.injEq] at he
      obtain ⟨rfl, rfl⟩ := he
      rw [ih hc]
      rfl
    cases t with
    | op x =>
      simp only [closeAngle, List.cons_append] at h ⊢
      split at h
      · next hx =>
        rw [if_pos hx]
        cases d with
        | zero =>
          simp only [Option.some.injEq, Prod.mk.injEq] at h ⊢
          obtain ⟨rfl, rfl⟩ := h
          exact ⟨rfl, rfl⟩
        | succ d => exact step h
      · next hx =>
        rw [if_neg hx]
        split at h
        · next hy => rw [if_pos hy]; exact step h
        · next hy => rw [if_neg hy]; exact step h
    | _ => simp only [closeAngle, List.cons_append] at h ⊢; exact step h

theorem isType_close {ty : List Token} (h : IsType ty) (rest : List Token) :
    closeAngle 0 (ty ++ .op c!">" :: rest) = some (ty, rest) := by
  have := closeAngle_rest rest h.2
  simpa using this

theorem readStmt_next {r : RIdent} {ty : List Token} (h : IsType ty) :
    readStmt (nextElement r ty) = some [.bind r (nextExpr ty)] := by
  simp only [nextElement, kw, List.cons_append, List.nil_append, readStmt]
  rw [if_pos (by decide), readLet, if_pos rfl]
  simp only [depth, readExpr]
  rw [if_neg (by decide)]
  simp [readPath, readPostfix, isType_close h, readArgs, nextExpr, w]

theorem noOp_next {r : RIdent} {ty : List Token} (h : IsType ty) : NoOp c!";" (nextElement r ty) := by
  rw [nextElement, noOp_append, noOp_append]
  exact ⟨⟨by simp [NoOp, kw], fun t ht he => h.1 (he ▸ ht)⟩, by simp [NoOp, kw]⟩

/-- The statements and the variables of an arm. -/
abbrev DeShape := List (RIdent × List Token) × Option (List RIdent)

/-- An arm of `match variant`, as tokens. -/
def deTok (e v : RIdent) (s : DeShape) : List Token :=
  match s.2 with
  | none => deUnitTokens e v
  | some rs => deArmTokens e v (s.1.map fun b => nextElement b.1 b.2) (rs.map fun r => [.ident r])

/-- The value of an arm. -/
def okExpr (e v : RIdent) (rets : Option (List RIdent)) : Expr :=
  .call (.path false [w c!"Ok"]) [match rets with
    | none => .path false [e, v]
    | some rs => .call (.path false [e, v]) (rs.map fun r => .path false [r])]

/-- An arm of `match variant`. -/
def deRead (e v : RIdent) (s : DeShape) : Pat × Block :=
  (.macroCall (w c!"stringify") [.ident v],
    ⟨if s.2 = none then [] else s.1.map fun b => .bind b.1 (nextExpr b.2), .expr (okExpr e v s.2)⟩)

theorem readExpr_path {n : Nat} {e v : RIdent} (he : e ∉ notPath) (rest : List Token)
    (hr : ∀ i ts, rest ≠ .op c!"::" :: .ident i :: ts) :
    readExpr (n + 1) (.ident e :: .op c!"::" :: .ident v :: rest) = readPostfix n (.path false [e, v]) rest := by
  rw [readExpr]
  · rw [if_neg he]
    have : readPath (.ident v :: rest) = ([v], rest) := by
      unfold readPath
      split
      · next h =>
        split
        · next hs => cases h; subst hs; exact absurd rfl (hr _ _)
        · cases h; rfl
      · next h => cases h; rfl
      · next h1 h2 => exact absurd rfl (h2 v rest)
    simp only [readPath, ite_true, this]
  · intro s args ts' h
    simp at h

theorem readTail_ok {e v : RIdent} (he : e ∉ notPath) {rets : Option (List RIdent)} (hr : ∀ rs, rets = some rs → ∀ r ∈ rs, r ∉ notPath) :
    readTail [kw c!"Ok", .group .paren (pathTokens [e, v] ++ (rets.map fun rs => Token.group .paren (commaSep (rs.map fun r => [.ident r]))).toList)] =
      some ⟨[], .expr (okExpr e v rets)⟩ := by
  simp only [readTail, kw]
  rw [if_neg (by decide)]
  simp only [depth, readExpr]
  rw [if_neg (by decide)]
  simp only [readPath, readPostfix, pathTokens]
  cases rets with
  | none =>
    simp only [Option.map_none, Option.toList_none, List.append_nil, readArgs, splitAt]
    simp [readExpr_path he, readPostfix, okExpr, w]
  | some rs =>
    have h := fun n => readArgs_idents (n := n) (hr rs rfl)
    simp only [Option.map_some, Option.toList_some, List.cons_append, List.nil_append, readArgs]
    simp [splitAt, readExpr_path he, readPostfix, h, okExpr, w]

theorem readArm_de {e v : RIdent} (he : e ∉ notPath) {s : DeShape} (ht : ∀ b ∈ s.1, IsType b.2)
    (hr : ∀ rs, s.2 = some rs → ∀ r ∈ rs, r ∉ notPath) : readArm (deTok e v s) = some (deRead e v s) := by
  obtain ⟨bs, o⟩ := s
  cases o with
  | none =>
    have h1 := readTail_ok (v := v) he (rets := none) (by simp)
    simp only [Option.map_none, Option.toList_none, List.append_nil] at h1
    have h2 : readBlock [kw c!"Ok", .group .paren (pathTokens [e, v])] = some ⟨[], .expr (okExpr e v none)⟩ := by
      unfold readBlock
      rw [splitAt_last (by simp [NoOp, kw]), readPieces, h1]
    simp [deTok, deRead, deUnitTokens, stringifyTokens, readArm, cutAt, kw, readPat, w]
    rw [show (⟨false, c!"Ok"⟩ : RIdent) = ⟨false, c!"Ok"⟩ from rfl]
    simp only [kw] at h2
    rw [h2]
  | some rs =>
    have h1 := readTail_ok (v := v) he hr
    simp only [Option.map_some, Option.toList_some] at h1
    have h2 := readBlock_semi (xs := bs.map fun b => nextElement b.1 b.2)
      (ss := bs.map fun b => .bind b.1 (nextExpr b.2)) (by
        simp only [List.forall_mem_map]
        exact fun b hb => noOp_next (ht b hb)) (by
        rw [List.forall₂_map_left_iff, List.forall₂_map_right_iff, List.forall₂_same]
        exact fun b hb => readStmt_next (ht b hb)) (by simp [NoOp, kw]) h1
    simp [deTok, deRead, deArmTokens, stringifyTokens, readArm, cutAt, kw, readPat, w]
    simp only [kw] at h2
    rw [h2]

theorem noOp_de {e v : RIdent} {s : DeShape} : NoOp c!"," (deTok e v s) := by
  obtain ⟨bs, o⟩ := s
  cases o <;> simp [deTok, deUnitTokens, deArmTokens, stringifyTokens, NoOp, kw]

/-! ## Reading: what the statements do -/

/-- The variables of the fields, with their types. -/
def letNames : Nat → List (List Token) → List (RIdent × List Token)
  | _, [] => []
  | n, t :: ts => (retTokens n, t) :: letNames (n + 1) ts

/-- The variables after the statements. -/
def boundD : Nat → List Val → List (RIdent × DVar) → List (RIdent × DVar)
  | _, [], b => b
  | n, v :: vs, b => boundD (n + 1) vs ((retTokens n, .val v) :: b)

theorem find_boundD {x : RIdent} (vs : List Val) : ∀ (n : Nat) (b : List (RIdent × DVar)),
    (∀ m, n ≤ m → x ≠ retTokens m) → RustCode.find x (boundD n vs b) = RustCode.find x b := by
  induction vs with
  | nil => intro n b _; rfl
  | cons v vs ih =>
    intro n b h
    rw [boundD, ih (n + 1) _ fun m hm => h m (by omega)]
    exact find_cons_ne (h n (Nat.le_refl _)).symm

theorem argValues_bound {α : Type} (ts : List α) : ∀ (vs : List Val) (n : Nat) (b : List (RIdent × DVar)),
    vs.length = ts.length →
    argValues (boundD n vs b) ((retNames n ts).map fun r => .path false [r]) = some vs := by
  induction ts with
  | nil =>
    intro vs n b h
    rw [List.length_nil, List.length_eq_zero_iff] at h
    subst h
    rfl
  | cons t ts ih =>
    intro vs n b h
    cases vs with
    | nil => simp at h
    | cons v vs =>
      simp only [List.length_cons, Nat.add_right_cancel_iff] at h
      simp only [boundD, retNames, List.map_cons, argValues]
      rw [ih vs (n + 1) _ h, find_boundD, find_cons]
      exact fun m hm he => absurd (retTokens_inj he) (by omega)

theorem readAll_eq (meaning : List Token → Option Ty) (field : Ty → De Val) (k : List (RIdent × DVar) → De Val)
    {tts : List (List Token)} {ts : List Ty} (h : List.Forall₂ (fun t ty => meaning t = some ty) tts ts) :
    ∀ (n : Nat) (seq : Seq) (b : List (RIdent × DVar)),
    readAll meaning field k seq b ((letNames n tts).map fun b => .bind b.1 (nextExpr b.2)) =
      (visitUnwrap (ts.map field) seq >>= fun vs => k (boundD n vs b)) := by
  induction h with
  | nil => intro n seq b; rfl
  | @cons t ty tts ts h1 _ ih =>
    intro n seq b
    have he : elementType (w c!"seq") (nextExpr t) = some t := by simp [elementType, nextExpr]
    simp only [letNames, List.map_cons, readAll, he, Option.bind_some, h1, visitUnwrap, M.bind_assoc']
    congr 1
    funext p
    obtain ⟨o, seq'⟩ := p
    cases o with
    | none => rfl
    | some v =>
      simp only [M.bind_assoc', M.pure_bind', boundD]
      exact ih _ _ _

theorem textArm_eq (e : RIdent) (shape : Var (List Token) → DeShape) (s : String) (vars : List (Var (List Token))) :
    textArm s (vars.map (fun v => deRead e v.1 (shape v)) ++ [otherwise]) =
      match vars.find? fun v => decide (v.1.str = s) with
      | some v => some (deRead e v.1 (shape v)).2
      | none => some otherwise.2 := by
  induction vars with
  | nil => rfl
  | cons v vars ih =>
    simp only [List.map_cons, List.cons_append, deRead, textArm, ite_true, tokensText, Token.text] at ih ⊢
    by_cases h : v.1.str = s
    · have : String.ofList v.1.text = s := h
      simp [this, h]
    · have : ¬ String.ofList v.1.text = s := h
      simp only [this, if_false, ih, List.find?_cons, h, decide_false]

theorem isUnimplemented_de (e v : RIdent) (s : DeShape) : isUnimplemented (deRead e v s).2 = false := by
  unfold deRead okExpr isUnimplemented
  split
  · next h => simp at h
  · rfl

/-- The tokens mean the types. -/
def VarMeans (meaning : List Token → Option Ty) (vt : Var (List Token)) (v : Var Ty) : Prop :=
  vt.1 = v.1 ∧ Option.Rel (List.Forall₂ fun t ty => meaning t = some ty) vt.2 v.2

theorem find_means {meaning : List Token → Option Ty} {vts : List (Var (List Token))} {vs : List (Var Ty)}
    (h : List.Forall₂ (VarMeans meaning) vts vs) (s : String) : ∀ k : Nat,
    match findVariant s (vs.map fun v => (v.1.str, v.2)) k with
    | none => vts.find? (fun v => decide (v.1.str = s)) = none
    | some (i, o) => ∃ n ot, vts.find? (fun v => decide (v.1.str = s)) = some (n, ot) ∧ k ≤ i ∧ vs[i - k]? = some (n, o) ∧
        VarMeans meaning (n, ot) (n, o) := by
  induction h with
  | nil => intro k; rfl
  | @cons vt v vts vs h1 _ ih =>
    intro k
    simp only [List.map_cons, findVariant]
    by_cases hs : v.1.str = s
    · simp only [hs, if_true]
      obtain ⟨n, ot⟩ := vt
      obtain ⟨n', o⟩ := v
      obtain ⟨rfl, h2⟩ := h1
      exact ⟨n, ot, by simp [hs], Nat.le_refl _, by simp, rfl, h2⟩
    · simp only [hs, if_false]
      have hs' : ¬ vt.1.str = s := by rw [h1.1]; exact hs
      specialize ih (k + 1)
      revert ih
      cases findVariant s (vs.map fun v => (v.1.str, v.2)) (k + 1) with
      | none => intro ih; simpa [hs'] using ih
      | some p =>
        obtain ⟨i, o⟩ := p
        intro ih
        obtain ⟨n, ot, ha, hb, hc, hd⟩ := ih
        refine ⟨n, ot, by simpa [hs'] using ha, by omega, ?_, hd⟩
        rw [show i - k = (i - (k + 1)) + 1 by omega, List.getElem?_cons_succ, hc]

theorem findIdx_self {α : Type} {vars : List (RIdent × α)} (hn : (vars.map (·.1)).Nodup) {i : Nat} {v : RIdent × α}
    (h : vars[i]? = some v) : vars.findIdx? (fun x => decide (x.1 = v.1)) = some i := by
  induction vars generalizing i with
  | nil => simp at h
  | cons x vars ih =>
    rw [List.map_cons, List.nodup_cons] at hn
    cases i with
    | zero =>
      simp only [List.getElem?_cons_zero, Option.some.injEq] at h
      subst h
      simp [List.findIdx?_cons]
    | succ i =>
      simp only [List.getElem?_cons_succ] at h
      have hne : x.1 ≠ v.1 := fun he => hn.1 (he ▸ List.mem_map.2 ⟨v, List.mem_of_getElem? h, rfl⟩)
      simp [List.findIdx?_cons, hne, ih hn.2 h]

theorem variant_self {E : EnumType} (hn : (E.variants.map (·.1)).Nodup) {i : Nat} {n : RIdent} {o : Option (List Ty)}
    (h : E.variants[i]? = some (n, o)) : E.variant n = some (i, o) := by
  have := findIdx_self hn h
  simp only at this
  simp [EnumType.variant, this, h]

/-- An arm of `XdrIndexer`. -/
def indexerShape (v : Var (List Token)) : DeShape :=
  match v.2 with
  | none => ([], none)
  | some ts => (letNames 0 ts, some (retNames 0 ts))

/-- An arm of `XdrUnion`. -/
def unionShape (v : Var (List Token)) : DeShape :=
  match v.2 with
  | none => ([], none)
  | some [] => ([], some [])
  | some (_ :: ts) => (letNames 1 ts, some (w c!"value" :: retNames 1 ts))

theorem readMatch_indexer {meaning : List Token → Option Ty} {field : Ty → De Val} {E : EnumType}
    {vts : List (Var (List Token))} (hm : List.Forall₂ (VarMeans meaning) vts E.variants)
    (hn : (E.variants.map (·.1)).Nodup) {arms : List Token}
    (ha : readArms arms = some (vts.map (fun v => deRead E.name v.1 (indexerShape v)) ++ [otherwise]))
    (s : String) (seq : Seq) (vars : List (RIdent × DVar)) :
    readMatch meaning field E s seq vars arms =
      match findVariant s (E.variants.map fun v => (v.1.str, v.2)) 0 with
      | none => M.panic .unimplemented
      | some (i, none) => pure (.variant i [])
      | some (i, some ts) => visitUnwrap (ts.map field) seq >>= fun vs => pure (.variant i vs) := by
  have hf := find_means hm s 0
  simp only [readMatch, ha, Option.bind_some, textArm_eq]
  split at hf
  · next h => rw [hf, h]; rfl
  · next i o h =>
    obtain ⟨n, ot, h1, -, h2, -, h3⟩ := hf
    rw [h1, h]
    simp only [isUnimplemented_de]
    have hv := variant_self hn h2
    cases h3 with
    | none =>
      simp [deRead, indexerShape, readAll, okExpr, okValue, hv, w]
    | @some tts ts h3 =>
      simp only [deRead, indexerShape, reduceCtorEq, if_false, Bool.false_eq_true]
      rw [readAll_eq meaning field _ h3]
      refine visitUnwrap_congr _ _ _ _ fun vs hl => ?_
      rw [List.length_map] at hl
      have := argValues_bound tts vs 0 vars (by rw [hl, h3.length_eq])
      simp [okExpr, okValue, hv, this, hl, w]

theorem readMatch_union {meaning : List Token → Option Ty} {field : Ty → De Val} {E : EnumType}
    {vts : List (Var (List Token))} (hm : List.Forall₂ (VarMeans meaning) vts E.variants)
    (hn : (E.variants.map (·.1)).Nodup) {arms : List Token}
    (ha : readArms arms = some (vts.map (fun v => deRead E.name v.1 (unionShape v)) ++ [otherwise]))
    (s : String) (seq : Seq) (vars : List (RIdent × DVar)) {value : Val}
    (hvar : RustCode.find (w c!"value") vars = some (.val value)) :
    readMatch meaning field E s seq vars arms =
      match findVariant s (E.variants.map fun v => (v.1.str, v.2)) 0 with
      | none => M.panic .unimplemented
      | some (i, none) => pure (.variant i [])
      | some (i, some []) => pure (.variant i [])
      | some (i, some (_ :: ts)) => visitUnwrap (ts.map field) seq >>= fun vs => pure (.variant i (value :: vs)) := by
  have hf := find_means hm s 0
  simp only [readMatch, ha, Option.bind_some, textArm_eq]
  split at hf
  · next h => rw [hf, h]; rfl
  · next i o h =>
    obtain ⟨n, ot, h1, -, h2, -, h3⟩ := hf
    rw [h1, h]
    simp only [isUnimplemented_de]
    have hv := variant_self hn h2
    cases h3 with
    | none =>
      simp [deRead, unionShape, readAll, okExpr, okValue, hv, w]
    | @some tts ts h3 =>
      cases h3 with
      | nil => simp [deRead, unionShape, readAll, okExpr, okValue, hv, argValues, w]
      | @cons tt ty tts ts h3 h4 =>
        simp only [deRead, unionShape, reduceCtorEq, if_false, Bool.false_eq_true]
        rw [readAll_eq meaning field _ h4]
        refine visitUnwrap_congr _ _ _ _ fun vs hl => ?_
        rw [List.length_map] at hl
        have h5 := argValues_bound tts vs 1 vars (by rw [hl, h4.length_eq])
        have h6 : RustCode.find (w c!"value") (boundD 1 vs vars) = some (.val value) := by
          rw [find_boundD, hvar]
          intro m _ he
          simp [w, retTokens, word] at he
        simp [okExpr, okValue, hv, argValues, h5, h6, hl]

end Xdr.Derive
