import Verif.Model.DeriveTokens
import Verif.Spec.RustCode
import Verif.Proofs.Derive
import Mathlib.Data.List.Forall2
/-!
# Lemmas: reading what the derive macros return
-/

namespace Xdr.Derive

open Rpcgen (Str Token RIdent Delim kw commaSep lexemes tokensText)
open RustCode

/-! ## Splitting -/

/-- No token `s` outside of groups. -/
def NoOp (s : Str) (ts : List Token) : Prop := ∀ t ∈ ts, t ≠ .op s

theorem noOp_cons {s : Str} {t : Token} {ts : List Token} : NoOp s (t :: ts) ↔ t ≠ .op s ∧ NoOp s ts := by
  simp [NoOp]

theorem noOp_nil {s : Str} : NoOp s [] := by simp [NoOp]

theorem noOp_append {s : Str} {a b : List Token} : NoOp s (a ++ b) ↔ NoOp s a ∧ NoOp s b := by
  simp only [NoOp, List.mem_append]
  exact ⟨fun h => ⟨fun t ht => h t (.inl ht), fun t ht => h t (.inr ht)⟩,
    fun h t ht => ht.elim (h.1 t) (h.2 t)⟩

theorem splitAt_ne {s : Str} (ts : List Token) : splitAt s ts ≠ [] := by
  cases ts with
  | nil => simp [splitAt]
  | cons t ts =>
    unfold splitAt
    split
    · split
      · simp
      · split <;> simp
    · split <;> simp

theorem splitAt_cons {s : Str} {t : Token} (ht : t ≠ .op s) {ts p : List Token} {ps : List (List Token)}
    (h : splitAt s ts = p :: ps) : splitAt s (t :: ts) = (t :: p) :: ps := by
  unfold splitAt
  split
  · next x =>
    rw [if_neg fun hx => ht (by rw [hx]), h]
  · rw [h]

theorem splitAt_append {s : Str} {a : List Token} (ha : NoOp s a) (b : List Token) :
    splitAt s (a ++ .op s :: b) = a :: splitAt s b := by
  induction a with
  | nil => simp [splitAt]
  | cons t a ih =>
    rw [noOp_cons] at ha
    exact splitAt_cons ha.1 (ih ha.2)

theorem splitAt_last {s : Str} {a : List Token} (ha : NoOp s a) : splitAt s a = [a] := by
  induction a with
  | nil => rfl
  | cons t a ih =>
    rw [noOp_cons] at ha
    exact splitAt_cons ha.1 (ih ha.2)

/-- The parts with `,` between them and after them. -/
theorem splitAt_commaSep {xs : List (List Token)} (hne : xs ≠ []) (h : ∀ x ∈ xs, NoOp c!"," x) (b : List Token) :
    splitAt c!"," (commaSep xs ++ .op c!"," :: b) = xs ++ splitAt c!"," b := by
  induction xs with
  | nil => exact absurd rfl hne
  | cons x xs ih =>
    rw [List.forall_mem_cons] at h
    cases xs with
    | nil => simp only [commaSep]; exact splitAt_append h.1 _
    | cons y xs =>
      simp only [commaSep, List.append_assoc, List.cons_append]
      rw [splitAt_append h.1, ih (by simp) h.2]
      rfl

theorem splitAt_commas {xs : List (List Token)} (hne : xs ≠ []) (h : ∀ x ∈ xs, NoOp c!"," x) :
    splitAt c!"," (commaSep xs) = xs := by
  induction xs with
  | nil => exact absurd rfl hne
  | cons x xs ih =>
    rw [List.forall_mem_cons] at h
    cases xs with
    | nil => simp only [commaSep]; exact splitAt_last h.1
    | cons y xs =>
      simp only [commaSep]
      rw [splitAt_append h.1, ih (by simp) h.2]

theorem splitAt_semiSep {xs : List (List Token)} (hne : xs ≠ []) (h : ∀ x ∈ xs, NoOp c!";" x) (b : List Token) :
    splitAt c!";" (semiSep xs ++ .op c!";" :: b) = xs ++ splitAt c!";" b := by
  induction xs with
  | nil => exact absurd rfl hne
  | cons x xs ih =>
    rw [List.forall_mem_cons] at h
    cases xs with
    | nil => simp only [semiSep]; exact splitAt_append h.1 _
    | cons y xs =>
      simp only [semiSep, List.append_assoc, List.cons_append]
      rw [splitAt_append h.1, ih (by simp) h.2]
      rfl

theorem readPieces_append {xs : List (List Token)} {ss : List Stmt} {b : List Token} {tail : Tail}
    (hr : List.Forall₂ (fun x s => readStmt x = some [s]) xs ss) (ht : readTail b = some ⟨[], tail⟩) :
    readPieces (xs ++ [b]) = some ⟨ss, tail⟩ := by
  induction hr with
  | nil => simpa [readPieces] using ht
  | @cons x s xs ss h1 _ ih =>
    cases hxs : xs ++ [b] with
    | nil => simp at hxs
    | cons y ys =>
      rw [hxs] at ih
      simp only [List.cons_append, hxs, readPieces, h1, ih, List.nil_append]

/-- Statements, each with a semicolon, and a tail. -/
theorem readBlock_semi {xs : List (List Token)} {ss : List Stmt} {b : List Token} {tail : Tail}
    (h : ∀ x ∈ xs, NoOp c!";" x) (hr : List.Forall₂ (fun x s => readStmt x = some [s]) xs ss) (hb : NoOp c!";" b)
    (ht : readTail b = some ⟨[], tail⟩) : readBlock (semiSep xs ++ .op c!";" :: b) = some ⟨ss, tail⟩ := by
  unfold readBlock
  cases xs with
  | nil =>
    cases hr
    simp only [semiSep, List.nil_append]
    rw [show (Token.op c!";" :: b) = [] ++ Token.op c!";" :: b from rfl, splitAt_append noOp_nil, splitAt_last hb]
    simp only [readPieces, readStmt, ht, List.nil_append]
  | cons x xs =>
    rw [splitAt_semiSep (by simp) h, splitAt_last hb]
    exact readPieces_append hr ht

/-! ## Names -/

def argNames {α : Type} : Nat → List α → List RIdent
  | _, [] => []
  | n, _ :: ts => argTokens n :: argNames (n + 1) ts

def retNames {α : Type} : Nat → List α → List RIdent
  | _, [] => []
  | n, _ :: ts => retTokens n :: retNames (n + 1) ts

theorem digits_inj {i j : Nat} (h : Nat.toDigits 10 i = Nat.toDigits 10 j) : i = j := by
  have hi := Nat.ofDigitChars_toDigits (b := 10) (n := i) (by decide) (by decide)
  rw [h, Nat.ofDigitChars_toDigits (by decide) (by decide)] at hi
  exact hi.symm

theorem argTokens_inj {i j : Nat} (h : argTokens i = argTokens j) : i = j := by
  simp only [argTokens, word, RIdent.mk.injEq, List.cons.injEq, true_and] at h
  exact digits_inj h

theorem retTokens_inj {i j : Nat} (h : retTokens i = retTokens j) : i = j := by
  simp only [retTokens, word, RIdent.mk.injEq, List.cons.injEq, true_and] at h
  exact digits_inj h

theorem argTokens_path (i : Nat) : argTokens i ∉ notPath := by
  intro h
  have h1 : Nat.toDigits 10 i = ['s'] := by
    simpa [argTokens, word, notPath, w] using h
  have h2 : ('s').isDigit = true :=
    Nat.isDigit_of_mem_toDigits (b := 10) (by decide) (by decide) (n := i) (by rw [h1]; simp)
  exact absurd h2 (by decide)

theorem retTokens_path (i : Nat) : retTokens i ∉ notPath := by
  simp [retTokens, word, notPath, w]

theorem argTokens_ser (i : Nat) : argTokens i ≠ w c!"ser" := by
  simp [argTokens, word, w]

theorem argNames_arg {α : Type} {ts : List α} : ∀ {n : Nat} {a : RIdent}, a ∈ argNames n ts →
    ∃ m, n ≤ m ∧ a = argTokens m := by
  induction ts with
  | nil => simp [argNames]
  | cons t ts ih =>
    intro n a h
    rcases List.mem_cons.1 h with rfl | h
    · exact ⟨n, Nat.le_refl _, rfl⟩
    · obtain ⟨m, hm, rfl⟩ := ih h
      exact ⟨m, by omega, rfl⟩

theorem readNames_eq (as : List RIdent) : readNames (commaSep (as.map fun a => [Token.ident a])) = some as := by
  induction as with
  | nil => rfl
  | cons a as ih =>
    cases as with
    | nil => rfl
    | cons b as =>
      simp only [List.map_cons, commaSep] at ih ⊢
      rw [List.singleton_append, readNames, if_pos rfl, ih]
      rfl

/-! ## Writing: statements and arms -/

/-- `ser.serialize_element(a)?` -/
def elementExpr (a : RIdent) : Expr :=
  .question (.method (.path false [w c!"ser"]) (w c!"serialize_element") none [.path false [a]])

theorem readExpr_ident {n : Nat} {a : RIdent} (h : a ∉ notPath) : readExpr (n + 2) [.ident a] = some (.path false [a]) := by
  simp [readExpr, h, readPath, readPostfix]

theorem readArgs_idents {n : Nat} {as : List RIdent} (h : ∀ a ∈ as, a ∉ notPath) :
    readArgs (n + 3) (commaSep (as.map fun a => [Token.ident a])) = some (as.map fun a => .path false [a]) := by
  cases as with
  | nil => rfl
  | cons a as =>
    have hs := splitAt_commas (xs := (a :: as).map fun a => [Token.ident a]) (by simp)
      (by simp [NoOp])
    have hm : ∀ (bs : List RIdent), (∀ a ∈ bs, a ∉ notPath) →
        (bs.map fun a => [Token.ident a]).mapM (readExpr (n + 2)) = some (bs.map fun a => .path false [a]) := by
      intro bs hb
      induction bs with
      | nil => rfl
      | cons b bs ih =>
        rw [List.forall_mem_cons] at hb
        rw [List.map_cons, List.mapM_cons, readExpr_ident hb.1, ih hb.2]
        rfl
    cases hc : commaSep ((a :: as).map fun a => [Token.ident a]) with
    | nil => rw [hc] at hs; simp [splitAt] at hs
    | cons t ts =>
      rw [readArgs, ← hc, hs, hm _ h]
      simp

theorem readArgs_ident {n : Nat} {a : RIdent} (h : a ∉ notPath) :
    readArgs (n + 3) [.ident a] = some [.path false [a]] :=
  readArgs_idents (as := [a]) (by simpa using h)

theorem readStmt_element {a : RIdent} (h : a ∉ notPath) :
    readStmt (serializeElement [.ident a]) = some [.run (elementExpr a)] := by
  simp only [serializeElement, kw, readStmt]
  rw [if_neg (by decide)]
  simp only [depth, readExpr]
  rw [if_neg (by decide)]
  simp [readPath, readPostfix, readArgs_ident h, elementExpr, w]

theorem noOp_element {s : Str} {a : RIdent} (h1 : s ≠ c!".") (h2 : s ≠ c!"?") : NoOp s (serializeElement [.ident a]) := by
  simp [NoOp, serializeElement, kw, Ne.symm h1, Ne.symm h2]

/-- A variant: its name, and the types of its fields. -/
abbrev Var (α : Type) := RIdent × Option (List α)

/-- An arm of `match self`, as tokens. -/
def serTok (e : RIdent) (v : Var (List Token)) : List Token :=
  match v.2 with
  | none => serUnitTokens e v.1
  | some ts => serArmTokens e v.1 ((argNames 0 ts).map fun a => [.ident a])
      ((argNames 0 ts).map fun a => serializeElement [.ident a])

/-- An arm of `match self`. -/
def serRead {α : Type} (e : RIdent) (v : Var α) : Pat × Block :=
  match v.2 with
  | none => (.path [e, v.1], ⟨[], .none⟩)
  | some ts => (.tuple [e, v.1] (argNames 0 ts), ⟨(argNames 0 ts).map fun a => .run (elementExpr a), .none⟩)

theorem argNames_path {α : Type} {n : Nat} {ts : List α} : ∀ a ∈ argNames n ts, a ∉ notPath := by
  intro a ha
  obtain ⟨m, -, rfl⟩ := argNames_arg ha
  exact argTokens_path m

theorem readElements {α : Type} (n : Nat) (ts : List α) :
    readBlock (semiSep ((argNames n ts).map fun a => serializeElement [.ident a]) ++ [.op c!";"]) =
      some ⟨(argNames n ts).map fun a => .run (elementExpr a), .none⟩ := by
  refine readBlock_semi ?_ ?_ noOp_nil rfl
  · simp only [List.forall_mem_map]
    exact fun a _ => noOp_element (by decide) (by decide)
  · rw [List.forall₂_map_left_iff, List.forall₂_map_right_iff, List.forall₂_same]
    exact fun a ha => readStmt_element (argNames_path a ha)

theorem readArm_ser {e : RIdent} (he : e ∉ notPath) (v : Var (List Token)) :
    readArm (serTok e v) = some (serRead e v) := by
  obtain ⟨n, o⟩ := v
  cases o with
  | none =>
    simp [serTok, serRead, serUnitTokens, pathTokens, readArm, cutAt, readPat, he, readBlock, splitAt, readPieces, readTail]
  | some ts =>
    have h1 := readElements 0 ts
    have h2 := readNames_eq (argNames 0 ts)
    simp [serTok, serRead, serArmTokens, pathTokens, readArm, cutAt, readPat, he, h1, h2]

theorem noOp_ser {e : RIdent} (v : Var (List Token)) : NoOp c!"," (serTok e v) := by
  obtain ⟨n, o⟩ := v
  cases o <;> simp [serTok, serUnitTokens, serArmTokens, pathTokens, NoOp]

/-- `_ => unimplemented!()` -/
def otherwise : Pat × Block := (.wild, ⟨[], .expr (.macroCall (w c!"unimplemented") [])⟩)

theorem readPiecesArms_append {xs : List (List Token)} {as : List (Pat × Block)} {ys : List (List Token)}
    {bs : List (Pat × Block)} (hx : List.Forall₂ (fun x a => readArm x = some a) xs as)
    (hy : readPiecesArms ys = some bs) : readPiecesArms (xs ++ ys) = some (as ++ bs) := by
  induction hx with
  | nil => exact hy
  | @cons x a xs as h1 _ ih =>
    have hne : x ≠ [] := by rintro rfl; cases h1
    cases hxy : xs ++ ys with
    | nil =>
      rw [hxy] at ih
      cases x with
      | nil => exact absurd rfl hne
      | cons t x =>
        simp only [readPiecesArms, Option.some.injEq] at ih
        simp only [List.cons_append, hxy, readPiecesArms, h1, ← ih]
    | cons z zs =>
      rw [hxy] at ih
      cases x with
      | nil => exact absurd rfl hne
      | cons t x => simp only [List.cons_append, hxy, readPiecesArms, h1, ih]

/-- The arms of a `match` of the macros. -/
theorem readArms_eq {xs : List (List Token)} {as : List (Pat × Block)} (hne : xs ≠ []) (hn : ∀ x ∈ xs, NoOp c!"," x)
    (h : List.Forall₂ (fun x a => readArm x = some a) xs as) :
    readArms (commaSep xs ++ [.op c!",", kw c!"_", .op c!"=>", kw c!"unimplemented", .op c!"!", .group .paren [],
      .op c!","]) = some (as ++ [otherwise]) := by
  unfold readArms
  rw [splitAt_commaSep hne hn]
  exact readPiecesArms_append h rfl

/-- Without arms there is nothing before the first comma. -/
theorem readArms_empty :
    readArms (commaSep [] ++ [.op c!",", kw c!"_", .op c!"=>", kw c!"unimplemented", .op c!"!", .group .paren [],
      .op c!","]) = none := rfl

/-! ## Writing: what the statements do -/

theorem argNames_congr {α β : Type} {as : List α} {bs : List β} (h : as.length = bs.length) (n : Nat) :
    argNames n as = argNames n bs := by
  induction as generalizing bs n with
  | nil => cases bs with
    | nil => rfl
    | cons b bs => simp at h
  | cons a as ih => cases bs with
    | nil => simp at h
    | cons b bs => simp only [argNames, ih (by simpa using h)]

theorem retNames_congr {α β : Type} {as : List α} {bs : List β} (h : as.length = bs.length) (n : Nat) :
    retNames n as = retNames n bs := by
  induction as generalizing bs n with
  | nil => cases bs with
    | nil => rfl
    | cons b bs => simp at h
  | cons a as ih => cases bs with
    | nil => simp at h
    | cons b bs => simp only [retNames, ih (by simpa using h)]

theorem argNames_length {α : Type} (as : List α) : ∀ n, (argNames n as).length = as.length := by
  induction as with
  | nil => intro n; rfl
  | cons a as ih => intro n; simp [argNames, ih]

theorem find_append {α : Type} {x : RIdent} {a b : List (RIdent × α)} (h : ∀ p ∈ a, p.1 ≠ x) :
    RustCode.find x (a ++ b) = RustCode.find x b := by
  have : a.find? (fun p => decide (p.1 = x)) = none := by
    simpa [List.find?_eq_none] using fun p q hp => h (p, q) hp
  simp [RustCode.find, List.find?_append, this]

theorem find_cons {α : Type} {x : RIdent} {a : α} {b : List (RIdent × α)} :
    RustCode.find x ((x, a) :: b) = some a := by
  simp [RustCode.find]

theorem find_cons_ne {α : Type} {x y : RIdent} {a : α} {b : List (RIdent × α)} (h : y ≠ x) :
    RustCode.find x ((y, a) :: b) = RustCode.find x b := by
  simp [RustCode.find, h]

theorem runElements_eq (env : Env) (k : Nat) (base : List (RIdent × SVar))
    (hb : RustCode.find (w c!"ser") base = some .tuple) : ∀ (ts : List Ty) (vs : List Val) (n : Nat)
    (pre : List (RIdent × SVar)) (es ss : List SVal), (∀ p ∈ pre, (∀ m, n ≤ m → p.1 ≠ argTokens m) ∧ p.1 ≠ w c!"ser") →
    presentEach env ts vs = some ss →
    ∃ vars, runElements env ⟨pre ++ ((argNames n ts).zip ((ts.zip vs).map fun p => SVar.field p.1 p.2) ++ base), some (k, es)⟩
      ((argNames n ts).map fun a => .run (elementExpr a)) = some ⟨vars, some (k, es ++ ss)⟩ := by
  intro ts
  induction ts with
  | nil =>
    intro vs n pre es ss _ hp
    cases vs with
    | nil => simp only [presentEach, Option.some.injEq] at hp; subst hp; exact ⟨_, by simp [argNames, runElements]; rfl⟩
    | cons v vs => simp [presentEach] at hp
  | cons t ts ih =>
    intro vs n pre es ss hpre hp
    cases vs with
    | nil => simp [presentEach] at hp
    | cons v vs =>
      simp only [presentEach] at hp
      split at hp
      · next s ss' h1 h2 =>
        cases hp
        have hser : RustCode.find (w c!"ser") (pre ++ ((argNames n (t :: ts)).zip
            (((t :: ts).zip (v :: vs)).map fun p => SVar.field p.1 p.2) ++ base)) = some .tuple := by
          rw [← List.append_assoc, find_append, hb]
          intro p hp
          rcases List.mem_append.1 hp with hp | hp
          · exact (hpre p hp).2
          · obtain ⟨m, -, h⟩ := argNames_arg (List.of_mem_zip hp).1
            rw [h]
            exact argTokens_ser m
        have harg : RustCode.find (argTokens n) (pre ++ ((argNames n (t :: ts)).zip
            (((t :: ts).zip (v :: vs)).map fun p => SVar.field p.1 p.2) ++ base)) = some (.field t v) := by
          rw [find_append fun p hp => (hpre p hp).1 n (Nat.le_refl _)]
          simp [argNames, RustCode.find]
        obtain ⟨vars, hr⟩ := ih vs (n + 1) (pre ++ [(argTokens n, .field t v)]) (es ++ [s]) ss' (by
          intro p hp
          rcases List.mem_append.1 hp with hp | hp
          · exact ⟨fun m hm => (hpre p hp).1 m (by omega), (hpre p hp).2⟩
          · rw [List.mem_singleton] at hp
            subst hp
            exact ⟨fun m hm h => absurd (argTokens_inj h) (by omega), argTokens_ser n⟩) h2
        refine ⟨vars, ?_⟩
        rw [argNames, List.map_cons, runElements]
        have hstep : runElement env ⟨pre ++ ((argNames n (t :: ts)).zip
            (((t :: ts).zip (v :: vs)).map fun p => SVar.field p.1 p.2) ++ base), some (k, es)⟩ (elementExpr (argTokens n)) =
            some ⟨pre ++ ((argNames n (t :: ts)).zip
            (((t :: ts).zip (v :: vs)).map fun p => SVar.field p.1 p.2) ++ base), some (k, es ++ [s])⟩ := by
          simp only [elementExpr, runElement, ite_true, hser, elementOf, harg, h1]
        rw [show argTokens n :: argNames (n + 1) ts = argNames n (t :: ts) from rfl, hstep]
        simp only [List.append_assoc, List.singleton_append] at hr
        simpa [argNames] using hr
      · cases hp

/-- The arm of a variant is taken. -/
theorem selectArm_eq {e : RIdent} {vars : List (Var Ty)} (hn : (vars.map (·.1)).Nodup) {i : Nat} {v : Var Ty}
    (h : vars[i]? = some v) (vs : List Val) {b : List (RIdent × SVar)}
    (hb : bindPat e v vs (serRead e v).1 = some (some b)) (rest : List (Pat × Block)) :
    selectArm e v vs (vars.map (serRead e) ++ rest) = some (b, (serRead e v).2) := by
  induction vars generalizing i with
  | nil => simp at h
  | cons x vars ih =>
    rw [List.map_cons, List.nodup_cons] at hn
    cases i with
    | zero =>
      simp only [List.getElem?_cons_zero, Option.some.injEq] at h
      subst h
      simp [selectArm, hb]
    | succ i =>
      simp only [List.getElem?_cons_succ] at h
      have hne : x.1 ≠ v.1 := fun he => hn.1 (he ▸ List.mem_map.2 ⟨v, List.mem_of_getElem? h, rfl⟩)
      have hno : bindPat e v vs (serRead e x).1 = some none := by
        unfold serRead
        split <;> simp [bindPat, hne]
      rw [List.map_cons, List.cons_append]
      rw [show serRead e x = ((serRead e x).1, (serRead e x).2) from rfl, selectArm, hno]
      exact ih hn.2 h

theorem isUnimplemented_ser {e : RIdent} (v : Var Ty) : isUnimplemented (serRead e v).2 = false := by
  unfold serRead
  split
  · rfl
  · next ts _ =>
    simp only
    cases argNames 0 ts <;> rfl

theorem presentEach_length {env : Env} {ts : List Ty} {vs : List Val} {ss : List SVal}
    (h : presentEach env ts vs = some ss) : ts.length = vs.length := by
  induction ts generalizing vs ss with
  | nil => cases vs with
    | nil => rfl
    | cons v vs => simp [presentEach] at h
  | cons t ts ih => cases vs with
    | nil => simp [presentEach] at h
    | cons v vs =>
      simp only [presentEach] at h
      split at h
      · next h1 h2 => simp [ih h2]
      · cases h

/-- `match self` writes the fields. -/
theorem runMatch_eq {env : Env} {e : RIdent} {vars : List (Var Ty)} (hn : (vars.map (·.1)).Nodup) {i : Nat} {v : Var Ty}
    (h : vars[i]? = some v) {vs : List Val} {ss : List SVal} (hp : presentFields env v.2 vs = some ss)
    {arms : List Token} (ha : readArms arms = some (vars.map (serRead e) ++ [otherwise])) {base : List (RIdent × SVar)}
    (hb : RustCode.find (w c!"ser") base = some .tuple) {k : Nat} {es : List SVal} :
    runMatch env e v vs ⟨base, some (k, es)⟩ arms = some (.next ⟨base, some (k, es ++ ss)⟩) := by
  obtain ⟨n, o⟩ := v
  simp only [runMatch, ha]
  cases o with
  | none =>
    have hvs : vs = [] ∧ ss = [] := by
      simp only [presentFields] at hp
      split at hp
      · next he => cases hp; exact ⟨by simpa using he, rfl⟩
      · cases hp
    obtain ⟨rfl, rfl⟩ := hvs
    rw [selectArm_eq hn h [] (b := []) (by simp [serRead, bindPat])]
    simp only [isUnimplemented_ser]
    simp [serRead, runElements]
  | some ts =>
    simp only [presentFields] at hp
    have hl := presentEach_length hp
    rw [selectArm_eq hn h vs (b := (argNames 0 ts).zip ((ts.zip vs).map fun p => SVar.field p.1 p.2))
      (by simp [serRead, bindPat, argNames_length, hl])]
    simp only [isUnimplemented_ser]
    obtain ⟨vars', hr⟩ := runElements_eq env k base hb ts vs 0 [] es ss (by simp) hp
    simp only [List.nil_append] at hr
    simp [serRead, hr]

/-- The body of `serialize` of `XdrIndexer`. -/
theorem readBlock_indexerSer (arms : List (List Token)) : readBlock (indexerSerBody arms) = some
    ⟨[.bind (w c!"index") (.method (.path false [w c!"self"]) (w c!"index") none []),
      .bind (w c!"ser") (.question (.method (.path false [w c!"serializer"]) (w c!"serialize_tuple") none
        [.cast (.path false [w c!"index"]) (w c!"usize")])),
      .run (.question (.method (.path false [w c!"ser"]) (w c!"serialize_element") none
        [.ref (.path false [w c!"index"])])),
      .matchOn (.path false [w c!"self"]) (commaSep arms ++ [.op c!",", kw c!"_", .op c!"=>", kw c!"unimplemented",
        .op c!"!", .group .paren [], .op c!","])],
      .expr (.method (.path false [w c!"ser"]) (w c!"end") none [])⟩ := by
  rfl

/-- The body of `serialize` of `XdrUnion`. -/
theorem readBlock_unionSer (arms : List (List Token)) : readBlock (unionSerBody arms) = some
    ⟨[.bind (w c!"ser") (.question (.method (.path false [w c!"serializer"]) (w c!"serialize_tuple") none
        [.lit c!"2usize"])),
      .matchOn (.path false [w c!"self"]) (commaSep arms ++ [.op c!",", kw c!"_", .op c!"=>", kw c!"unimplemented",
        .op c!"!", .group .paren [], .op c!","])],
      .expr (.method (.path false [w c!"ser"]) (w c!"end") none [])⟩ := by
  rfl

end Xdr.Derive
