import Verif.RpcgenProofs.Ast
import Verif.RpcgenProofs.LexFile
/-!
# The templates are parsed back
-/

namespace Xdr.Rpcgen

/-- With enough fuel the parser reads `a` and leaves `rest`. -/
def Takes {α : Type} (k : Nat) (p : Nat → Toks → Option (α × Toks)) (ts : Toks) (a : α) (rest : Toks) : Prop :=
  ∀ n, 4 * ts.length + k ≤ n → p n ts = some (a, rest)

/-! ## Lexemes -/

theorem lexemes_nil : lexemes [] = [] := by rw [lexemes]

theorem lexemes_cons (t : Token) (ts : List Token) : lexemes (t :: ts) = t.lexemes ++ lexemes ts := by rw [lexemes]

theorem lexemes_append (a b : List Token) : lexemes (a ++ b) = lexemes a ++ lexemes b := by
  induction a with
  | nil => rw [lexemes_nil]; rfl
  | cons t ts ih => rw [List.cons_append, lexemes_cons, lexemes_cons, ih, List.append_assoc]

theorem lexemes_kw (s : Str) : (kw s).lexemes = [key s] := by rw [kw, Token.lexemes, key]

theorem lexemes_ident (i : RIdent) : (Token.ident i).lexemes = [identLex i] := by rw [Token.lexemes, identLex]

theorem lexemes_op (s : Str) : (Token.op s).lexemes = [.sym s] := by rw [Token.lexemes]

theorem lexemes_lifetime (s : Str) : (Token.lifetime s).lexemes = [.lifetime s] := by rw [Token.lexemes]

theorem lexemes_lit (s : Str) : (Token.lit s).lexemes = [.literal s] := by rw [Token.lexemes]

theorem lexemes_group (d : Delim) (ts : List Token) :
    (Token.group d ts).lexemes = .sym d.open :: lexemes ts ++ [.sym d.close] := by rw [Token.lexemes]

/-- Unfolds token lists into lexemes. -/
macro "lx" : tactic => `(tactic| simp only [lexemes_nil, lexemes_cons, lexemes_append, lexemes_kw, lexemes_ident,
  lexemes_op, lexemes_lifetime, lexemes_lit, lexemes_group, Delim.open, Delim.close, List.cons_append,
  List.nil_append, List.append_assoc, List.append_nil])

theorem head_is (l : Lexeme) (ts : Toks) : (l :: ts).head? = some l := rfl

theorem head_ne {l m : Lexeme} (h : l ≠ m) (ts : Toks) : ¬(l :: ts).head? = some m := by
  rw [List.head?_cons, Option.some.injEq]
  exact h

/-! ## Identifiers and paths -/

theorem keyword_reserved : ∀ s ∈ rustKeywords, rust_reserved s = true := by decide

theorem usable_cases {i : RIdent} (h : i.usable = true) : i.raw = true ∨ (i.name ∉ rustKeywords ∧ i.name ≠ c!"_") := by
  unfold RIdent.usable at h
  rcases hr : i.raw with _ | _
  · simp only [hr, Bool.false_or, Bool.and_eq_true, Bool.not_eq_true', bne_iff_ne, ne_eq] at h
    exact .inr ⟨fun hm => by rw [keyword_reserved _ hm] at h; exact absurd h.1 (by decide), h.2⟩
  · exact .inl rfl

theorem plainIdent_usable {i : RIdent} (h : i.usable = true) : plainIdent (identLex i) = some i := by
  rw [identLex, plainIdent, if_pos (usable_cases h)]

theorem usable_ne_key {i : RIdent} (h : i.usable = true) {s : Str} (hs : s ∈ rustKeywords ∨ s = c!"_") :
    identLex i ≠ key s := by
  intro he
  rw [identLex, key, Lexeme.ident.injEq] at he
  rcases usable_cases h with hr | ⟨h1, h2⟩
  · rw [hr] at he; exact absurd he.1 (by decide)
  · rw [he.2] at h1 h2
    rcases hs with hs | hs
    · exact h1 hs
    · exact h2 hs

theorem segIdent_usable {i : RIdent} (h : i.usable = true) : segIdent (identLex i) = some i := by
  have hn : identLex i ∉ [key c!"self", key c!"Self", key c!"super", key c!"crate"] := by
    simp only [List.mem_cons, List.not_mem_nil, or_false, not_or]
    exact ⟨usable_ne_key h (by decide), usable_ne_key h (by decide), usable_ne_key h (by decide),
      usable_ne_key h (by decide)⟩
  unfold segIdent
  rw [if_neg hn, plainIdent_usable h]

/-- Words a path may have. -/
def isSeg (s : Str) : Bool := segIdent (key s) = some (nameOf s)

theorem pSegs_one {l : Lexeme} {i : RIdent} {ts : Toks} (h : segIdent l = some i)
    (ht : ts.head? ≠ some (.sym c!"::")) : pSegs (l :: ts) = some ([i], ts) := by
  unfold pSegs
  rw [h]
  dsimp only
  split
  · rename_i s ts'
    rw [if_neg]
    intro he
    exact ht (by rw [he]; rfl)
  · rfl

theorem pSegs_cons {l : Lexeme} {i : RIdent} {ts r : Toks} {is : List RIdent} (h : segIdent l = some i)
    (ht : pSegs ts = some (is, r)) : pSegs (l :: .sym c!"::" :: ts) = some (i :: is, r) := by
  unfold pSegs
  rw [h]
  dsimp only
  rw [if_pos rfl, ht]

theorem pPath_segs {ts r : Toks} {is : List RIdent} (h : pSegs ts = some (is, r)) :
    pPath ts = some (⟨false, is⟩, r) := by
  unfold pPath
  rw [if_neg, h]
  · rfl
  · intro he
    cases ts with
    | nil => cases he
    | cons l ts =>
      rw [List.head?_cons, Option.some.injEq] at he
      rw [he] at h
      simp [pSegs, segIdent, plainIdent, key] at h

theorem pPath_global {ts r : Toks} {is : List RIdent} (h : pSegs ts = some (is, r)) :
    pPath (.sym c!"::" :: ts) = some (⟨true, is⟩, r) := by
  unfold pPath
  rw [if_pos (head_is _ _), List.tail_cons, h]
  rfl

theorem pIdent_usable {i : RIdent} (h : i.usable = true) (ts : Toks) : pIdent (identLex i :: ts) = some (i, ts) := by
  rw [pIdent, plainIdent_usable h]
  rfl

theorem expect_self (l : Lexeme) (ts : Toks) : expect l (l :: ts) = some ts := by rw [expect, if_pos rfl]

/-! ## Numbers -/

theorem int_isNumber (t : IntTy) (n : Nat) : isNumber (intToString (n : Int) ++ t.suffix) = true := by
  have h1 : intToString (n : Int) = digitsFuel (n + 1) n := by
    rw [intToString, if_neg (by omega), Int.natAbs_natCast]
  rw [h1]
  have h2 := @digits_digit (n + 1) n
  cases hd : digitsFuel (n + 1) n with
  | nil => exact absurd hd digits_ne
  | cons c cs =>
    rw [hd] at h2
    exact h2 c (by simp)

theorem pOperand_int (t : IntTy) (v : Int) (rest : Toks) :
    pOperand (lexemes (intTokens t v) ++ rest) = some (intOperand t v, rest) := by
  unfold intTokens intOperand
  by_cases hv : v < 0
  · rw [if_pos hv]
    lx
    rw [pOperand, if_pos (head_is _ _)]
    · dsimp only [List.tail_cons]
      rw [if_pos (int_isNumber t _)]
      simp [hv]
    · rintro s ts ⟨⟩
  · rw [if_neg hv]
    lx
    rw [pOperand, if_pos (int_isNumber t _)]
    simp [hv]

theorem pOperand_path {l : Lexeme} {ts r : Toks} {is : List RIdent} (h : pSegs (l :: ts) = some (is, r)) :
    pOperand (l :: ts) = some (.path ⟨false, is⟩, r) := by
  have hl : (∀ s, l ≠ .literal s) ∧ l ≠ .sym c!"-" := by
    constructor
    · rintro s rfl
      simp [pSegs, segIdent, plainIdent, key] at h
    · rintro rfl
      simp [pSegs, segIdent, plainIdent, key] at h
  unfold pOperand
  split
  · exact absurd (List.cons.inj ‹_›).1 (hl.1 _)
  · rw [if_neg, pPath_segs h]
    · rfl
    · rw [List.head?_cons, Option.some.injEq]
      exact hl.2

theorem pOperand_global {ts r : Toks} {is : List RIdent} (h : pSegs ts = some (is, r)) :
    pOperand (.sym c!"::" :: ts) = some (.path ⟨true, is⟩, r) := by
  rw [pOperand, if_neg (head_ne (by decide) _), pPath_global h]
  · rfl
  · rintro s ts ⟨⟩

/-! ## Conditions -/

def Tok.Use : Tok → Prop
  | .ident i => i.usable = true
  | .lit _ _ => True

def RTy.Use : RTy → Prop
  | .path i => i.usable = true
  | .array t len _ => t.Use ∧ len.Use
  | .vec t => t.Use
  | .option t => t.Use
  | .box t => t.Use
  | _ => True

theorem pOperand_tok {t : Tok} (h : t.Use) {rest : Toks} (hr : rest.head? ≠ some (.sym c!"::")) :
    pOperand (lexemes t.tokens ++ rest) = some (t.operand, rest) := by
  cases t with
  | lit t v => exact pOperand_int t v rest
  | ident i =>
    rw [Tok.tokens]
    lx
    exact pOperand_path (pSegs_one (segIdent_usable h) hr)

/-! ## Types -/

/-- What may follow a type. -/
def EndsTy (rest : Toks) : Prop := rest.head? ≠ some (.sym c!"<") ∧ rest.head? ≠ some (.sym c!"::")

theorem endsTy_cons {l : Lexeme} {ts : Toks} (h : l ≠ .sym c!"<" ∧ l ≠ .sym c!"::") : EndsTy (l :: ts) := by
  rw [EndsTy, List.head?_cons, ne_eq, ne_eq, Option.some.injEq, Option.some.injEq]
  exact h

theorem pLen_tok {t : Tok} (h : t.Use) (cast : Bool) (rest : Toks) :
    pLen (lexemes t.tokens ++ (lexemes (if cast then [kw c!"as", kw c!"usize"] else []) ++ .sym c!"]" :: rest)) =
      some (if cast then .cast t.operand (wordsPath false [c!"usize"]) else t.operand, .sym c!"]" :: rest) := by
  cases cast
  · simp only [Bool.false_eq_true, if_false]
    rw [lexemes_nil, List.nil_append, pLen, pOperand_tok h (by simp)]
    dsimp only [Option.bind_some]
    rw [pCast, if_neg (by simp [key])]
  · simp only [if_true]
    lx
    rw [pLen, pOperand_tok h (by simp [key])]
    dsimp only [Option.bind_some]
    rw [pCast, if_pos (head_is _ _), List.tail_cons, pPath_segs (pSegs_one (i := nameOf c!"usize") (by decide) (by simp))]
    rfl

theorem pType_path {l : Lexeme} {ts r : Toks} {is : List RIdent} (h : pSegs (l :: ts) = some (is, r))
    (hr : r.head? ≠ some (.sym c!"<")) (k : Nat) (hk : 1 ≤ k) :
    Takes k pType (l :: ts) (.path ⟨false, is⟩) r := by
  intro n hn
  obtain ⟨m, rfl⟩ : ∃ m, n = m + 1 := ⟨n - 1, by omega⟩
  have hl : l ≠ .sym c!"&" ∧ l ≠ .sym c!"[" := by
    constructor
    · rintro rfl; simp [pSegs, segIdent, plainIdent, key] at h
    · rintro rfl; simp [pSegs, segIdent, plainIdent, key] at h
  rw [pType, if_neg (by rw [List.head?_cons, Option.some.injEq]; exact hl.1),
    if_neg (by rw [List.head?_cons, Option.some.injEq]; exact hl.2), pPath_segs h]
  dsimp only [Option.bind_some]
  rw [if_neg hr]

/-! ## Lists -/

/-- A parser of things with commas between them. -/
def IsList {α : Type} (P : Nat → Toks → Option (List α × Toks)) (p : Nat → Toks → Option (α × Toks)) (close : Str) :
    Prop :=
  ∀ n ts, P (n + 1) ts =
    if ts.head? = some (.sym close) then some ([], ts.tail)
    else (p n ts).bind fun q =>
      if q.2.head? = some (.sym c!",") then (P n q.2.tail).map fun r => (q.1 :: r.1, r.2)
      else if q.2.head? = some (.sym close) then some ([q.1], q.2.tail)
      else none

variable {α : Type} {P : Nat → Toks → Option (List α × Toks)} {p : Nat → Toks → Option (α × Toks)} {close : Str}

theorem IsList.nil (h : IsList P p close) (k : Nat) (rest : Toks) : Takes (k + 1) P (.sym close :: rest) [] rest := by
  intro n hn
  obtain ⟨m, rfl⟩ : ∃ m, n = m + 1 := ⟨n - 1, by omega⟩
  rw [h, if_pos (head_is _ _), List.tail_cons]

theorem IsList.last (h : IsList P p close) (hc : close ≠ c!",") {k : Nat} {ts rest : Toks} {a : α}
    (ha : Takes k p ts a (.sym close :: rest)) (hne : ts.head? ≠ some (.sym close)) :
    Takes (k + 1) P ts [a] rest := by
  intro n hn
  obtain ⟨m, rfl⟩ : ∃ m, n = m + 1 := ⟨n - 1, by omega⟩
  rw [h, if_neg hne, ha m (by omega)]
  dsimp only [Option.bind_some]
  rw [if_neg (head_ne (by simpa using hc) _), if_pos (head_is _ _), List.tail_cons]

theorem IsList.cons (h : IsList P p close) {k : Nat} {ts more rest : Toks} {a : α} {as : List α}
    (ha : Takes k p ts a (.sym c!"," :: more)) (hne : ts.head? ≠ some (.sym close)) (hl : more.length < ts.length)
    (hm : Takes (k + 1) P more as rest) : Takes (k + 1) P ts (a :: as) rest := by
  intro n hn
  obtain ⟨m, rfl⟩ : ∃ m, n = m + 1 := ⟨n - 1, by omega⟩
  rw [h, if_neg hne, ha m (by omega)]
  dsimp only [Option.bind_some]
  rw [if_pos (head_is _ _), List.tail_cons, hm m (by omega)]
  rfl

theorem lexemes_commaSep {x y : List Token} {xs : List (List Token)} :
    lexemes (commaSep (x :: y :: xs)) = lexemes x ++ .sym c!"," :: lexemes (commaSep (y :: xs)) := by
  rw [commaSep]
  lx

/-- A list up to its closing delimiter. -/
theorem IsList.closed {X : Type} (h : IsList P p close) (hc : close ≠ c!",") {k : Nat} {f : X → List Token} {g : X → α}
    {rest : Toks} : ∀ (xs : List X), (∀ x ∈ xs, ∀ r, (∃ s, (s = c!"," ∨ s = close) ∧ ∃ t, r = .sym s :: t) →
      Takes k p (lexemes (f x) ++ r) (g x) r ∧ (lexemes (f x) ++ r).head? ≠ some (.sym close)) →
    Takes (k + 1) P (lexemes (commaSep (xs.map f)) ++ .sym close :: rest) (xs.map g) rest
  | [], _ => by
    rw [List.map_nil, commaSep, lexemes_nil]
    exact h.nil k rest
  | [x], hx => by
    obtain ⟨h1, h2⟩ := hx x (by simp) (.sym close :: rest) ⟨close, .inr rfl, _, rfl⟩
    exact h.last hc h1 h2
  | x :: y :: xs, hx => by
    obtain ⟨h1, h2⟩ := hx x (by simp) (.sym c!"," :: (lexemes (commaSep ((y :: xs).map f)) ++ .sym close :: rest))
      ⟨c!",", .inl rfl, _, rfl⟩
    have e : lexemes (commaSep ((x :: y :: xs).map f)) ++ .sym close :: rest =
        lexemes (f x) ++ .sym c!"," :: (lexemes (commaSep ((y :: xs).map f)) ++ .sym close :: rest) := by
      rw [List.map_cons, List.map_cons, lexemes_commaSep, ← List.map_cons, List.append_assoc, List.cons_append]
    rw [e]
    refine h.cons h1 h2 ?_ (IsList.closed h hc (y :: xs) fun z hz => hx z (by simp only [List.mem_cons] at hz ⊢; tauto))
    simp only [List.length_append, List.length_cons]
    omega

/-- A list with more of it after a comma. -/
theorem IsList.more {X : Type} (h : IsList P p close) {k : Nat} {f : X → List Token} {g : X → α}
    {rest ts : Toks} {as : List α} (hm : Takes (k + 1) P ts as rest) :
    ∀ (xs : List X), xs ≠ [] → (∀ x ∈ xs, ∀ r, (∃ s, (s = c!"," ∨ s = close) ∧ ∃ t, r = .sym s :: t) →
      Takes k p (lexemes (f x) ++ r) (g x) r ∧ (lexemes (f x) ++ r).head? ≠ some (.sym close)) →
    Takes (k + 1) P (lexemes (commaSep (xs.map f)) ++ .sym c!"," :: ts) (xs.map g ++ as) rest
  | [], hne, _ => absurd rfl hne
  | [x], _, hx => by
    obtain ⟨h1, h2⟩ := hx x (by simp) (.sym c!"," :: ts) ⟨c!",", .inl rfl, _, rfl⟩
    refine h.cons h1 h2 ?_ hm
    simp only [List.length_append, List.length_cons]
    omega
  | x :: y :: xs, _, hx => by
    obtain ⟨h1, h2⟩ := hx x (by simp) (.sym c!"," :: (lexemes (commaSep ((y :: xs).map f)) ++ .sym c!"," :: ts))
      ⟨c!",", .inl rfl, _, rfl⟩
    have e : lexemes (commaSep ((x :: y :: xs).map f)) ++ .sym c!"," :: ts =
        lexemes (f x) ++ .sym c!"," :: (lexemes (commaSep ((y :: xs).map f)) ++ .sym c!"," :: ts) := by
      rw [List.map_cons, List.map_cons, lexemes_commaSep, ← List.map_cons, List.append_assoc, List.cons_append]
    rw [e, List.map_cons (f := g), List.cons_append]
    refine h.cons h1 h2 ?_ (IsList.more h hm (y :: xs) (by simp)
      fun z hz => hx z (by simp only [List.mem_cons] at hz ⊢; tauto))
    simp only [List.length_append, List.length_cons]
    omega

theorem pIdents_isList (close : Str) : IsList (pIdents close) (fun _ => pIdent) close := by
  intro n ts
  rw [pIdents]

theorem pTypes_isList (close : Str) : IsList (pTypes close) pType close := by
  intro n ts
  rw [pTypes]

theorem pPats_isList : IsList pPats pPat c!")" := by
  intro n ts
  rw [pPats]

theorem pArgs_isList : IsList pArgs pExpr c!")" := by
  intro n ts
  rw [pArgs]

/-- An arm of a `match`. -/
def pArm (n : Nat) (ts : Toks) : Option ((RPattern × RExpr) × Toks) :=
  (pPat n ts).bind fun p => (expect (.sym c!"=>") p.2).bind fun r => (pExpr n r).map fun e => ((p.1, e.1), e.2)

theorem pArms_isList : IsList pArms pArm c!"}" := by
  intro n ts
  rw [pArms, pArm]
  simp only [Option.bind_assoc, Option.bind_map, Function.comp_def]

/-- A field of a struct. -/
def pField (n : Nat) (ts : Toks) : Option (RField × Toks) :=
  (pAttrs n ts).bind fun a => (pIdent (pPub a.2).2).bind fun i => (expect (.sym c!":") i.2).bind fun r =>
    (pType n r).map fun t => (⟨a.1, (pPub a.2).1, i.1, t.1⟩, t.2)

theorem pFields_isList : IsList pFields pField c!"}" := by
  intro n ts
  rw [pFields, pField]
  simp only [Option.bind_assoc, Option.bind_map, Function.comp_def]

/-- A variant of an enum. -/
def pVariant (n : Nat) (ts : Toks) : Option (RVariant × Toks) :=
  (pAttrs n ts).bind fun a => (pIdent a.2).bind fun i => (pVariantFields n i.2).bind fun t =>
    (pDiscriminant t.2).map fun d => (⟨a.1, i.1, t.1, d.1⟩, d.2)

theorem pVariants_isList : IsList pVariants pVariant c!"}" := by
  intro n ts
  rw [pVariants, pVariant]
  simp only [Option.bind_assoc, Option.bind_map, Function.comp_def]

theorem pParams_isList : IsList pParams pParam c!")" := by
  intro n ts
  rw [pParams]

/-! ## Types of the templates -/

theorem pType_head {ts r : Toks} {t : RType} {k : Nat} (h : Takes k pType ts t r) {s : Str}
    (hs : s ≠ c!"&" ∧ s ≠ c!"[" ∧ s ≠ c!"::") : ts.head? ≠ some (.sym s) := by
  intro he
  have h1 := h (4 * ts.length + k + 1) (by omega)
  cases ts with
  | nil => cases he
  | cons l ts =>
    rw [List.head?_cons, Option.some.injEq] at he
    subst he
    rw [pType, if_neg (head_ne (by simpa using hs.1) _), if_neg (head_ne (by simpa using hs.2.1) _), pPath,
      if_neg (head_ne (by simpa using hs.2.2) _)] at h1
    simp [pSegs, segIdent, plainIdent, key] at h1

theorem takes_app {w : Str} (hw : segIdent (key w) = some (nameOf w)) {ts rest : Toks} {t : RType}
    (h : Takes 1 pType ts t (.sym c!">" :: rest)) :
    Takes 1 pType (key w :: .sym c!"<" :: ts) (.app (tyPath [w]) t) rest := by
  intro n hn
  obtain ⟨m, rfl⟩ : ∃ m, n = m + 1 := ⟨n - 1, by omega⟩
  have h2 := (pTypes_isList c!">").last (by decide) h (pType_head h (by decide)) m
    (by simp only [List.length_cons] at hn; omega)
  rw [pType, if_neg (head_ne (by simp [key]) _), if_neg (head_ne (by simp [key]) _),
    pPath_segs (pSegs_one hw (by simp))]
  dsimp only [Option.bind_some]
  rw [if_pos (head_is _ _), List.tail_cons, h2]
  rfl

theorem takes_word {w : Str} (hw : segIdent (key w) = some (nameOf w)) {rest : Toks} (hr : EndsTy rest) :
    Takes 1 pType (key w :: rest) (tyPath [w]) rest :=
  pType_path (pSegs_one hw hr.2) hr.1 1 (by omega)

theorem takes_type : ∀ {t : RTy}, t.Use → ∀ {rest : Toks}, EndsTy rest →
    Takes 1 pType (lexemes t.tokens ++ rest) t.ast rest
  | .i8, _, rest, hr => by rw [RTy.tokens]; lx; exact takes_word (by decide) hr
  | .i16, _, rest, hr => by rw [RTy.tokens]; lx; exact takes_word (by decide) hr
  | .i32, _, rest, hr => by rw [RTy.tokens]; lx; exact takes_word (by decide) hr
  | .i64, _, rest, hr => by rw [RTy.tokens]; lx; exact takes_word (by decide) hr
  | .u8, _, rest, hr => by rw [RTy.tokens]; lx; exact takes_word (by decide) hr
  | .u16, _, rest, hr => by rw [RTy.tokens]; lx; exact takes_word (by decide) hr
  | .u32, _, rest, hr => by rw [RTy.tokens]; lx; exact takes_word (by decide) hr
  | .u64, _, rest, hr => by rw [RTy.tokens]; lx; exact takes_word (by decide) hr
  | .f32, _, rest, hr => by rw [RTy.tokens]; lx; exact takes_word (by decide) hr
  | .f64, _, rest, hr => by rw [RTy.tokens]; lx; exact takes_word (by decide) hr
  | .bool, _, rest, hr => by rw [RTy.tokens]; lx; exact takes_word (by decide) hr
  | .string, _, rest, hr => by rw [RTy.tokens]; lx; exact takes_word (by decide) hr
  | .path i, h, rest, hr => by
    rw [RTy.tokens]; lx
    exact pType_path (pSegs_one (segIdent_usable h) hr.2) hr.1 1 (by omega)
  | .array t len cast, h, rest, hr => by
    rw [RTy.tokens]
    intro n hn
    obtain ⟨m, rfl⟩ : ∃ m, n = m + 1 := ⟨n - 1, by omega⟩
    have e : lexemes [Token.group .bracket (t.tokens ++ .op c!";" :: len.tokens ++
        (if cast then [kw c!"as", kw c!"usize"] else []))] ++ rest =
        .sym c!"[" :: (lexemes t.tokens ++ .sym c!";" :: (lexemes len.tokens ++
          (lexemes (if cast then [kw c!"as", kw c!"usize"] else []) ++ .sym c!"]" :: rest))) := by
      lx
    rw [e] at hn ⊢
    have h1 := takes_type h.1 (endsTy_cons (l := .sym c!";") (ts := lexemes len.tokens ++
          (lexemes (if cast then [kw c!"as", kw c!"usize"] else []) ++ .sym c!"]" :: rest)) (by simp)) m
      (by simp only [List.length_cons] at hn; omega)
    rw [pType, if_neg (head_ne (by simp) _), if_pos (head_is _ _), List.tail_cons, h1]
    dsimp only [Option.bind_some]
    rw [expect_self]
    dsimp only [Option.bind_some]
    rw [pLen_tok h.2]
    dsimp only [Option.bind_some]
    rw [expect_self]
    rfl
  | .vec t, h, rest, hr => by
    rw [RTy.tokens]; lx
    exact takes_app (by decide) (takes_type (t := t) h (endsTy_cons (by simp)))
  | .option t, h, rest, hr => by
    rw [RTy.tokens]; lx
    exact takes_app (by decide) (takes_type (t := t) h (endsTy_cons (by simp)))
  | .box t, h, rest, hr => by
    rw [RTy.tokens]; lx
    exact takes_app (by decide) (takes_type (t := t) h (endsTy_cons (by simp)))
  | .variableArray, _, rest, hr => by
    rw [RTy.tokens]; lx
    exact pType_path (pSegs_cons (i := nameOf _) (by decide) (pSegs_cons (i := nameOf _) (by decide)
      (pSegs_one (i := nameOf _) (by decide) hr.2))) hr.1 1 (by omega)

/-! ## Patterns -/

theorem operand_int_head (t : IntTy) (v : Int) (rest : Toks) {l : Lexeme}
    (h : (lexemes (intTokens t v) ++ rest).head? = some l) : l = .sym c!"-" ∨ ∃ s, l = .literal s := by
  unfold intTokens at h
  by_cases hv : v < 0
  · rw [if_pos hv] at h
    simp only [lexemes_nil, lexemes_cons, lexemes_append, lexemes_op, List.cons_append, List.head?_cons,
      Option.some.injEq, List.nil_append] at h
    exact .inl h.symm
  · rw [if_neg hv] at h
    simp only [lexemes_nil, lexemes_cons, lexemes_lit, List.cons_append, List.head?_cons,
      Option.some.injEq, List.nil_append] at h
    exact .inr ⟨_, h.symm⟩

theorem takes_intPat (t : IntTy) (v : Int) (rest : Toks) :
    Takes 1 pPat (lexemes (intTokens t v) ++ rest) (intPat t v) rest := by
  intro n hn
  obtain ⟨m, rfl⟩ : ∃ m, n = m + 1 := ⟨n - 1, by omega⟩
  have hk : ∀ s, (lexemes (intTokens t v) ++ rest).head? ≠ some (key s) := by
    intro s hs
    rcases operand_int_head t v rest hs with h | ⟨_, h⟩ <;> simp [key] at h
  rw [pPat, if_neg (hk _), if_neg (hk _), if_neg (hk _), pOperand_int]
  rfl

theorem takes_wild (rest : Toks) (k : Nat) : Takes (k + 1) pPat (key c!"_" :: rest) .wild rest := by
  intro n hn
  obtain ⟨m, rfl⟩ : ∃ m, n = m + 1 := ⟨n - 1, by omega⟩
  rw [pPat, if_pos (head_is _ _), List.tail_cons]

theorem takes_boolPat (b : Bool) (rest : Toks) :
    Takes 1 pPat (key (if b then c!"true" else c!"false") :: rest) (.bool b) rest := by
  intro n hn
  obtain ⟨m, rfl⟩ : ∃ m, n = m + 1 := ⟨n - 1, by omega⟩
  cases b
  · simp only [Bool.false_eq_true, if_false]
    rw [pPat, if_neg (head_ne (by decide) _), if_neg (head_ne (by decide) _), if_pos (head_is _ _), List.tail_cons]
  · simp only [if_true]
    rw [pPat, if_neg (head_ne (by decide) _), if_pos (head_is _ _), List.tail_cons]

theorem pSegs_two {i j : RIdent} (hi : i.usable = true) (hj : j.usable = true) {rest : Toks}
    (hr : rest.head? ≠ some (.sym c!"::")) :
    pSegs (identLex i :: .sym c!"::" :: identLex j :: rest) = some ([i, j], rest) :=
  pSegs_cons (segIdent_usable hi) (pSegs_one (segIdent_usable hj) hr)

theorem takes_pathPat {i j : RIdent} (hi : i.usable = true) (hj : j.usable = true) (rest : Toks) :
    Takes 1 pPat (identLex i :: .sym c!"::" :: identLex j :: .sym c!"=>" :: rest) (.path ⟨false, [i, j]⟩)
      (.sym c!"=>" :: rest) := by
  intro n hn
  obtain ⟨m, rfl⟩ : ∃ m, n = m + 1 := ⟨n - 1, by omega⟩
  have hk : ∀ s, s ∈ rustKeywords ∨ s = c!"_" →
      ¬(identLex i :: .sym c!"::" :: identLex j :: .sym c!"=>" :: rest).head? = some (key s) :=
    fun s hs => head_ne (usable_ne_key hi hs) _
  rw [pPat, if_neg (hk _ (by decide)), if_neg (hk _ (by decide)), if_neg (hk _ (by decide)),
    pOperand_path (pSegs_two hi hj (by simp))]
  dsimp only [Option.bind_some]
  rw [if_neg (by simp), if_neg (head_ne (by simp) _)]

theorem takes_tuplePat {i j : RIdent} (hi : i.usable = true) (hj : j.usable = true) (rest : Toks) :
    Takes 1 pPat (identLex i :: .sym c!"::" :: identLex j :: .sym c!"(" :: key c!"_" :: .sym c!")" :: rest)
      (.tuple ⟨false, [i, j]⟩ [.wild]) rest := by
  intro n hn
  obtain ⟨m, rfl⟩ : ∃ m, n = m + 1 := ⟨n - 1, by omega⟩
  have hk : ∀ s, s ∈ rustKeywords ∨ s = c!"_" →
      ¬(identLex i :: .sym c!"::" :: identLex j :: .sym c!"(" :: key c!"_" :: .sym c!")" :: rest).head? =
        some (key s) :=
    fun s hs => head_ne (usable_ne_key hi hs) _
  have h2 := pPats_isList.last (by decide) (takes_wild (.sym c!")" :: rest) 0) (head_ne (by simp [key]) _) m
    (by simp only [List.length_cons] at hn ⊢; omega)
  rw [pPat, if_neg (hk _ (by decide)), if_neg (hk _ (by decide)), if_neg (hk _ (by decide)),
    pOperand_path (pSegs_two hi hj (by simp))]
  dsimp only [Option.bind_some]
  rw [if_neg (by simp), if_pos (head_is _ _), List.tail_cons, h2]
  rfl

/-! ## Expressions -/

theorem takes_operand {ts rest : Toks} {o : ROperand} (h : pOperand ts = some (o, rest))
    (hp : ∀ p, o = .path p → rest.head? ≠ some (.sym c!"!") ∧ rest.head? ≠ some (.sym c!"("))
    (hr : rest.head? ≠ some (key c!"as")) (h1 : ts.head? ≠ some (.sym c!"&")) (h2 : ts.head? ≠ some (key c!"match")) :
    Takes 1 pExpr ts (.operand o) rest := by
  intro n hn
  obtain ⟨m, rfl⟩ : ∃ m, n = m + 1 := ⟨n - 1, by omega⟩
  have hc : pCast o rest = some (o, rest) := by rw [pCast, if_neg hr]
  rw [pExpr, if_neg h1, if_neg h2, h]
  dsimp only [Option.bind_some]
  cases o with
  | path q =>
    obtain ⟨h3, h4⟩ := hp q rfl
    dsimp only
    rw [if_neg h3, if_neg h4, hc]
    rfl
  | int _ _ => rw [hc]; rfl
  | cast _ _ => rw [hc]; rfl

theorem takes_int (t : IntTy) (v : Int) {rest : Toks} (hr : rest.head? ≠ some (key c!"as")) :
    Takes 1 pExpr (lexemes (intTokens t v) ++ rest) (.operand (intOperand t v)) rest := by
  refine takes_operand (pOperand_int t v rest) (by rintro p ⟨⟩) hr ?_ ?_
  · intro h
    rcases operand_int_head t v rest h with h | ⟨_, h⟩ <;> simp at h
  · intro h
    rcases operand_int_head t v rest h with h | ⟨_, h⟩ <;> simp [key] at h

theorem takes_ref {ts rest : Toks} {e : RExpr} (h : Takes 1 pExpr ts e rest) :
    Takes 1 pExpr (.sym c!"&" :: ts) (.ref e) rest := by
  intro n hn
  obtain ⟨m, rfl⟩ : ∃ m, n = m + 1 := ⟨n - 1, by omega⟩
  rw [pExpr, if_pos (head_is _ _), List.tail_cons, h m (by simp only [List.length_cons] at hn; omega)]
  rfl

theorem takes_call {l : Lexeme} {ts args rest : Toks} {p : RPath} {as : List RExpr}
    (h : pOperand (l :: ts) = some (.path p, .sym c!"(" :: args)) (h1 : l ≠ .sym c!"&") (h2 : l ≠ key c!"match")
    (hl : args.length < (l :: ts).length) (ha : Takes 2 pArgs args as rest) :
    Takes 1 pExpr (l :: ts) (.call p as) rest := by
  intro n hn
  obtain ⟨m, rfl⟩ : ∃ m, n = m + 1 := ⟨n - 1, by omega⟩
  rw [pExpr, if_neg (head_ne h1 _), if_neg (head_ne h2 _), h]
  dsimp only [Option.bind_some]
  rw [if_neg (head_ne (by simp) _), if_pos (head_is _ _), List.tail_cons, ha m (by omega)]
  rfl

theorem takes_macro {l : Lexeme} {ts args rest : Toks} {p : RPath} {b : List Lexeme}
    (h : pOperand (l :: ts) = some (.path p, .sym c!"!" :: .sym c!"(" :: args)) (h1 : l ≠ .sym c!"&")
    (h2 : l ≠ key c!"match") (hb : pBody args = some (b, rest)) :
    Takes 1 pExpr (l :: ts) (.macroCall p b) rest := by
  intro n hn
  obtain ⟨m, rfl⟩ : ∃ m, n = m + 1 := ⟨n - 1, by omega⟩
  rw [pExpr, if_neg (head_ne h1 _), if_neg (head_ne h2 _), h]
  dsimp only [Option.bind_some]
  rw [if_pos (head_is _ _), List.tail_cons, expect_self]
  dsimp only [Option.bind_some]
  rw [hb]
  rfl

theorem pOperand_word {w : Str} (hw : segIdent (key w) = some (nameOf w)) {rest : Toks}
    (hr : rest.head? ≠ some (.sym c!"::")) :
    pOperand (key w :: rest) = some (.path (wordsPath false [w]), rest) :=
  pOperand_path (pSegs_one hw hr)

theorem takes_match {w : Str} (hw : segIdent (key w) = some (nameOf w)) {ts rest : Toks}
    {arms : List (RPattern × RExpr)} (h : Takes 2 pArms ts arms rest) :
    Takes 1 pExpr (key c!"match" :: key w :: .sym c!"{" :: ts) (matchWord w arms) rest := by
  intro n hn
  obtain ⟨m, rfl⟩ : ∃ m, n = m + 1 := ⟨n - 1, by omega⟩
  rw [pExpr, if_neg (head_ne (by simp [key]) _), if_pos (head_is _ _), List.tail_cons, pOperand_word hw (by simp)]
  dsimp only [Option.bind_some]
  rw [expect_self]
  dsimp only [Option.bind_some]
  rw [h m (by simp only [List.length_cons] at hn; omega)]
  rfl

theorem takes_okStringify {body : List Token} {l : Lexeme} (hb : lexemes body = [l])
    (hl : ∃ raw s, l = .ident raw s) (rest : Toks) :
    Takes 1 pExpr (lexemes (okStringify body) ++ rest) (okStringifyAst [l]) rest := by
  obtain ⟨raw, s, rfl⟩ := hl
  unfold okStringify
  lx
  rw [hb]
  have hbody : pBody ([Lexeme.ident raw s] ++ .sym c!")" :: .sym c!")" :: rest) =
      some ([.ident raw s], .sym c!")" :: rest) := by
    simp [pBody]
  refine takes_call (pOperand_word (by decide) (by simp)) (by decide) (by decide)
    (by simp only [List.length_cons]; omega) ?_
  exact pArgs_isList.last (by decide) (takes_macro (pOperand_word (by decide) (by simp)) (by decide) (by decide) hbody)
    (head_ne (by simp [key]) _)

theorem pSegs_word {w : Str} (hw : segIdent (key w) = some (nameOf w)) {rest : Toks}
    (hr : rest.head? ≠ some (.sym c!"::")) : pSegs (key w :: rest) = some ([nameOf w], rest) := pSegs_one hw hr

theorem pSegs_words {w : Str} (hw : segIdent (key w) = some (nameOf w)) {ts rest : Toks} {is : List RIdent}
    (h : pSegs ts = some (is, rest)) : pSegs (key w :: .sym c!"::" :: ts) = some (nameOf w :: is, rest) :=
  pSegs_cons hw h

/-- `::serde_xdr::error::Error` or without the leading `::`. -/
def errorTokens (global : Bool) : List Token := if global then globalError else localError

theorem takes_errorTy (global : Bool) {rest : Toks} (hr : EndsTy rest) :
    Takes 1 pType (lexemes (errorTokens global) ++ rest) (errorTy global) rest := by
  have hs : pSegs (key c!"serde_xdr" :: .sym c!"::" :: key c!"error" :: .sym c!"::" :: key c!"Error" :: rest) =
      some ([nameOf c!"serde_xdr", nameOf c!"error", nameOf c!"Error"], rest) :=
    pSegs_words (by decide) (pSegs_words (by decide) (pSegs_word (by decide) hr.2))
  cases global
  · simp only [errorTokens, Bool.false_eq_true, if_false, localError]
    lx
    exact pType_path hs hr.1 1 (by omega)
  · simp only [errorTokens, if_true, globalError]
    lx
    intro n hn
    obtain ⟨m, rfl⟩ : ∃ m, n = m + 1 := ⟨n - 1, by omega⟩
    rw [pType, if_neg (head_ne (by simp) _), if_neg (head_ne (by simp) _), pPath_global hs]
    dsimp only [Option.bind_some]
    rw [if_neg hr.1]
    rfl

theorem takes_err (global : Bool) (rest : Toks) :
    Takes 1 pExpr (lexemes [kw c!"Err", .group .paren (errorTokens global ++ [.op c!"::", kw c!"Convert"])] ++ rest)
      (errExpr global) rest := by
  have hs : pSegs (key c!"serde_xdr" :: .sym c!"::" :: key c!"error" :: .sym c!"::" :: key c!"Error" :: .sym c!"::" ::
      key c!"Convert" :: .sym c!")" :: rest) =
      some ([nameOf c!"serde_xdr", nameOf c!"error", nameOf c!"Error", nameOf c!"Convert"], .sym c!")" :: rest) :=
    pSegs_words (by decide) (pSegs_words (by decide) (pSegs_words (by decide) (pSegs_word (by decide) (by simp))))
  cases global
  · simp only [errorTokens, Bool.false_eq_true, if_false, localError]
    lx
    refine takes_call (pOperand_word (by decide) (by simp)) (by decide) (by decide)
      (by simp only [List.length_cons]; omega) (pArgs_isList.last (by decide) ?_ (head_ne (by simp [key]) _))
    exact takes_operand (pOperand_path hs) (fun p _ => ⟨by simp, by simp⟩) (by simp [key]) (by simp [key])
      (by simp [key])
  · simp only [errorTokens, if_true, globalError]
    lx
    refine takes_call (pOperand_word (by decide) (by simp)) (by decide) (by decide)
      (by simp only [List.length_cons]; omega) (pArgs_isList.last (by decide) ?_ (head_ne (by simp) _))
    exact takes_operand (pOperand_global hs) (fun p _ => ⟨by simp, by simp⟩) (by simp [key]) (by simp)
      (by simp [key])

/-! ## Arms -/

theorem takes_arm {ts r rest : Toks} {p : RPattern} {e : RExpr} (hp : Takes 1 pPat ts p (.sym c!"=>" :: r))
    (hl : r.length < ts.length) (he : Takes 1 pExpr r e rest) : Takes 1 pArm ts (p, e) rest := by
  intro n hn
  rw [pArm, hp n hn]
  dsimp only [Option.bind_some]
  rw [expect_self]
  dsimp only [Option.bind_some]
  rw [he n (by omega)]
  rfl

theorem pPat_head {ts r : Toks} {q : RPattern} {k : Nat} (h : Takes k pPat ts q r) :
    ts.head? ≠ some (.sym c!"}") := by
  intro he
  have h1 := h (4 * ts.length + k + 1) (by omega)
  cases ts with
  | nil => cases he
  | cons l ts =>
    rw [List.head?_cons, Option.some.injEq] at he
    subst he
    simp [pPat, pOperand, pPath, pSegs, segIdent, plainIdent, key] at h1

end Xdr.Rpcgen
