import Verif.Spec.RustTokens
import Mathlib.Data.List.TakeDrop
/-!
# Printed tokens are read back
-/

namespace Xdr.Rpcgen

/-- A printed token is followed by the end, a space, or a closing delimiter. -/
def Boundary (rest : Str) : Prop := rest.head? ∈ [none, some ' ', some '\n', some ')', some ']']

theorem boundary_nil : Boundary [] := by simp [Boundary]

theorem boundary_cons {c : Char} {cs : Str} : Boundary (c :: cs) ↔ c = ' ' ∨ c = '\n' ∨ c = ')' ∨ c = ']' := by
  simp [Boundary]

theorem span_all {p : Char → Bool} : ∀ {s rest : Str}, (∀ c ∈ s, p c = true) →
    (∀ c, rest.head? = some c → p c = false) → (s ++ rest).span p = (s, rest) := by
  intro s rest hs hr
  rw [List.span_eq_takeWhile_dropWhile, List.takeWhile_append_of_pos hs, List.dropWhile_append_of_pos hs]
  cases rest with
  | nil => simp
  | cons c cs => simp [hr c rfl]

theorem boundary_word {rest : Str} (h : Boundary rest) (c : Char) (hc : rest.head? = some c) : isWord c = false := by
  rw [Boundary, hc] at h
  simp at h
  rcases h with rfl | rfl | rfl | rfl <;> decide

theorem boundary_ne {rest : Str} (h : Boundary rest) {c : Char} (hc : c ≠ ' ' ∧ c ≠ '\n' ∧ c ≠ ')' ∧ c ≠ ']') :
    rest.head? ≠ some c := by
  intro h'
  rw [Boundary, h'] at h
  simp at h
  rcases h with h | h | h | h
  · exact hc.1 h
  · exact hc.2.1 h
  · exact hc.2.2.1 h
  · exact hc.2.2.2 h

theorem boundary_prefix {rest : Str} (h : Boundary rest) : rest.head? ∉ [some '"', some '\'', some '#'] := by
  simp only [List.mem_cons, List.not_mem_nil, or_false, not_or]
  exact ⟨boundary_ne h (by decide), boundary_ne h (by decide), boundary_ne h (by decide)⟩

theorem identOk_cons {s : Str} (h : identOk s = true) :
    ∃ c cs, s = c :: cs ∧ identStart c = true ∧ ∀ x ∈ cs, isWord x = true := by
  cases s with
  | nil => cases h
  | cons c cs =>
    simp only [identOk, Bool.and_eq_true, List.all_eq_true] at h
    exact ⟨c, cs, rfl, h.1, h.2⟩

theorem identStart_word {c : Char} (h : identStart c = true) : isWord c = true := by
  simp only [identStart, Bool.or_eq_true] at h
  simp only [isWord, Bool.or_eq_true]
  rcases h with h | h
  · exact .inl (.inl h)
  · exact .inr h

/-- An identifier token. -/
def RIdent.Ok (i : RIdent) : Prop := identOk i.name = true ∧ (i.raw = true → i.name ∉ notRaw)

theorem lexOne_word {c : Char} {cs rest : Str} (hc : identStart c = true) (hs : ∀ x ∈ cs, isWord x = true)
    (hr : Boundary rest) : lexOne (c :: (cs ++ rest)) = some (.ident false (c :: cs), rest) := by
  unfold lexOne
  split
  · rename_i heq; rw [List.cons.injEq] at heq; rw [heq.1] at hc; exact absurd hc (by decide)
  · rename_i heq; rw [List.cons.injEq] at heq; rw [heq.1] at hc; exact absurd hc (by decide)
  · rename_i l heq
    exfalso
    cases cs with
    | nil =>
      simp only [List.nil_append, List.cons.injEq] at heq
      rw [heq.2] at hr
      exact boundary_ne hr (c := '#') (by decide) rfl
    | cons x xs =>
      simp only [List.cons_append, List.cons.injEq] at heq
      have := hs x (by simp)
      rw [heq.2.1] at this
      revert this
      decide
  · rename_i heq
    rw [List.cons.injEq] at heq
    obtain ⟨rfl, rfl⟩ := heq
    rw [if_pos hc, span_all hs (boundary_word hr)]
    dsimp only
    rw [if_pos (boundary_prefix hr)]
  · rename_i heq; cases heq

theorem lexOne_raw {c : Char} {cs rest : Str} (hc : identStart c = true) (hs : ∀ x ∈ cs, isWord x = true)
    (hn : c :: cs ∉ notRaw) (hr : Boundary rest) :
    lexOne ('r' :: '#' :: c :: (cs ++ rest)) = some (.ident true (c :: cs), rest) := by
  unfold lexOne
  have h := span_all (p := isWord) (s := c :: cs) (rest := rest)
    (by
      intro x hx
      rcases List.mem_cons.1 hx with rfl | hx
      · exact identStart_word hc
      · exact hs x hx) (boundary_word hr)
  rw [List.cons_append] at h
  simp only [h]
  rw [if_pos ⟨hc, hn, boundary_prefix hr⟩]

theorem lexOne_ident {i : RIdent} (h : i.Ok) {rest : Str} (hr : Boundary rest) :
    lexOne (i.text ++ rest) = some (.ident i.raw i.name, rest) := by
  obtain ⟨raw, name⟩ := i
  obtain ⟨c, cs, rfl, hc, hs⟩ := identOk_cons h.1
  cases raw with
  | false => exact lexOne_word hc hs hr
  | true => exact lexOne_raw hc hs (h.2 rfl) hr

theorem lexOne_lifetime {c : Char} {cs rest : Str} (hc : identStart c = true) (hs : ∀ x ∈ cs, isWord x = true)
    (hr : Boundary rest) : lexOne ('\'' :: c :: (cs ++ rest)) = some (.lifetime (c :: cs), rest) := by
  unfold lexOne
  have h := span_all (p := isWord) (s := c :: cs) (rest := rest)
    (by
      intro x hx
      rcases List.mem_cons.1 hx with rfl | hx
      · exact identStart_word hc
      · exact hs x hx) (boundary_word hr)
  rw [List.cons_append] at h
  simp only [h]
  rw [if_pos ⟨hc, boundary_ne hr (by decide)⟩]

theorem lexOne_number {c : Char} {cs rest : Str} (hc : isDigit c = true) (hs : ∀ x ∈ cs, isWord x = true)
    (hr : Boundary rest) : lexOne (c :: (cs ++ rest)) = some (.literal (c :: cs), rest) := by
  have hn : ∀ x : Char, isDigit x = true → identStart x = false := by
    intro x hx
    simp only [isDigit, Bool.and_eq_true, decide_eq_true_eq] at hx
    simp only [identStart, isAlpha, isLower, isUpper, Bool.or_eq_false_iff, Bool.and_eq_false_iff,
      decide_eq_false_iff_not]
    refine ⟨⟨by omega, by omega⟩, ?_⟩
    rw [beq_eq_false_iff_ne]
    rintro rfl
    revert hx
    decide
  unfold lexOne
  split
  · rename_i heq; rw [List.cons.injEq] at heq; rw [heq.1] at hc; exact absurd hc (by decide)
  · rename_i heq; rw [List.cons.injEq] at heq; rw [heq.1] at hc; exact absurd hc (by decide)
  · rename_i heq; rw [List.cons.injEq] at heq; rw [heq.1] at hc; exact absurd hc (by decide)
  · rename_i heq
    rw [List.cons.injEq] at heq
    obtain ⟨rfl, rfl⟩ := heq
    rw [if_neg (by rw [hn _ hc]; simp), if_pos hc, span_all hs (boundary_word hr)]
    dsimp only
    rw [if_pos (boundary_ne hr (by decide))]
  · rename_i heq; cases heq

theorem lexOne_string {s rest : Str} (hs : ∀ x ∈ s, (x != '"' && x != '\\') = true) :
    lexOne ('"' :: (s ++ '"' :: rest)) = some (.literal ('"' :: s ++ ['"']), rest) := by
  unfold lexOne
  have h := span_all (p := fun c => c != '"' && c != '\\') (s := s) (rest := '"' :: rest) hs
    (by intro c hc; cases hc; decide)
  simp only [h]

/-- Punctuation in the templates. -/
def templateOps : List Str :=
  [c!",", c!";", c!":", c!"::", c!"=", c!"=>", c!"->", c!"<", c!">", c!"&", c!"!", c!"#", c!"-"]

theorem lexOne_op {s rest : Str} (h : s ∈ templateOps) (hr : Boundary rest) :
    lexOne (s ++ rest) = some (.sym s, rest) := by
  cases rest with
  | nil =>
    revert s
    decide
  | cons c cs =>
    rw [boundary_cons] at hr
    simp only [templateOps, List.mem_cons, List.not_mem_nil, or_false] at h
    rcases hr with rfl | rfl | rfl | rfl <;>
      rcases h with rfl | rfl | rfl | rfl | rfl | rfl | rfl | rfl | rfl | rfl | rfl | rfl | rfl <;>
      rfl

theorem lexOne_open (d : Delim) (rest : Str) : lexOne (d.open ++ rest) = some (.sym d.open, rest) := by
  cases d <;> rfl

theorem lexOne_close (d : Delim) (rest : Str) : lexOne (d.close ++ rest) = some (.sym d.close, rest) := by
  cases d <;> rfl

theorem lexSteps_mono {n : Nat} : ∀ {s : Str} {l : List Lexeme}, lexSteps n s = some l →
    ∀ {m : Nat}, n ≤ m → lexSteps m s = some l := by
  induction n with
  | zero => intro s l h; cases h
  | succ n ih =>
    intro s l h m hm
    obtain ⟨m, rfl⟩ : ∃ k, m = k + 1 := ⟨m - 1, by omega⟩
    cases s with
    | nil => exact h
    | cons c cs =>
      unfold lexSteps at h ⊢
      split at h
      · rename_i hb
        rw [if_pos hb]
        exact ih h (by omega)
      · rename_i hb
        rw [if_neg hb]
        split at h
        · rename_i t rest h1
          cases h2 : lexSteps n rest with
          | none => rw [h2] at h; cases h
          | some l' =>
            rw [h2] at h
            rw [ih h2 (by omega)]
            exact h
        · cases h

theorem lexSteps_one {s rest : Str} {t : Lexeme} {n : Nat} {l : List Lexeme} (h : lexOne s = some (t, rest))
    (hb : ∀ c, s.head? = some c → isBlank c = false) (hl : lexSteps n rest = some l) :
    lexSteps (n + 1) s = some (t :: l) := by
  cases s with
  | nil => cases h
  | cons c cs =>
    unfold lexSteps
    rw [if_neg (by rw [hb c rfl]; simp), h]
    simp [hl]

theorem lexSteps_space {s : Str} {n : Nat} {l : List Lexeme} (h : lexSteps n s = some l) :
    lexSteps (n + 1) (' ' :: s) = some l := by
  unfold lexSteps
  rw [if_pos (by decide)]
  exact h

/-- A literal of the templates. -/
def LitOk (s : Str) : Prop :=
  (∃ c cs, s = c :: cs ∧ isDigit c = true ∧ ∀ x ∈ cs, isWord x = true) ∨
  (∃ cs, s = '"' :: cs ++ ['"'] ∧ ∀ x ∈ cs, (x != '"' && x != '\\') = true)

mutual

/-- Tokens that can be printed and read back. -/
def Token.Ok : Token → Prop
  | .ident i => i.Ok
  | .op s => s ∈ templateOps
  | .lifetime s => identOk s = true
  | .lit s => LitOk s
  | .group _ ts => TokensOk ts

/-- All tokens can be printed and read back. -/
def TokensOk : List Token → Prop
  | [] => True
  | t :: ts => t.Ok ∧ TokensOk ts

end

theorem blank_word {c : Char} (h : isWord c = true) : isBlank c = false := by
  have h1 : ∀ x ∈ [' ', '\n', '\t', '\r'], isWord x = false := by decide
  simp only [isBlank, Bool.or_eq_false_iff, beq_eq_false_iff_ne]
  refine ⟨⟨⟨?_, ?_⟩, ?_⟩, ?_⟩ <;> · rintro rfl; revert h; decide

theorem ident_text_ne {i : RIdent} (h : i.Ok) (rest : Str) :
    ∃ c cs, i.text ++ rest = c :: cs ∧ isBlank c = false ∧ 0 < i.text.length := by
  obtain ⟨raw, name⟩ := i
  obtain ⟨c, cs, rfl, hc, hs⟩ := identOk_cons h.1
  cases raw with
  | false => exact ⟨c, cs ++ rest, rfl, blank_word (identStart_word hc), by simp [RIdent.text]⟩
  | true => exact ⟨'r', '#' :: c :: (cs ++ rest), rfl, by decide, by simp [RIdent.text]⟩

mutual

theorem lex_token : ∀ {t : Token}, t.Ok → ∀ {rest : Str} {n : Nat} {l : List Lexeme}, Boundary rest →
    lexSteps n rest = some l → lexSteps (n + t.text.length) (t.text ++ rest) = some (t.lexemes ++ l)
  | .ident i, ht, rest, n, l, hr, hl => by
    obtain ⟨c, cs, h1, h2, h3⟩ := ident_text_ne ht rest
    have h := lexSteps_one (lexOne_ident ht hr) (by rw [h1]; rintro _ ⟨⟩; exact h2) hl
    exact lexSteps_mono h (by simp only [Token.text]; omega)
  | .op s, ht, rest, n, l, hr, hl => by
    have hne : 0 < s.length ∧ ∀ c, (s ++ rest).head? = some c → isBlank c = false := by
      simp only [Token.Ok, templateOps, List.mem_cons, List.not_mem_nil, or_false] at ht
      rcases ht with rfl | rfl | rfl | rfl | rfl | rfl | rfl | rfl | rfl | rfl | rfl | rfl | rfl <;>
        exact ⟨by decide, by rintro c ⟨⟩; decide⟩
    have h := lexSteps_one (lexOne_op ht hr) hne.2 hl
    exact lexSteps_mono h (by simp only [Token.text]; omega)
  | .lifetime s, ht, rest, n, l, hr, hl => by
    obtain ⟨c, cs, rfl, hc, hs⟩ := identOk_cons ht
    have h := lexSteps_one (lexOne_lifetime hc hs hr) (by rintro _ ⟨⟩; decide) hl
    exact lexSteps_mono h (by simp only [Token.text, List.length_cons]; omega)
  | .lit s, ht, rest, n, l, hr, hl => by
    rcases ht with ⟨c, cs, rfl, hc, hs⟩ | ⟨cs, rfl, hs⟩
    · have h := lexSteps_one (lexOne_number hc hs hr)
        (by rintro _ ⟨⟩; exact blank_word (by simp [isWord, hc])) hl
      exact lexSteps_mono h (by simp only [Token.text, List.length_cons]; omega)
    · have h := lexSteps_one (lexOne_string (rest := rest) hs) (by rintro _ ⟨⟩; decide) hl
      have e : (Token.lit ('"' :: cs ++ ['"'])).text ++ rest = '"' :: (cs ++ '"' :: rest) := by
        simp [Token.text]
      rw [e]
      exact lexSteps_mono h (by simp only [Token.text, List.length_cons, List.cons_append]; omega)
  | .group .paren ts, ht, rest, n, l, hr, hl => by
    have h1 := lexSteps_one (lexOne_close .paren rest) (by rintro _ ⟨⟩; decide) hl
    have h2 := lex_tokens ht (rest := Delim.close .paren ++ rest) (by simp [Boundary, Delim.close]) h1
    have h3 := lexSteps_one (lexOne_open .paren _) (by rintro _ ⟨⟩; decide) h2
    have e : (Token.group .paren ts).text ++ rest = Delim.open .paren ++ (tokensText ts ++ (Delim.close .paren ++ rest)) := by
      simp [Token.text, Delim.opening, Delim.closing, Delim.open, Delim.close]
    rw [e, show (Token.group .paren ts).lexemes ++ l =
      .sym (Delim.open .paren) :: (lexemes ts ++ .sym (Delim.close .paren) :: l) by simp [Token.lexemes]]
    exact lexSteps_mono h3 (by simp [Token.text, Delim.opening, Delim.closing]; omega)
  | .group .bracket ts, ht, rest, n, l, hr, hl => by
    have h1 := lexSteps_one (lexOne_close .bracket rest) (by rintro _ ⟨⟩; decide) hl
    have h2 := lex_tokens ht (rest := Delim.close .bracket ++ rest) (by simp [Boundary, Delim.close]) h1
    have h3 := lexSteps_one (lexOne_open .bracket _) (by rintro _ ⟨⟩; decide) h2
    have e : (Token.group .bracket ts).text ++ rest =
        Delim.open .bracket ++ (tokensText ts ++ (Delim.close .bracket ++ rest)) := by
      simp [Token.text, Delim.opening, Delim.closing, Delim.open, Delim.close]
    rw [e, show (Token.group .bracket ts).lexemes ++ l =
      .sym (Delim.open .bracket) :: (lexemes ts ++ .sym (Delim.close .bracket) :: l) by simp [Token.lexemes]]
    exact lexSteps_mono h3 (by simp [Token.text, Delim.opening, Delim.closing]; omega)
  | .group .brace [], ht, rest, n, l, hr, hl => by
    have h1 := lexSteps_one (lexOne_close .brace rest) (by rintro _ ⟨⟩; decide) hl
    have h2 := lexSteps_space h1
    have h3 := lexSteps_one (lexOne_open .brace _) (by rintro _ ⟨⟩; decide) h2
    exact h3
  | .group .brace (t :: ts), ht, rest, n, l, hr, hl => by
    have h1 := lexSteps_one (lexOne_close .brace rest) (by rintro _ ⟨⟩; decide) hl
    have h2 := lex_tokens (ts := t :: ts) ht (rest := ' ' :: (Delim.close .brace ++ rest)) (by simp [Boundary])
      (lexSteps_space h1)
    have h3 := lexSteps_one (lexOne_open .brace _) (by rintro _ ⟨⟩; decide) (lexSteps_space h2)
    have e : (Token.group .brace (t :: ts)).text ++ rest =
        Delim.open .brace ++ (' ' :: (tokensText (t :: ts) ++ ' ' :: (Delim.close .brace ++ rest))) := by
      simp [Token.text, Delim.opening, Delim.closing, Delim.open, Delim.close]
    rw [e, show (Token.group .brace (t :: ts)).lexemes ++ l =
      .sym (Delim.open .brace) :: (lexemes (t :: ts) ++ .sym (Delim.close .brace) :: l) by simp [Token.lexemes]]
    exact lexSteps_mono h3 (by simp [Token.text, Delim.opening, Delim.closing]; omega)

theorem lex_tokens : ∀ {ts : List Token}, TokensOk ts → ∀ {rest : Str} {n : Nat} {l : List Lexeme}, Boundary rest →
    lexSteps n rest = some l → lexSteps (n + (tokensText ts).length) (tokensText ts ++ rest) = some (lexemes ts ++ l)
  | [], _, rest, n, l, _, hl => by simpa [tokensText, lexemes] using hl
  | [t], ht, rest, n, l, hr, hl => by
    simpa [tokensText, lexemes] using lex_token ht.1 hr hl
  | t :: u :: ts, ht, rest, n, l, hr, hl => by
    have h1 := lex_tokens (ts := u :: ts) ht.2 hr hl
    have h2 := lex_token ht.1 (rest := ' ' :: (tokensText (u :: ts) ++ rest)) (by simp [Boundary]) (lexSteps_space h1)
    rw [show lexemes (t :: u :: ts) ++ l = t.lexemes ++ (lexemes (u :: ts) ++ l) by
      rw [lexemes, List.append_assoc]]
    rw [tokensText, List.append_assoc, List.cons_append]
    refine lexSteps_mono h2 ?_
    simp only [List.length_append, List.length_cons]
    omega

end

/-- Tokens that can be printed are read back from the text. -/
theorem lexRust_tokens {ts : List Token} (h : TokensOk ts) : lexRust (tokensText ts) = some (lexemes ts) := by
  have h1 := lex_tokens h (rest := []) (n := 1) (l := []) boundary_nil rfl
  simp only [List.append_nil] at h1
  exact lexSteps_mono h1 (by omega)

/-- A final line break changes nothing. -/
theorem lexRust_newline {ts : List Token} (h : TokensOk ts) :
    lexRust (tokensText ts ++ c!"\n") = some (lexemes ts) := by
  have h1 := lex_tokens h (rest := c!"\n") (n := 2) (l := []) (by simp [Boundary]) rfl
  simp only [List.append_nil] at h1
  exact lexSteps_mono h1 (by simp only [List.length_append, List.length_cons, List.length_nil]; omega)

end Xdr.Rpcgen
