import Verif.RpcgenProofs.Sound
import Verif.RpcgenProofs.Total
/-!
# Words, numbers, blanks and enumerations: every text is read back
-/

namespace Xdr.Rpcgen

/-! ## Heads -/

theorem tight_cons {c : Char} {cs : Str} : Tight (c :: cs) ↔ isSpace c = false ∧ c ≠ '/' := by
  rw [Tight, notHead_cons, Bool.or_eq_false_iff]
  simp

theorem notSpace_of_word {c : Char} (h : isWord c = true) : isSpace c = false := by
  cases hs : isSpace c with
  | false => rfl
  | true =>
    rcases isSpace_iff.1 hs with rfl | rfl | rfl | rfl <;> revert h <;> decide

theorem notSlash_of_word {c : Char} (h : isWord c = true) : c ≠ '/' := by
  rintro rfl; revert h; decide

theorem tight_of_word {c : Char} {cs : Str} (h : isWord c = true) : Tight (c :: cs) :=
  tight_cons.2 ⟨notSpace_of_word h, notSlash_of_word h⟩

/-- A class of characters to which blanks and `/` do not belong. -/
def NoGap (f : Char → Bool) : Prop := (∀ c, isSpace c = true → f c = false) ∧ f '/' = false

theorem noGap_word : NoGap isWord := by
  refine ⟨?_, by decide⟩
  intro c h
  rcases isSpace_iff.1 h with rfl | rfl | rfl | rfl <;> decide

theorem blank_notHead {f : Char → Bool} (hf : NoGap f) {b r : Str} (hb : Blank b)
    (hr : NotHead f r) : NotHead f (b ++ r) := by
  cases b with
  | nil => exact hr
  | cons c cs => exact notHead_cons.2 (hf.1 c (isSpace_iff.2 (hb c (by simp))))

theorem gap_notHead {f : Char → Bool} (hf : NoGap f) {g r : Str} (hg : Gap g)
    (hr : NotHead f r) : NotHead f (g ++ r) := by
  cases hg with
  | blank hb => exact blank_notHead hf hb hr
  | @comment s body rest hs _ _ =>
    simp only [List.append_assoc]
    exact blank_notHead hf hs (notHead_cons.2 hf.2)

/-! ## Blanks and gaps around symbols -/

theorem comment0_skip {g r : Str} (hg : Gap g) (hr : Tight r) : ∃ x, comment0 (g ++ r) = .ok x r :=
  comment0_of_gap hg hr

theorem sym_of {c : Char} {g1 g2 r : Str} (hg1 : Gap g1) (hg2 : Gap g2) (hc : Tight [c])
    (hr : Tight r) :
    ∃ x, pair comment0 (pair (tag [c]) comment0) (g1 ++ c :: (g2 ++ r)) = .ok x r := by
  have hc' : Tight (c :: (g2 ++ r)) := tight_cons.2 (tight_cons.1 hc)
  obtain ⟨x, hx⟩ := comment0_of_gap hg1 hc'
  obtain ⟨y, hy⟩ := comment0_of_gap hg2 hr
  exact ⟨(x, [c], y), pair_ok.2 ⟨_, hx, pair_ok.2 ⟨_, tag_ok.2 ⟨rfl, rfl⟩, hy⟩⟩⟩

theorem end_of {c : Char} {g r : Str} (hg : Gap g) (hc : Tight [c]) :
    ∃ x, pair comment0 (tag [c]) (g ++ c :: r) = .ok x r := by
  have hc' : Tight (c :: r) := tight_cons.2 (tight_cons.1 hc)
  obtain ⟨x, hx⟩ := comment0_of_gap hg hc'
  exact ⟨(x, [c]), pair_ok.2 ⟨_, hx, tag_ok.2 ⟨rfl, rfl⟩⟩⟩

theorem spaces_of {c : Char} {b1 b2 r : Str} (hb1 : Blank b1) (hb2 : Blank b2)
    (hc : isSpace c = false) (hr : NotHead isSpace r) :
    pair multispace0 (pair (tag [c]) multispace0) (b1 ++ c :: (b2 ++ r)) = .ok (b1, [c], b2) r :=
  pair_ok.2 ⟨_, multispace0_ok.2 ⟨rfl, hb1, notHead_cons.2 hc⟩, pair_ok.2 ⟨_, tag_ok.2 ⟨rfl, rfl⟩,
    multispace0_ok.2 ⟨rfl, hb2, hr⟩⟩⟩

/-! ## Failing -/

theorem map_err_of {α β : Type} {p : P α} {f : α → β} {i : Str} (h : p i = .err) :
    map p f i = .err := bind_err_of h

theorem pair_err_left {α β : Type} {p : P α} {q : P β} {i : Str} (h : p i = .err) :
    pair p q i = .err := bind_err_of h

theorem bind_err_right {α β : Type} {p : P α} {f : α → P β} {i m : Str} {a : α} (h : p i = .ok a m)
    (h' : f a m = .err) : p.bind f i = .err := by simp [P.bind, h, h']

theorem pair_err_right {α β : Type} {p : P α} {q : P β} {i m : Str} {a : α} (h : p i = .ok a m)
    (h' : q m = .err) : pair p q i = .err := bind_err_right h (bind_err_of h')

theorem preceded_err_left {α β : Type} {p : P α} {q : P β} {i : Str} (h : p i = .err) :
    preceded p q i = .err := bind_err_of h

theorem preceded_err_right {α β : Type} {p : P α} {q : P β} {i m : Str} {a : α} (h : p i = .ok a m)
    (h' : q m = .err) : preceded p q i = .err := bind_err_right h h'

theorem delimited_err_left {α β γ : Type} {p : P α} {q : P β} {s : P γ} {i : Str} (h : p i = .err) :
    delimited p q s i = .err := bind_err_of h

theorem terminated_err_right {α β : Type} {p : P α} {q : P β} {i m : Str} {a : α} (h : p i = .ok a m)
    (h' : q m = .err) : terminated p q i = .err := bind_err_right h (bind_err_of h')

theorem alt_skip {α : Type} {p : P α} {ps : List (P α)} {i : Str} (h : p i = .err) :
    alt (p :: ps) i = alt ps i := by simp [alt, h]

theorem alt_last {α : Type} {p : P α} {i : Str} (h : p i ≠ .out) : alt [p] i = p i := by
  simp only [alt]
  cases hp : p i with
  | ok a r => rfl
  | err => rfl
  | out => exact absurd hp h

/-! ## Words -/

/-- The letters, digits and underscores at the head of a text. -/
def wordOf (i : Str) : Str := i.takeWhile isWord

theorem wordOf_append {w r : Str} (hw : w.all isWord = true) (hr : NotHead isWord r) :
    wordOf (w ++ r) = w := (takeWhile_append_of hw hr).1

theorem wordOf_nil_iff {i : Str} : wordOf i = [] ↔ NotHead isWord i := by
  cases i with
  | nil => simp [wordOf, notHead_nil]
  | cons c cs =>
    rw [notHead_cons, wordOf, List.takeWhile_cons]
    cases isWord c <;> simp

theorem prefix_wordOf {kw i : Str} (hkw : kw.all isWord = true) (h : kw <+: i) : kw <+: wordOf i := by
  obtain ⟨s, rfl⟩ := h
  induction kw with
  | nil => exact List.nil_prefix
  | cons c cs ih =>
    simp only [List.all_cons, Bool.and_eq_true] at hkw
    simp only [wordOf, List.cons_append, List.takeWhile_cons, hkw.1, if_true]
    exact (List.cons_prefix_cons).2 ⟨rfl, ih hkw.2⟩

theorem tag_err_word {kw i : Str} (hkw : kw.all isWord = true) (h : ¬ kw <+: wordOf i) :
    tag kw i = .err := by
  unfold tag
  rw [if_neg]
  intro hp
  exact h (prefix_wordOf hkw (List.isPrefixOf_iff_prefix.1 hp))

theorem kw_space_err {kw i : Str} (hkw : kw.all isWord = true) (h : wordOf i ≠ kw) :
    tag kw i = .err ∨ ∃ m, tag kw i = .ok kw m ∧ multispace1 m = .err := by
  cases ht : tag kw i with
  | err => exact .inl rfl
  | out => unfold tag at ht; split at ht <;> simp at ht
  | ok a m =>
    obtain ⟨rfl, rfl⟩ := tag_ok.1 ht
    refine .inr ⟨m, rfl, multispace1_err.2 ?_⟩
    cases m with
    | nil => exact notHead_nil _
    | cons c cs =>
      refine notHead_cons.2 (notSpace_of_word ?_)
      cases hc : isWord c with
      | true => rfl
      | false => exact absurd (wordOf_append hkw (notHead_cons.2 hc)) h

theorem keyword_err {kw i : Str} (hkw : kw.all isWord = true) (h : wordOf i ≠ kw) :
    pair (tag kw) multispace1 i = .err := by
  rcases kw_space_err hkw h with h1 | ⟨m, h1, h2⟩
  · exact pair_err_left h1
  · exact pair_err_right h1 h2

theorem word_err {kw i : Str} (hkw : kw.all isWord = true) (h : wordOf i ≠ kw) :
    word kw i = .err := by
  rcases kw_space_err hkw h with h1 | ⟨m, h1, h2⟩
  · exact bind_err_of h1
  · exact terminated_err_right h1 (by simp [peek, h2])

theorem unsigned_err {kw i : Str} (h : wordOf i ≠ c!"unsigned") : unsignedWord kw i = .err :=
  bind_err_of (keyword_err (by decide) h)

theorem unsigned_err' {kw b r : Str} (hb : Blank1 b) (hr : NotHead isSpace r)
    (hkw : kw.all isWord = true) (h : wordOf r ≠ kw) :
    unsignedWord kw (c!"unsigned" ++ (b ++ r)) = .err :=
  preceded_err_right (keyword_of hb hr) (word_err hkw h)

theorem SpaceHead.notWord {r : Str} (h : SpaceHead r) : NotHead isWord r := by
  obtain ⟨c, cs, rfl, hc⟩ := h
  exact notHead_cons.2 (noGap_word.1 c hc)

/-! ## Identifiers -/

theorem identifier_ne_out (i : Str) : identifier i ≠ .out :=
  (agree_identifier (k := i.length) i (Nat.le_refl _)).2.1

theorem value_ne_out (i : Str) : value i ≠ .out :=
  (agree_value (k := i.length) i (Nat.le_refl _)).2.1

theorem comment0_ne_out (i : Str) : comment0 i ≠ .out :=
  (agree_comment0 (k := i.length) i (Nat.le_refl _)).2.1

theorem ident_all {a : Str} (h : Ident a) : a.all isWord = true := by
  obtain ⟨⟨c, cs, rfl, hc, hcs⟩, _⟩ := h
  simp only [List.all_cons, Bool.and_eq_true, List.all_eq_true]
  exact ⟨isWord_of_first hc, hcs⟩

theorem ident_head {a : Str} (h : Ident a) : ∃ c cs, a = c :: cs ∧ isWord c = true := by
  obtain ⟨⟨c, cs, rfl, hc, _⟩, _⟩ := h
  exact ⟨c, cs, rfl, isWord_of_first hc⟩

theorem ident_tight {a r : Str} (h : Ident a) : Tight (a ++ r) := by
  obtain ⟨c, cs, rfl, hc⟩ := ident_head h
  exact tight_of_word hc

theorem ident_notSpace {a r : Str} (h : Ident a) : NotHead isSpace (a ++ r) := (ident_tight h).notSpace

theorem identifier_of {a r : Str} (h : Ident a) (hr : NotHead isWord r) :
    identifier (a ++ r) = .ok a r := identifier_ok.2 ⟨rfl, h, hr⟩

/-- `identifier` fails if the word at the head is reserved or there is none. -/
theorem identifier_err_word {i : Str} (h : ¬ Ident (wordOf i)) : identifier i = .err := by
  refine not_out_of_agree (identifier_ne_out i) ?_
  intro a r ha
  obtain ⟨rfl, h1, h2⟩ := identifier_ok.1 ha
  rw [wordOf_append (ident_all h1) h2] at h
  exact h h1

theorem not_ident_nil : ¬ Ident [] := by
  rintro ⟨⟨c, cs, h, _⟩, _⟩; simp at h

theorem not_ident_reserved {w : Str} (h : w ∈ reservedWords) : ¬ Ident w := fun hi => hi.2 h

theorem identifier_err_head {i : Str} (h : NotHead isWord i) : identifier i = .err :=
  identifier_err_word (by rw [wordOf_nil_iff.2 h]; exact not_ident_nil)

/-! ## Numbers and values -/

theorem constantText_head {c : Constant} {s : Str} (h : ConstantText c s) :
    ∃ x xs, s = x :: xs ∧ (isDigit x = true ∨ x = '-') := by
  cases c with
  | decimal d =>
    obtain ⟨rfl, rfl | ⟨x, ds, rfl | rfl, hx, _⟩⟩ := h
    · exact ⟨_, _, rfl, .inl (by decide)⟩
    · exact ⟨_, _, rfl, .inl hx⟩
    · exact ⟨_, _, rfl, .inr rfl⟩
  | hex d =>
    obtain ⟨rfl, _⟩ := h
    exact ⟨_, _, rfl, .inl (by decide)⟩
  | octal d =>
    obtain ⟨rfl, _⟩ := h
    exact ⟨_, _, rfl, .inl (by decide)⟩

theorem constant_ne_out (i : Str) : constant i ≠ .out :=
  (agree_constant (k := i.length) i (Nat.le_refl _)).2.1

theorem constant_err {i : Str} (h : NotHead (fun c => isDigit c || c == '-') i) :
    constant i = .err := by
  refine not_out_of_agree (constant_ne_out i) ?_
  intro a r ha
  obtain ⟨s, hs, rfl⟩ := constant_text ha
  obtain ⟨x, xs, rfl, hx⟩ := constantText_head hs
  have := h x (xs ++ r) rfl
  rcases hx with hx | hx <;> simp [hx] at this

theorem decimal_nonzero_err (r : Str) : decimal_nonzero ('0' :: r) = .err := by
  have ha : ∀ k, Agree k decimal_nonzero decimal_nonzero := by
    intro k; unfold decimal_nonzero digit1; agree
  refine not_out_of_agree (ha _ _ (Nat.le_refl _)).2.1 ?_
  intro a m h
  obtain ⟨d, x, ds, rfl, h1, h2, _, h3, _⟩ := decimal_nonzero_ok.1 h
  rcases h2 with rfl | rfl
  · simp only [List.cons_append, List.cons.injEq] at h1
    exact h3 h1.1.symm
  · simp at h1

theorem hexadecimal_err {r : Str} (h : NotHead (· == 'x') r) : hexadecimal ('0' :: r) = .err := by
  have ha : ∀ k, Agree k hexadecimal hexadecimal := by
    intro k; unfold hexadecimal hex_digit1; agree
  refine not_out_of_agree (ha _ _ (Nat.le_refl _)).2.1 ?_
  intro a m h'
  obtain ⟨d, rfl, h1, _⟩ := hexadecimal_ok.1 h'
  simp only [List.cons_append, List.cons.injEq, true_and, List.nil_append] at h1
  have := h 'x' (d ++ m) h1
  simp at this

theorem octal_err {r : Str} (h : NotHead isOct r) : octal ('0' :: r) = .err := by
  have ha : ∀ k, Agree k octal octal := by
    intro k; unfold octal oct_digit1; agree
  refine not_out_of_agree (ha _ _ (Nat.le_refl _)).2.1 ?_
  intro a m h'
  obtain ⟨d, rfl, h1, h2, h3, _⟩ := octal_ok.1 h'
  simp only [List.cons_append, List.cons.injEq, true_and, List.nil_append] at h1
  cases d with
  | nil => exact h2 rfl
  | cons x xs =>
    have := h x (xs ++ m) h1
    rw [isOct_iff.2 (h3 x (by simp))] at this
    simp at this

theorem constant_of {c : Constant} {s r : Str} (h : ConstantText c s) (hr : NotHead isWord r) :
    constant (s ++ r) = .ok c r := by
  have hx : NotHead (· == 'x') r := notHead_mono hr (by
    intro c h; simp only [beq_iff_eq] at h; rw [h]; decide)
  cases c with
  | decimal d =>
    obtain ⟨rfl, rfl | ⟨x, ds, hd, hx, hx0, hds⟩⟩ := h
    · unfold constant
      simp only [List.cons_append, List.nil_append]
      rw [alt_skip (decimal_nonzero_err r), alt_skip (hexadecimal_err hx),
        alt_skip (octal_err (notHead_mono hr fun _ => isWord_of_oct))]
      exact alt_cons_ok.2 (.inl (map_ok.2 ⟨_, tag_ok.2 ⟨rfl, rfl⟩, rfl⟩))
    · exact alt_cons_ok.2 (.inl (decimal_nonzero_ok.2 ⟨_, x, ds, rfl, rfl, hd, hx, hx0, hds,
        notHead_mono hr fun _ => isWord_of_digit⟩))
  | hex d =>
    obtain ⟨rfl, hne, hd⟩ := h
    unfold constant
    simp only [List.cons_append, List.nil_append]
    rw [alt_skip (decimal_nonzero_err _)]
    exact alt_cons_ok.2 (.inl (hexadecimal_ok.2 ⟨d, rfl, by simp, hne, hd,
      notHead_mono hr fun _ => isWord_of_hex⟩))
  | octal d =>
    obtain ⟨rfl, hne, hd⟩ := h
    unfold constant
    simp only [List.cons_append, List.nil_append]
    rw [alt_skip (decimal_nonzero_err _), alt_skip (hexadecimal_err ?_)]
    · exact alt_cons_ok.2 (.inl (octal_ok.2 ⟨d, rfl, by simp, hne, hd,
        notHead_mono hr fun _ => isWord_of_oct⟩))
    · cases d with
      | nil => exact absurd rfl hne
      | cons y ys =>
        refine notHead_cons.2 ?_
        have := hd y (by simp)
        cases he : y == 'x' with
        | false => rfl
        | true =>
          simp only [beq_iff_eq] at he
          rw [he] at this
          revert this
          simp [IsOctDigit]

theorem value_of {v : Value} {s r : Str} (h : ValueText v s) (hr : NotHead isWord r) :
    value (s ++ r) = .ok v r := by
  cases v with
  | constant c => exact alt_cons_ok.2 (.inl (map_ok.2 ⟨c, constant_of h hr, rfl⟩))
  | identifier name =>
    obtain ⟨rfl, h⟩ := h
    unfold value
    rw [alt_skip (map_err_of (constant_err ?_))]
    · exact alt_cons_ok.2 (.inl (map_ok.2 ⟨_, identifier_of h hr, rfl⟩))
    · obtain ⟨⟨c, cs, rfl, hc, _⟩, _⟩ := h
      refine notHead_cons.2 ?_
      rcases hc with hc | hc
      · have h1 : isDigit c = false := by
          cases hd : isDigit c with
          | false => rfl
          | true =>
            simp only [isAlpha, isLower, isUpper, isDigit, Bool.or_eq_true, Bool.and_eq_true,
              decide_eq_true_eq] at hc hd
            omega
        have h2 : (c == '-') = false := by
          cases hd : c == '-' with
          | false => rfl
          | true =>
            simp only [beq_iff_eq] at hd
            rw [hd] at hc
            revert hc; decide
        simp only [h1, h2]; rfl
      · rw [hc]; decide

theorem value_err {i : Str} (h : NotHead (fun c => isWord c || c == '-') i) : value i = .err := by
  have h1 : constant i = .err := constant_err (notHead_mono h (by
    intro c hc
    simp only [Bool.or_eq_true] at hc ⊢
    rcases hc with hc | hc
    · exact .inl (isWord_of_digit hc)
    · exact .inr hc))
  have h2 : identifier i = .err := identifier_err_head (notHead_mono h (by intro c hc; simp [hc]))
  simp [value, alt, map_err_of h1, map_err_of h2]

theorem valueText_head {v : Value} {s : Str} (h : ValueText v s) :
    ∃ x xs, s = x :: xs ∧ (isWord x = true ∨ x = '-') := by
  cases v with
  | constant c =>
    obtain ⟨x, xs, rfl, hx⟩ := constantText_head h
    refine ⟨x, xs, rfl, ?_⟩
    rcases hx with hx | hx
    · exact .inl (isWord_of_digit hx)
    · exact .inr hx
  | identifier name =>
    obtain ⟨rfl, h⟩ := h
    obtain ⟨c, cs, rfl, hc⟩ := ident_head h
    exact ⟨c, cs, rfl, .inl hc⟩

theorem value_tight {v : Value} {s r : Str} (h : ValueText v s) : Tight (s ++ r) := by
  obtain ⟨x, xs, rfl, hx | rfl⟩ := valueText_head h
  · exact tight_of_word hx
  · exact tight_cons.2 (by decide)

theorem opt_value_of {v : Option Value} {s r : Str} (h : OptValueText v s)
    (hr : NotHead (fun c => isWord c || c == '-') r) : opt value (s ++ r) = .ok v r := by
  have hr' : NotHead isWord r := notHead_mono hr (by intro c hc; simp [hc])
  cases v with
  | some v => exact opt_ok.2 (.inl ⟨v, value_of h hr', rfl⟩)
  | none =>
    simp only [OptValueText] at h
    subst h
    exact opt_ok.2 (.inr ⟨value_err hr, rfl, rfl⟩)

/-! ## Repetition -/

theorem reps_len {α : Type} {p : P α} (hp : ∀ i a r, p i = .ok a r → r.length ≤ i.length) {i r : Str}
    {as : List α} (h : Reps p i as r) : as.length + r.length ≤ i.length := by
  induction h with
  | nil _ => simp
  | cons h1 h2 _ ih =>
    have := hp _ _ _ h1
    simp only [List.length_cons]
    omega

theorem many0_of {α : Type} {p : P α} (hp : ∀ i a r, p i = .ok a r → r.length ≤ i.length) {i r : Str}
    {as : List α} (h : Reps p i as r) : many0 p i = .ok as r :=
  reps_manyLoop h _ (by have := reps_len hp h; omega)

theorem many1_of {α : Type} {p : P α} (hp : ∀ i a r, p i = .ok a r → r.length ≤ i.length) {i r : Str}
    {as : List α} (hne : as ≠ []) (h : Reps p i as r) : many1 p i = .ok as r := by
  cases h with
  | nil _ => exact absurd rfl hne
  | cons h1 _ h3 => exact many1_ok.2 ⟨_, _, _, rfl, h1, many0_of hp h3⟩

/-! ## Enumerations -/

theorem assign_of {a : Assign} {s r : Str} (h : AssignText a s) (hr : NotHead isWord r) :
    assign (s ++ r) = .ok a r := by
  obtain ⟨g1, g2, v, hn, hg1, hg2, hv, rfl⟩ := h
  simp only [List.append_assoc, List.cons_append, List.nil_append]
  obtain ⟨x, hx⟩ := sym_of (c := '=') hg1 hg2 (tight_cons.2 (by decide)) (value_tight (r := r) hv)
  refine map_ok.2 ⟨(a.identifier, a.value), pair_ok.2 ⟨_, identifier_of hn ?_,
    preceded_ok.2 ⟨x, v ++ r, hx, value_of hv hr⟩⟩, rfl⟩
  exact gap_notHead noGap_word hg1 (notHead_cons.2 (by decide))

theorem assignText_head {a : Assign} {s : Str} (h : AssignText a s) :
    ∃ c cs, s = c :: cs ∧ isWord c = true := by
  obtain ⟨g1, g2, v, hn, hg1, hg2, hv, rfl⟩ := h
  obtain ⟨c, cs, h, hc⟩ := ident_head hn
  exact ⟨c, _, by rw [h]; simp; rfl, hc⟩

theorem assigns_notWord {as : List Assign} {s g r : Str} (h : AssignsText as s) (hg : Gap g) :
    NotHead isWord (s ++ (g ++ '}' :: r)) := by
  cases as with
  | nil =>
    simp only [AssignsText] at h
    subst h
    show NotHead isWord (g ++ '}' :: r)
    exact gap_notHead noGap_word hg (notHead_cons.2 (by decide))
  | cons a as =>
    obtain ⟨g1, g2, t, u, hg1, _, _, _, rfl⟩ := h
    simp only [List.append_assoc]
    exact gap_notHead noGap_word hg1 (notHead_cons.2 (by decide))

theorem assigns_of {as : List Assign} {s g r : Str} (h : AssignsText as s) (hg : Gap g) :
    SepReps (pair comment0 (pair (tag c!",") comment0)) assign (s ++ (g ++ '}' :: r)) as
      (g ++ '}' :: r) := by
  induction as generalizing s with
  | nil =>
    simp only [AssignsText] at h
    subst h
    obtain ⟨x, hx⟩ := comment0_of_gap (r := '}' :: r) hg (tight_cons.2 (by decide))
    refine .nosep (pair_err_right hx (pair_err_left ?_))
    exact tag_err_of (notHead_cons.2 (by decide))
  | cons a as ih =>
    obtain ⟨g1, g2, t, u, hg1, hg2, ht, hu, rfl⟩ := h
    simp only [List.append_assoc, List.cons_append, List.nil_append]
    obtain ⟨c, cs, hc, hw⟩ := assignText_head ht
    obtain ⟨x, hx⟩ := sym_of (c := ',') (r := t ++ (u ++ (g ++ '}' :: r))) hg1 hg2
      (tight_cons.2 (by decide)) (by rw [hc]; exact tight_of_word hw)
    refine .cons hx (assign_of ht (assigns_notWord hu hg)) ?_ (ih hu)
    simp only [List.length_append, List.length_cons]
    omega

theorem sepReps_len {α β : Type} {sep : P β} {p : P α}
    (hs : ∀ i a r, sep i = .ok a r → r.length ≤ i.length)
    (hp : ∀ i a r, p i = .ok a r → r.length ≤ i.length) {i r : Str}
    {as : List α} (h : SepReps sep p i as r) : as.length + r.length ≤ i.length := by
  induction h with
  | nosep _ => simp
  | noelem _ _ => simp
  | cons h0 h1 h2 _ ih =>
    have := hp _ _ _ h1
    have := hs _ _ _ h0
    simp only [List.length_cons]
    omega

theorem enum_body_of {as : List Assign} {s r : Str} (h : EnumText as s) :
    enum_body (s ++ r) = .ok as r := by
  cases as with
  | nil => exact absurd h (by simp [EnumText])
  | cons a as =>
    obtain ⟨g1, g2, t, u, hg1, hg2, ht, hu, rfl⟩ := h
    simp only [List.append_assoc, List.cons_append, List.nil_append]
    obtain ⟨c, cs, hc, hw⟩ := assignText_head ht
    obtain ⟨x, hx⟩ := comment0_of_gap (r := t ++ (u ++ (g2 ++ '}' :: r))) hg1
      (by rw [hc]; exact tight_of_word hw)
    obtain ⟨y, hy⟩ := end_of (c := '}') (r := r) hg2 (tight_cons.2 (by decide))
    refine delimited_ok.2 ⟨(c!"{", x), _, _, y, pair_ok.2 ⟨_, tag_ok.2 ⟨rfl, rfl⟩, hx⟩, ?_, hy⟩
    refine separated_list1_ok.2 ⟨a, as, _, rfl, assign_of ht (assigns_notWord hu hg2), ?_⟩
    have hreps := assigns_of (r := r) hu hg2
    refine sepReps_loop hreps _ ?_
    have := sepReps_len (by
      intro i a r h
      obtain ⟨g1, g2, _, _, rfl⟩ := comment0_sym h
      simp only [List.length_append]; omega) (by
      intro i a r h
      obtain ⟨s, _, rfl⟩ := assign_text h
      simp) hreps
    omega

end Xdr.Rpcgen
