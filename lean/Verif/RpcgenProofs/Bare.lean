import Verif.RpcgenProofs.Gen
/-!
# Which field names become bare keywords
-/

namespace Xdr.Rpcgen

/-- One turn of `split_inclusive`. -/
theorem splitInclusive_cons {p : Char → Bool} {s q : Str} {qs : List Str}
    (h : splitInclusive p s = q :: qs) :
    ∃ s', s = q ++ s' ∧ splitInclusive p s' = qs ∧
      ((∃ q' x, q = q' ++ [x] ∧ (∀ c ∈ q', p c = false) ∧ p x = true) ∨
        (∀ c ∈ q, p c = false) ∧ s' = []) := by
  induction s generalizing q qs with
  | nil => cases h
  | cons c cs ih =>
    unfold splitInclusive at h
    split at h
    · next hc =>
      cases h
      exact ⟨cs, rfl, rfl, .inl ⟨[], c, rfl, by simp, hc⟩⟩
    · next hc =>
      have hc' : p c = false := by simpa using hc
      cases hs : splitInclusive p cs with
      | nil =>
        rw [hs] at h
        cases h
        have : cs = [] := by rw [← splitInclusive_flatten p cs, hs]; rfl
        subst this
        exact ⟨[], rfl, rfl, .inr ⟨by simpa using hc', rfl⟩⟩
      | cons q0 qs0 =>
        rw [hs] at h
        cases h
        obtain ⟨s', h1, h2, h3⟩ := ih hs
        refine ⟨s', by rw [h1]; rfl, h2, ?_⟩
        rcases h3 with ⟨q', x, rfl, h4, h5⟩ | ⟨h4, h5⟩
        · exact .inl ⟨c :: q', x, rfl, by simpa [hc'] using h4, h5⟩
        · exact .inr ⟨by simpa [hc'] using h4, h5⟩

/-- A letter. -/
abbrev Letter (c : Char) : Prop := isLower c = true ∨ isUpper c = true

theorem lower_not_upper {c : Char} (h : isLower c = true) : isUpper c = false := by
  rw [Bool.eq_false_iff]
  intro h'
  rw [isLower_iff] at h
  rw [isUpper_iff] at h'
  omega

theorem letter_not_digit {c : Char} (h : Letter c) : isDigit c = false := by
  rw [Bool.eq_false_iff]
  intro h'
  unfold isDigit at h'
  simp only [Bool.and_eq_true, decide_eq_true_eq] at h'
  rcases h with h | h
  · rw [isLower_iff] at h
    omega
  · rw [isUpper_iff] at h
    omega

theorem snakePiece_head {c : Char} {q : Str} (h : isUpper c = true) : ∃ r, snakePiece (c :: q) = c :: r := by
  have hl : isLower c = false := by
    rw [Bool.eq_false_iff]
    intro hl
    rw [lower_not_upper hl] at h
    cases h
  cases q with
  | nil => exact ⟨[], rfl⟩
  | cons d q => exact ⟨(d :: q).map toLower, by simp only [snakePiece, capitalize, toUpper_of_not_lower hl]⟩

theorem snakeCapitalized_lower_cons {c : Char} {cs : Str} (h : isLower c = true) :
    snakeCapitalized (c :: cs) = c :: snakeCapitalized cs := by
  unfold snakeCapitalized
  rw [splitInclusive, if_pos (by simp [h])]
  rfl

theorem snakeCapitalized_upper_cons {c : Char} {cs : Str} (h : isUpper c = true) :
    ∃ r, snakeCapitalized (c :: cs) = c :: r := by
  unfold snakeCapitalized
  have hl : isLower c = false := by
    rw [Bool.eq_false_iff]
    intro hl
    rw [lower_not_upper hl] at h
    cases h
  rw [splitInclusive, if_neg (by simp [hl, letter_not_digit (.inr h)])]
  split
  · exact ⟨[], rfl⟩
  · next q qs _ =>
    obtain ⟨r, hr⟩ := snakePiece_head (q := q) h
    exact ⟨r ++ qs.flatMap snakePiece, by rw [List.flatMap_cons, hr]; rfl⟩

/-- A text whose capitals all disappear in the first half had none. -/
theorem all_lower_of {s : Str} (hl : ∀ c ∈ s, Letter c) (hn : ∀ c ∈ snakeCapitalized s, isUpper c = false) :
    ∀ c ∈ s, isLower c = true := by
  induction s with
  | nil => simp
  | cons c cs ih =>
    rcases hl c List.mem_cons_self with h | h
    · rw [snakeCapitalized_lower_cons h] at hn
      intro d hd
      rcases List.mem_cons.1 hd with rfl | hd
      · exact h
      · exact ih (fun c hc => hl c (List.mem_cons_of_mem _ hc)) (fun c hc => hn c (List.mem_cons_of_mem _ hc)) d hd
    · obtain ⟨r, hr⟩ := snakeCapitalized_upper_cons (cs := cs) h
      rw [hr] at hn
      rw [hn c List.mem_cons_self] at h
      cases h

/-- If at most the first letter is a capital after the first half, the capitals were a prefix. -/
theorem capitals_prefix {s : Str} (hl : ∀ c ∈ s, Letter c)
    (hn : ∀ c ∈ (snakeCapitalized s).tail, isUpper c = false) :
    ∃ a b, s = a ++ b ∧ (∀ c ∈ a, isUpper c = true) ∧ ∀ c ∈ b, isLower c = true := by
  cases s with
  | nil => exact ⟨[], [], rfl, by simp, by simp⟩
  | cons c cs =>
    have hcs : ∀ c ∈ cs, Letter c := fun c hc => hl c (List.mem_cons_of_mem _ hc)
    rcases hl c List.mem_cons_self with h | h
    · rw [snakeCapitalized_lower_cons h] at hn
      have := all_lower_of hcs hn
      refine ⟨[], c :: cs, rfl, by simp, ?_⟩
      intro d hd
      rcases List.mem_cons.1 hd with rfl | hd
      · exact h
      · exact this d hd
    · have hsplit : ∀ q qs, splitInclusive (fun c => isLower c || isDigit c) (c :: cs) = q :: qs →
          ∃ a b, c :: cs = a ++ b ∧ (∀ c ∈ a, isUpper c = true) ∧ ∀ c ∈ b, isLower c = true := by
        intro q qs hq
        obtain ⟨s', h1, h2, h3⟩ := splitInclusive_cons hq
        have hup : ∀ d ∈ c :: cs, (isLower d || isDigit d) = false → isUpper d = true := by
          intro d hd hp
          rcases hl d hd with h | h
          · simp [h] at hp
          · exact h
        have htail : ∀ d ∈ snakeCapitalized s', isUpper d = false := by
          intro d hd
          apply hn
          unfold snakeCapitalized at hd ⊢
          rw [hq, List.flatMap_cons]
          rw [h2] at hd
          have hne : snakePiece q ≠ [] := by
            have hqne : q ≠ [] := by
              rintro rfl
              rcases h3 with ⟨q', x, h, -⟩ | ⟨-, h⟩
              · simp at h
              · rw [h] at h1
                cases h1
            cases q with
            | nil => exact absurd rfl hqne
            | cons x xs => cases xs <;> simp [snakePiece, capitalize]
          cases hp : snakePiece q with
          | nil => exact absurd hp hne
          | cons x xs =>
            simp only [List.cons_append, List.tail_cons]
            exact List.mem_append.2 (.inr hd)
        have hlow := all_lower_of (s := s') (fun d hd => hl d (by rw [h1]; exact List.mem_append.2 (.inr hd))) htail
        rcases h3 with ⟨q', x, rfl, h4, h5⟩ | ⟨h4, rfl⟩
        · refine ⟨q', x :: s', by rw [h1]; simp, fun d hd => hup d (by rw [h1]; simp [hd]) (h4 d hd), ?_⟩
          intro d hd
          rcases List.mem_cons.1 hd with rfl | hd
          · have hx := hl d (by rw [h1]; simp)
            rw [letter_not_digit hx, Bool.or_false] at h5
            exact h5
          · exact hlow d hd
        · exact ⟨q, [], h1, fun d hd => hup d (by rw [h1]; simp [hd]) (h4 d hd), by simp⟩
      cases hs : splitInclusive (fun c => isLower c || isDigit c) (c :: cs) with
      | nil =>
        have := splitInclusive_flatten (fun c => isLower c || isDigit c) (c :: cs)
        rw [hs] at this
        cases this
      | cons q qs => exact hsplit q qs hs

theorem splitBefore_fst_nil {p : Char → Bool} {s : Str} : ∀ c ∈ (splitBefore p s).1, p c = false := by
  induction s with
  | nil => simp [splitBefore]
  | cons c cs ih =>
    simp only [splitBefore]
    split
    · simp
    · next h =>
      intro d hd
      rcases List.mem_cons.1 hd with rfl | hd
      · simpa using h
      · exact ih d hd

/-- Without an underscore in the result, the first half leaves at most one capital, in front. -/
theorem tail_no_upper {s : Str} (h : '_' ∉ snake_case s) :
    ∀ c ∈ (snakeCapitalized s).tail, isUpper c = false := by
  unfold snake_case at h
  generalize snakeCapitalized s = u at h ⊢
  have hwu : ∀ ps : List Str, '_' ∉ ps.flatMap with_underscore → ps = [] := by
    intro ps hps
    cases ps with
    | nil => rfl
    | cons p ps => exact absurd (by simp [with_underscore]) hps
  cases u with
  | nil => simp
  | cons c cs =>
    have key : (splitBefore isUpper cs).2 = [] := by
      simp only [splitBefore] at h
      by_cases hc : isUpper c = true
      · simp only [hc, if_true] at h
        exact hwu _ fun hm => h (List.mem_append.2 (.inr hm))
      · simp only [hc] at h
        exact hwu _ fun hm => h (List.mem_append.2 (.inr hm))
    have happ := splitBefore_append isUpper cs
    rw [key] at happ
    simp only [List.flatten_nil, List.append_nil] at happ
    intro d hd
    simp only [List.tail_cons] at hd
    rw [← happ] at hd
    exact splitBefore_fst_nil d hd

/-- Without an underscore in the result, only the case changed. -/
theorem snake_case_plain {s : Str} (h : '_' ∉ snake_case s) : snake_case s = s.map toLower := by
  have hwu : ∀ ps : List Str, '_' ∉ ps.flatMap with_underscore → ps = [] := by
    intro ps hps
    cases ps with
    | nil => rfl
    | cons p ps => exact absurd (by simp [with_underscore]) hps
  have ha := splitBefore_append isUpper (snakeCapitalized s)
  rw [← snakeCapitalized_lower]
  unfold snake_case at h ⊢
  revert ha h
  rcases splitBefore isUpper (snakeCapitalized s) with ⟨u, t⟩
  intro h ha
  simp only at ha h ⊢
  split at h
  · next p ps =>
    have := hwu _ fun hm => h (List.mem_append.2 (.inr hm))
    subst this
    rw [← ha]
    simp [lowercase]
  · have := hwu _ fun hm => h (List.mem_append.2 (.inr hm))
    subst this
    rw [← ha]
    simp [lowercase]

theorem toLower_letter {c : Char} (h : isLower (toLower c) = true) : Letter c := by
  by_cases hu : isUpper c = true
  · exact .inr hu
  · rw [toLower_of_not_upper (by simpa using hu)] at h
    exact .inl h

theorem toUpper_toLower {c : Char} (h : isUpper c = true) : toUpper (toLower c) = c := by
  apply Char.toNat_inj.1
  have h1 := toUpper_toNat (toLower c)
  have h2 := toLower_toNat c
  rw [if_pos h] at h2
  rw [isUpper_iff] at h
  rw [if_pos (isLower_iff.2 (by omega))] at h1
  omega

/-- The texts that become a given word of lower-case letters: its first letters are capitals. -/
theorem snake_case_word {f k : Str} (h : snake_case f = k) (hk : ∀ c ∈ k, isLower c = true) :
    ∃ m, f = (k.take m).map toUpper ++ k.drop m := by
  have hnu : '_' ∉ snake_case f := by
    rw [h]
    intro hm
    exact absurd (hk _ hm) (by decide)
  have hp := snake_case_plain hnu
  rw [h] at hp
  have hl : ∀ c ∈ f, Letter c := fun c hc => toLower_letter (hk _ (by rw [hp]; exact List.mem_map_of_mem hc))
  obtain ⟨a, b, rfl, ha, hb⟩ := capitals_prefix hl (tail_no_upper hnu)
  refine ⟨a.length, ?_⟩
  rw [hp, List.map_append, List.take_left' (by simp), List.drop_left' (by simp), List.map_map]
  congr 1
  · symm
    apply map_fixed
    intro c hc
    exact toUpper_toLower (ha c hc)
  · symm
    apply map_fixed
    intro c hc
    exact toLower_of_not_upper (lower_not_upper (hb c hc))

/-- The keywords in lower case: all but `Self`. -/
theorem keyword_lower {k : Str} (h : k ∈ KEYWORDS_RUST) : k = c!"Self" ∨ ∀ c ∈ k, isLower c = true := by
  have : ∀ k ∈ KEYWORDS_RUST, k = c!"Self" ∨ ∀ c ∈ k, isLower c = true := by decide
  exact this k h

theorem keyword_snake {k : Str} (h : k ∈ KEYWORDS_RUST) (hs : k ≠ c!"Self") (m : Nat) :
    snake_case ((k.take m).map toUpper ++ k.drop m) = k := by
  have : ∀ k ∈ KEYWORDS_RUST, k ≠ c!"Self" → ∀ m ∈ List.range (k.length + 1),
      snake_case ((k.take m).map toUpper ++ k.drop m) = k := by decide +kernel
  by_cases hm : m ≤ k.length
  · exact this k h hs m (List.mem_range.2 (by omega))
  · have h1 := this k h hs k.length (List.mem_range.2 (by omega))
    rw [List.take_of_length_le (by omega), List.drop_of_length_le (by omega)]
    simpa using h1

/-- A keyword used as a field name never becomes a bare identifier. -/
theorem keyword_raw {k : Str} (h : k ∈ KEYWORDS_RUST) {i : RIdent} (hi : fieldIdent k = .ok i) :
    i.raw = true := by
  have : ∀ k ∈ KEYWORDS_RUST, (match fieldIdent k with
      | .ok i => i.raw
      | _ => true) = true := by decide +kernel
  have hk := this k h
  rw [hi] at hk
  exact hk

/-- The field names that become a bare keyword. -/
theorem bare_iff {f : Str} {i : RIdent} (hi : fieldIdent f = .ok i) :
    i.raw = false ∧ i.name ∈ KEYWORDS_RUST ↔
      f ∉ KEYWORDS_RUST ∧ ∃ k ∈ KEYWORDS_RUST, k ≠ c!"Self" ∧ ∃ m, f = (k.take m).map toUpper ++ k.drop m := by
  constructor
  · rintro ⟨hr, hn⟩
    have hf : f ∉ KEYWORDS_RUST := by
      intro hf
      rw [keyword_raw hf hi] at hr
      cases hr
    refine ⟨hf, ?_⟩
    have hrf : rust_reserved f = false := by
      unfold rust_reserved
      simpa using hf
    unfold fieldIdent snake_case_ident at hi
    rw [hrf] at hi
    simp only [Bool.false_eq_true, if_false] at hi
    rcases mkIdent_ok hi with h | ⟨-, h⟩
    · rw [h.1] at hr
      cases hr
    have hs : i.name ≠ c!"Self" := by
      intro e
      have := snake_case_no f 'S' (by rw [← h, e]; decide)
      exact absurd this (by decide)
    have hlow := (keyword_lower hn).resolve_left hs
    rw [h] at hlow hn hs
    obtain ⟨m, hm⟩ := snake_case_word rfl hlow
    exact ⟨_, hn, hs, m, hm⟩
  · rintro ⟨hf, k, hk, hs, m, hm⟩
    have hrf : rust_reserved f = false := by
      unfold rust_reserved
      simpa using hf
    unfold fieldIdent snake_case_ident at hi
    rw [hrf] at hi
    simp only [Bool.false_eq_true, if_false] at hi
    rw [hm, keyword_snake hk hs] at hi
    rcases mkIdent_ok hi with ⟨-, h⟩ | ⟨h1, h2⟩
    · exfalso
      have hlow := (keyword_lower hk).resolve_left hs '#' (by rw [h]; simp)
      exact absurd hlow (by decide)
    · exact ⟨h1, by rw [h2]; exact hk⟩

end Xdr.Rpcgen
