import Verif.Rpcgen.Names
import Verif.Spec.XdrText
/-!
# Lemmas on names
-/

namespace Xdr.Rpcgen

theorem isLower_iff {c : Char} : isLower c = true ↔ 97 ≤ c.toNat ∧ c.toNat ≤ 122 := by simp [isLower]
theorem isUpper_iff {c : Char} : isUpper c = true ↔ 65 ≤ c.toNat ∧ c.toNat ≤ 90 := by simp [isUpper]

theorem Char.toNat_ofNat_small {n : Nat} (h : n < 200) : (Char.ofNat n).toNat = n := by
  have hv : n.isValidChar := Or.inl (by omega)
  unfold Char.ofNat
  rw [dif_pos hv]
  rfl

theorem toUpper_toNat (c : Char) :
    (toUpper c).toNat = if isLower c then c.toNat - 32 else c.toNat := by
  unfold toUpper
  split
  · next h =>
    have := isLower_iff.1 h
    exact Char.toNat_ofNat_small (by omega)
  · rfl

theorem toLower_toNat (c : Char) :
    (toLower c).toNat = if isUpper c then c.toNat + 32 else c.toNat := by
  unfold toLower
  split
  · next h =>
    have := isUpper_iff.1 h
    exact Char.toNat_ofNat_small (by omega)
  · rfl

theorem isLower_toUpper (c : Char) : isLower (toUpper c) = false := by
  have h := toUpper_toNat c
  by_cases hl : isLower c = true
  · have := isLower_iff.1 hl
    simp only [hl, if_true] at h
    rw [Bool.eq_false_iff]
    intro h'
    have := isLower_iff.1 h'
    omega
  · unfold toUpper
    simp_all

theorem isUpper_toLower (c : Char) : isUpper (toLower c) = false := by
  have h := toLower_toNat c
  by_cases hl : isUpper c = true
  · have := isUpper_iff.1 hl
    simp only [hl, if_true] at h
    rw [Bool.eq_false_iff]
    intro h'
    have := isUpper_iff.1 h'
    omega
  · unfold toLower
    simp_all

theorem toUpper_of_not_lower {c : Char} (h : isLower c = false) : toUpper c = c := by
  simp [toUpper, h]

theorem toLower_of_not_upper {c : Char} (h : isUpper c = false) : toLower c = c := by
  simp [toLower, h]

theorem toUpper_underscore {c : Char} : toUpper c = '_' ↔ c = '_' := by
  constructor
  · intro h
    have h2 := toUpper_toNat c
    rw [h] at h2
    by_cases hl : isLower c = true
    · have := isLower_iff.1 hl
      simp only [hl, if_true] at h2
      have : ('_' : Char).toNat = 95 := rfl
      omega
    · unfold toUpper at h
      simpa [hl] using h
  · rintro rfl
    rfl

theorem toLower_underscore {c : Char} : toLower c = '_' ↔ c = '_' := by
  constructor
  · intro h
    have h2 := toLower_toNat c
    rw [h] at h2
    by_cases hl : isUpper c = true
    · have := isUpper_iff.1 hl
      simp only [hl, if_true] at h2
      have : ('_' : Char).toNat = 95 := rfl
      omega
    · unfold toLower at h
      simpa [hl] using h
  · rintro rfl
    rfl

theorem splitUnderscore_no (s : Str) : ∀ p ∈ splitUnderscore s, '_' ∉ p := by
  induction s with
  | nil => simp [splitUnderscore]
  | cons c cs ih =>
    unfold splitUnderscore
    by_cases hc : c = '_'
    · subst hc
      simpa using ih
    · simp only [beq_iff_eq, hc, if_false]
      cases hs : splitUnderscore cs with
      | nil => simp [Ne.symm hc]
      | cons p ps =>
        rw [hs] at ih
        intro q hq
        rcases List.mem_cons.1 hq with rfl | hq
        · have := ih p List.mem_cons_self
          simp [Ne.symm hc, this]
        · exact ih q (List.mem_cons_of_mem _ hq)

theorem capitalize_no {s : Str} (h : '_' ∉ s) : '_' ∉ capitalize s := by
  cases s with
  | nil => exact h
  | cons c cs =>
    simp only [List.mem_cons, not_or] at h
    simp only [capitalize, List.mem_cons, not_or, List.mem_map, not_exists, not_and]
    refine ⟨fun h' => h.1 (toUpper_underscore.1 h'.symm).symm, fun x hx hx' => ?_⟩
    exact h.2 (toLower_underscore.1 hx' ▸ hx)

/-- The first letter, if any, is not lower-case. -/
def HeadUpper (s : Str) : Prop := ∀ c cs, s = c :: cs → isLower c = false

theorem headUpper_capitalize (s : Str) : HeadUpper (capitalize s) := by
  intro c cs h
  cases s with
  | nil => simp [capitalize] at h
  | cons x xs =>
    simp only [capitalize, List.cons.injEq] at h
    rw [← h.1]
    exact isLower_toUpper x

theorem headUpper_append {a b : Str} (ha : HeadUpper a) (hb : HeadUpper b) : HeadUpper (a ++ b) := by
  intro c cs h
  cases a with
  | nil => exact hb c cs h
  | cons x xs =>
    simp only [List.cons_append, List.cons.injEq] at h
    exact ha c xs (by rw [h.1])

theorem headUpper_flatMap (l : List Str) : HeadUpper (l.flatMap capitalize) := by
  induction l with
  | nil => intro c cs h; simp at h
  | cons a l ih =>
    rw [List.flatMap_cons]
    exact headUpper_append (headUpper_capitalize a) ih

theorem upper_camel_case_no (s : Str) : '_' ∉ upper_camel_case s := by
  unfold upper_camel_case
  split
  · simp only [List.mem_flatMap, not_exists, not_and]
    exact fun p hp => capitalize_no (splitUnderscore_no s p hp)
  · next h =>
    simp only [List.contains_iff_mem] at h
    cases s with
    | nil => exact h
    | cons c cs =>
      simp only [List.mem_cons, not_or] at h ⊢
      exact ⟨fun h' => h.1 (toUpper_underscore.1 h'.symm).symm, h.2⟩

theorem upper_camel_case_head (s : Str) : HeadUpper (upper_camel_case s) := by
  unfold upper_camel_case
  split
  · exact headUpper_flatMap _
  · cases s with
    | nil => intro c cs h; simp at h
    | cons x xs =>
      intro c cs h
      simp only [List.cons.injEq] at h
      rw [← h.1]
      exact isLower_toUpper x

/-- A text without underscores that begins with no lower-case letter stays. -/
theorem upper_camel_case_fixed {s : Str} (h1 : '_' ∉ s) (h2 : HeadUpper s) : upper_camel_case s = s := by
  unfold upper_camel_case
  have : s.contains '_' = false := by
    rw [Bool.eq_false_iff]
    simpa using h1
  rw [if_neg (by rw [this]; decide)]
  cases s with
  | nil => rfl
  | cons c cs => simp only; rw [toUpper_of_not_lower (h2 c cs rfl)]

/-! ## snake_case -/

theorem lowercase_no (s : Str) : ∀ c ∈ lowercase s, isUpper c = false := by
  simp only [lowercase, List.mem_map]
  rintro c ⟨x, -, rfl⟩
  exact isUpper_toLower x

theorem with_underscore_no (s : Str) : ∀ c ∈ with_underscore s, isUpper c = false := by
  intro c hc
  rcases List.mem_cons.1 hc with rfl | hc
  · decide
  · exact lowercase_no s c hc

theorem snake_case_no (s : Str) : ∀ c ∈ snake_case s, isUpper c = false := by
  intro c hc
  unfold snake_case at hc
  have key : ∀ (h : Str) (ps : List Str), c ∈ lowercase h ++ ps.flatMap with_underscore →
      isUpper c = false := by
    intro h ps hc
    rcases List.mem_append.1 hc with hc | hc
    · exact lowercase_no _ c hc
    · obtain ⟨p, -, hp⟩ := List.mem_flatMap.1 hc
      exact with_underscore_no p c hp
  revert hc
  rcases splitBefore isUpper (snakeCapitalized s) with ⟨h, t⟩
  simp only
  split <;> exact key _ _

theorem splitInclusive_flatten (p : Char → Bool) (s : Str) : (splitInclusive p s).flatten = s := by
  induction s with
  | nil => rfl
  | cons c cs ih =>
    unfold splitInclusive
    split
    · simp [ih]
    · split
      · next h => rw [h] at ih; simp at ih; simp [← ih]
      · next h => rw [h] at ih; simp [← ih]

/-- In a piece of at least two characters the first does not satisfy the test. -/
theorem splitInclusive_head (p : Char → Bool) (s : Str) :
    ∀ c d cs, (c :: d :: cs) ∈ splitInclusive p s → p c = false := by
  induction s with
  | nil => simp [splitInclusive]
  | cons x xs ih =>
    intro c d cs h
    unfold splitInclusive at h
    split at h
    · rcases List.mem_cons.1 h with h | h
      · simp at h
      · exact ih c d cs h
    · next hx =>
      split at h
      · simp at h
      · next hs =>
        rcases List.mem_cons.1 h with h | h
        · simp only [List.cons.injEq] at h
          rw [h.1]
          simpa using hx
        · exact ih c d cs (by rw [hs]; exact List.mem_cons_of_mem _ h)

theorem map_fixed {α : Type} {f : α → α} {l : List α} (h : ∀ x ∈ l, f x = x) : l.map f = l := by
  induction l with
  | nil => rfl
  | cons a l ih =>
    rw [List.map_cons, h a List.mem_cons_self, ih fun x hx => h x (List.mem_cons_of_mem _ hx)]

theorem flatMap_fixed {α : Type} {f : List α → List α} {l : List (List α)} (h : ∀ x ∈ l, f x = x) :
    l.flatMap f = l.flatten := by
  rw [List.flatMap_def, map_fixed h]

theorem capitalize_fixed {s : Str} (h1 : HeadUpper s) (h2 : ∀ c ∈ s, isUpper c = false) :
    capitalize s = s := by
  cases s with
  | nil => rfl
  | cons c cs =>
    simp only [capitalize]
    rw [toUpper_of_not_lower (h1 c cs rfl)]
    congr 1
    exact map_fixed fun x hx => toLower_of_not_upper (h2 x (List.mem_cons_of_mem _ hx))

theorem snakeCapitalized_fixed {s : Str} (h : ∀ c ∈ s, isUpper c = false) : snakeCapitalized s = s := by
  have hf := splitInclusive_flatten (fun c => isLower c || isDigit c) s
  have hh := splitInclusive_head (fun c => isLower c || isDigit c) s
  unfold snakeCapitalized
  have : ∀ p ∈ splitInclusive (fun c => isLower c || isDigit c) s,
      snakePiece p = p := by
    intro p hp
    unfold snakePiece
    have hup : ∀ c ∈ p, isUpper c = false := fun c hc => h c (by
      rw [← hf]
      exact List.mem_flatten.2 ⟨p, hp, hc⟩)
    split
    · rfl
    · next hne =>
      refine capitalize_fixed ?_ hup
      intro c cs he
      subst he
      cases cs with
      | nil => exact absurd rfl (hne c)
      | cons d cs =>
        have := hh c d cs hp
        simp only [Bool.or_eq_false_iff] at this
        exact this.1
  rw [flatMap_fixed this]
  exact hf

theorem splitBefore_none {p : Char → Bool} {s : Str} (h : ∀ c ∈ s, p c = false) :
    splitBefore p s = (s, []) := by
  induction s with
  | nil => rfl
  | cons c cs ih =>
    have := ih fun x hx => h x (List.mem_cons_of_mem _ hx)
    simp [splitBefore, this, h c List.mem_cons_self]

/-- A text without capitals stays. -/
theorem snake_case_fixed {s : Str} (h : ∀ c ∈ s, isUpper c = false) : snake_case s = s := by
  unfold snake_case
  rw [snakeCapitalized_fixed h, splitBefore_none h]
  have hl : lowercase s = s := map_fixed fun x hx => toLower_of_not_upper (h x hx)
  cases s <;> simp [hl]

/-! ## Letters are kept -/

theorem toLower_toUpper (c : Char) : toLower (toUpper c) = toLower c := by
  by_cases hl : isLower c = true
  · have h := isLower_iff.1 hl
    have h1 := toUpper_toNat c
    simp only [hl, if_true] at h1
    have hu : isUpper (toUpper c) = true := isUpper_iff.2 (by omega)
    have hu' : isUpper c = false := by
      rw [Bool.eq_false_iff]
      intro h'
      have := isUpper_iff.1 h'
      omega
    have h2 := toLower_toNat (toUpper c)
    simp only [hu, if_true] at h2
    rw [toLower_of_not_upper hu']
    apply Char.ext
    apply UInt32.toNat_inj.1
    have e1 : (toLower (toUpper c)).toNat = c.toNat := by omega
    exact e1
  · have : isLower c = false := by simpa using hl
    rw [toUpper_of_not_lower this]

theorem toLower_toLower (c : Char) : toLower (toLower c) = toLower c :=
  toLower_of_not_upper (isUpper_toLower c)

theorem capitalize_lower (s : Str) : (capitalize s).map toLower = s.map toLower := by
  cases s with
  | nil => rfl
  | cons c cs => simp [capitalize, toLower_toUpper, toLower_toLower, Function.comp_def]

theorem flatMap_lower {f : Str → Str} (hf : ∀ s, (f s).map toLower = s.map toLower) (l : List Str) :
    (l.flatMap f).map toLower = l.flatten.map toLower := by
  induction l with
  | nil => rfl
  | cons a l ih => simp only [List.flatMap_cons, List.map_append, List.flatten_cons, ih, hf]

theorem splitUnderscore_flatten (s : Str) : (splitUnderscore s).flatten = s.filter (· ≠ '_') := by
  induction s with
  | nil => rfl
  | cons c cs ih =>
    unfold splitUnderscore
    by_cases hc : c = '_'
    · subst hc
      simpa using ih
    · simp only [beq_iff_eq, hc, if_false]
      cases hs : splitUnderscore cs with
      | nil => rw [hs] at ih; simp at ih; simp [hc]; exact fun a ha => ih a ha
      | cons p ps =>
        rw [hs] at ih
        simp only [List.flatten_cons] at ih
        simp [hc, ih]

theorem upper_camel_case_letters (s : Str) :
    (upper_camel_case s).map toLower = (s.filter (· ≠ '_')).map toLower := by
  unfold upper_camel_case
  split
  · rw [flatMap_lower capitalize_lower, splitUnderscore_flatten]
  · next h =>
    have hf : s.filter (· ≠ '_') = s := List.filter_eq_self.2 fun a ha => by
      simp only [List.contains_iff_mem] at h
      simp only [decide_eq_true_eq]
      rintro rfl
      exact h ha
    rw [hf]
    cases s with
    | nil => rfl
    | cons c cs => simp [toLower_toUpper]

theorem snakePiece_lower (s : Str) : (snakePiece s).map toLower = s.map toLower := by
  unfold snakePiece
  split
  · rfl
  · exact capitalize_lower _

theorem snakeCapitalized_lower (s : Str) : (snakeCapitalized s).map toLower = s.map toLower := by
  unfold snakeCapitalized
  rw [flatMap_lower snakePiece_lower, splitInclusive_flatten]

theorem splitBefore_append (p : Char → Bool) (s : Str) :
    (splitBefore p s).1 ++ (splitBefore p s).2.flatten = s := by
  induction s with
  | nil => rfl
  | cons c cs ih =>
    unfold splitBefore
    rcases h : splitBefore p cs with ⟨a, b⟩
    rw [h] at ih
    simp only at ih ⊢
    split <;> simp [← ih]

theorem filter_lower (s : Str) :
    (s.map toLower).filter (· ≠ '_') = (s.filter (· ≠ '_')).map toLower := by
  induction s with
  | nil => rfl
  | cons c cs ih =>
    simp only [List.map_cons, List.filter_cons, ih]
    by_cases hc : c = '_'
    · subst hc
      simp [show toLower '_' = '_' from rfl]
    · have : toLower c ≠ '_' := fun h => hc (toLower_underscore.1 h)
      simp [hc, this]

theorem flatMap_with_underscore (l : List Str) :
    (l.flatMap with_underscore).filter (· ≠ '_') = ((l.flatten).map toLower).filter (· ≠ '_') := by
  induction l with
  | nil => rfl
  | cons a l ih =>
    simp only [List.flatMap_cons, List.filter_append, ih, List.flatten_cons, List.map_append]
    simp [with_underscore, lowercase]

theorem snake_case_letters (s : Str) :
    (snake_case s).filter (· ≠ '_') = (s.filter (· ≠ '_')).map toLower := by
  have key : ∀ (h : Str) (ps : List Str), h ++ ps.flatten = snakeCapitalized s →
      (lowercase h ++ ps.flatMap with_underscore).filter (· ≠ '_')
        = (s.filter (· ≠ '_')).map toLower := by
    intro h ps he
    rw [List.filter_append, flatMap_with_underscore, ← List.filter_append, ← filter_lower,
      ← snakeCapitalized_lower s, ← he, List.map_append]
    rfl
  have ha := splitBefore_append isUpper (snakeCapitalized s)
  unfold snake_case
  revert ha
  rcases splitBefore isUpper (snakeCapitalized s) with ⟨h, t⟩
  intro ha
  simp only at ha ⊢
  split
  · exact key _ _ (by simpa using ha)
  · exact key _ _ ha

end Xdr.Rpcgen
