import Verif.Model.Display
/-! # Lemmas: texts of errors can be told apart -/

namespace Xdr

open Rpcgen (Str)

theorem digitChar_inj {a b : Nat} (ha : a < 16) (hb : b < 16) (h : a.digitChar = b.digitChar) : a = b := by
  have key : ∀ a < 16, ∀ b < 16, Nat.digitChar a = Nat.digitChar b → a = b := by decide
  exact key a ha b hb h

theorem digitChar_ne {a : Nat} (ha : a < 16) : a.digitChar ≠ '}' ∧ a.digitChar ≠ ')' ∧ a.digitChar ≠ ',' := by
  have key : ∀ a < 16, Nat.digitChar a ≠ '}' ∧ Nat.digitChar a ≠ ')' ∧ Nat.digitChar a ≠ ',' := by decide
  exact key a ha

theorem toDigits_inj {b : Nat} (h1 : 1 < b) (h2 : b ≤ 16) {m n : Nat} (h : Nat.toDigits b m = Nat.toDigits b n) : m = n := by
  induction m using Nat.strongRecOn generalizing n with
  | ind m ih =>
    rw [Nat.toDigits_eq_if h1, Nat.toDigits_eq_if h1 (n := n)] at h
    have hne : ∀ k, Nat.toDigits b k ≠ [] := fun k => Nat.toDigits_ne_nil
    have hm : m % b < b := Nat.mod_lt _ (by omega)
    have hn : n % b < b := Nat.mod_lt _ (by omega)
    split at h <;> split at h
    · simp only [List.cons.injEq, and_true] at h
      exact digitChar_inj (by omega) (by omega) h
    · have := congrArg List.length h
      have h0 := List.length_pos_iff.2 (hne (n / b))
      simp at this
    · have := congrArg List.length h
      have h0 := List.length_pos_iff.2 (hne (m / b))
      simp at this
    · obtain ⟨h3, h4⟩ := List.append_inj' h rfl
      have h5 := ih (m / b) (Nat.div_lt_self (by omega) h1) h3
      simp only [List.cons.injEq, and_true] at h4
      have h6 := digitChar_inj (by omega) (by omega) h4
      rw [← Nat.div_add_mod m b, ← Nat.div_add_mod n b, h5, h6]

theorem toDigits_mem {b : Nat} (h1 : 1 < b) (h2 : b ≤ 16) (n : Nat) :
    ∀ c ∈ Nat.toDigits b n, c ≠ '}' ∧ c ≠ ')' ∧ c ≠ ',' := by
  induction n using Nat.strongRecOn with
  | ind n ih =>
    rw [Nat.toDigits_eq_if h1]
    have hn : n % b < b := Nat.mod_lt _ (by omega)
    split
    · intro c hc
      rw [List.mem_singleton] at hc
      subst hc
      exact digitChar_ne (by omega)
    · intro c hc
      rcases List.mem_append.1 hc with hc | hc
      · exact ih (n / b) (Nat.div_lt_self (by omega) h1) c hc
      · rw [List.mem_singleton] at hc
        subst hc
        exact digitChar_ne (by omega)

/-- Two texts without a stop character, followed by it, are told apart. -/
theorem stop_inj {stop : Char} {p p' x x' : Str} (hp : stop ∉ p) (hp' : stop ∉ p')
    (h : p ++ stop :: x = p' ++ stop :: x') : p = p' ∧ x = x' := by
  induction p generalizing p' with
  | nil =>
    cases p' with
    | nil => simpa using h
    | cons a p' =>
      simp only [List.nil_append, List.cons_append, List.cons.injEq] at h
      exact absurd h.1 (fun h => hp' (by simp [h]))
  | cons a p ih =>
    cases p' with
    | nil =>
      simp only [List.nil_append, List.cons_append, List.cons.injEq] at h
      exact absurd h.1.symm (fun h => hp (by simp [h]))
    | cons a' p' =>
      simp only [List.cons_append, List.cons.injEq] at h
      obtain ⟨rfl, h⟩ := h
      obtain ⟨rfl, rfl⟩ := ih (fun h => hp (.tail _ h)) (fun h => hp' (.tail _ h)) h
      exact ⟨rfl, rfl⟩

/-- What a short escape stands for. -/
def shortMeans (d : Char) : Char :=
  if d = '0' then Char.ofNat 0 else if d = 't' then '\t' else if d = 'r' then '\r' else if d = 'n' then '\n' else d

theorem short_means {c d : Char} (h : shortEscape c = some d) : shortMeans d = c := by
  unfold shortEscape at h
  repeat' split at h
  all_goals cases h
  all_goals (subst_vars; decide)

theorem short_inj {c c' d : Char} (h : shortEscape c = some d) (h' : shortEscape c' = some d) : c = c' := by
  rw [← short_means h, short_means h']

theorem short_ne {c d : Char} (h : shortEscape c = some d) : d ≠ 'u' := by
  unfold shortEscape at h
  repeat' split at h
  all_goals simp_all
  all_goals subst h; decide

theorem short_backslash {c : Char} (h : shortEscape c = none) : c ≠ '\\' := by
  rintro rfl
  revert h
  decide

theorem escape_inj {plain : Char → Bool} {c c' : Char} {x x' : Str}
    (h : escapeDebug plain c ++ x = escapeDebug plain c' ++ x') : c = c' ∧ x = x' := by
  have hex : ∀ n, '}' ∉ Nat.toDigits 16 n := fun n hn => (toDigits_mem (by omega) (by omega) n _ hn).1 rfl
  cases hd : shortEscape c with
  | some d =>
    cases hd' : shortEscape c' with
    | some d' =>
      simp only [escapeDebug, hd, hd', Bool.false_eq_true, if_false, List.cons_append, List.nil_append, List.cons.injEq, true_and] at h
      obtain ⟨rfl, h⟩ := h
      exact ⟨short_inj hd hd', h⟩
    | none =>
      by_cases hp' : plain c' = true
      · simp only [escapeDebug, hd, hd', Bool.false_eq_true, if_false, hp', if_true, List.cons_append, List.nil_append, List.cons.injEq] at h
        exact absurd h.1.symm (short_backslash hd')
      · simp only [escapeDebug, hd, hd', Bool.false_eq_true, if_false, hp', List.cons_append, List.nil_append, List.cons.injEq, true_and] at h
        exact absurd h.1 (short_ne hd)
  | none =>
    cases hd' : shortEscape c' with
    | some d' =>
      by_cases hp : plain c = true
      · simp only [escapeDebug, hd, hd', Bool.false_eq_true, if_false, hp, if_true, List.cons_append, List.nil_append, List.cons.injEq] at h
        exact absurd h.1 (short_backslash hd)
      · simp only [escapeDebug, hd, hd', Bool.false_eq_true, if_false, hp, List.cons_append, List.nil_append, List.cons.injEq, true_and] at h
        exact absurd h.1.symm (short_ne hd')
    | none =>
      by_cases hp : plain c = true <;> by_cases hp' : plain c' = true
      · simpa [escapeDebug, hd, hd', hp, hp'] using h
      · simp only [escapeDebug, hd, hd', Bool.false_eq_true, if_false, hp, hp', if_true, List.cons_append, List.nil_append, List.cons.injEq] at h
        exact absurd h.1 (short_backslash hd)
      · simp only [escapeDebug, hd, hd', Bool.false_eq_true, if_false, hp, hp', if_true, List.cons_append, List.nil_append, List.cons.injEq] at h
        exact absurd h.1.symm (short_backslash hd')
      · simp only [escapeDebug, hd, hd', Bool.false_eq_true, if_false, hp, hp', List.cons_append, List.nil_append, List.append_assoc, List.cons.injEq,
          true_and] at h
        obtain ⟨h1, h2⟩ := stop_inj (hex _) (hex _) h
        exact ⟨Char.toNat_inj.1 (toDigits_inj (by omega) (by omega) h1), h2⟩

theorem escape_ne {plain : Char → Bool} {c : Char} {x x' : Str} : escapeDebug plain c ++ x ≠ '"' :: x' := by
  unfold escapeDebug
  split
  · simp
  · next h =>
    split
    · intro h'
      simp only [List.cons_append, List.cons.injEq] at h'
      rw [h'.1] at h
      revert h
      decide
    · simp

/-- Texts in quotes are told apart, whatever follows. -/
theorem debugStr_inj {plain : Char → Bool} {s s' x x' : Str}
    (h : debugStr plain s ++ x = debugStr plain s' ++ x') : s = s' ∧ x = x' := by
  unfold debugStr at h
  simp only [List.cons_append, List.cons.injEq, true_and, List.append_assoc, List.nil_append] at h
  induction s generalizing s' with
  | nil =>
    cases s' with
    | nil => simpa using h
    | cons c s' =>
      simp only [List.flatMap_nil, List.nil_append, List.flatMap_cons, List.append_assoc] at h
      exact absurd h.symm escape_ne
  | cons c s ih =>
    cases s' with
    | nil =>
      simp only [List.flatMap_nil, List.nil_append, List.flatMap_cons, List.append_assoc] at h
      exact absurd h escape_ne
    | cons c' s' =>
      simp only [List.flatMap_cons, List.append_assoc] at h
      obtain ⟨rfl, h2⟩ := escape_inj h
      obtain ⟨rfl, rfl⟩ := ih h2
      exact ⟨rfl, rfl⟩

theorem debugNat_inj {stop : Char} (hs : stop = ')' ∨ stop = ',') {n n' : Nat} {x x' : Str}
    (h : debugNat n ++ stop :: x = debugNat n' ++ stop :: x') : n = n' ∧ x = x' := by
  have key : ∀ n, stop ∉ Nat.toDigits 10 n := by
    intro n hn
    have := toDigits_mem (by omega) (by omega) n _ hn
    rcases hs with rfl | rfl <;> simp at this
  obtain ⟨h1, h2⟩ := stop_inj (key _) (key _) h
  exact ⟨toDigits_inj (by omega) (by omega) h1, h2⟩

theorem utf8Error_inj {e e' : Utf8Error} {x x' : Str} (h : e.debug ++ x = e'.debug ++ x') : e = e' ∧ x = x' := by
  obtain ⟨v, l⟩ := e
  obtain ⟨v', l'⟩ := e'
  unfold Utf8Error.debug at h
  simp only [List.append_assoc, List.cons_append, List.nil_append, List.cons.injEq, true_and] at h
  obtain ⟨rfl, h2⟩ := debugNat_inj (.inr rfl) h
  clear h
  cases l <;> cases l' <;>
    simp only [List.append_assoc, List.cons_append, List.nil_append, List.cons.injEq, true_and] at h2
  · exact ⟨rfl, h2⟩
  · simp at h2
  · simp at h2
  · obtain ⟨rfl, h3⟩ := debugNat_inj (.inl rfl) h2
    exact ⟨rfl, by simpa using h3⟩

theorem error_inj {plain : Char → Bool} {e e' : Error} (h : e.debug plain = e'.debug plain) : e = e' := by
  cases e <;> cases e' <;>
    simp only [Error.debug, List.cons_append, List.nil_append, List.append_assoc, List.cons.injEq, true_and,
      reduceCtorEq, false_and, and_false] at h
  all_goals first | rfl | skip
  · exact congrArg _ (String.toList_inj.1 (debugStr_inj h).1)
  all_goals first | (simp at h; done) | skip
  · exact congrArg _ (utf8Error_inj h).1
  · exact congrArg _ (debugNat_inj (.inl rfl) h).1
  · exact congrArg _ (debugNat_inj (.inl rfl) h).1

end Xdr
