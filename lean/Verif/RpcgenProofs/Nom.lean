import Verif.Rpcgen.Nom
/-!
# When the combinators succeed
-/

namespace Xdr.Rpcgen

theorem bind_ok {α β : Type} {p : P α} {f : α → P β} {i : Str} {b : β} {r : Str} :
    p.bind f i = .ok b r ↔ ∃ a m, p i = .ok a m ∧ f a m = .ok b r := by
  simp only [P.bind]
  cases p i with
  | err => simp
  | out => simp
  | ok a m =>
    constructor
    · intro h; exact ⟨a, m, rfl, h⟩
    · rintro ⟨a', m', h1, h2⟩
      simp only [PR.ok.injEq] at h1
      rw [h1.1, h1.2]
      exact h2

theorem pure_ok {α : Type} {a b : α} {i r : Str} : P.pure a i = .ok b r ↔ a = b ∧ i = r := by
  simp [P.pure]

theorem map_ok {α β : Type} {p : P α} {f : α → β} {i : Str} {b : β} {r : Str} :
    map p f i = .ok b r ↔ ∃ a, p i = .ok a r ∧ f a = b := by
  simp only [map, bind_ok, pure_ok]
  constructor
  · rintro ⟨a, m, h, rfl, rfl⟩; exact ⟨a, h, rfl⟩
  · rintro ⟨a, h, rfl⟩; exact ⟨a, r, h, rfl, rfl⟩

theorem preceded_ok {α β : Type} {p : P α} {q : P β} {i : Str} {b : β} {r : Str} :
    preceded p q i = .ok b r ↔ ∃ a m, p i = .ok a m ∧ q m = .ok b r := bind_ok

theorem terminated_ok {α β : Type} {p : P α} {q : P β} {i : Str} {a : α} {r : Str} :
    terminated p q i = .ok a r ↔ ∃ m b, p i = .ok a m ∧ q m = .ok b r := by
  simp only [terminated, bind_ok, pure_ok]
  constructor
  · rintro ⟨a', m, h, b, m', h', rfl, rfl⟩; exact ⟨m, b, h, h'⟩
  · rintro ⟨m, b, h, h'⟩; exact ⟨a, m, h, b, r, h', rfl, rfl⟩

theorem delimited_ok {α β γ : Type} {p : P α} {q : P β} {s : P γ} {i : Str} {b : β} {r : Str} :
    delimited p q s i = .ok b r ↔
      ∃ a m m' c, p i = .ok a m ∧ q m = .ok b m' ∧ s m' = .ok c r := by
  simp only [delimited, bind_ok, pure_ok]
  constructor
  · rintro ⟨a, m, h, b', m', h', c, m'', h'', rfl, rfl⟩; exact ⟨a, m, m', c, h, h', h''⟩
  · rintro ⟨a, m, m', c, h, h', h''⟩; exact ⟨a, m, h, b, m', h', c, r, h'', rfl, rfl⟩

theorem pair_ok {α β : Type} {p : P α} {q : P β} {i : Str} {x : α × β} {r : Str} :
    pair p q i = .ok x r ↔ ∃ m, p i = .ok x.1 m ∧ q m = .ok x.2 r := by
  simp only [pair, bind_ok, pure_ok]
  constructor
  · rintro ⟨a, m, h, b, m', h', rfl, rfl⟩; exact ⟨m, h, h'⟩
  · rintro ⟨m, h, h'⟩; exact ⟨x.1, m, h, x.2, r, h', rfl, rfl⟩

theorem alt_nil_ok {α : Type} {i : Str} {a : α} {r : Str} : alt [] i = .ok a r ↔ False := by
  simp [alt]

/-- The first parser succeeds, or it fails and a later one succeeds. -/
theorem alt_cons_ok {α : Type} {p : P α} {ps : List (P α)} {i : Str} {a : α} {r : Str} :
    alt (p :: ps) i = .ok a r ↔ p i = .ok a r ∨ (p i = .err ∧ alt ps i = .ok a r) := by
  simp only [alt]
  cases p i <;> simp

theorem alt_mem {α : Type} {ps : List (P α)} {i : Str} {a : α} {r : Str}
    (h : alt ps i = .ok a r) : ∃ p ∈ ps, p i = .ok a r := by
  induction ps with
  | nil => simp [alt] at h
  | cons p ps ih =>
    rcases alt_cons_ok.1 h with h | ⟨_, h⟩
    · exact ⟨p, by simp, h⟩
    · obtain ⟨q, hq, h⟩ := ih h
      exact ⟨q, by simp [hq], h⟩

theorem opt_ok {α : Type} {p : P α} {i : Str} {x : Option α} {r : Str} :
    opt p i = .ok x r ↔ (∃ a, p i = .ok a r ∧ x = some a) ∨ (p i = .err ∧ x = none ∧ i = r) := by
  simp only [opt]
  cases p i with
  | err => simp [eq_comm]
  | out => simp
  | ok a m =>
    simp only [PR.ok.injEq, reduceCtorEq, false_and, or_false]
    constructor
    · rintro ⟨rfl, rfl⟩; exact ⟨a, ⟨rfl, rfl⟩, rfl⟩
    · rintro ⟨a', ⟨rfl, rfl⟩, rfl⟩; exact ⟨rfl, rfl⟩

theorem peek_ok {α : Type} {p : P α} {i : Str} {a : α} {r : Str} :
    peek p i = .ok a r ↔ i = r ∧ ∃ m, p i = .ok a m := by
  simp only [peek]
  cases p i with
  | err => simp
  | out => simp
  | ok a m =>
    simp only [PR.ok.injEq]
    constructor
    · rintro ⟨rfl, rfl⟩; exact ⟨rfl, m, rfl, rfl⟩
    · rintro ⟨rfl, m', rfl, rfl⟩; exact ⟨rfl, rfl⟩

theorem recognize_ok {α : Type} {p : P α} {i : Str} {s : Str} {r : Str} :
    recognize p i = .ok s r ↔ ∃ a, p i = .ok a r ∧ s = i.take (i.length - r.length) := by
  simp only [recognize]
  cases p i with
  | err => simp
  | out => simp
  | ok a m =>
    simp only [PR.ok.injEq]
    constructor
    · rintro ⟨rfl, rfl⟩; exact ⟨a, ⟨rfl, rfl⟩, rfl⟩
    · rintro ⟨a', ⟨rfl, rfl⟩, rfl⟩; exact ⟨rfl, rfl⟩

theorem verify_ok {α : Type} {p : P α} {f : α → Bool} {i : Str} {a : α} {r : Str} :
    verify p f i = .ok a r ↔ p i = .ok a r ∧ f a = true := by
  simp only [verify]
  cases p i with
  | err => simp
  | out => simp
  | ok b m =>
    dsimp only
    split
    · rename_i hf
      constructor
      · intro h; simp only [PR.ok.injEq] at h; exact ⟨by simp [h], h.1 ▸ hf⟩
      · intro h; exact h.1
    · rename_i hf
      constructor
      · intro h; simp at h
      · rintro ⟨h, h'⟩
        simp only [PR.ok.injEq] at h
        exact absurd (h.1 ▸ h') hf

theorem tag_ok {t i a r : Str} : tag t i = .ok a r ↔ a = t ∧ i = t ++ r := by
  simp only [tag]
  split
  · rename_i h
    obtain ⟨s, rfl⟩ := List.isPrefixOf_iff_prefix.1 h
    simp only [List.drop_left, PR.ok.injEq, List.append_cancel_left_eq]
    constructor
    · rintro ⟨rfl, rfl⟩; exact ⟨rfl, rfl⟩
    · rintro ⟨rfl, rfl⟩; exact ⟨rfl, rfl⟩
  · rename_i h
    constructor
    · simp
    · rintro ⟨_, rfl⟩
      exact absurd (List.isPrefixOf_iff_prefix.2 (List.prefix_append t r)) h

theorem tag_append (t r : Str) : tag t (t ++ r) = .ok t r := tag_ok.2 ⟨rfl, rfl⟩

/-- The text does not begin with a character of the class. -/
def NotHead (f : Char → Bool) (i : Str) : Prop := ∀ c cs, i = c :: cs → f c = false

theorem notHead_nil (f : Char → Bool) : NotHead f [] := by intro c cs h; simp at h

theorem notHead_cons {f : Char → Bool} {c : Char} {cs : Str} : NotHead f (c :: cs) ↔ f c = false := by
  constructor
  · intro h; exact h c cs rfl
  · intro h c' cs' h'; simp only [List.cons.injEq] at h'; rw [← h'.1]; exact h

theorem dropWhile_notHead (f : Char → Bool) (i : Str) : NotHead f (i.dropWhile f) := by
  induction i with
  | nil => simp [notHead_nil]
  | cons c cs ih =>
    simp only [List.dropWhile_cons]
    split
    · exact ih
    · rename_i h; exact notHead_cons.2 (by simpa using h)

theorem takeWhile_all (f : Char → Bool) (i : Str) : (i.takeWhile f).all f = true := by
  induction i with
  | nil => simp
  | cons c cs ih =>
    simp only [List.takeWhile_cons]
    split
    · rename_i h; simp [h, ih]
    · simp

theorem takeWhile_append_of {f : Char → Bool} {s r : Str} (hs : s.all f = true)
    (hr : NotHead f r) : (s ++ r).takeWhile f = s ∧ (s ++ r).dropWhile f = r := by
  induction s with
  | nil =>
    cases r with
    | nil => simp
    | cons c cs => have := notHead_cons.1 hr; simp [this]
  | cons c cs ih =>
    simp only [List.all_cons, Bool.and_eq_true] at hs
    simp [hs.1, ih hs.2]

theorem takeWhile0_ok {f : Char → Bool} {i a r : Str} :
    takeWhile0 f i = .ok a r ↔ i = a ++ r ∧ a.all f = true ∧ NotHead f r := by
  simp only [takeWhile0, PR.ok.injEq]
  constructor
  · rintro ⟨rfl, rfl⟩
    exact ⟨(List.takeWhile_append_dropWhile).symm, takeWhile_all f i, dropWhile_notHead f i⟩
  · rintro ⟨rfl, h1, h2⟩
    exact takeWhile_append_of h1 h2

theorem takeWhile1_ok {f : Char → Bool} {i a r : Str} :
    takeWhile1 f i = .ok a r ↔ i = a ++ r ∧ a ≠ [] ∧ a.all f = true ∧ NotHead f r := by
  simp only [takeWhile1]
  constructor
  · intro h
    split at h
    · simp at h
    · rename_i hne
      obtain ⟨h1, h2, h3⟩ := takeWhile0_ok.1 (show takeWhile0 f i = .ok a r from h)
      simp only [PR.ok.injEq] at h
      refine ⟨h1, ?_, h2, h3⟩
      rw [← h.1]
      simpa using hne
  · rintro ⟨rfl, h0, h1, h2⟩
    obtain ⟨h3, h4⟩ := takeWhile_append_of h1 h2
    rw [h3, h4]
    simp [h0]

theorem takeWhile1_err {f : Char → Bool} {i : Str} : takeWhile1 f i = .err ↔ NotHead f i := by
  simp only [takeWhile1]
  cases i with
  | nil => simp [notHead_nil]
  | cons c cs =>
    rw [notHead_cons]
    simp only [List.takeWhile_cons]
    cases f c <;> simp

theorem one_of_ok {cs i : Str} {c : Char} {r : Str} :
    one_of cs i = .ok c r ↔ i = c :: r ∧ c ∈ cs := by
  cases i with
  | nil => simp [one_of]
  | cons d ds =>
    simp only [one_of]
    split
    · rename_i h
      simp only [List.contains_iff_mem] at h
      simp only [PR.ok.injEq, List.cons.injEq]
      constructor
      · rintro ⟨rfl, rfl⟩; exact ⟨⟨rfl, rfl⟩, h⟩
      · rintro ⟨⟨rfl, rfl⟩, _⟩; exact ⟨rfl, rfl⟩
    · rename_i h
      simp only [List.contains_iff_mem] at h
      constructor
      · intro h'; simp at h'
      · rintro ⟨h', hc⟩
        simp only [List.cons.injEq] at h'
        exact absurd (h'.1 ▸ hc) h

theorem prefix_of_append {t a r : Str} (h : t <+: a) : t <+: a ++ r := by
  obtain ⟨s, rfl⟩ := h
  exact ⟨s ++ r, by simp⟩

/-- The text found, and that the mark does not begin before its end. -/
theorem take_until_ok {t : Str} (ht : t ≠ []) {i a r : Str} :
    take_until t i = .ok a r ↔
      i = a ++ r ∧ t <+: r ∧ ∀ x y, a = x ++ y → y ≠ [] → ¬ t <+: y ++ r := by
  induction i generalizing a r with
  | nil =>
    unfold take_until
    constructor
    · intro h
      split at h
      · rename_i he; simp at he; exact absurd he ht
      · simp at h
    · rintro ⟨h, hp, _⟩
      have : a = [] ∧ r = [] := by simpa using h.symm
      rw [this.2] at hp
      simp at hp
      exact absurd hp ht
  | cons c cs ih =>
    unfold take_until
    split
    · rename_i hp
      constructor
      · intro h
        simp only [PR.ok.injEq] at h
        obtain ⟨rfl, rfl⟩ := h
        refine ⟨rfl, List.isPrefixOf_iff_prefix.1 hp, ?_⟩
        intro x y hxy hy
        have : x = [] ∧ y = [] := by simpa using hxy.symm
        exact absurd this.2 hy
      · rintro ⟨h, hpr, hno⟩
        cases a with
        | nil => simp only [List.nil_append] at h; simp [h]
        | cons d ds =>
          exact absurd (h ▸ List.isPrefixOf_iff_prefix.1 hp) (hno [] (d :: ds) rfl (by simp))
    · rename_i hp
      constructor
      · intro h
        cases hcs : take_until t cs with
        | err => simp [hcs] at h
        | out => simp [hcs] at h
        | ok a' r' =>
          rw [hcs] at h
          simp only [PR.ok.injEq] at h
          obtain ⟨rfl, rfl⟩ := h
          obtain ⟨rfl, h2, h3⟩ := ih.1 hcs
          refine ⟨rfl, h2, ?_⟩
          intro x y hxy hy
          cases x with
          | nil =>
            simp only [List.nil_append] at hxy
            rw [← hxy]
            intro hpre
            exact hp (List.isPrefixOf_iff_prefix.2 hpre)
          | cons d ds =>
            simp only [List.cons_append, List.cons.injEq] at hxy
            exact h3 ds y hxy.2 hy
      · rintro ⟨h, hpr, hno⟩
        cases a with
        | nil =>
          simp only [List.nil_append] at h
          exact absurd (List.isPrefixOf_iff_prefix.2 (h ▸ hpr)) hp
        | cons d ds =>
          simp only [List.cons_append, List.cons.injEq] at h
          obtain ⟨rfl, rfl⟩ := h
          rw [ih.2 ⟨rfl, hpr, fun x y hxy hy => hno (c :: x) y (by simp [hxy]) hy⟩]

/-- A repetition: each element consumes something, and the last failure ends it. -/
inductive Reps {α : Type} (p : P α) : Str → List α → Str → Prop
  | nil {i : Str} : p i = .err → Reps p i [] i
  | cons {i m r : Str} {a : α} {as : List α} : p i = .ok a m → m.length ≠ i.length →
      Reps p m as r → Reps p i (a :: as) r

theorem manyLoop_reps {α : Type} {p : P α} {n : Nat} {i : Str} {as : List α} {r : Str}
    (h : manyLoop p n i = .ok as r) : Reps p i as r := by
  induction n generalizing i as r with
  | zero => simp [manyLoop] at h
  | succ n ih =>
    simp only [manyLoop] at h
    cases hp : p i with
    | out => simp [hp] at h
    | err =>
      simp only [hp, PR.ok.injEq] at h
      obtain ⟨rfl, rfl⟩ := h
      exact .nil hp
    | ok a m =>
      rw [hp] at h
      dsimp only at h
      split at h
      · simp at h
      · rename_i hne
        cases hm : manyLoop p n m with
        | err => simp [hm] at h
        | out => simp [hm] at h
        | ok as' r' =>
          rw [hm] at h
          simp only [PR.ok.injEq] at h
          obtain ⟨rfl, rfl⟩ := h
          exact .cons hp hne (ih hm)

/-- With enough iterations a repetition is found, if elements never lengthen the text. -/
theorem reps_manyLoop {α : Type} {p : P α} {i : Str} {as : List α} {r : Str}
    (h : Reps p i as r) : ∀ n, as.length < n → manyLoop p n i = .ok as r := by
  induction h with
  | nil hp =>
    intro n hn
    cases n with
    | zero => omega
    | succ n => simp [manyLoop, hp]
  | cons hp hne _ ih =>
    intro n hn
    cases n with
    | zero => omega
    | succ n =>
      simp only [List.length_cons] at hn
      simp [manyLoop, hp, hne, ih n (by omega)]

theorem many0_reps {α : Type} {p : P α} {i : Str} {as : List α} {r : Str}
    (h : many0 p i = .ok as r) : Reps p i as r := manyLoop_reps h

theorem many1_ok {α : Type} {p : P α} {i : Str} {as : List α} {r : Str} :
    many1 p i = .ok as r ↔ ∃ a as' m, as = a :: as' ∧ p i = .ok a m ∧ many0 p m = .ok as' r := by
  simp only [many1, bind_ok, pure_ok]
  constructor
  · rintro ⟨a, m, h, as', m', h', rfl, rfl⟩; exact ⟨a, as', m, rfl, h, h'⟩
  · rintro ⟨a, as', m, rfl, h, h'⟩; exact ⟨a, m, h, as', r, h', rfl, rfl⟩

/-- The separated elements after the first one. -/
inductive SepReps {α β : Type} (sep : P β) (p : P α) : Str → List α → Str → Prop
  | nosep {i : Str} : sep i = .err → SepReps sep p i [] i
  | noelem {i m : Str} {b : β} : sep i = .ok b m → p m = .err → SepReps sep p i [] i
  | cons {i m m' r : Str} {b : β} {a : α} {as : List α} : sep i = .ok b m → p m = .ok a m' →
      m'.length ≠ i.length → SepReps sep p m' as r → SepReps sep p i (a :: as) r

theorem sepLoop_reps {α β : Type} {sep : P β} {p : P α} {n : Nat} {i : Str} {as : List α} {r : Str}
    (h : sepLoop sep p n i = .ok as r) : SepReps sep p i as r := by
  induction n generalizing i as r with
  | zero => simp [sepLoop] at h
  | succ n ih =>
    simp only [sepLoop] at h
    cases hs : sep i with
    | out => simp [hs] at h
    | err =>
      simp only [hs, PR.ok.injEq] at h
      obtain ⟨rfl, rfl⟩ := h
      exact .nosep hs
    | ok b m =>
      rw [hs] at h
      dsimp only at h
      cases hp : p m with
      | out => simp [hp] at h
      | err =>
        simp only [hp, PR.ok.injEq] at h
        obtain ⟨rfl, rfl⟩ := h
        exact .noelem hs hp
      | ok a m' =>
        rw [hp] at h
        dsimp only at h
        split at h
        · simp at h
        · rename_i hne
          cases hm : sepLoop sep p n m' with
          | err => simp [hm] at h
          | out => simp [hm] at h
          | ok as' r' =>
            rw [hm] at h
            simp only [PR.ok.injEq] at h
            obtain ⟨rfl, rfl⟩ := h
            exact .cons hs hp hne (ih hm)

theorem sepReps_loop {α β : Type} {sep : P β} {p : P α} {i : Str} {as : List α} {r : Str}
    (h : SepReps sep p i as r) : ∀ n, as.length < n → sepLoop sep p n i = .ok as r := by
  induction h with
  | nosep hs =>
    intro n hn
    cases n with
    | zero => omega
    | succ n => simp [sepLoop, hs]
  | noelem hs hp =>
    intro n hn
    cases n with
    | zero => omega
    | succ n => simp [sepLoop, hs, hp]
  | cons hs hp hne _ ih =>
    intro n hn
    cases n with
    | zero => omega
    | succ n =>
      simp only [List.length_cons] at hn
      simp [sepLoop, hs, hp, hne, ih n (by omega)]

theorem separated_list1_ok {α β : Type} {sep : P β} {p : P α} {i : Str} {as : List α} {r : Str} :
    separated_list1 sep p i = .ok as r ↔ ∃ a as' m, as = a :: as' ∧ p i = .ok a m ∧
      sepTail sep p m = .ok as' r := by
  simp only [separated_list1, bind_ok, pure_ok]
  constructor
  · rintro ⟨a, m, h, as', m', h', rfl, rfl⟩; exact ⟨a, as', m, rfl, h, h'⟩
  · rintro ⟨a, as', m, rfl, h, h'⟩; exact ⟨a, m, h, as', r, h', rfl, rfl⟩

end Xdr.Rpcgen
