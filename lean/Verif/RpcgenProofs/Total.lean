import Verif.Rpcgen.Parser
import Verif.RpcgenProofs.Nom
/-!
# The parser terminates

`Agree k p q`: on texts of at most `k` characters `p` and `q` give the same result, it is not `out`,
and the text left is not longer than the text given.
-/

namespace Xdr.Rpcgen

/-- See the module comment. -/
def Agree {α : Type} (k : Nat) (p q : P α) : Prop :=
  ∀ i, i.length ≤ k → p i = q i ∧ p i ≠ .out ∧ ∀ a r, p i = .ok a r → r.length ≤ i.length

/-- The parser consumes at least one character. -/
def Strict {α : Type} (p : P α) : Prop := ∀ i a r, p i = .ok a r → r.length < i.length

theorem Agree.mono {α : Type} {k l : Nat} {p q : P α} (h : Agree l p q) (hkl : k ≤ l) :
    Agree k p q := fun i hi => h i (Nat.le_trans hi hkl)

theorem agree_pure {α : Type} {k : Nat} (a : α) : Agree k (P.pure a) (P.pure a) := by
  intro i _
  refine ⟨rfl, by simp [P.pure], ?_⟩
  intro b r h
  simp only [P.pure, PR.ok.injEq] at h
  simp [h.2]

theorem Agree.bind {α β : Type} {k : Nat} {p q : P α} {f g : α → P β} (hp : Agree k p q)
    (hf : ∀ a, Agree k (f a) (g a)) : Agree k (p.bind f) (q.bind g) := by
  intro i hi
  obtain ⟨h1, h2, h3⟩ := hp i hi
  simp only [P.bind, ← h1]
  cases hpi : p i with
  | err => simp
  | out => exact absurd hpi h2
  | ok a r =>
    have hr := h3 a r hpi
    obtain ⟨g1, g2, g3⟩ := hf a r (by omega)
    exact ⟨g1, g2, fun b s hs => by have := g3 b s hs; omega⟩

/-- After a strict parser the rest is shorter. -/
theorem Agree.bind_strict {α β : Type} {k : Nat} {p q : P α} {f g : α → P β} (hp : Agree k p q)
    (hs : Strict p) (hf : ∀ l, l + 1 ≤ k → ∀ a, Agree l (f a) (g a)) :
    Agree k (p.bind f) (q.bind g) := by
  intro i hi
  obtain ⟨h1, h2, h3⟩ := hp i hi
  simp only [P.bind, ← h1]
  cases hpi : p i with
  | err => simp
  | out => exact absurd hpi h2
  | ok a r =>
    have hr := hs i a r hpi
    obtain ⟨g1, g2, g3⟩ := hf r.length (by omega) a r (Nat.le_refl _)
    exact ⟨g1, g2, fun b s hs => by have := g3 b s hs; omega⟩

theorem agree_map {α β : Type} {k : Nat} {p q : P α} {f : α → β} (hp : Agree k p q) :
    Agree k (map p f) (map q f) := hp.bind fun _ => agree_pure _

theorem agree_preceded {α β : Type} {k : Nat} {p p' : P α} {q q' : P β} (hp : Agree k p p')
    (hq : Agree k q q') : Agree k (preceded p q) (preceded p' q') := hp.bind fun _ => hq

theorem agree_terminated {α β : Type} {k : Nat} {p p' : P α} {q q' : P β} (hp : Agree k p p')
    (hq : Agree k q q') : Agree k (terminated p q) (terminated p' q') :=
  hp.bind fun _ => hq.bind fun _ => agree_pure _

theorem agree_delimited {α β γ : Type} {k : Nat} {p p' : P α} {q q' : P β} {r r' : P γ}
    (hp : Agree k p p') (hq : Agree k q q') (hr : Agree k r r') :
    Agree k (delimited p q r) (delimited p' q' r') :=
  hp.bind fun _ => hq.bind fun _ => hr.bind fun _ => agree_pure _

theorem agree_pair {α β : Type} {k : Nat} {p p' : P α} {q q' : P β} (hp : Agree k p p')
    (hq : Agree k q q') : Agree k (pair p q) (pair p' q') :=
  hp.bind fun _ => hq.bind fun _ => agree_pure _

theorem agree_alt_nil {α : Type} {k : Nat} : Agree k (alt ([] : List (P α))) (alt []) := by
  intro i _
  simp [alt]

theorem agree_alt_cons {α : Type} {k : Nat} {p q : P α} {ps qs : List (P α)} (hp : Agree k p q)
    (hps : Agree k (alt ps) (alt qs)) : Agree k (alt (p :: ps)) (alt (q :: qs)) := by
  intro i hi
  obtain ⟨h1, h2, h3⟩ := hp i hi
  simp only [alt, ← h1]
  cases hpi : p i with
  | err => exact hps i hi
  | out => exact absurd hpi h2
  | ok a r =>
    refine ⟨rfl, by simp, ?_⟩
    intro b s hb
    simp only [PR.ok.injEq] at hb
    rw [← hb.2]
    exact h3 a r hpi

theorem agree_opt {α : Type} {k : Nat} {p q : P α} (hp : Agree k p q) :
    Agree k (opt p) (opt q) := by
  intro i hi
  obtain ⟨h1, h2, h3⟩ := hp i hi
  simp only [opt, ← h1]
  cases hpi : p i with
  | err => simp
  | out => exact absurd hpi h2
  | ok a r =>
    refine ⟨by trivial, by simp, ?_⟩
    intro b s hb
    simp only [PR.ok.injEq] at hb
    rw [← hb.2]
    exact h3 a r hpi

theorem agree_peek {α : Type} {k : Nat} {p q : P α} (hp : Agree k p q) :
    Agree k (peek p) (peek q) := by
  intro i hi
  obtain ⟨h1, h2, h3⟩ := hp i hi
  simp only [peek, ← h1]
  cases hpi : p i with
  | err => simp
  | out => exact absurd hpi h2
  | ok a r => simp

theorem agree_recognize {α : Type} {k : Nat} {p q : P α} (hp : Agree k p q) :
    Agree k (recognize p) (recognize q) := by
  intro i hi
  obtain ⟨h1, h2, h3⟩ := hp i hi
  simp only [recognize, ← h1]
  cases hpi : p i with
  | err => simp
  | out => exact absurd hpi h2
  | ok a r =>
    refine ⟨by trivial, by simp, ?_⟩
    intro b s hb
    simp only [PR.ok.injEq] at hb
    rw [← hb.2]
    exact h3 a r hpi

theorem agree_verify {α : Type} {k : Nat} {p q : P α} {f : α → Bool} (hp : Agree k p q) :
    Agree k (verify p f) (verify q f) := by
  intro i hi
  obtain ⟨h1, h2, h3⟩ := hp i hi
  simp only [verify, ← h1]
  cases hpi : p i with
  | err => simp
  | out => exact absurd hpi h2
  | ok a r =>
    dsimp only
    split
    · refine ⟨by trivial, by simp, ?_⟩
      intro b s hb
      simp only [PR.ok.injEq] at hb
      rw [← hb.2]
      exact h3 a r hpi
    · simp

theorem agree_tag {k : Nat} (t : Str) : Agree k (tag t) (tag t) := by
  intro i _
  refine ⟨rfl, ?_, ?_⟩
  · unfold tag; split <;> simp
  · intro a r h
    unfold tag at h
    split at h
    · simp only [PR.ok.injEq] at h
      rw [← h.2]
      simp
    · simp at h

theorem agree_takeWhile0 {k : Nat} (f : Char → Bool) : Agree k (takeWhile0 f) (takeWhile0 f) := by
  intro i _
  refine ⟨rfl, by simp [takeWhile0], ?_⟩
  intro a r h
  simp only [takeWhile0, PR.ok.injEq] at h
  rw [← h.2]
  exact (List.dropWhile_suffix f).length_le

theorem agree_takeWhile1 {k : Nat} (f : Char → Bool) : Agree k (takeWhile1 f) (takeWhile1 f) := by
  intro i _
  refine ⟨rfl, ?_, ?_⟩
  · unfold takeWhile1; split <;> simp
  · intro a r h
    unfold takeWhile1 at h
    split at h
    · simp at h
    · simp only [PR.ok.injEq] at h
      rw [← h.2]
      exact (List.dropWhile_suffix f).length_le

theorem agree_one_of {k : Nat} (cs : Str) : Agree k (one_of cs) (one_of cs) := by
  intro i _
  refine ⟨rfl, ?_, ?_⟩
  · cases i with
    | nil => simp [one_of]
    | cons c r => simp only [one_of]; split <;> simp
  · intro a r h
    rw [(one_of_ok.1 h).1]
    simp

theorem agree_take_until {k : Nat} (t : Str) : Agree k (take_until t) (take_until t) := by
  intro i _
  refine ⟨rfl, ?_⟩
  induction i with
  | nil =>
    unfold take_until
    split <;> simp
  | cons c cs ih =>
    unfold take_until
    split
    · simp
    · cases h : take_until t cs with
      | err => simp
      | out => exact absurd h (ih (Nat.le_trans (Nat.le_succ _) ‹_›)).1
      | ok a r =>
        refine ⟨by simp, ?_⟩
        intro b s hb
        simp only [PR.ok.injEq] at hb
        have := (ih (Nat.le_trans (Nat.le_succ _) ‹_›)).2 a r h
        rw [← hb.2]
        simp only [List.length_cons]
        omega

theorem agree_not_line_ending {k : Nat} : Agree k not_line_ending not_line_ending := by
  intro i _
  refine ⟨rfl, ?_, ?_⟩
  · unfold not_line_ending
    dsimp only
    split <;> simp
  · intro a r h
    unfold not_line_ending at h
    dsimp only at h
    split at h <;>
    first
    | simp only [PR.ok.injEq] at h
      rw [← h.2]
      exact (List.dropWhile_suffix _).length_le
    | simp at h

theorem manyLoop_agree {α : Type} {k : Nat} {p q : P α} (hp : Agree k p q) :
    ∀ n i, i.length ≤ k → i.length < n →
      manyLoop p n i = manyLoop q n i ∧ manyLoop p n i ≠ .out ∧
        ∀ a r, manyLoop p n i = .ok a r → r.length ≤ i.length := by
  intro n
  induction n with
  | zero => intro i _ h; omega
  | succ n ih =>
    intro i hi hn
    obtain ⟨h1, h2, h3⟩ := hp i hi
    simp only [manyLoop, ← h1]
    cases hpi : p i with
    | err => simp
    | out => exact absurd hpi h2
    | ok a r =>
      have hr := h3 a r hpi
      dsimp only
      split
      · simp
      · obtain ⟨g1, g2, g3⟩ := ih r (by omega) (by omega)
        rw [← g1]
        cases hm : manyLoop p n r with
        | err => simp
        | out => exact absurd hm g2
        | ok as r' =>
          refine ⟨rfl, by simp, ?_⟩
          intro b s hb
          simp only [PR.ok.injEq] at hb
          have := g3 as r' hm
          rw [← hb.2]
          omega

theorem agree_many0 {α : Type} {k : Nat} {p q : P α} (hp : Agree k p q) :
    Agree k (many0 p) (many0 q) := fun i hi => manyLoop_agree hp _ i hi (by omega)

theorem agree_many1 {α : Type} {k : Nat} {p q : P α} (hp : Agree k p q) :
    Agree k (many1 p) (many1 q) :=
  hp.bind fun _ => (agree_many0 hp).bind fun _ => agree_pure _

theorem sepLoop_agree {α β : Type} {k : Nat} {s s' : P β} {p q : P α} (hs : Agree k s s')
    (hp : Agree k p q) :
    ∀ n i, i.length ≤ k → i.length < n →
      sepLoop s p n i = sepLoop s' q n i ∧ sepLoop s p n i ≠ .out ∧
        ∀ a r, sepLoop s p n i = .ok a r → r.length ≤ i.length := by
  intro n
  induction n with
  | zero => intro i _ h; omega
  | succ n ih =>
    intro i hi hn
    obtain ⟨h1, h2, h3⟩ := hs i hi
    simp only [sepLoop, ← h1]
    cases hsi : s i with
    | err => simp
    | out => exact absurd hsi h2
    | ok b r =>
      have hr := h3 b r hsi
      obtain ⟨f1, f2, f3⟩ := hp r (by omega)
      dsimp only
      rw [← f1]
      cases hpi : p r with
      | err => simp
      | out => exact absurd hpi f2
      | ok a r' =>
        have hr' := f3 a r' hpi
        dsimp only
        split
        · simp
        · obtain ⟨g1, g2, g3⟩ := ih r' (by omega) (by omega)
          rw [← g1]
          cases hm : sepLoop s p n r' with
          | err => simp
          | out => exact absurd hm g2
          | ok as r'' =>
            refine ⟨rfl, by simp, ?_⟩
            intro b s hb
            simp only [PR.ok.injEq] at hb
            have := g3 as r'' hm
            rw [← hb.2]
            omega

theorem agree_separated_list1 {α β : Type} {k : Nat} {s s' : P β} {p q : P α} (hs : Agree k s s')
    (hp : Agree k p q) : Agree k (separated_list1 s p) (separated_list1 s' q) :=
  hp.bind fun _ => Agree.bind (p := sepTail s p) (q := sepTail s' q)
    (fun i hi => sepLoop_agree hs hp _ i hi (by omega)) fun _ => agree_pure _

/-- Applies the closure lemmas. -/
syntax "agree" : tactic
macro_rules
  | `(tactic| agree) => `(tactic| repeat' (first
      | assumption
      | exact agree_tag _
      | exact agree_takeWhile0 _
      | exact agree_takeWhile1 _
      | exact agree_one_of _
      | exact agree_take_until _
      | exact agree_not_line_ending
      | exact agree_alt_nil
      | apply agree_alt_cons
      | apply agree_map
      | apply agree_preceded
      | apply agree_terminated
      | apply agree_delimited
      | apply agree_pair
      | apply agree_opt
      | apply agree_peek
      | apply agree_recognize
      | apply agree_verify
      | apply agree_many0
      | apply agree_many1
      | apply agree_separated_list1))

theorem agree_identifier {k : Nat} : Agree k identifier identifier := by
  unfold identifier alpha1 alphanumeric1; agree

theorem agree_constant {k : Nat} : Agree k constant constant := by
  unfold constant decimal_nonzero hexadecimal octal digit1 hex_digit1 oct_digit1; agree

theorem agree_value {k : Nat} : Agree k value value := by
  unfold value
  have h1 : Agree k constant constant := agree_constant
  have h2 : Agree k identifier identifier := agree_identifier
  agree

theorem agree_comment0 {k : Nat} : Agree k comment0 comment0 := by
  unfold comment0 multispace0; agree

theorem agree_comment_line {k : Nat} : Agree k comment_line comment_line := by
  unfold comment_line line_ending; agree

theorem agree_assign {k : Nat} : Agree k assign assign := by
  unfold assign
  have h1 : Agree k value value := agree_value
  have h2 : Agree k identifier identifier := agree_identifier
  have h3 : Agree k comment0 comment0 := agree_comment0
  agree

theorem agree_constant_def {k : Nat} : Agree k constant_def constant_def := by
  unfold constant_def multispace1
  have h1 : Agree k assign assign := agree_assign
  have h3 : Agree k comment0 comment0 := agree_comment0
  agree

theorem agree_enum_body {k : Nat} : Agree k enum_body enum_body := by
  unfold enum_body
  have h1 : Agree k assign assign := agree_assign
  have h3 : Agree k comment0 comment0 := agree_comment0
  agree

theorem agree_declaration {k : Nat} {ts ts' : P TypeSpecifier} (h : Agree k ts ts') :
    Agree k (declaration ts) (declaration ts') := by
  unfold declaration multispace0 multispace1
  have h1 : Agree k value value := agree_value
  have h2 : Agree k identifier identifier := agree_identifier
  agree

theorem agree_case_spec {k : Nat} {ts ts' : P TypeSpecifier} (h : Agree k ts ts') :
    Agree k (case_spec ts) (case_spec ts') := by
  unfold case_spec
  have h1 : Agree k value value := agree_value
  have h2 := agree_declaration h
  have h3 : Agree k comment0 comment0 := agree_comment0
  agree

theorem agree_struct_body {k : Nat} {ts ts' : P TypeSpecifier} (h : Agree k ts ts') :
    Agree k (struct_body ts) (struct_body ts') := by
  unfold struct_body
  have h2 := agree_declaration h
  have h3 : Agree k comment0 comment0 := agree_comment0
  agree

theorem agree_union_body {k : Nat} {ts ts' : P TypeSpecifier} (h : Agree k ts ts') :
    Agree k (union_body ts) (union_body ts') := by
  unfold union_body
  have h2 := agree_declaration h
  have h4 := agree_case_spec h
  have h3 : Agree k comment0 comment0 := agree_comment0
  agree

theorem strict_keyword (c : Char) (t : Str) : Strict (pair (tag (c :: t)) multispace1) := by
  intro i a r h
  obtain ⟨m, h1, h2⟩ := pair_ok.1 h
  rw [(tag_ok.1 h1).2, (takeWhile1_ok.1 h2).1]
  simp only [List.length_append, List.length_cons]
  omega

theorem agree_keyword {k : Nat} (t : Str) :
    Agree k (pair (tag t) multispace1) (pair (tag t) multispace1) := by
  unfold multispace1; agree

theorem agree_typeSpecifierWith {k : Nat} {ts ts' : P TypeSpecifier}
    (h : ∀ l, l + 1 ≤ k → Agree l ts ts') :
    Agree k (typeSpecifierWith ts) (typeSpecifierWith ts') := by
  have h1 : Agree k (struct_type_spec ts) (struct_type_spec ts') :=
    (agree_keyword _).bind_strict (strict_keyword _ _) fun l hl _ => agree_struct_body (h l hl)
  have h2 : Agree k (union_type_spec ts) (union_type_spec ts') :=
    (agree_keyword _).bind_strict (strict_keyword _ _) fun l hl _ => agree_union_body (h l hl)
  have h3 : Agree k enum_body enum_body := agree_enum_body
  have h4 : Agree k identifier identifier := agree_identifier
  unfold typeSpecifierWith unsignedWord word enum_type_spec multispace1
  agree

/-- With a bound above the length of the text, the bound does not matter. -/
theorem agree_type_specifier : ∀ (n m k : Nat), k < n → k < m →
    Agree k (type_specifier n) (type_specifier m) := by
  intro n
  induction n with
  | zero => intro m k h; omega
  | succ n ih =>
    intro m k hn hm
    cases m with
    | zero => omega
    | succ m =>
      unfold type_specifier
      exact agree_typeSpecifierWith fun l hl => ih m l (by omega) (by omega)

theorem agree_type_def {k : Nat} {ts ts' : P TypeSpecifier} (h : Agree k ts ts') :
    Agree k (type_def ts) (type_def ts') := by
  unfold type_def multispace1
  have h1 := agree_declaration h
  have h2 := agree_struct_body h
  have h3 := agree_union_body h
  have h4 : Agree k enum_body enum_body := agree_enum_body
  have h5 : Agree k identifier identifier := agree_identifier
  have h6 : Agree k comment0 comment0 := agree_comment0
  agree

theorem agree_procedure {k : Nat} {ts ts' : P TypeSpecifier} (h : Agree k ts ts') :
    Agree k (procedure ts) (procedure ts') := by
  unfold procedure typeOrVoid multispace1 multispace0
  have h1 : Agree k value value := agree_value
  have h5 : Agree k identifier identifier := agree_identifier
  agree

theorem agree_version {k : Nat} {ts ts' : P TypeSpecifier} (h : Agree k ts ts') :
    Agree k (version ts) (version ts') := by
  unfold version multispace1 multispace0
  have h1 : Agree k value value := agree_value
  have h5 : Agree k identifier identifier := agree_identifier
  have h6 := agree_procedure h
  agree

theorem agree_program {k : Nat} {ts ts' : P TypeSpecifier} (h : Agree k ts ts') :
    Agree k (program ts) (program ts') := by
  unfold program multispace1 multispace0
  have h1 : Agree k value value := agree_value
  have h5 : Agree k identifier identifier := agree_identifier
  have h6 := agree_version h
  agree

theorem agree_definition {k : Nat} {ts ts' : P TypeSpecifier} (h : Agree k ts ts') :
    Agree k (definition ts) (definition ts') := by
  unfold definition
  have h1 := agree_type_def h
  have h2 := agree_program h
  have h3 : Agree k constant_def constant_def := agree_constant_def
  have h4 : Agree k comment_line comment_line := agree_comment_line
  agree

theorem agree_specification {k : Nat} {ts ts' : P TypeSpecifier} (h : Agree k ts ts') :
    Agree k (specification ts) (specification ts') := by
  unfold specification
  have h1 := agree_definition h
  have h3 : Agree k comment0 comment0 := agree_comment0
  agree

/-- With a bound above the length of the text, the bound does not matter and is not used up. -/
theorem parseWith_bound (n : Nat) (i : Str) (h : i.length < n) :
    parseWith n i = parse i ∧ parse i ≠ .out := by
  have ha := agree_specification (agree_type_specifier (i.length + 1) n i.length (by omega) h)
    i (Nat.le_refl _)
  unfold parse parseWith
  rw [← ha.1]
  refine ⟨rfl, ?_⟩
  cases hs : specification (type_specifier (i.length + 1)) i with
  | err => simp
  | out => exact absurd hs ha.2.1
  | ok a r => dsimp only; split <;> simp

end Xdr.Rpcgen
