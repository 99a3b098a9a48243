import Verif.Rpcgen.Parser
import Verif.RpcgenProofs.Nom
import Verif.Spec.XdrExact
/-!
# Blanks, comments, identifiers and numbers
-/

namespace Xdr.Rpcgen

/-! ## Blanks -/

theorem isSpace_iff {c : Char} : isSpace c = true ↔ c = ' ' ∨ c = '\t' ∨ c = '\r' ∨ c = '\n' := by
  simp [isSpace, or_assoc]

theorem blank_iff {s : Str} : Blank s ↔ s.all isSpace = true := by
  simp only [Blank, List.all_eq_true, isSpace_iff]

theorem blank_nil : Blank [] := by intro c h; simp at h

theorem blank_append {a b : Str} (ha : Blank a) (hb : Blank b) : Blank (a ++ b) := by
  intro c h
  rcases List.mem_append.1 h with h | h
  · exact ha c h
  · exact hb c h

theorem multispace0_ok {i b r : Str} :
    multispace0 i = .ok b r ↔ i = b ++ r ∧ Blank b ∧ NotHead isSpace r := by
  rw [blank_iff]; exact takeWhile0_ok

theorem multispace1_ok {i b r : Str} :
    multispace1 i = .ok b r ↔ i = b ++ r ∧ Blank1 b ∧ NotHead isSpace r := by
  rw [Blank1, blank_iff]
  refine takeWhile1_ok.trans ⟨?_, ?_⟩
  · rintro ⟨h1, h2, h3, h4⟩; exact ⟨h1, ⟨h3, h2⟩, h4⟩
  · rintro ⟨h1, ⟨h3, h2⟩, h4⟩; exact ⟨h1, h2, h3, h4⟩

theorem multispace1_err {i : Str} : multispace1 i = .err ↔ NotHead isSpace i := takeWhile1_err

/-! ## Gaps -/

theorem gap_nil : Gap [] := .blank blank_nil

theorem gap_append {a b : Str} (ha : Gap a) (hb : Gap b) : Gap (a ++ b) := by
  induction ha with
  | @blank s hs =>
    cases hb with
    | blank hb => exact .blank (blank_append hs hb)
    | @comment s' body rest hs' hbody hrest =>
      have := Gap.comment (blank_append hs hs') hbody hrest
      simpa using this
  | comment hs hbody _ ih =>
    have := Gap.comment hs hbody ih
    simpa using this

theorem not_infix_of {body r : Str}
    (h : ∀ x y, body = x ++ y → y ≠ [] → ¬ c!"*/" <+: y ++ (c!"*/" ++ r)) : ¬ c!"*/" <:+: body := by
  rintro ⟨x, y, hxy⟩
  refine h x (c!"*/" ++ y) (by simp [← hxy]) (by simp) ?_
  exact ⟨y ++ (c!"*/" ++ r), by simp⟩

theorem no_mark {body r : Str} (h : ¬ c!"*/" <:+: body) :
    ∀ x y, body = x ++ y → y ≠ [] → ¬ c!"*/" <+: y ++ (c!"*/" ++ r) := by
  intro x y hxy hy hp
  obtain ⟨z, hz⟩ := hp
  cases y with
  | nil => exact hy rfl
  | cons c1 y1 =>
    cases y1 with
    | nil => simp at hz
    | cons c2 y2 =>
      simp only [List.cons_append, List.cons.injEq, List.nil_append] at hz
      refine h ⟨x, y2, ?_⟩
      rw [hxy, ← hz.1, ← hz.2.1]
      simp

/-- One comment with the blanks after it. -/
def oneComment : P Str :=
  terminated (delimited (tag c!"/*") (take_until c!"*/") (tag c!"*/")) multispace0

theorem comment0_eq : comment0 = preceded multispace0 (opt (many1 oneComment)) := rfl

theorem oneComment_ok {i a r : Str} :
    oneComment i = .ok a r ↔ ∃ b, i = c!"/*" ++ a ++ c!"*/" ++ b ++ r ∧ ¬ c!"*/" <:+: a ∧ Blank b ∧
      NotHead isSpace r := by
  constructor
  · intro h
    obtain ⟨m, b, h1, h2⟩ := terminated_ok.1 h
    obtain ⟨x, m1, m2, y, h3, h4, h5⟩ := delimited_ok.1 h1
    obtain ⟨rfl, hb, hr⟩ := multispace0_ok.1 h2
    obtain ⟨rfl, rfl⟩ := tag_ok.1 h3
    obtain ⟨rfl, rfl⟩ := tag_ok.1 h5
    obtain ⟨rfl, _, hno⟩ := (take_until_ok (by simp)).1 h4
    exact ⟨b, by simp, not_infix_of hno, hb, hr⟩
  · rintro ⟨b, rfl, hno, hb, hr⟩
    refine terminated_ok.2 ⟨b ++ r, b, ?_, multispace0_ok.2 ⟨rfl, hb, hr⟩⟩
    refine delimited_ok.2 ⟨_, a ++ (c!"*/" ++ (b ++ r)), c!"*/" ++ (b ++ r), _, tag_ok.2 ⟨rfl, by simp⟩, ?_,
      tag_ok.2 ⟨rfl, rfl⟩⟩
    exact (take_until_ok (by simp)).2 ⟨rfl, ⟨_, rfl⟩, no_mark hno⟩

theorem oneComment_shorter {i a r : Str} (h : oneComment i = .ok a r) : r.length ≠ i.length := by
  obtain ⟨b, rfl, _⟩ := oneComment_ok.1 h
  simp only [List.length_append, List.length_cons, List.length_nil]
  omega

theorem comments_gap {i r : Str} {as : List Str} (h : Reps oneComment i as r) :
    ∃ g, Gap g ∧ i = g ++ r := by
  induction h with
  | nil _ => exact ⟨[], gap_nil, rfl⟩
  | cons hp _ _ ih =>
    obtain ⟨g, hg, rfl⟩ := ih
    obtain ⟨b, rfl, hno, hb, _⟩ := oneComment_ok.1 hp
    exact ⟨_, .comment blank_nil hno (gap_append (.blank hb) hg), by simp⟩

theorem comment0_gap {i r : Str} {x : Option (List Str)} (h : comment0 i = .ok x r) :
    ∃ g, Gap g ∧ i = g ++ r := by
  rw [comment0_eq] at h
  obtain ⟨b, m, h1, h2⟩ := preceded_ok.1 h
  obtain ⟨rfl, hb, _⟩ := multispace0_ok.1 h1
  rcases opt_ok.1 h2 with ⟨a, h3, _⟩ | ⟨_, _, rfl⟩
  · obtain ⟨c, cs, m', _, hc, hcs⟩ := many1_ok.1 h3
    obtain ⟨g, hg, rfl⟩ := comments_gap (many0_reps hcs)
    obtain ⟨b', rfl, hno, hb', _⟩ := oneComment_ok.1 hc
    exact ⟨_, .comment hb hno (gap_append (.blank hb') hg), by simp⟩
  · exact ⟨b, .blank hb, rfl⟩

/-- A text at which neither blanks nor a comment begin. -/
def Tight (r : Str) : Prop := NotHead (fun c => isSpace c || c == '/') r

theorem Tight.notSpace {r : Str} (h : Tight r) : NotHead isSpace r := by
  intro c cs hc
  have := h c cs hc
  simp only [Bool.or_eq_false_iff] at this
  exact this.1

theorem tag_err_of {c : Char} {t r : Str} (h : NotHead (· == c) r) : tag (c :: t) r = .err := by
  unfold tag
  split
  · rename_i hp
    obtain ⟨s, rfl⟩ := List.isPrefixOf_iff_prefix.1 hp
    have := h c (t ++ s) (by simp)
    simp at this
  · rfl

theorem notHead_mono {f g : Char → Bool} {r : Str} (h : NotHead f r)
    (hfg : ∀ c, g c = true → f c = true) : NotHead g r := by
  intro c cs hc
  have := h c cs hc
  cases hg : g c with
  | false => rfl
  | true => rw [hfg c hg] at this; simp at this

theorem bind_err_of {α β : Type} {p : P α} {f : α → P β} {i : Str} (h : p i = .err) :
    p.bind f i = .err := by simp [P.bind, h]

theorem oneComment_err {r : Str} (h : NotHead (· == '/') r) : oneComment r = .err :=
  bind_err_of (bind_err_of (tag_err_of h))

/-- The comments at the head of a gap, up to a text at which nothing of the kind begins. -/
theorem gap_reps {g r : Str} (hg : Gap g) (hr : Tight r) :
    ∃ b g' as, g = b ++ g' ∧ Blank b ∧ NotHead isSpace (g' ++ r) ∧
      Reps oneComment (g' ++ r) as r := by
  have hr' : NotHead (· == '/') r := notHead_mono hr (by intro c h; simp_all)
  induction hg with
  | @blank s hs =>
    exact ⟨s, [], [], by simp, hs, hr.notSpace, .nil (oneComment_err hr')⟩
  | @comment s body rest hs hbody _ ih =>
    obtain ⟨b, g', as, rfl, hb, hns, hreps⟩ := ih
    refine ⟨s, c!"/*" ++ body ++ c!"*/" ++ (b ++ g'), body :: as, by simp, hs, ?_, ?_⟩
    · simp only [List.append_assoc, List.cons_append]
      exact notHead_cons.2 (by decide)
    · have h : oneComment ((c!"/*" ++ body ++ c!"*/" ++ (b ++ g')) ++ r) = .ok body (g' ++ r) :=
        oneComment_ok.2 ⟨b, by simp, hbody, hb, hns⟩
      exact .cons h (oneComment_shorter h) hreps

theorem reps_length {i r : Str} {as : List Str} (h : Reps oneComment i as r) :
    as.length ≤ i.length := by
  induction h with
  | nil _ => simp
  | cons hp _ _ ih =>
    obtain ⟨b, rfl, _⟩ := oneComment_ok.1 hp
    simp only [List.length_append, List.length_cons, List.length_nil]
    omega

/-- `comment0` consumes exactly the gap. -/
theorem comment0_of_gap {g r : Str} (hg : Gap g) (hr : Tight r) :
    ∃ x, comment0 (g ++ r) = .ok x r := by
  obtain ⟨b, g', as, rfl, hb, hns, hreps⟩ := gap_reps hg hr
  have h0 : multispace0 (b ++ g' ++ r) = .ok b (g' ++ r) :=
    multispace0_ok.2 ⟨by simp, hb, hns⟩
  have h1 : ∃ x, opt (many1 oneComment) (g' ++ r) = .ok x r := by
    generalize hi : g' ++ r = i at hreps
    cases hreps with
    | nil h => exact ⟨none, opt_ok.2 (.inr ⟨bind_err_of h, rfl, rfl⟩)⟩
    | cons hp hne hrest =>
      rename_i m a as'
      refine ⟨some (a :: as'), opt_ok.2 (.inl ⟨_, many1_ok.2 ⟨a, as', m, rfl, hp, ?_⟩, rfl⟩)⟩
      exact reps_manyLoop hrest _ (by have := reps_length hrest; omega)
  obtain ⟨x, h1⟩ := h1
  exact ⟨x, by rw [comment0_eq]; exact preceded_ok.2 ⟨b, g' ++ r, h0, h1⟩⟩

/-! ## Identifiers -/

theorem reserved_iff {s : Str} : (!xdr_reserved s) = true ↔ s ∉ reservedWords := by
  simp only [xdr_reserved, show KEYWORDS_XDR = reservedWords from rfl, Bool.not_eq_true',
    List.contains_eq_mem, decide_eq_false_iff_not]

/-- A run of letters and digits, or an underscore. -/
def wordPart : P Str := alt [alphanumeric1, tag c!"_"]

theorem wordPart_ok {i a r : Str} (h : wordPart i = .ok a r) :
    i = a ++ r ∧ a ≠ [] ∧ ∀ x ∈ a, isWord x = true := by
  rcases alt_cons_ok.1 h with h | ⟨_, h⟩
  · obtain ⟨h1, h2, h3, _⟩ := takeWhile1_ok.1 h
    refine ⟨h1, h2, ?_⟩
    intro x hx
    have := List.all_eq_true.1 h3 x hx
    simp only [Bool.or_eq_true] at this
    simp [isWord, this]
  · rcases alt_cons_ok.1 h with h | ⟨_, h⟩
    · obtain ⟨rfl, h2⟩ := tag_ok.1 h
      refine ⟨h2, by simp, ?_⟩
      intro x hx
      simp only [List.mem_singleton] at hx
      rw [hx]; decide
    · simp [alt] at h

theorem wordPart_err {r : Str} (h : NotHead isWord r) : wordPart r = .err := by
  have h1 : alphanumeric1 r = .err :=
    takeWhile1_err.2 (notHead_mono h (by intro c hc; simp [isWord, hc]))
  have h2 : tag c!"_" r = .err :=
    tag_err_of (notHead_mono h (by intro c hc; simp only [beq_iff_eq] at hc; rw [hc]; decide))
  simp [wordPart, alt, h1, h2]

theorem wordPart_of_err {r : Str} (h : wordPart r = .err) : NotHead isWord r := by
  unfold wordPart alt at h
  intro c cs hc
  cases h1 : alphanumeric1 r with
  | ok a m => simp [h1] at h
  | out => simp [h1] at h
  | err =>
    simp only [h1, alt] at h
    cases h2 : tag c!"_" r with
    | ok a m => simp [h2] at h
    | out => simp [h2] at h
    | err =>
      have h3 := takeWhile1_err.1 h1 c cs hc
      have h4 : (c == '_') = false := by
        cases he : c == '_' with
        | false => rfl
        | true =>
          simp only [beq_iff_eq] at he
          rw [hc, he] at h2
          have := tag_append c!"_" cs
          simp only [List.cons_append, List.nil_append] at this
          rw [this] at h2
          simp at h2
      simp only [isWord]
      rw [h3, h4]; rfl

theorem words_ok {i r : Str} {as : List Str} (h : Reps wordPart i as r) :
    ∃ w, i = w ++ r ∧ (∀ x ∈ w, isWord x = true) ∧ NotHead isWord r := by
  induction h with
  | nil h => exact ⟨[], rfl, by simp, wordPart_of_err h⟩
  | cons hp _ _ ih =>
    obtain ⟨w, rfl, hw, hr⟩ := ih
    obtain ⟨rfl, _, ha⟩ := wordPart_ok hp
    refine ⟨_ ++ w, (List.append_assoc _ _ _).symm, ?_, hr⟩
    intro x hx
    rcases List.mem_append.1 hx with hx | hx
    · exact ha x hx
    · exact hw x hx

theorem words_of (w : Str) {r : Str} (hw : ∀ x ∈ w, isWord x = true) (hr : NotHead isWord r) :
    ∃ as, as.length ≤ w.length ∧ Reps wordPart (w ++ r) as r := by
  generalize hn : w.length = n
  induction n using Nat.strongRecOn generalizing w with
  | _ n ih =>
    cases w with
    | nil => exact ⟨[], by simp, .nil (wordPart_err hr)⟩
    | cons c cs =>
      have hstep : ∃ a y, wordPart (c :: cs ++ r) = .ok a (y ++ r) ∧ a ≠ [] ∧ c :: cs = a ++ y := by
        cases hc : (isAlpha c || isDigit c) with
        | true =>
          let f := fun c => isAlpha c || isDigit c
          have hsplit : (c :: cs) = (c :: cs).takeWhile f ++ (c :: cs).dropWhile f :=
            List.takeWhile_append_dropWhile.symm
          refine ⟨(c :: cs).takeWhile f, (c :: cs).dropWhile f, ?_, ?_, hsplit⟩
          · refine alt_cons_ok.2 (.inl (takeWhile1_ok.2 ⟨?_, ?_, takeWhile_all f _, ?_⟩))
            · rw [← List.append_assoc, ← hsplit]
            · simp [f, hc]
            · have hd := dropWhile_notHead f (c :: cs)
              cases hdw : (c :: cs).dropWhile f with
              | nil =>
                simp only [List.nil_append]
                exact notHead_mono hr (by
                  intro d hd
                  have hd' : (isAlpha d || isDigit d) = true := hd
                  simp only [isWord, hd', Bool.true_or])
              | cons d ds =>
                rw [hdw] at hd
                exact notHead_cons.2 (notHead_cons.1 hd)
          · simp [f, hc]
        | false =>
          have hu : c = '_' := by
            have := hw c (by simp)
            simp only [isWord, hc, Bool.false_or, beq_iff_eq] at this
            exact this
          refine ⟨['_'], cs, ?_, by simp, by simp [hu]⟩
          refine alt_cons_ok.2 (.inr ⟨takeWhile1_err.2 (notHead_cons.2 hc), ?_⟩)
          refine alt_cons_ok.2 (.inl (tag_ok.2 ⟨rfl, by simp [hu]⟩))
      obtain ⟨a, y, h1, h2, h3⟩ := hstep
      have hlen : (c :: cs).length = a.length + y.length := by rw [h3]; simp
      have hapos : 0 < a.length := List.length_pos_iff.2 h2
      obtain ⟨as, has, hreps⟩ := ih y.length (by omega) y
        (fun x hx => hw x (by rw [h3]; simp [hx])) rfl
      refine ⟨a :: as, by simp only [List.length_cons]; omega, .cons h1 ?_ hreps⟩
      rw [h3]
      simp only [List.length_append]
      omega

theorem take_sub {a r : Str} : (a ++ r).take ((a ++ r).length - r.length) = a := by
  have : (a ++ r).length - r.length = a.length := by simp
  rw [this, List.take_left]

theorem isWord_of_first {c : Char} (h : isAlpha c = true ∨ c = '_') : isWord c = true := by
  rcases h with h | h
  · simp [isWord, h]
  · rw [h]; decide

/-- `identifier` reads exactly the identifiers. -/
theorem identifier_ok {i a r : Str} :
    identifier i = .ok a r ↔ i = a ++ r ∧ Ident a ∧ NotHead isWord r := by
  constructor
  · intro h
    obtain ⟨h1, h2⟩ := verify_ok.1 h
    rw [reserved_iff] at h2
    obtain ⟨x, h3, h4⟩ := recognize_ok.1 h1
    obtain ⟨m, h5, h6⟩ := pair_ok.1 h3
    obtain ⟨w, rfl, hw, hr⟩ := words_ok (many0_reps h6)
    have hf : ∃ c cs, x.1 = c :: cs ∧ (isAlpha c = true ∨ c = '_') ∧
        (∀ x ∈ cs, isWord x = true) ∧ i = x.1 ++ (w ++ r) := by
      rcases alt_cons_ok.1 h5 with h5 | ⟨_, h5⟩
      · obtain ⟨g1, g2, g3, _⟩ := takeWhile1_ok.1 h5
        cases hx : x.1 with
        | nil => exact absurd hx g2
        | cons c cs =>
          rw [hx] at g1 g3
          simp only [List.all_cons, Bool.and_eq_true] at g3
          refine ⟨c, cs, rfl, .inl g3.1, ?_, g1⟩
          intro y hy
          have := List.all_eq_true.1 g3.2 y hy
          simp [isWord, this]
      · rcases alt_cons_ok.1 h5 with h5 | ⟨_, h5⟩
        · obtain ⟨g1, g2⟩ := tag_ok.1 h5
          exact ⟨'_', [], g1, .inr rfl, by simp, by rw [g1]; exact g2⟩
        · simp [alt] at h5
    obtain ⟨c, cs, hx, hc, hcs, rfl⟩ := hf
    rw [hx] at h4 ⊢
    have ha : a = (c :: cs) ++ w := by
      rw [h4, ← List.append_assoc, take_sub]
    subst ha
    refine ⟨by simp, ⟨⟨c, cs ++ w, rfl, hc, ?_⟩, h2⟩, hr⟩
    intro y hy
    rcases List.mem_append.1 hy with hy | hy
    · exact hcs y hy
    · exact hw y hy
  · rintro ⟨rfl, ⟨⟨c, cs, rfl, hc, hcs⟩, hres⟩, hr⟩
    refine verify_ok.2 ⟨recognize_ok.2 ?_, reserved_iff.2 hres⟩
    have hfirst : ∃ x y, alt [alpha1, tag c!"_"] (c :: cs ++ r) = .ok x (y ++ r) ∧
        ∀ z ∈ y, isWord z = true := by
      rcases hc with hc | hc
      · have hsplit : (c :: cs) = (c :: cs).takeWhile isAlpha ++ (c :: cs).dropWhile isAlpha :=
          List.takeWhile_append_dropWhile.symm
        refine ⟨(c :: cs).takeWhile isAlpha, (c :: cs).dropWhile isAlpha, ?_, ?_⟩
        · refine alt_cons_ok.2 (.inl (takeWhile1_ok.2 ⟨?_, ?_, takeWhile_all _ _, ?_⟩))
          · rw [← List.append_assoc, ← hsplit]
          · simp [hc]
          · have hd := dropWhile_notHead isAlpha (c :: cs)
            cases hdw : (c :: cs).dropWhile isAlpha with
            | nil =>
              simp only [List.nil_append]
              exact notHead_mono hr (by intro c hc; simp [isWord, hc])
            | cons d ds =>
              rw [hdw] at hd
              exact notHead_cons.2 (notHead_cons.1 hd)
        · intro z hz
          have : z ∈ c :: cs := (List.dropWhile_suffix isAlpha).subset hz
          rcases List.mem_cons.1 this with rfl | h
          · simp [isWord, hc]
          · exact hcs z h
      · refine ⟨['_'], cs, ?_, hcs⟩
        refine alt_cons_ok.2 (.inr ⟨takeWhile1_err.2 (notHead_cons.2 (by rw [hc]; decide)), ?_⟩)
        exact alt_cons_ok.2 (.inl (tag_ok.2 ⟨rfl, by simp [hc]⟩))
    obtain ⟨x, y, h1, h2⟩ := hfirst
    obtain ⟨as, has, hreps⟩ := words_of y h2 hr
    refine ⟨(x, as), pair_ok.2 ⟨y ++ r, h1, ?_⟩, take_sub.symm⟩
    exact reps_manyLoop hreps _ (by simp; omega)

/-- `identifier` fails where no letter or underscore begins. -/
theorem identifier_err {i : Str} (h : NotHead (fun c => isAlpha c || c == '_') i) :
    identifier i = .err := by
  have h1 : alpha1 i = .err := takeWhile1_err.2 (notHead_mono h (by intro c hc; simp [hc]))
  have h2 : tag c!"_" i = .err := tag_err_of (notHead_mono h (by intro c hc; simp_all))
  have h3 : alt [alpha1, tag c!"_"] i = .err := by simp [alt, h1, h2]
  unfold identifier verify recognize
  rw [show pair (alt [alpha1, tag c!"_"]) (many0 (alt [alphanumeric1, tag c!"_"])) i = .err from
    bind_err_of h3]

/-! ## Numbers -/

/-- Repeating a `..1` character parser reads one run. -/
theorem runs_ok {f : Char → Bool} {i r : Str} {as : List Str} (h : Reps (takeWhile1 f) i as r) :
    ∃ w, i = w ++ r ∧ w.all f = true ∧ NotHead f r := by
  induction h with
  | nil h => exact ⟨[], rfl, rfl, takeWhile1_err.1 h⟩
  | cons hp _ _ ih =>
    obtain ⟨w, rfl, hw, hr⟩ := ih
    obtain ⟨rfl, _, ha, _⟩ := takeWhile1_ok.1 hp
    exact ⟨_ ++ w, (List.append_assoc _ _ _).symm, by rw [List.all_append, ha, hw]; rfl, hr⟩

theorem runs_of {f : Char → Bool} {w r : Str} (hw : w.all f = true) (hr : NotHead f r) :
    ∃ as, as.length ≤ w.length ∧ Reps (takeWhile1 f) (w ++ r) as r := by
  cases w with
  | nil => exact ⟨[], by simp, .nil (takeWhile1_err.2 hr)⟩
  | cons c cs =>
    refine ⟨[c :: cs], by simp, .cons (takeWhile1_ok.2 ⟨rfl, by simp, hw, hr⟩) ?_
      (.nil (takeWhile1_err.2 hr))⟩
    simp only [List.length_append, List.length_cons]
    omega

theorem many0_run_ok {f : Char → Bool} {i r : Str} {as : List Str}
    (h : many0 (takeWhile1 f) i = .ok as r) : ∃ w, i = w ++ r ∧ w.all f = true ∧ NotHead f r :=
  runs_ok (many0_reps h)

theorem many0_run_of {f : Char → Bool} {w r : Str} (hw : w.all f = true) (hr : NotHead f r) :
    ∃ as, many0 (takeWhile1 f) (w ++ r) = .ok as r := by
  obtain ⟨as, h1, h2⟩ := runs_of hw hr
  exact ⟨as, reps_manyLoop h2 _ (by simp; omega)⟩

theorem many1_run_ok {f : Char → Bool} {i s r : Str} :
    recognize (many1 (takeWhile1 f)) i = .ok s r ↔
      i = s ++ r ∧ s ≠ [] ∧ s.all f = true ∧ NotHead f r := by
  constructor
  · intro h
    obtain ⟨x, h1, h2⟩ := recognize_ok.1 h
    obtain ⟨a, as, m, rfl, h3, h4⟩ := many1_ok.1 h1
    obtain ⟨rfl, ha, haf, _⟩ := takeWhile1_ok.1 h3
    obtain ⟨w, rfl, hw, hr⟩ := many0_run_ok h4
    rw [← List.append_assoc, take_sub] at h2
    subst h2
    exact ⟨by simp, by simp [ha], by rw [List.all_append, haf, hw]; rfl, hr⟩
  · rintro ⟨rfl, hs, hf, hr⟩
    obtain ⟨as, h⟩ := many0_run_of (f := f) (w := []) (by simp) hr
    exact recognize_ok.2 ⟨_, many1_ok.2 ⟨s, as, r, rfl, takeWhile1_ok.2 ⟨rfl, hs, hf, hr⟩, h⟩,
      take_sub.symm⟩

theorem isHex_iff {c : Char} : isHex c = true ↔ IsHexDigit c := by
  simp [isHex, IsHexDigit, or_assoc]

theorem isOct_iff {c : Char} : isOct c = true ↔ IsOctDigit c := by
  simp [isOct, IsOctDigit]

theorem nonzero_iff {c : Char} : c ∈ c!"1234567879" ↔ isDigit c = true ∧ c ≠ '0' := by
  constructor
  · intro h
    simp only [List.mem_cons, List.not_mem_nil, or_false] at h
    rcases h with h | h | h | h | h | h | h | h | h | h <;> subst h <;> decide
  · rintro ⟨h, h0⟩
    simp only [isDigit, Bool.and_eq_true, decide_eq_true_eq] at h
    have hc : c = Char.ofNat c.toNat := (Char.ofNat_toNat c).symm
    have hn : c.toNat ≠ 48 := by
      intro he
      apply h0
      rw [hc, he]
    have : c.toNat = 49 ∨ c.toNat = 50 ∨ c.toNat = 51 ∨ c.toNat = 52 ∨ c.toNat = 53 ∨
        c.toNat = 54 ∨ c.toNat = 55 ∨ c.toNat = 56 ∨ c.toNat = 57 := by omega
    rcases this with h | h | h | h | h | h | h | h | h <;> (rw [hc, h]; decide)

theorem decimal_nonzero_ok {i r : Str} {c : Constant} :
    decimal_nonzero i = .ok c r ↔ ∃ d x ds, c = .decimal d ∧ i = d ++ r ∧
      (d = x :: ds ∨ d = '-' :: x :: ds) ∧ isDigit x = true ∧ x ≠ '0' ∧
      (∀ y ∈ ds, isDigit y = true) ∧ NotHead isDigit r := by
  unfold decimal_nonzero
  simp only [map_ok, recognize_ok, pair_ok]
  constructor
  · rintro ⟨d, ⟨x, ⟨m, h1, m', h2, h3⟩, h4⟩, rfl⟩
    obtain ⟨rfl, hx⟩ := one_of_ok.1 h2
    obtain ⟨ds, rfl, hds, hr⟩ := many0_run_ok h3
    rw [nonzero_iff] at hx
    rcases opt_ok.1 h1 with ⟨s, h5, _⟩ | ⟨_, _, rfl⟩
    · obtain ⟨rfl, rfl⟩ := tag_ok.1 h5
      have hd : d = '-' :: x.2.1 :: ds := by
        rw [h4, show c!"-" ++ x.2.1 :: (ds ++ r) = ('-' :: x.2.1 :: ds) ++ r by simp, take_sub]
      subst hd
      exact ⟨_, x.2.1, ds, rfl, by simp, .inr rfl, hx.1, hx.2, List.all_eq_true.1 hds, hr⟩
    · have hd : d = x.2.1 :: ds := by
        rw [h4, show x.2.1 :: (ds ++ r) = (x.2.1 :: ds) ++ r by simp, take_sub]
      subst hd
      exact ⟨_, x.2.1, ds, rfl, by simp, .inl rfl, hx.1, hx.2, List.all_eq_true.1 hds, hr⟩
  · rintro ⟨d, x, ds, rfl, rfl, hd, hx, hx0, hds, hr⟩
    obtain ⟨as, has⟩ := many0_run_of (List.all_eq_true.2 hds) hr
    have h2 : one_of c!"1234567879" (x :: (ds ++ r)) = .ok x (ds ++ r) :=
      one_of_ok.2 ⟨rfl, nonzero_iff.2 ⟨hx, hx0⟩⟩
    have hm : x ≠ '-' := by rintro rfl; revert hx; decide
    refine ⟨d, ?_, rfl⟩
    rcases hd with rfl | rfl
    · refine ⟨(none, x, as), ⟨x :: (ds ++ r), opt_ok.2 (.inr ⟨?_, rfl, rfl⟩), ds ++ r, h2, has⟩,
        take_sub.symm⟩
      exact tag_err_of (notHead_cons.2 (by simp [hm]))
    · exact ⟨(some c!"-", x, as), ⟨x :: (ds ++ r), opt_ok.2 (.inl ⟨_, tag_ok.2 ⟨rfl, rfl⟩, rfl⟩),
        ds ++ r, h2, has⟩, take_sub.symm⟩

theorem hexadecimal_ok {i r : Str} {c : Constant} :
    hexadecimal i = .ok c r ↔ ∃ d, c = .hex d ∧ i = c!"0x" ++ d ++ r ∧ d ≠ [] ∧
      (∀ x ∈ d, IsHexDigit x) ∧ NotHead isHex r := by
  unfold hexadecimal
  simp only [map_ok, preceded_ok]
  constructor
  · rintro ⟨d, ⟨a, m, h1, h2⟩, rfl⟩
    obtain ⟨rfl, rfl⟩ := tag_ok.1 h1
    obtain ⟨rfl, hd, hf, hr⟩ := many1_run_ok.1 h2
    exact ⟨d, rfl, by simp, hd, fun x hx => isHex_iff.1 (List.all_eq_true.1 hf x hx), hr⟩
  · rintro ⟨d, rfl, rfl, hd, hf, hr⟩
    exact ⟨d, ⟨_, d ++ r, tag_ok.2 ⟨rfl, by simp⟩, many1_run_ok.2 ⟨rfl, hd,
      List.all_eq_true.2 fun x hx => isHex_iff.2 (hf x hx), hr⟩⟩, rfl⟩

theorem octal_ok {i r : Str} {c : Constant} :
    octal i = .ok c r ↔ ∃ d, c = .octal d ∧ i = c!"0" ++ d ++ r ∧ d ≠ [] ∧
      (∀ x ∈ d, IsOctDigit x) ∧ NotHead isOct r := by
  unfold octal
  simp only [map_ok, preceded_ok]
  constructor
  · rintro ⟨d, ⟨a, m, h1, h2⟩, rfl⟩
    obtain ⟨rfl, rfl⟩ := tag_ok.1 h1
    obtain ⟨rfl, hd, hf, hr⟩ := many1_run_ok.1 h2
    exact ⟨d, rfl, by simp, hd, fun x hx => isOct_iff.1 (List.all_eq_true.1 hf x hx), hr⟩
  · rintro ⟨d, rfl, rfl, hd, hf, hr⟩
    exact ⟨d, ⟨_, d ++ r, tag_ok.2 ⟨rfl, by simp⟩, many1_run_ok.2 ⟨rfl, hd,
      List.all_eq_true.2 fun x hx => isOct_iff.2 (hf x hx), hr⟩⟩, rfl⟩

theorem constant_text {i r : Str} {c : Constant} (h : constant i = .ok c r) :
    ∃ s, ConstantText c s ∧ i = s ++ r := by
  unfold constant at h
  rcases alt_cons_ok.1 h with h | ⟨_, h⟩
  · obtain ⟨d, x, ds, rfl, rfl, h1, h2, h3, h4, _⟩ := decimal_nonzero_ok.1 h
    exact ⟨d, ⟨rfl, .inr ⟨x, ds, h1, h2, h3, h4⟩⟩, rfl⟩
  rcases alt_cons_ok.1 h with h | ⟨_, h⟩
  · obtain ⟨d, rfl, rfl, h1, h2, _⟩ := hexadecimal_ok.1 h
    exact ⟨_, ⟨rfl, h1, h2⟩, rfl⟩
  rcases alt_cons_ok.1 h with h | ⟨_, h⟩
  · obtain ⟨d, rfl, rfl, h1, h2, _⟩ := octal_ok.1 h
    exact ⟨_, ⟨rfl, h1, h2⟩, rfl⟩
  rcases alt_cons_ok.1 h with h | ⟨_, h⟩
  · obtain ⟨a, h1, rfl⟩ := map_ok.1 h
    obtain ⟨rfl, rfl⟩ := tag_ok.1 h1
    exact ⟨_, ⟨rfl, .inl rfl⟩, rfl⟩
  · simp [alt] at h

theorem value_text {i r : Str} {v : Value} (h : value i = .ok v r) :
    ∃ s, ValueText v s ∧ i = s ++ r := by
  unfold value at h
  rcases alt_cons_ok.1 h with h | ⟨_, h⟩
  · obtain ⟨c, h1, rfl⟩ := map_ok.1 h
    exact constant_text h1
  rcases alt_cons_ok.1 h with h | ⟨_, h⟩
  · obtain ⟨a, h1, rfl⟩ := map_ok.1 h
    obtain ⟨rfl, h2, _⟩ := identifier_ok.1 h1
    exact ⟨a, ⟨rfl, h2⟩, rfl⟩
  · simp [alt] at h

theorem opt_value_text {i r : Str} {v : Option Value} (h : opt value i = .ok v r) :
    ∃ s, OptValueText v s ∧ i = s ++ r := by
  rcases opt_ok.1 h with ⟨a, h1, rfl⟩ | ⟨_, rfl, rfl⟩
  · exact value_text h1
  · exact ⟨[], rfl, rfl⟩

theorem isWord_of_digit {c : Char} (h : isDigit c = true) : isWord c = true := by
  simp [isWord, h]

theorem isWord_of_hex {c : Char} (h : isHex c = true) : isWord c = true := by
  simp only [isHex, Bool.or_eq_true, Bool.and_eq_true, decide_eq_true_eq] at h
  simp only [isWord, isAlpha, isLower, isUpper, Bool.or_eq_true, Bool.and_eq_true,
    decide_eq_true_eq]
  rcases h with (h | h) | h
  · exact .inl (.inr h)
  · exact .inl (.inl (.inr (by omega)))
  · exact .inl (.inl (.inl (by omega)))

theorem isWord_of_oct {c : Char} (h : isOct c = true) : isWord c = true := by
  apply isWord_of_digit
  simp only [isOct, isDigit, Bool.and_eq_true, decide_eq_true_eq] at h ⊢
  omega

theorem not_out_of_agree {α : Type} {p : P α} {i : Str}
    (h : p i ≠ .out) (h' : ∀ a r, p i ≠ .ok a r) : p i = .err := by
  cases hp : p i with
  | err => rfl
  | out => exact absurd hp h
  | ok a r => exact absurd hp (h' a r)

end Xdr.Rpcgen
