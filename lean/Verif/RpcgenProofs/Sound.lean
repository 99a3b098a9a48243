import Verif.RpcgenProofs.Lex
/-!
# What the parser accepts is a text of what it returns
-/

namespace Xdr.Rpcgen

theorem comment0_sym {c : Char} {i r : Str} {x : Option (List Str) × Str × Option (List Str)}
    (h : pair comment0 (pair (tag [c]) comment0) i = .ok x r) :
    ∃ g1 g2, Gap g1 ∧ Gap g2 ∧ i = g1 ++ [c] ++ g2 ++ r := by
  obtain ⟨m, h1, h2⟩ := pair_ok.1 h
  obtain ⟨m', h3, h4⟩ := pair_ok.1 h2
  obtain ⟨g1, hg1, rfl⟩ := comment0_gap h1
  obtain ⟨_, rfl⟩ := tag_ok.1 h3
  obtain ⟨g2, hg2, rfl⟩ := comment0_gap h4
  exact ⟨g1, g2, hg1, hg2, by simp⟩

theorem comment0_end {c : Char} {i r : Str} {x : Option (List Str) × Str}
    (h : pair comment0 (tag [c]) i = .ok x r) : ∃ g, Gap g ∧ i = g ++ [c] ++ r := by
  obtain ⟨m, h1, h2⟩ := pair_ok.1 h
  obtain ⟨g, hg, rfl⟩ := comment0_gap h1
  obtain ⟨_, rfl⟩ := tag_ok.1 h2
  exact ⟨g, hg, by simp⟩

theorem keyword_blank {t i r : Str} {x : Str × Str} (h : pair (tag t) multispace1 i = .ok x r) :
    ∃ b, Blank1 b ∧ i = t ++ b ++ r := by
  obtain ⟨m, h1, h2⟩ := pair_ok.1 h
  obtain ⟨_, rfl⟩ := tag_ok.1 h1
  obtain ⟨rfl, hb, _⟩ := multispace1_ok.1 h2
  exact ⟨x.2, hb, by simp⟩

theorem assign_text {i r : Str} {a : Assign} (h : assign i = .ok a r) :
    ∃ s, AssignText a s ∧ i = s ++ r := by
  obtain ⟨⟨n, v⟩, h1, rfl⟩ := map_ok.1 h
  obtain ⟨m, h2, h3⟩ := pair_ok.1 h1
  obtain ⟨_, m', h4, h5⟩ := preceded_ok.1 h3
  obtain ⟨rfl, hn, _⟩ := identifier_ok.1 h2
  obtain ⟨g1, g2, hg1, hg2, rfl⟩ := comment0_sym h4
  obtain ⟨s, hs, rfl⟩ := value_text h5
  exact ⟨_, ⟨g1, g2, s, hn, hg1, hg2, hs, rfl⟩, by simp⟩

theorem assigns_text {i r : Str} {as : List Assign}
    (h : SepReps (pair comment0 (pair (tag c!",") comment0)) assign i as r) :
    ∃ s, AssignsText as s ∧ i = s ++ r := by
  induction h with
  | nosep _ => exact ⟨[], rfl, rfl⟩
  | noelem _ _ => exact ⟨[], rfl, rfl⟩
  | cons hs hp _ _ ih =>
    obtain ⟨u, hu, rfl⟩ := ih
    obtain ⟨g1, g2, hg1, hg2, rfl⟩ := comment0_sym hs
    obtain ⟨t, ht, rfl⟩ := assign_text hp
    exact ⟨_, ⟨g1, g2, t, u, hg1, hg2, ht, hu, rfl⟩, by simp⟩

theorem enum_body_text {i r : Str} {as : List Assign} (h : enum_body i = .ok as r) :
    ∃ s, EnumText as s ∧ i = s ++ r := by
  obtain ⟨x, m, m', y, h1, h2, h3⟩ := delimited_ok.1 h
  obtain ⟨m1, h4, h5⟩ := pair_ok.1 h1
  obtain ⟨_, rfl⟩ := tag_ok.1 h4
  obtain ⟨g1, hg1, rfl⟩ := comment0_gap h5
  obtain ⟨a, as', m2, rfl, h6, h7⟩ := separated_list1_ok.1 h2
  obtain ⟨t, ht, rfl⟩ := assign_text h6
  obtain ⟨u, hu, rfl⟩ := assigns_text (sepLoop_reps h7)
  obtain ⟨g2, hg2, rfl⟩ := comment0_end h3
  exact ⟨_, ⟨g1, g2, t, u, hg1, hg2, ht, hu, rfl⟩, by simp⟩

theorem keyword_of {t b r : Str} (hb : Blank1 b) (hr : NotHead isSpace r) :
    pair (tag t) multispace1 (t ++ (b ++ r)) = .ok (t, b) r :=
  pair_ok.2 ⟨_, tag_ok.2 ⟨rfl, rfl⟩, multispace1_ok.2 ⟨rfl, hb, hr⟩⟩

/-- The text begins with a blank. -/
def SpaceHead (r : Str) : Prop := ∃ c cs, r = c :: cs ∧ isSpace c = true

theorem word_of {kw r : Str} (h : SpaceHead r) : word kw (kw ++ r) = .ok kw r := by
  obtain ⟨c, cs, rfl, hc⟩ := h
  refine terminated_ok.2 ⟨c :: cs, (c :: cs).takeWhile isSpace, tag_ok.2 ⟨rfl, rfl⟩,
    peek_ok.2 ⟨rfl, (c :: cs).dropWhile isSpace, ?_⟩⟩
  refine takeWhile1_ok.2 ⟨List.takeWhile_append_dropWhile.symm, ?_, takeWhile_all _ _,
    dropWhile_notHead _ _⟩
  simp [hc]

theorem unsigned_of {kw b r : Str} (hb : Blank1 b) (hkw : NotHead isSpace (kw ++ r))
    (h : SpaceHead r) : unsignedWord kw (c!"unsigned" ++ (b ++ (kw ++ r))) = .ok kw r :=
  preceded_ok.2 ⟨_, _, keyword_of hb hkw, word_of h⟩

theorem spaced_iff {r : Str} : Spaced r ↔ SpaceHead r := by
  constructor
  · rintro ⟨b, u, ⟨hb, hne⟩, rfl⟩
    cases b with
    | nil => exact absurd rfl hne
    | cons c cs => exact ⟨c, cs ++ u, rfl, isSpace_iff.2 (hb c (by simp))⟩
  · rintro ⟨c, cs, rfl, hc⟩
    exact ⟨[c], cs, ⟨fun x hx => by rw [List.mem_singleton.1 hx]; exact isSpace_iff.1 hc, by simp⟩, rfl⟩

/-- What is known of the text after a type. -/
def TypeEnds (s : Str) (t : TypeSpecifier) (r : Str) : Prop :=
  (t.isKeyword = true → SpaceHead r) ∧ (ShortType t → ¬ SpaceHead r) ∧
  (s = c!"unsigned" → ∀ w ∈ [c!"int", c!"hyper", c!"char", c!"short"], ∀ b r', Blank1 b →
    r = b ++ (w ++ r') → ¬ SpaceHead r')

/-- What holds of the parser for nested types. -/
def TypeSound (ts : P TypeSpecifier) : Prop :=
  ∀ i t r, ts i = .ok t r → ∃ s, TypeExact t s ∧ i = s ++ r ∧ TypeEnds s t r

theorem headOk_of {ty : TypeSpecifier} {s r : Str} {f : Str → Declaration} (h : TypeExact ty s)
    (he : map (tag c!"void") f (s ++ r) = .err) : HeadOk ty := by
  cases ty with
  | identifier name =>
    simp only [TypeExact] at h
    obtain ⟨rfl, _⟩ := h
    rintro ⟨u, rfl⟩
    rw [map_ok.2 ⟨_, tag_ok.2 ⟨rfl, by rw [List.append_assoc]⟩, rfl⟩] at he
    cases he
  | _ => trivial

theorem notShort_of {ty : TypeSpecifier} {s b r : Str} (h : TypeEnds s ty (b ++ r))
    (hb : Blank1 b) : ¬ ShortType ty := fun hs => h.2.1 hs (spaced_iff.1 ⟨b, r, hb, rfl⟩)

theorem DeclExact.mono {d : Declaration} {r r' s : Str} (h : DeclExact d r s)
    (hr : Spaced r' → Spaced r) : DeclExact d r' s := by
  cases d with
  | «variable» ty name =>
    simp only [DeclExact] at h ⊢
    obtain ⟨t, b, h1, h2, h3, h4, h5, h6, h7⟩ := h
    exact ⟨t, b, h1, h2, h3, h4, h5, fun a b c => h6 a b (hr c), h7⟩
  | _ => simpa only [DeclExact] using h

theorem spaced_append {g r : Str} (h : Spaced g) : Spaced (g ++ r) := by
  obtain ⟨b, u, hb, rfl⟩ := h
  exact ⟨b, u ++ r, hb, by simp⟩

theorem declaration_text {ts : P TypeSpecifier} (hts : TypeSound ts) {i r : Str} {d : Declaration}
    (h : declaration ts i = .ok d r) : ∃ s, DeclExact d r s ∧ i = s ++ r := by
  unfold declaration at h
  rcases alt_cons_ok.1 h with h | ⟨he, h⟩
  · obtain ⟨_, h1, rfl⟩ := map_ok.1 h
    obtain ⟨_, rfl⟩ := tag_ok.1 h1
    exact ⟨_, by simp only [DeclExact], rfl⟩
  rcases alt_cons_ok.1 h with h | ⟨_, h⟩
  · obtain ⟨⟨n, v⟩, h1, rfl⟩ := map_ok.1 h
    obtain ⟨m, h2, h3⟩ := pair_ok.1 h1
    obtain ⟨_, m1, h4, h5⟩ := preceded_ok.1 h2
    obtain ⟨b, hb, rfl⟩ := keyword_blank h4
    obtain ⟨rfl, hn, _⟩ := identifier_ok.1 h5
    obtain ⟨_, m2, m3, _, h6, h7, h8⟩ := delimited_ok.1 h3
    obtain ⟨_, rfl⟩ := tag_ok.1 h6
    obtain ⟨s, hs, rfl⟩ := value_text h7
    obtain ⟨_, rfl⟩ := tag_ok.1 h8
    simp only [DeclExact]
    exact ⟨_, ⟨b, s, hb, hn, hs, rfl⟩, by simp⟩
  rcases alt_cons_ok.1 h with h | ⟨_, h⟩
  · obtain ⟨⟨n, v⟩, h1, rfl⟩ := map_ok.1 h
    obtain ⟨m, h2, h3⟩ := pair_ok.1 h1
    obtain ⟨_, m1, h4, h5⟩ := preceded_ok.1 h2
    obtain ⟨b, hb, rfl⟩ := keyword_blank h4
    obtain ⟨rfl, hn, _⟩ := identifier_ok.1 h5
    obtain ⟨_, m2, m3, _, h6, h7, h8⟩ := delimited_ok.1 h3
    obtain ⟨_, rfl⟩ := tag_ok.1 h6
    obtain ⟨s, hs, rfl⟩ := opt_value_text h7
    obtain ⟨_, rfl⟩ := tag_ok.1 h8
    simp only [DeclExact]
    exact ⟨_, ⟨b, s, hb, hn, hs, rfl⟩, by simp⟩
  rcases alt_cons_ok.1 h with h | ⟨_, h⟩
  · obtain ⟨⟨n, v⟩, h1, rfl⟩ := map_ok.1 h
    obtain ⟨m, h2, h3⟩ := pair_ok.1 h1
    obtain ⟨_, m1, h4, h5⟩ := preceded_ok.1 h2
    obtain ⟨b, hb, rfl⟩ := keyword_blank h4
    obtain ⟨rfl, hn, _⟩ := identifier_ok.1 h5
    obtain ⟨_, m2, m3, _, h6, h7, h8⟩ := delimited_ok.1 h3
    obtain ⟨_, rfl⟩ := tag_ok.1 h6
    obtain ⟨s, hs, rfl⟩ := opt_value_text h7
    obtain ⟨_, rfl⟩ := tag_ok.1 h8
    simp only [DeclExact]
    exact ⟨_, ⟨b, s, hb, hn, hs, rfl⟩, by simp⟩
  rcases alt_cons_ok.1 h with h | ⟨_, h⟩
  · obtain ⟨⟨t, n, v⟩, h1, rfl⟩ := map_ok.1 h
    obtain ⟨m, h2, h3⟩ := pair_ok.1 h1
    obtain ⟨st, hst, rfl, hend⟩ := hts _ _ _ h2
    obtain ⟨m0, h4, h5⟩ := pair_ok.1 h3
    obtain ⟨b, m1, h6, h7⟩ := preceded_ok.1 h4
    obtain ⟨rfl, hb, _⟩ := multispace1_ok.1 h6
    obtain ⟨rfl, hn, _⟩ := identifier_ok.1 h7
    obtain ⟨_, m2, m3, _, h8, h9, h10⟩ := delimited_ok.1 h5
    obtain ⟨_, rfl⟩ := tag_ok.1 h8
    obtain ⟨s, hs, rfl⟩ := value_text h9
    obtain ⟨_, rfl⟩ := tag_ok.1 h10
    simp only [DeclExact]
    exact ⟨_, ⟨st, b, s, hst, headOk_of hst he, notShort_of hend hb, hb, hn, hs, rfl⟩, by simp⟩
  rcases alt_cons_ok.1 h with h | ⟨_, h⟩
  · obtain ⟨⟨t, n, v⟩, h1, rfl⟩ := map_ok.1 h
    obtain ⟨m, h2, h3⟩ := pair_ok.1 h1
    obtain ⟨st, hst, rfl, hend⟩ := hts _ _ _ h2
    obtain ⟨m0, h4, h5⟩ := pair_ok.1 h3
    obtain ⟨b, m1, h6, h7⟩ := preceded_ok.1 h4
    obtain ⟨rfl, hb, _⟩ := multispace1_ok.1 h6
    obtain ⟨rfl, hn, _⟩ := identifier_ok.1 h7
    obtain ⟨_, m2, m3, _, h8, h9, h10⟩ := delimited_ok.1 h5
    obtain ⟨_, rfl⟩ := tag_ok.1 h8
    obtain ⟨s, hs, rfl⟩ := opt_value_text h9
    obtain ⟨_, rfl⟩ := tag_ok.1 h10
    simp only [DeclExact]
    exact ⟨_, ⟨st, b, s, hst, headOk_of hst he, notShort_of hend hb, hb, hn, hs, rfl⟩, by simp⟩
  rcases alt_cons_ok.1 h with h | ⟨_, h⟩
  · obtain ⟨⟨t, n⟩, h1, rfl⟩ := map_ok.1 h
    obtain ⟨m, h2, h3⟩ := pair_ok.1 h1
    obtain ⟨st, hst, rfl, hkw⟩ := hts _ _ _ h2
    obtain ⟨⟨b, _, b'⟩, m1, h4, h5⟩ := preceded_ok.1 h3
    obtain ⟨m2, h6, h7⟩ := pair_ok.1 h4
    obtain ⟨m3, h8, h9⟩ := pair_ok.1 h7
    obtain ⟨rfl, hb, _⟩ := multispace0_ok.1 h6
    obtain ⟨_, rfl⟩ := tag_ok.1 h8
    obtain ⟨rfl, hb', _⟩ := multispace0_ok.1 h9
    obtain ⟨rfl, hn, _⟩ := identifier_ok.1 h5
    simp only [DeclExact]
    refine ⟨_, ⟨st, b, b', hst, headOk_of hst he, ?_, hb, ?_, hb', hn, rfl⟩, by simp⟩
    · intro hs
      refine Classical.byContradiction fun hne => ?_
      exact notShort_of (b := b) (by simpa using hkw) ⟨hb, hne⟩ hs
    intro hk he
    obtain ⟨c, cs, hc, hsp⟩ := hkw.1 hk
    rw [he] at hc
    simp only [List.nil_append, List.cons_append, List.cons.injEq] at hc
    rw [← hc.1] at hsp
    revert hsp
    decide
  rcases alt_cons_ok.1 h with h | ⟨_, h⟩
  · obtain ⟨⟨t, n⟩, h1, rfl⟩ := map_ok.1 h
    obtain ⟨m, h2, h3⟩ := pair_ok.1 h1
    obtain ⟨st, hst, rfl, hend⟩ := hts _ _ _ h2
    obtain ⟨b, m1, h6, h7⟩ := preceded_ok.1 h3
    obtain ⟨rfl, hb, _⟩ := multispace1_ok.1 h6
    obtain ⟨rfl, hn, _⟩ := identifier_ok.1 h7
    simp only [DeclExact]
    refine ⟨_, ⟨st, b, hst, headOk_of hst he, notShort_of hend hb, hb, hn, ?_, rfl⟩, by simp⟩
    intro hu hw hsp
    refine hend.2.2 hu n ?_ b r hb rfl (spaced_iff.1 hsp)
    rcases hw with rfl | rfl <;> decide
  · simp [alt] at h

/-! ## Structures -/

theorem members_append {ds : List Declaration} {t g : Str} (hds : ds ≠ []) (h : MembersExact ds t)
    (hg : Gap g) : MembersExact ds (t ++ g) := by
  induction ds generalizing t with
  | nil => exact absurd rfl hds
  | cons d ds ih =>
    simp only [MembersExact] at h ⊢
    obtain ⟨s, g1, g2, u, h1, h2, h3, h4, rfl⟩ := h
    cases ds with
    | nil =>
      simp only [MembersExact] at h4
      subst h4
      exact ⟨s, g1, g2 ++ g, [], h1, h2, gap_append h3 hg, by simp [MembersExact], by simp⟩
    | cons d' ds' => exact ⟨s, g1, g2, u ++ g, h1, h2, h3, ih (by simp) h4, by simp⟩

theorem member_text {ts : P TypeSpecifier} (hts : TypeSound ts) {i r : Str} {d : Declaration}
    (h : terminated (declaration ts) (pair comment0 (pair (tag c!";") comment0)) i = .ok d r) :
    ∃ t g1 g2, DeclExact d g1 t ∧ Gap g1 ∧ Gap g2 ∧ i = t ++ g1 ++ c!";" ++ g2 ++ r := by
  obtain ⟨m, _, h1, h2⟩ := terminated_ok.1 h
  obtain ⟨t, ht, rfl⟩ := declaration_text hts h1
  obtain ⟨g1, g2, hg1, hg2, rfl⟩ := comment0_sym h2
  exact ⟨t, g1, g2, ht.mono (fun h => by first | exact spaced_append h | (simp only [List.append_assoc]; exact spaced_append h)), hg1, hg2, by simp⟩

theorem members_text {ts : P TypeSpecifier} (hts : TypeSound ts) {i r : Str}
    {ds : List Declaration}
    (h : Reps (terminated (declaration ts) (pair comment0 (pair (tag c!";") comment0))) i ds r) :
    ∃ s, MembersExact ds s ∧ i = s ++ r := by
  induction h with
  | nil _ => exact ⟨[], by simp [MembersExact], rfl⟩
  | cons hp _ _ ih =>
    obtain ⟨u, hu, rfl⟩ := ih
    obtain ⟨t, g1, g2, ht, hg1, hg2, rfl⟩ := member_text hts hp
    exact ⟨_, by simp only [MembersExact]; exact ⟨t, g1, g2, u, ht, hg1, hg2, hu, rfl⟩, by simp⟩

theorem struct_body_text {ts : P TypeSpecifier} (hts : TypeSound ts) {i r : Str}
    {ds : List Declaration} (h : struct_body ts i = .ok ds r) :
    ∃ g t, Gap g ∧ ds ≠ [] ∧ MembersExact ds t ∧ i = c!"{" ++ g ++ t ++ c!"}" ++ r := by
  obtain ⟨_, m, m', _, h1, h2, h3⟩ := delimited_ok.1 h
  obtain ⟨m1, h4, h5⟩ := pair_ok.1 h1
  obtain ⟨_, rfl⟩ := tag_ok.1 h4
  obtain ⟨g1, hg1, rfl⟩ := comment0_gap h5
  obtain ⟨d, ds', m2, rfl, h6, h7⟩ := many1_ok.1 h2
  obtain ⟨t, g2, g3, ht, hg2, hg3, rfl⟩ := member_text hts h6
  obtain ⟨u, hu, rfl⟩ := members_text hts (many0_reps h7)
  obtain ⟨g4, hg4, rfl⟩ := comment0_end h3
  have hm : MembersExact (d :: ds') (t ++ g2 ++ c!";" ++ g3 ++ u) := by
    simp only [MembersExact]
    exact ⟨t, g2, g3, u, ht, hg2, hg3, hu, rfl⟩
  exact ⟨g1, _, hg1, by simp, members_append (by simp) hm hg4, by simp⟩

/-! ## Unions -/

/-- `case v:` with its gaps. -/
def oneLabel : P Value :=
  delimited (pair comment0 (pair (tag c!"case") comment0)) value
    (pair comment0 (pair (tag c!":") comment0))

theorem oneLabel_text {i r : Str} {v : Value} (h : oneLabel i = .ok v r) :
    ∃ g0 g1 t g2 g3, Gap g0 ∧ Gap g1 ∧ Gap g2 ∧ Gap g3 ∧ ValueText v t ∧
      i = g0 ++ c!"case" ++ g1 ++ t ++ g2 ++ c!":" ++ g3 ++ r := by
  obtain ⟨_, m, m', _, h1, h2, h3⟩ := delimited_ok.1 h
  obtain ⟨m1, h4, h5⟩ := pair_ok.1 h1
  obtain ⟨g0, hg0, rfl⟩ := comment0_gap h4
  obtain ⟨m2, h6, h7⟩ := pair_ok.1 h5
  obtain ⟨_, rfl⟩ := tag_ok.1 h6
  obtain ⟨g1, hg1, rfl⟩ := comment0_gap h7
  obtain ⟨t, ht, rfl⟩ := value_text h2
  obtain ⟨g2, g3, hg2, hg3, rfl⟩ := comment0_sym h3
  exact ⟨g0, g1, t, g2, g3, hg0, hg1, hg2, hg3, ht, by simp⟩

theorem labels_text {i r : Str} {vs : List Value} (h : Reps oneLabel i vs r) :
    ∃ g s, Gap g ∧ LabelsText vs s ∧ i = g ++ s ++ r := by
  induction h with
  | nil _ => exact ⟨[], [], gap_nil, rfl, rfl⟩
  | cons hp _ _ ih =>
    obtain ⟨g, s, hg, hs, rfl⟩ := ih
    obtain ⟨g0, g1, t, g2, g3, hg0, hg1, hg2, hg3, ht, rfl⟩ := oneLabel_text hp
    exact ⟨g0, _, hg0, ⟨g1, g2, g3 ++ g, t, s, hg1, hg2, gap_append hg3 hg, ht, hs, rfl⟩, by simp⟩

theorem case_spec_text {ts : P TypeSpecifier} (hts : TypeSound ts) {i r : Str} {c : CaseSpec}
    (h : case_spec ts i = .ok c r) : ∃ g s, Gap g ∧ CaseExact c s ∧ i = g ++ s ++ r := by
  obtain ⟨⟨vs, d⟩, h1, rfl⟩ := map_ok.1 h
  obtain ⟨m, h2, h3⟩ := pair_ok.1 h1
  obtain ⟨v, vs', m1, hvs, h4, h5⟩ := many1_ok.1 h2
  simp only at hvs
  subst hvs
  obtain ⟨g0, g1, t, g2, g3, hg0, hg1, hg2, hg3, ht, rfl⟩ := oneLabel_text h4
  obtain ⟨g, s, hg, hs, rfl⟩ := labels_text (many0_reps h5)
  obtain ⟨m2, _, h6, h7⟩ := terminated_ok.1 h3
  obtain ⟨u, hu, rfl⟩ := declaration_text hts h6
  obtain ⟨g4, hg4, rfl⟩ := comment0_end h7
  have hu' := hu.mono (r' := g4) (fun h => by first | exact spaced_append h | (simp only [List.append_assoc]; exact spaced_append h))
  have hl : LabelsText (v :: vs') (c!"case" ++ g1 ++ t ++ g2 ++ c!":" ++ (g3 ++ g) ++ s) :=
    ⟨g1, g2, g3 ++ g, t, s, hg1, hg2, gap_append hg3 hg, ht, hs, rfl⟩
  exact ⟨g0, _, hg0, by simp only [CaseExact]; exact ⟨_, u, g4, by simp, hl, hu', hg4, rfl⟩, by simp⟩

theorem cases_append {cs : List CaseSpec} {t g : Str} (hcs : cs ≠ []) (h : CasesExact cs t)
    (hg : Gap g) : CasesExact cs (t ++ g) := by
  induction cs generalizing t with
  | nil => exact absurd rfl hcs
  | cons c cs ih =>
    simp only [CasesExact] at h ⊢
    obtain ⟨s, g1, u, h1, h2, h3, rfl⟩ := h
    cases cs with
    | nil =>
      simp only [CasesExact] at h3
      subst h3
      exact ⟨s, g1 ++ g, [], h1, gap_append h2 hg, by simp [CasesExact], by simp⟩
    | cons c' cs' => exact ⟨s, g1, u ++ g, h1, h2, ih (by simp) h3, by simp⟩

theorem oneCase_text {ts : P TypeSpecifier} (hts : TypeSound ts) {i r : Str} {c : CaseSpec}
    (h : terminated (case_spec ts) comment0 i = .ok c r) :
    ∃ g s g', Gap g ∧ CaseExact c s ∧ Gap g' ∧ i = g ++ s ++ g' ++ r := by
  obtain ⟨m, _, h1, h2⟩ := terminated_ok.1 h
  obtain ⟨g, s, hg, hs, rfl⟩ := case_spec_text hts h1
  obtain ⟨g', hg', rfl⟩ := comment0_gap h2
  exact ⟨g, s, g', hg, hs, hg', by simp⟩

theorem cases_text {ts : P TypeSpecifier} (hts : TypeSound ts) {i r : Str} {cs : List CaseSpec}
    (h : Reps (terminated (case_spec ts) comment0) i cs r) :
    ∃ g s, Gap g ∧ CasesExact cs s ∧ i = g ++ s ++ r := by
  induction h with
  | nil _ => exact ⟨[], [], gap_nil, by simp [CasesExact], rfl⟩
  | cons hp _ _ ih =>
    obtain ⟨g, s, hg, hs, rfl⟩ := ih
    obtain ⟨g0, t, g', hg0, ht, hg', rfl⟩ := oneCase_text hts hp
    exact ⟨g0, _, hg0, by
      simp only [CasesExact]
      exact ⟨t, g' ++ g, s, ht, gap_append hg' hg, hs, rfl⟩, by simp⟩

theorem union_body_text {ts : P TypeSpecifier} (hts : TypeSound ts) {i r : Str} {b : UnionBody}
    (h : union_body ts i = .ok b r) : ∃ s, UnionExact b s ∧ i = s ++ r := by
  obtain ⟨⟨c, specs, d⟩, h1, rfl⟩ := map_ok.1 h
  obtain ⟨m, h2, h3⟩ := pair_ok.1 h1
  obtain ⟨_, m1, m2, _, h4, h5, h6⟩ := delimited_ok.1 h2
  obtain ⟨m3, h7, h8⟩ := pair_ok.1 h4
  obtain ⟨_, rfl⟩ := tag_ok.1 h7
  obtain ⟨g1, g2, hg1, hg2, rfl⟩ := comment0_sym h8
  obtain ⟨t, ht, rfl⟩ := declaration_text hts h5
  obtain ⟨m4, h9, h10⟩ := pair_ok.1 h6
  obtain ⟨g3, hg3, rfl⟩ := comment0_gap h9
  replace ht := ht.mono (r' := g3) (fun h => by first | exact spaced_append h | (simp only [List.append_assoc]; exact spaced_append h))
  obtain ⟨m5, h11, h12⟩ := pair_ok.1 h10
  obtain ⟨_, rfl⟩ := tag_ok.1 h11
  obtain ⟨g4, g5, hg4, hg5, rfl⟩ := comment0_sym h12
  obtain ⟨m6, h13, h14⟩ := pair_ok.1 h3
  obtain ⟨cs, css, m7, hcs, h15, h16⟩ := many1_ok.1 h13
  simp only at hcs
  subst hcs
  obtain ⟨g6, u, g7, hg6, hu, hg7, rfl⟩ := oneCase_text hts h15
  obtain ⟨g8, us, hg8, hus, rfl⟩ := cases_text hts (many0_reps h16)
  have hcases : CasesExact (cs :: css) (u ++ (g7 ++ g8) ++ us) := by
    simp only [CasesExact]
    exact ⟨u, g7 ++ g8, us, hu, gap_append hg7 hg8, hus, rfl⟩
  obtain ⟨m8, _, h17, h18⟩ := terminated_ok.1 h14
  obtain ⟨g9, hg9, rfl⟩ := comment0_end h18
  simp only at h17
  rcases opt_ok.1 h17 with ⟨a, h19, rfl⟩ | ⟨_, rfl, rfl⟩
  · obtain ⟨_, n1, n2, _, k1, k2, k3⟩ := delimited_ok.1 h19
    obtain ⟨n3, k4, k5⟩ := pair_ok.1 k1
    obtain ⟨g10, hg10, rfl⟩ := comment0_gap k4
    obtain ⟨n4, k6, k7⟩ := pair_ok.1 k5
    obtain ⟨_, rfl⟩ := tag_ok.1 k6
    obtain ⟨g11, g12, hg11, hg12, rfl⟩ := comment0_sym k7
    obtain ⟨w, hw, rfl⟩ := declaration_text hts k2
    obtain ⟨g13, hg13, rfl⟩ := comment0_end k3
    replace hw := hw.mono (r' := g13) (fun h => by first | exact spaced_append h | (simp only [List.append_assoc]; exact spaced_append h))
    have hdef : DefaultExact (some a)
        (c!"default" ++ g11 ++ c!":" ++ g12 ++ w ++ g13 ++ c!";" ++ g9) := by
      simp only [DefaultExact]
      exact ⟨g11, g12, g13, g9, w, hg11, hg12, hg13, hg9, hw, rfl⟩
    refine ⟨_, by
      simp only [UnionExact]
      exact ⟨g1, g2, g3, g4, g5 ++ g6, t, _, _, hg1, hg2, hg3, hg4, gap_append hg5 hg6, ht,
        by simp, cases_append (by simp) hcases hg10, hdef, rfl⟩, by simp⟩
  · refine ⟨_, by
      simp only [UnionExact]
      exact ⟨g1, g2, g3, g4, g5 ++ g6, t, _, _, hg1, hg2, hg3, hg4, gap_append hg5 hg6, ht,
        by simp, cases_append (by simp) hcases hg9, (by simp only [DefaultExact] : DefaultExact none []), rfl⟩, by simp⟩

theorem unionText_switch {b : UnionBody} {s : Str} (h : UnionExact b s) : ∃ x, s = 's' :: x := by
  cases b with
  | mk cond specs default =>
    simp only [UnionExact] at h
    obtain ⟨_, _, _, _, _, _, _, _, _, _, _, _, _, _, _, _, _, rfl⟩ := h
    exact ⟨_, rfl⟩

/-! ## Types -/

theorem word_text {t i a r : Str} (h : word t i = .ok a r) :
    i = t ++ r ∧ ∃ c cs, r = c :: cs ∧ isSpace c = true := by
  obtain ⟨m, _, h1, h2⟩ := terminated_ok.1 h
  obtain ⟨_, rfl⟩ := tag_ok.1 h1
  obtain ⟨rfl, m', h3⟩ := peek_ok.1 h2
  obtain ⟨rfl, hb, _⟩ := multispace1_ok.1 h3
  refine ⟨rfl, ?_⟩
  obtain ⟨hb, hne⟩ := hb
  rename_i b _ _
  cases b with
  | nil => exact absurd rfl hne
  | cons c cs =>
    exact ⟨c, cs ++ m', rfl, isSpace_iff.2 (hb c (by simp))⟩

theorem unsignedWord_text {t i a r : Str} (h : unsignedWord t i = .ok a r) :
    (∃ b, Blank1 b ∧ i = c!"unsigned" ++ b ++ t ++ r) ∧ ∃ c cs, r = c :: cs ∧ isSpace c = true := by
  obtain ⟨_, m, h1, h2⟩ := preceded_ok.1 h
  obtain ⟨b, hb, rfl⟩ := keyword_blank h1
  obtain ⟨rfl, h3⟩ := word_text h2
  exact ⟨⟨b, hb, by simp⟩, h3⟩

theorem map_not_err {α β : Type} {p : P α} {f : α → β} {i r : Str} {a : α} (h : p i = .ok a r)
    (he : map p f i = .err) : False := by
  rw [map_ok.2 ⟨a, h, rfl⟩] at he
  cases he

theorem ends_word {s r : Str} {t : TypeSpecifier} (h : SpaceHead r) (ht : ShortType t → False)
    (hs : s ≠ c!"unsigned") : TypeEnds s t r := ⟨fun _ => h, fun a => (ht a).elim, fun a => absurd a hs⟩

theorem unsigned_ne {b kw : Str} (hb : Blank1 b) : c!"unsigned" ++ b ++ kw ≠ c!"unsigned" := by
  intro h
  have := congrArg List.length h
  have := List.length_pos_iff.2 hb.2
  simp only [List.length_append] at *
  omega

theorem typeSpecifierWith_sound {ts : P TypeSpecifier} (hts : TypeSound ts) :
    TypeSound (typeSpecifierWith ts) := by
  intro i t r h
  unfold typeSpecifierWith at h
  rcases alt_cons_ok.1 h with h | ⟨e1, h⟩
  · obtain ⟨_, h1, rfl⟩ := map_ok.1 h
    obtain ⟨⟨b, hb, rfl⟩, h2⟩ := unsignedWord_text h1
    exact ⟨_, by simp only [TypeExact]; exact .inr ⟨b, hb, rfl⟩, by simp,
      ends_word h2 id (unsigned_ne hb)⟩
  rcases alt_cons_ok.1 h with h | ⟨e2, h⟩
  · obtain ⟨_, h1, rfl⟩ := map_ok.1 h
    obtain ⟨rfl, h2⟩ := word_text h1
    exact ⟨_, by simp only [TypeExact], rfl,
      ends_word h2 id (by decide)⟩
  rcases alt_cons_ok.1 h with h | ⟨e3, h⟩
  · obtain ⟨_, h1, rfl⟩ := map_ok.1 h
    obtain ⟨⟨b, hb, rfl⟩, h2⟩ := unsignedWord_text h1
    exact ⟨_, by simp only [TypeExact]; exact ⟨b, hb, rfl⟩, by simp,
      ends_word h2 id (unsigned_ne hb)⟩
  rcases alt_cons_ok.1 h with h | ⟨e4, h⟩
  · obtain ⟨_, h1, rfl⟩ := map_ok.1 h
    obtain ⟨rfl, h2⟩ := word_text h1
    exact ⟨_, by simp only [TypeExact], rfl,
      ends_word h2 id (by decide)⟩
  rcases alt_cons_ok.1 h with h | ⟨e5, h⟩
  · obtain ⟨_, h1, rfl⟩ := map_ok.1 h
    obtain ⟨⟨b, hb, rfl⟩, h2⟩ := unsignedWord_text h1
    exact ⟨_, by simp only [TypeExact]; exact ⟨b, hb, rfl⟩, by simp,
      ends_word h2 id (unsigned_ne hb)⟩
  rcases alt_cons_ok.1 h with h | ⟨e6, h⟩
  · obtain ⟨_, h1, rfl⟩ := map_ok.1 h
    obtain ⟨rfl, h2⟩ := word_text h1
    exact ⟨_, by simp only [TypeExact], rfl,
      ends_word h2 id (by decide)⟩
  rcases alt_cons_ok.1 h with h | ⟨e7, h⟩
  · obtain ⟨_, h1, rfl⟩ := map_ok.1 h
    obtain ⟨⟨b, hb, rfl⟩, h2⟩ := unsignedWord_text h1
    exact ⟨_, by simp only [TypeExact]; exact ⟨b, hb, rfl⟩, by simp,
      ends_word h2 id (unsigned_ne hb)⟩
  rcases alt_cons_ok.1 h with h | ⟨e8, h⟩
  · obtain ⟨_, h1, rfl⟩ := map_ok.1 h
    obtain ⟨rfl, h2⟩ := word_text h1
    exact ⟨_, by simp only [TypeExact], rfl,
      ends_word h2 id (by decide)⟩
  rcases alt_cons_ok.1 h with h | ⟨e9, h⟩
  · obtain ⟨_, h1, rfl⟩ := map_ok.1 h
    obtain ⟨rfl, h2⟩ := word_text h1
    refine ⟨_, by simp only [TypeExact]; exact .inl trivial, rfl, fun _ => h2, False.elim, ?_⟩
    intro _ w hw b r' hb hr hsp
    subst hr
    have hw' : ∀ w ∈ [c!"int", c!"hyper", c!"char", c!"short"], NotHead isSpace w ∧ w ≠ [] := by
      intro w hw
      simp only [List.mem_cons, List.not_mem_nil, or_false] at hw
      rcases hw with rfl | rfl | rfl | rfl <;> exact ⟨notHead_cons.2 (by decide), by simp⟩
    have hns : NotHead isSpace (w ++ r') := by
      obtain ⟨h1, h2⟩ := hw' w hw
      cases w with
      | nil => exact absurd rfl h2
      | cons c cs => exact notHead_cons.2 (notHead_cons.1 h1)
    have hok := unsigned_of hb hns hsp
    simp only [List.mem_cons, List.not_mem_nil, or_false] at hw
    rcases hw with rfl | rfl | rfl | rfl
    · exact map_not_err hok e1
    · exact map_not_err hok e3
    · exact map_not_err hok e5
    · exact map_not_err hok e7
  rcases alt_cons_ok.1 h with h | ⟨e10, h⟩
  · obtain ⟨_, h1, rfl⟩ := map_ok.1 h
    obtain ⟨rfl, h2⟩ := word_text h1
    exact ⟨_, by simp only [TypeExact], rfl,
      ends_word h2 id (by decide)⟩
  rcases alt_cons_ok.1 h with h | ⟨e11, h⟩
  · obtain ⟨_, h1, rfl⟩ := map_ok.1 h
    obtain ⟨rfl, h2⟩ := word_text h1
    exact ⟨_, by simp only [TypeExact], rfl,
      ends_word h2 id (by decide)⟩
  rcases alt_cons_ok.1 h with h | ⟨e12, h⟩
  · obtain ⟨_, h1, rfl⟩ := map_ok.1 h
    obtain ⟨rfl, h2⟩ := word_text h1
    exact ⟨_, by simp only [TypeExact], rfl,
      ends_word h2 id (by decide)⟩
  rcases alt_cons_ok.1 h with h | ⟨e13, h⟩
  · obtain ⟨_, h1, rfl⟩ := map_ok.1 h
    obtain ⟨rfl, h2⟩ := word_text h1
    exact ⟨_, by simp only [TypeExact], rfl,
      ends_word h2 id (by decide)⟩
  rcases alt_cons_ok.1 h with h | ⟨e14, h⟩
  · obtain ⟨body, h1, rfl⟩ := map_ok.1 h
    obtain ⟨_, m, h2, h3⟩ := preceded_ok.1 h1
    obtain ⟨b, hb, rfl⟩ := keyword_blank h2
    obtain ⟨s, hs, rfl⟩ := enum_body_text h3
    exact ⟨_, by simp only [TypeExact]; exact ⟨b, s, hb, hs, rfl⟩, by simp,
      by simp [TypeSpecifier.isKeyword], False.elim, by simp⟩
  rcases alt_cons_ok.1 h with h | ⟨e15, h⟩
  · obtain ⟨body, h1, rfl⟩ := map_ok.1 h
    obtain ⟨_, m, h2, h3⟩ := preceded_ok.1 h1
    obtain ⟨b, hb, rfl⟩ := keyword_blank h2
    obtain ⟨g, s, hg, hne, hs, rfl⟩ := struct_body_text hts h3
    exact ⟨_, by simp only [TypeExact]; exact ⟨b, g, s, hb, hg, hne, hs, rfl⟩, by simp,
      by simp [TypeSpecifier.isKeyword], False.elim, by simp⟩
  rcases alt_cons_ok.1 h with h | ⟨e16, h⟩
  · obtain ⟨body, h1, rfl⟩ := map_ok.1 h
    obtain ⟨_, m, h2, h3⟩ := preceded_ok.1 h1
    obtain ⟨b, hb, rfl⟩ := keyword_blank h2
    obtain ⟨s, hs, rfl⟩ := union_body_text hts h3
    exact ⟨_, by simp only [TypeExact]; exact ⟨b, s, hb, hs, rfl⟩, by simp,
      by simp [TypeSpecifier.isKeyword], False.elim, by simp⟩
  rcases alt_cons_ok.1 h with h | ⟨e17, h⟩
  · obtain ⟨n, h1, rfl⟩ := map_ok.1 h
    obtain ⟨rfl, hn, _⟩ := identifier_ok.1 h1
    refine ⟨_, by simp only [TypeExact]; exact ⟨trivial, hn⟩, rfl, by simp [TypeSpecifier.isKeyword],
      ?_, fun h => absurd (by rw [h]; decide) hn.2⟩
    rintro (rfl | rfl) hsp
    · exact map_not_err (word_of hsp) e6
    · exact map_not_err (word_of hsp) e8
  · simp [alt] at h

theorem type_specifier_sound (n : Nat) : TypeSound (type_specifier n) := by
  induction n with
  | zero => intro i t r h; simp [type_specifier] at h
  | succ n ih =>
    unfold type_specifier
    exact typeSpecifierWith_sound ih

/-! ## Definitions -/

theorem type_def_text {ts : P TypeSpecifier} (hts : TypeSound ts) {i r : Str} {d : TypeDef}
    (h : type_def ts i = .ok d r) : ∃ s, TypeDefExact d s ∧ i = s ++ r := by
  unfold type_def at h
  rcases alt_cons_ok.1 h with h | ⟨_, h⟩
  · obtain ⟨d, h1, rfl⟩ := map_ok.1 h
    obtain ⟨_, m, m', _, h2, h3, h4⟩ := delimited_ok.1 h1
    obtain ⟨b, hb, rfl⟩ := keyword_blank h2
    obtain ⟨t, ht, rfl⟩ := declaration_text hts h3
    obtain ⟨g, hg, rfl⟩ := comment0_end h4
    exact ⟨_, ⟨b, g, t, hb, hg, ht.mono (fun h => by first | exact spaced_append h | (simp only [List.append_assoc]; exact spaced_append h)), rfl⟩, by simp⟩
  rcases alt_cons_ok.1 h with h | ⟨_, h⟩
  · obtain ⟨⟨n, body⟩, h1, rfl⟩ := map_ok.1 h
    obtain ⟨_, m, m', _, h2, h3, h4⟩ := delimited_ok.1 h1
    obtain ⟨b, hb, rfl⟩ := keyword_blank h2
    obtain ⟨m1, h5, h6⟩ := pair_ok.1 h3
    obtain ⟨m2, _, h7, h8⟩ := terminated_ok.1 h5
    obtain ⟨rfl, hn, _⟩ := identifier_ok.1 h7
    obtain ⟨g', hg', rfl⟩ := comment0_gap h8
    obtain ⟨t, ht, rfl⟩ := enum_body_text h6
    obtain ⟨g, hg, rfl⟩ := comment0_end h4
    exact ⟨_, ⟨b, g', g, t, hb, hg', hg, hn, ht, rfl⟩, by simp⟩
  rcases alt_cons_ok.1 h with h | ⟨_, h⟩
  · obtain ⟨⟨n, body⟩, h1, rfl⟩ := map_ok.1 h
    obtain ⟨_, m, m', _, h2, h3, h4⟩ := delimited_ok.1 h1
    obtain ⟨b, hb, rfl⟩ := keyword_blank h2
    obtain ⟨m1, h5, h6⟩ := pair_ok.1 h3
    obtain ⟨m2, _, h7, h8⟩ := terminated_ok.1 h5
    obtain ⟨rfl, hn, _⟩ := identifier_ok.1 h7
    obtain ⟨g', hg', rfl⟩ := comment0_gap h8
    obtain ⟨g1, t, hg1, hne, ht, rfl⟩ := struct_body_text hts h6
    obtain ⟨g, hg, rfl⟩ := comment0_end h4
    exact ⟨_, ⟨b, g', g1, g, t, hb, hg', hg1, hg, hn, hne, ht, rfl⟩, by simp⟩
  rcases alt_cons_ok.1 h with h | ⟨_, h⟩
  · obtain ⟨⟨n, body⟩, h1, rfl⟩ := map_ok.1 h
    obtain ⟨_, m, m', _, h2, h3, h4⟩ := delimited_ok.1 h1
    obtain ⟨b, hb, rfl⟩ := keyword_blank h2
    obtain ⟨m1, h5, h6⟩ := pair_ok.1 h3
    obtain ⟨m2, _, h7, h8⟩ := terminated_ok.1 h5
    obtain ⟨rfl, hn, hnw⟩ := identifier_ok.1 h7
    obtain ⟨g', hg', rfl⟩ := comment0_gap h8
    obtain ⟨t, ht, rfl⟩ := union_body_text hts h6
    obtain ⟨g, hg, rfl⟩ := comment0_end h4
    refine ⟨_, ⟨b, g', g, t, hb, hg', ?_, hg, hn, ht, rfl⟩, by simp⟩
    rintro rfl
    obtain ⟨x, rfl⟩ := unionText_switch ht
    have := hnw 's' _ rfl
    revert this
    decide
  · simp [alt] at h

theorem typeOrVoid_text {ts : P TypeSpecifier} (hts : TypeSound ts) {i r : Str}
    {t : TypeSpecifier} (h : typeOrVoid ts i = .ok t r) :
    ∃ s, TypeOrVoidExact t s ∧ i = s ++ r ∧ TypeEnds s t r := by
  unfold typeOrVoid at h
  rcases alt_cons_ok.1 h with h | ⟨_, h⟩
  · obtain ⟨s, hs, rfl, hk⟩ := hts _ _ _ h
    refine ⟨s, ?_, rfl, hk⟩
    cases t <;> first | exact hs | (simp only [TypeExact] at hs)
  rcases alt_cons_ok.1 h with h | ⟨_, h⟩
  · obtain ⟨_, h1, rfl⟩ := map_ok.1 h
    obtain ⟨_, rfl⟩ := tag_ok.1 h1
    exact ⟨_, rfl, rfl, by simp [TypeSpecifier.isKeyword], False.elim, fun h => absurd h (by decide)⟩
  · simp [alt] at h

theorem number_text {i r : Str} {v : Value}
    (h : delimited (pair (tag c!"=") multispace0) value (pair multispace0 (tag c!";")) i = .ok v r) :
    ∃ b1 t b2, Blank b1 ∧ Blank b2 ∧ ValueText v t ∧ i = c!"=" ++ b1 ++ t ++ b2 ++ c!";" ++ r := by
  obtain ⟨_, m, m', _, h1, h2, h3⟩ := delimited_ok.1 h
  obtain ⟨m1, h4, h5⟩ := pair_ok.1 h1
  obtain ⟨_, rfl⟩ := tag_ok.1 h4
  obtain ⟨rfl, hb1, _⟩ := multispace0_ok.1 h5
  obtain ⟨t, ht, rfl⟩ := value_text h2
  obtain ⟨m2, h6, h7⟩ := pair_ok.1 h3
  obtain ⟨rfl, hb2, _⟩ := multispace0_ok.1 h6
  obtain ⟨_, rfl⟩ := tag_ok.1 h7
  exact ⟨_, t, _, hb1, hb2, ht, by simp⟩

theorem spaces_sym {c : Char} {i r : Str} {x : Str × Str × Str}
    (h : pair multispace0 (pair (tag [c]) multispace0) i = .ok x r) :
    Blank x.1 ∧ Blank x.2.2 ∧ i = x.1 ++ [c] ++ x.2.2 ++ r := by
  obtain ⟨m, h1, h2⟩ := pair_ok.1 h
  obtain ⟨m', h3, h4⟩ := pair_ok.1 h2
  obtain ⟨rfl, hb1, _⟩ := multispace0_ok.1 h1
  obtain ⟨_, rfl⟩ := tag_ok.1 h3
  obtain ⟨rfl, hb2, _⟩ := multispace0_ok.1 h4
  exact ⟨hb1, hb2, by simp⟩

theorem procedure_text {ts : P TypeSpecifier} (hts : TypeSound ts) {i r : Str} {p : Procedure}
    (h : procedure ts i = .ok p r) : ∃ s, ProcedureExact p s ∧ i = s ++ r := by
  obtain ⟨⟨a, n, c, v⟩, h1, rfl⟩ := map_ok.1 h
  obtain ⟨m, h2, h3⟩ := pair_ok.1 h1
  obtain ⟨m1, b1, h4, h5⟩ := terminated_ok.1 h2
  obtain ⟨t, ht, rfl, hend⟩ := typeOrVoid_text hts h4
  obtain ⟨rfl, hb1, _⟩ := multispace1_ok.1 h5
  obtain ⟨m2, h6, h7⟩ := pair_ok.1 h3
  obtain ⟨rfl, hn, _⟩ := identifier_ok.1 h6
  obtain ⟨m3, h8, h9⟩ := pair_ok.1 h7
  obtain ⟨x, m4, m5, y, h10, h11, h12⟩ := delimited_ok.1 h8
  obtain ⟨hb2, hb3, rfl⟩ := spaces_sym h10
  obtain ⟨u, hu, rfl, hk⟩ := typeOrVoid_text hts h11
  obtain ⟨hb4, hb5, rfl⟩ := spaces_sym h12
  obtain ⟨b6, w, b7, hb6, hb7, hw, rfl⟩ := number_text h9
  refine ⟨_, ⟨t, u, w, b1, x.1, x.2.2, y.1, y.2.2, b6, b7, ht, hu, hw, hn, hb1, hb2, hb3, hb4, hb5,
    hb6, hb7, ?_, notShort_of hend hb1, ?_, ?_, rfl⟩, by simp⟩
  · intro hkw he
    obtain ⟨d, ds, hd, hsp⟩ := hk.1 hkw
    rw [he] at hd
    simp only [List.nil_append, List.cons_append, List.cons.injEq] at hd
    rw [← hd.1] at hsp
    revert hsp
    decide
  · intro hu hw
    refine Classical.byContradiction fun hne => ?_
    refine hend.2.2 hu n ?_ b1 _ hb1 rfl (spaced_iff.1 ⟨x.1, _, ⟨hb2, hne⟩, by simp; rfl⟩)
    rcases hw with rfl | rfl <;> decide
  · intro hs
    refine Classical.byContradiction fun hne => ?_
    exact hk.2.1 hs (spaced_iff.1 ⟨y.1, _, ⟨hb4, hne⟩, by simp; rfl⟩)

theorem procedures_append {ps : List Procedure} {t b : Str} (hps : ps ≠ [])
    (h : ProceduresExact ps t) (hb : Blank b) : ProceduresExact ps (t ++ b) := by
  induction ps generalizing t with
  | nil => exact absurd rfl hps
  | cons p ps ih =>
    obtain ⟨s, b1, u, h1, h2, h3, rfl⟩ := h
    cases ps with
    | nil =>
      simp only [ProceduresExact] at h3
      subst h3
      exact ⟨s, b1 ++ b, [], h1, blank_append h2 hb, rfl, by simp⟩
    | cons p' ps' => exact ⟨s, b1, u ++ b, h1, h2, ih (by simp) h3, by simp⟩

theorem oneProcedure_text {ts : P TypeSpecifier} (hts : TypeSound ts) {i r : Str} {p : Procedure}
    (h : terminated (procedure ts) multispace0 i = .ok p r) :
    ∃ t b, ProcedureExact p t ∧ Blank b ∧ i = t ++ b ++ r := by
  obtain ⟨m, b, h1, h2⟩ := terminated_ok.1 h
  obtain ⟨t, ht, rfl⟩ := procedure_text hts h1
  obtain ⟨rfl, hb, _⟩ := multispace0_ok.1 h2
  exact ⟨t, b, ht, hb, by simp⟩

theorem procedures_text {ts : P TypeSpecifier} (hts : TypeSound ts) {i r : Str}
    {ps : List Procedure} (h : Reps (terminated (procedure ts) multispace0) i ps r) :
    ∃ s, ProceduresExact ps s ∧ i = s ++ r := by
  induction h with
  | nil _ => exact ⟨[], rfl, rfl⟩
  | cons hp _ _ ih =>
    obtain ⟨u, hu, rfl⟩ := ih
    obtain ⟨t, b, ht, hb, rfl⟩ := oneProcedure_text hts hp
    exact ⟨_, ⟨t, b, u, ht, hb, hu, rfl⟩, by simp⟩

theorem version_text {ts : P TypeSpecifier} (hts : TypeSound ts) {i r : Str} {x : Version}
    (h : version ts i = .ok x r) : ∃ s, VersionExact x s ∧ i = s ++ r := by
  obtain ⟨⟨n, ps, v⟩, h1, rfl⟩ := map_ok.1 h
  obtain ⟨m, h2, h3⟩ := pair_ok.1 h1
  obtain ⟨_, m1, h4, h5⟩ := preceded_ok.1 h2
  obtain ⟨b1, hb1, rfl⟩ := keyword_blank h4
  obtain ⟨rfl, hn, _⟩ := identifier_ok.1 h5
  obtain ⟨m2, h6, h7⟩ := pair_ok.1 h3
  obtain ⟨x, m3, m4, y, h8, h9, h10⟩ := delimited_ok.1 h6
  obtain ⟨hb2, hb3, rfl⟩ := spaces_sym h8
  obtain ⟨p, ps', m5, hps, h11, h12⟩ := many1_ok.1 h9
  simp only at hps
  subst hps
  obtain ⟨t, b, ht, hb, rfl⟩ := oneProcedure_text hts h11
  obtain ⟨u, hu, rfl⟩ := procedures_text hts (many0_reps h12)
  obtain ⟨hb4, hb5, rfl⟩ := spaces_sym h10
  obtain ⟨b6, w, b7, hb6, hb7, hw, rfl⟩ := number_text h7
  have hp : ProceduresExact (p :: ps') (t ++ b ++ u) := ⟨t, b, u, ht, hb, hu, rfl⟩
  exact ⟨_, ⟨_, w, b1, x.1, x.2.2, y.2.2, b6, b7, by simp, procedures_append (by simp) hp hb4, hw, hn,
    hb1, hb2, hb3, hb5, hb6, hb7, rfl⟩, by simp⟩

theorem versions_text {ts : P TypeSpecifier} (hts : TypeSound ts) {i r : Str}
    {xs : List Version} (h : Reps (version ts) i xs r) :
    ∃ s, VersionsExact xs s ∧ i = s ++ r := by
  induction h with
  | nil _ => exact ⟨[], rfl, rfl⟩
  | cons hp _ _ ih =>
    obtain ⟨u, hu, rfl⟩ := ih
    obtain ⟨t, ht, rfl⟩ := version_text hts hp
    exact ⟨_, ⟨t, u, ht, hu, rfl⟩, by simp⟩

theorem program_text {ts : P TypeSpecifier} (hts : TypeSound ts) {i r : Str} {x : Program}
    (h : program ts i = .ok x r) : ∃ s, ProgramExact x s ∧ i = s ++ r := by
  obtain ⟨⟨n, ps, v⟩, h1, rfl⟩ := map_ok.1 h
  obtain ⟨m, h2, h3⟩ := pair_ok.1 h1
  obtain ⟨_, m1, h4, h5⟩ := preceded_ok.1 h2
  obtain ⟨b1, hb1, rfl⟩ := keyword_blank h4
  obtain ⟨rfl, hn, _⟩ := identifier_ok.1 h5
  obtain ⟨m2, h6, h7⟩ := pair_ok.1 h3
  obtain ⟨x, m3, m4, y, h8, h9, h10⟩ := delimited_ok.1 h6
  obtain ⟨hb2, hb3, rfl⟩ := spaces_sym h8
  obtain ⟨p, ps', m5, hps, h11, h12⟩ := many1_ok.1 h9
  simp only at hps
  subst hps
  obtain ⟨t, ht, rfl⟩ := version_text hts h11
  obtain ⟨u, hu, rfl⟩ := versions_text hts (many0_reps h12)
  obtain ⟨hb4, hb5, rfl⟩ := spaces_sym h10
  obtain ⟨b6, w, b7, hb6, hb7, hw, rfl⟩ := number_text h7
  have hp : VersionsExact (p :: ps') (t ++ u) := ⟨t, u, ht, hu, rfl⟩
  exact ⟨_, ⟨_, w, b1, x.1, x.2.2, y.1, y.2.2, b6, b7, by simp, hp, hw, hn,
    hb1, hb2, hb3, hb4, hb5, hb6, hb7, rfl⟩, by simp⟩

theorem not_line_ending_text {i a r : Str} (h : not_line_ending i = .ok a r) :
    i = a ++ r ∧ ∀ c ∈ a, c ≠ '\r' ∧ c ≠ '\n' := by
  have key : i = i.takeWhile (fun c => !(c == '\r' || c == '\n')) ++
      i.dropWhile (fun c => !(c == '\r' || c == '\n')) := List.takeWhile_append_dropWhile.symm
  have hall := takeWhile_all (fun c => !(c == '\r' || c == '\n')) i
  have : a = i.takeWhile (fun c => !(c == '\r' || c == '\n')) ∧
      r = i.dropWhile (fun c => !(c == '\r' || c == '\n')) := by
    unfold not_line_ending at h
    dsimp only at h
    split at h <;> first
      | (simp only [PR.ok.injEq] at h; exact ⟨h.1.symm, h.2.symm⟩)
      | simp at h
  rw [this.1, this.2]
  refine ⟨key, ?_⟩
  intro c hc
  have := List.all_eq_true.1 hall c hc
  simpa using this

theorem comment_line_text {i a r : Str} (h : comment_line i = .ok a r) :
    ∃ s, DefinitionExact .lineComment s ∧ i = s ++ r := by
  obtain ⟨_, m, m', e, h1, h2, h3⟩ := delimited_ok.1 h
  obtain ⟨_, rfl⟩ := tag_ok.1 h1
  obtain ⟨rfl, ha⟩ := not_line_ending_text h2
  unfold line_ending at h3
  rcases alt_cons_ok.1 h3 with h | ⟨_, h⟩
  · obtain ⟨_, rfl⟩ := tag_ok.1 h
    exact ⟨_, ⟨a, _, ha, .inl rfl, rfl⟩, by simp⟩
  rcases alt_cons_ok.1 h with h | ⟨_, h⟩
  · obtain ⟨_, rfl⟩ := tag_ok.1 h
    exact ⟨_, ⟨a, _, ha, .inr rfl, rfl⟩, by simp⟩
  · simp [alt] at h

theorem definition_text {ts : P TypeSpecifier} (hts : TypeSound ts) {i r : Str} {d : Definition}
    (h : definition ts i = .ok d r) : ∃ s, DefinitionExact d s ∧ i = s ++ r := by
  unfold definition at h
  rcases alt_cons_ok.1 h with h | ⟨_, h⟩
  · obtain ⟨a, h1, rfl⟩ := map_ok.1 h
    obtain ⟨_, m, h2, h3⟩ := preceded_ok.1 h1
    obtain ⟨b, hb, rfl⟩ := keyword_blank h2
    obtain ⟨m', _, h4, h5⟩ := terminated_ok.1 h3
    obtain ⟨t, ht, rfl⟩ := assign_text h4
    obtain ⟨g, hg, rfl⟩ := comment0_end h5
    exact ⟨_, ⟨b, g, t, hb, hg, ht, rfl⟩, by simp⟩
  rcases alt_cons_ok.1 h with h | ⟨_, h⟩
  · obtain ⟨a, h1, rfl⟩ := map_ok.1 h
    exact type_def_text hts h1
  rcases alt_cons_ok.1 h with h | ⟨_, h⟩
  · obtain ⟨a, h1, rfl⟩ := map_ok.1 h
    exact program_text hts h1
  rcases alt_cons_ok.1 h with h | ⟨_, h⟩
  · obtain ⟨a, h1, rfl⟩ := map_ok.1 h
    exact comment_line_text h1
  · simp [alt] at h

theorem oneDefinition_text {ts : P TypeSpecifier} (hts : TypeSound ts) {i r : Str} {d : Definition}
    (h : delimited comment0 (definition ts) comment0 i = .ok d r) :
    ∃ g t g', Gap g ∧ DefinitionExact d t ∧ Gap g' ∧ i = g ++ t ++ g' ++ r := by
  obtain ⟨_, m, m', _, h1, h2, h3⟩ := delimited_ok.1 h
  obtain ⟨g, hg, rfl⟩ := comment0_gap h1
  obtain ⟨t, ht, rfl⟩ := definition_text hts h2
  obtain ⟨g', hg', rfl⟩ := comment0_gap h3
  exact ⟨g, t, g', hg, ht, hg', by simp⟩

theorem specification_text {ts : P TypeSpecifier} (hts : TypeSound ts) {i r : Str}
    {ds : List Definition} (h : Reps (delimited comment0 (definition ts) comment0) i ds r) :
    ∃ g s, Gap g ∧ DefinitionsExact ds s ∧ i = g ++ s ++ r ∧ (ds = [] → g = []) := by
  induction h with
  | nil _ => exact ⟨[], [], gap_nil, rfl, rfl, fun _ => rfl⟩
  | cons hp _ _ ih =>
    obtain ⟨g, s, hg, hs, rfl, _⟩ := ih
    obtain ⟨g0, t, g', hg0, ht, hg', rfl⟩ := oneDefinition_text hts hp
    exact ⟨g0, _, hg0, ⟨t, g' ++ g, s, ht, gap_append hg' hg, hs, rfl⟩, by simp, by simp⟩

theorem definitionText_ne_nil {d : Definition} {s : Str} (h : DefinitionExact d s) : s ≠ [] := by
  cases d with
  | type d =>
    cases d with
    | declaration d => obtain ⟨b, g, t, _, _, _, rfl⟩ := h; simp
    | enum n b => obtain ⟨b, g, g', t, _, _, _, _, _, rfl⟩ := h; simp
    | struct n b => obtain ⟨b, g, g1, g', t, _, _, _, _, _, _, _, rfl⟩ := h; simp
    | union n b => obtain ⟨b, g, g', t, _, _, _, _, _, _, rfl⟩ := h; simp
  | constant a => obtain ⟨b, g, t, _, _, _, rfl⟩ := h; simp
  | lineComment => obtain ⟨t, e, _, _, rfl⟩ := h; simp
  | program p =>
    obtain ⟨t, v, b1, b2, b3, b4, b5, b6, b7, _, _, _, _, _, _, _, _, _, _, _, rfl⟩ := h
    simp

/-- What `parse` accepts is a text of what it returns. -/
theorem parseWith_exact {n : Nat} {i : Str} {ds : List Definition} (h : parseWith n i = .ok ds) :
    FileExact ds i := by
  unfold parseWith at h
  cases hs : specification (type_specifier n) i with
  | err => simp [hs] at h
  | out => simp [hs] at h
  | ok ds' r =>
    rw [hs] at h
    dsimp only at h
    split at h
    · rename_i hr
      simp only [ParseResult.ok.injEq] at h
      subst h
      obtain ⟨g, s, hg, hs', rfl, hnil⟩ :=
        specification_text (type_specifier_sound n) (many0_reps hs)
      simp only [List.isEmpty_iff] at hr
      subst hr
      cases ds' with
      | nil =>
        simp only [DefinitionsExact] at hs'
        exact .inl ⟨rfl, by simp [hnil rfl, hs']⟩
      | cons d ds => exact .inr ⟨g, s, by simp, hg, hs', by simp⟩
    · simp at h

/-- `many0` of a parser that always consumes does not fail. -/
theorem manyLoop_ne_err {α : Type} {p : P α} (hp : ∀ i a r, p i = .ok a r → r.length ≠ i.length) :
    ∀ n i, manyLoop p n i ≠ .err := by
  intro n
  induction n with
  | zero => intro i; simp [manyLoop]
  | succ n ih =>
    intro i
    simp only [manyLoop]
    cases h : p i with
    | err => simp
    | out => simp
    | ok a r =>
      dsimp only
      rw [if_neg (hp i a r h)]
      have := ih r
      cases hm : manyLoop p n r with
      | err => exact absurd hm this
      | out => simp
      | ok as r' => simp

theorem parseWith_ne_parseError (n : Nat) (i : Str) : parseWith n i ≠ .parseError := by
  have : specification (type_specifier n) i ≠ .err := by
    apply manyLoop_ne_err
    intro i a r h
    obtain ⟨g, t, g', _, ht, _, rfl⟩ := oneDefinition_text (type_specifier_sound n) h
    have := List.length_pos_iff.2 (definitionText_ne_nil ht)
    simp only [List.length_append]
    omega
  unfold parseWith
  cases hs : specification (type_specifier n) i with
  | err => exact absurd hs this
  | out => simp
  | ok ds' r => dsimp only; split <;> simp

end Xdr.Rpcgen
