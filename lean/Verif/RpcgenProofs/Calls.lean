import Verif.RpcgenProofs.Cost
import Verif.RpcgenProofs.CompleteFile
import Verif.Spec.Calls
/-!
# The calls of `type_specifier`, counted exactly
-/

namespace Xdr.Rpcgen

open PC (lift)

variable {α β γ : Type}

/-- Where the parser succeeds, the calls are those told from its result. -/
structure Counts (pc : PC α) (p : P α) (w : α → Nat) : Prop where
  erases : Erases pc p
  cost : ∀ {i a r}, p i = .ok a r → (pc i).2 = w a

theorem bind_snd_ok {pc : PC α} {p : P α} {fc : α → PC β} (h : Erases pc p) {i a m}
    (hp : p i = .ok a m) : (pc.bind fc i).2 = (pc i).2 + (fc a m).2 := by
  have := h i
  rw [hp] at this
  simp only [PC.bind]
  rcases hc : pc i with ⟨x, k⟩
  rw [hc] at this
  cases this
  rfl

theorem bind_snd_err {pc : PC α} {p : P α} {fc : α → PC β} (h : Erases pc p) {i}
    (hp : p i = .err) : (pc.bind fc i).2 = (pc i).2 := by
  have := h i
  rw [hp] at this
  simp only [PC.bind]
  rcases hc : pc i with ⟨x, k⟩
  rw [hc] at this
  cases this
  rfl

/-- What follows costs nothing. -/
theorem bind_snd_free {pc : PC α} {fc : α → PC β} (h : ∀ a r, (fc a r).2 = 0) (i : Str) :
    (pc.bind fc i).2 = (pc i).2 := by
  simp only [PC.bind]
  rcases hc : pc i with ⟨x, k⟩
  cases x with
  | ok a r => simp [h]
  | err => rfl
  | out => rfl

theorem lift_bind_snd {p : P α} {fc : α → PC β} {i a m} (hp : p i = .ok a m) :
    ((lift p).bind fc i).2 = (fc a m).2 := by
  rw [bind_snd_ok (erases_lift p) hp]; simp [PC.lift]

theorem lift_bind_err {p : P α} {fc : α → PC β} {i} (hp : p i = .err) : ((lift p).bind fc i).2 = 0 := by
  rw [bind_snd_err (erases_lift p) hp]; rfl

theorem map_snd {pc : PC α} {f : α → β} (i : Str) : (pc.map f i).2 = (pc i).2 :=
  bind_snd_free (fun _ _ => rfl) i

theorem opt_snd {pc : PC α} (i : Str) : (PC.opt pc i).2 = (pc i).2 := by
  simp only [PC.opt]
  rcases pc i with ⟨x, k⟩
  cases x <;> rfl

theorem pair_lift_snd {pc : PC α} {q : P β} (i : Str) : (PC.pair pc (lift q) i).2 = (pc i).2 :=
  bind_snd_free (fun a r => bind_snd_free (fun _ _ => rfl) r) i

theorem terminated_lift_snd {pc : PC α} {q : P β} (i : Str) : (PC.terminated pc (lift q) i).2 = (pc i).2 :=
  bind_snd_free (fun a r => bind_snd_free (fun _ _ => rfl) r) i

theorem lift_pair_snd {p : P α} {qc : PC β} {i a m} (hp : p i = .ok a m) :
    (PC.pair (lift p) qc i).2 = (qc m).2 := by
  rw [PC.pair, lift_bind_snd hp]
  exact bind_snd_free (fun _ _ => rfl) m

theorem lift_pair_err {p : P α} {qc : PC β} {i} (hp : p i = .err) : (PC.pair (lift p) qc i).2 = 0 :=
  lift_bind_err hp

theorem lift_preceded_snd {p : P α} {qc : PC β} {i a m} (hp : p i = .ok a m) :
    (PC.preceded (lift p) qc i).2 = (qc m).2 := lift_bind_snd hp

theorem lift_preceded_err {p : P α} {qc : PC β} {i} (hp : p i = .err) :
    (PC.preceded (lift p) qc i).2 = 0 := lift_bind_err hp

theorem lift_delimited_snd {p : P α} {qc : PC β} {q : P γ} {i a m} (hp : p i = .ok a m) :
    (PC.delimited (lift p) qc (lift q) i).2 = (qc m).2 := by
  rw [PC.delimited, lift_bind_snd hp]
  exact bind_snd_free (fun _ r => bind_snd_free (fun _ _ => rfl) r) m

theorem lift_delimited_err {p : P α} {qc : PC β} {q : P γ} {i} (hp : p i = .err) :
    (PC.delimited (lift p) qc (lift q) i).2 = 0 := lift_bind_err hp

theorem counts_lift (p : P α) : Counts (lift p) p fun _ => 0 := ⟨erases_lift p, fun _ => rfl⟩

theorem counts_map {pc : PC α} {p : P α} {w : α → Nat} {w' : β → Nat} (f : α → β) (h : Counts pc p w)
    (hw : ∀ a, w' (f a) = w a) : Counts (pc.map f) (map p f) w' :=
  ⟨erases_map f h.erases, fun hp => by
    obtain ⟨a, ha, rfl⟩ := map_ok.1 hp
    rw [map_snd, h.cost ha, hw]⟩

theorem counts_pair {pc : PC α} {p : P α} {w : α → Nat} {qc : PC β} {q : P β} {w' : β → Nat}
    (h : Counts pc p w) (h' : Counts qc q w') :
    Counts (.pair pc qc) (pair p q) fun x => w x.1 + w' x.2 :=
  ⟨erases_pair h.erases h'.erases, fun {i x r} hp => by
    obtain ⟨m, h1, h2⟩ := pair_ok.1 hp
    rw [PC.pair, bind_snd_ok h.erases h1, bind_snd_free (fun _ _ => rfl), h.cost h1, h'.cost h2]⟩

theorem counts_terminated {pc : PC α} {p : P α} {w : α → Nat} (h : Counts pc p w) (q : P β) :
    Counts (.terminated pc (lift q)) (terminated p q) w :=
  ⟨erases_terminated h.erases (erases_lift q), fun hp => by
    obtain ⟨m, b, h1, h2⟩ := terminated_ok.1 hp
    rw [terminated_lift_snd, h.cost h1]⟩

theorem counts_preceded {qc : PC β} {q : P β} {w : β → Nat} (p : P α) (h : Counts qc q w) :
    Counts (.preceded (lift p) qc) (preceded p q) w :=
  ⟨erases_preceded (erases_lift p) h.erases, fun hp => by
    obtain ⟨a, m, h1, h2⟩ := preceded_ok.1 hp
    rw [lift_preceded_snd h1, h.cost h2]⟩

theorem counts_delimited {qc : PC β} {q : P β} {w : β → Nat} (p : P α) (h : Counts qc q w) (s : P γ) :
    Counts (.delimited (lift p) qc (lift s)) (delimited p q s) w :=
  ⟨erases_delimited (erases_lift p) h.erases (erases_lift s), fun hp => by
    obtain ⟨_, m, m', c, h1, h2, h3⟩ := delimited_ok.1 hp
    rw [lift_delimited_snd h1, h.cost h2]⟩

/-- The calls at one place in the text, after `k` calls for alternatives that failed. -/
def CountsAt (pc : PC α) (p : P α) (w : α → Nat) (k : Nat) (i : Str) : Prop :=
  ∀ a r, p i = .ok a r → k + (pc i).2 = w a

theorem countsAt_nil (w : α → Nat) (k : Nat) (i : Str) : CountsAt (.alt []) (alt []) w k i := by
  intro a r h; simp [alt] at h

theorem countsAt_cons {pc : PC α} {p : P α} {pcs : List (PC α)} {ps : List (P α)} {w : α → Nat} {k : Nat}
    {i : Str} (he : Erases pc p) (h : CountsAt pc p w k i)
    (h' : p i = .err → CountsAt (.alt pcs) (alt ps) w (k + (pc i).2) i) :
    CountsAt (.alt (pc :: pcs)) (alt (p :: ps)) w k i := by
  intro a r hp
  have hi := he i
  simp only [PC.alt]
  rcases hc : pc i with ⟨x, l⟩
  rw [hc] at hi
  simp only [alt] at hp
  cases hx : p i with
  | ok b m =>
    rw [hx] at hi hp
    simp only at hi hp
    subst hi
    have := h a r (by rw [hx, hp])
    rw [hc] at this
    exact this
  | err =>
    have hr := h' hx a r (by rw [hx] at hp; exact hp)
    rw [hx] at hi
    simp only at hi
    subst hi
    simp only
    rw [hc] at hr
    rw [← hr]
    simp only; omega
  | out => rw [hx] at hp; simp at hp

theorem countsAt_lift {p : P α} {w : α → Nat} {i : Str} (h : ∀ a r, p i = .ok a r → w a = 0) :
    CountsAt (lift p) p w 0 i := fun a r hp => by simp [PC.lift, h a r hp]

theorem Counts.at {pc : PC α} {p : P α} {w : α → Nat} (h : Counts pc p w) (i : Str) :
    CountsAt pc p w 0 i := fun a r hp => by rw [h.cost hp]; omega

/-- One alternative that never calls. -/
theorem countsAt_lift_cons {p : P α} {pcs : List (PC α)} {ps : List (P α)} {w : α → Nat}
    {i : Str} (h : ∀ a r, p i = .ok a r → w a = 0) (h' : CountsAt (.alt pcs) (alt ps) w 0 i) :
    CountsAt (.alt (lift p :: pcs)) (alt (p :: ps)) w 0 i :=
  countsAt_cons (erases_lift p) (countsAt_lift h) fun _ => h'

/-- The calls of a loop: those of its elements, and those of the attempt that ends it. -/
theorem many_snd {pc : PC α} {p : P α} {w : α → Nat} (h : Counts pc p w) {n i as r}
    (hp : manyLoop p n i = .ok as r) :
    (PC.manyLoop pc n i).2 = (as.map w).sum + (pc r).2 ∧ p r = .err := by
  induction n generalizing i as with
  | zero => simp [manyLoop] at hp
  | succ n ih =>
    have hi := h.erases i
    simp only [manyLoop] at hp
    simp only [PC.manyLoop]
    rcases hc : pc i with ⟨x, k⟩
    rw [hc] at hi
    cases hx : p i with
    | out => rw [hx] at hp; simp at hp
    | err =>
      rw [hx] at hp hi
      simp only [PR.ok.injEq] at hp hi
      obtain ⟨rfl, rfl⟩ := hp
      subst hi
      exact ⟨by simp [hc], hx⟩
    | ok a m =>
      have hk := h.cost hx
      rw [hc] at hk
      rw [hx] at hp hi
      simp only at hp hi hk
      subst hi
      by_cases hlen : m.length = i.length
      · rw [if_pos hlen] at hp; simp at hp
      · rw [if_neg hlen] at hp
        simp only [if_neg hlen]
        cases hl : manyLoop p n m with
        | err => rw [hl] at hp; simp at hp
        | out => rw [hl] at hp; simp at hp
        | ok bs r' =>
          rw [hl] at hp
          simp only [PR.ok.injEq] at hp
          obtain ⟨rfl, rfl⟩ := hp
          obtain ⟨h1, h2⟩ := ih hl
          have he := erases_manyLoop h.erases n m
          rw [hl] at he
          rcases hc' : PC.manyLoop pc n m with ⟨y, l⟩
          rw [hc'] at he h1
          simp only at he h1
          subst he
          refine ⟨?_, h2⟩
          simp only [h1, hk, List.map_cons, List.sum_cons]
          omega

theorem many1_snd {pc : PC α} {p : P α} {w : α → Nat} (h : Counts pc p w) {i as r}
    (hp : many1 p i = .ok as r) : (PC.many1 pc i).2 = (as.map w).sum + (pc r).2 ∧ p r = .err := by
  obtain ⟨a, m, h1, h2⟩ := bind_ok.1 hp
  obtain ⟨bs, m', h3, h4⟩ := bind_ok.1 h2
  obtain ⟨rfl, rfl⟩ := pure_ok.1 h4
  obtain ⟨h5, h6⟩ := many_snd h h3
  refine ⟨?_, h6⟩
  rw [PC.many1, bind_snd_ok h.erases h1, bind_snd_free (fun _ _ => rfl), h.cost h1]
  rw [PC.many0, h5, List.map_cons, List.sum_cons]
  omega

theorem keyword_word {kw i m : Str} {x : Str × Str} (hkw : kw.all isWord = true)
    (h : pair (tag kw) multispace1 i = .ok x m) : wordOf i = kw := by
  refine Classical.byContradiction fun hne => ?_
  have := keyword_err (kw := kw) hkw hne
  rw [this] at h
  simp at h

section
variable {tc : PC TypeSpecifier} {t : P TypeSpecifier}

/-- What the calls of the parser for nested types are. -/
structure TypeCounts (tc : PC TypeSpecifier) (t : P TypeSpecifier) : Prop where
  counts : Counts tc t TypeSpecifier.calls
  ends : ∀ i, wordOf i ≠ c!"struct" → wordOf i ≠ c!"union" → t i = .err → (tc i).2 = 1
  fails : ∀ i a r, wordOf i = [] → t i ≠ .ok a r

theorem counts_declaration (h : TypeCounts tc t) :
    Counts (declarationC tc) (declaration t) Declaration.calls := by
  refine ⟨erases_declaration h.counts.erases, fun {i a r} hp => ?_⟩
  have : CountsAt (declarationC tc) (declaration t) Declaration.calls 0 i := by
    unfold declarationC declaration
    refine countsAt_lift_cons ?_ (countsAt_lift_cons ?_ (countsAt_lift_cons ?_ (countsAt_lift_cons ?_ ?_)))
    · intro a r hp; obtain ⟨_, _, rfl⟩ := map_ok.1 hp; simp [Declaration.calls]
    · intro a r hp; obtain ⟨_, _, rfl⟩ := map_ok.1 hp; simp [Declaration.calls]
    · intro a r hp; obtain ⟨_, _, rfl⟩ := map_ok.1 hp; simp [Declaration.calls]
    · intro a r hp; obtain ⟨_, _, rfl⟩ := map_ok.1 hp; simp [Declaration.calls]
    have he := h.counts.erases
    refine countsAt_cons (by erase) ?_ fun _ => countsAt_cons (by erase) ?_ fun _ =>
      countsAt_cons (by erase) ?_ fun _ => countsAt_cons (by erase) ?_ fun _ => countsAt_nil _ _ _ <;>
    · intro a r hp
      obtain ⟨x, hx, rfl⟩ := map_ok.1 hp
      obtain ⟨m, h1, h2⟩ := pair_ok.1 hx
      simp only [map_snd, pair_lift_snd, h.counts.cost h1, Declaration.calls]
      omega
  have := this a r hp
  omega

theorem alt_snd_err {pc : PC α} {p : P α} {pcs : List (PC α)} (h : Erases pc p) {i}
    (hp : p i = .err) : (PC.alt (pc :: pcs) i).2 = (pc i).2 + (PC.alt pcs i).2 := by
  have := h i
  rw [hp] at this
  simp only [PC.alt]
  rcases hc : pc i with ⟨x, k⟩
  rw [hc] at this
  cases this
  rfl

theorem alt_lift_err {p : P α} {pcs : List (PC α)} {i} (hp : p i = .err) :
    (PC.alt (lift p :: pcs) i).2 = (PC.alt pcs i).2 := by
  rw [alt_snd_err (erases_lift p) hp]; simp [PC.lift]

/-- No declaration begins here: four calls. -/
theorem declaration_ends (h : TypeCounts tc t) {i : Str} (hi : wordOf i = [])
    (hne : declaration t i ≠ .out) : declaration t i = .err ∧ (declarationC tc i).2 = 4 := by
  have ho : pair (tag c!"opaque") multispace1 i = .err := keyword_err (by decide) (by rw [hi]; decide)
  have hs : pair (tag c!"string") multispace1 i = .err := keyword_err (by decide) (by rw [hi]; decide)
  have hv : tag c!"void" i = .err := tag_err_word (by decide) (by rw [hi]; decide)
  have hd := decl_skip (ts := t) (i := i) (by rw [hi]; decide) (by rw [hi]; decide) (by rw [hi]; decide)
  have ht : t i = .err := by
    cases ht : t i with
    | err => rfl
    | ok a r => exact absurd ht (h.fails i a r hi)
    | out =>
      refine absurd ?_ hne
      rw [hd]
      simp [alt, map, pair, P.bind, ht]
  have h1 := h.ends i (by rw [hi]; decide) (by rw [hi]; decide) ht
  have he := h.counts.erases
  constructor
  · rw [hd, alt_skip (map_err_of (pair_err_left ht)), alt_skip (map_err_of (pair_err_left ht)),
      alt_skip (map_err_of (pair_err_left ht)), alt_skip (map_err_of (pair_err_left ht))]
    rfl
  · unfold declarationC
    rw [alt_lift_err (map_err_of hv), alt_lift_err (map_err_of (pair_err_left (preceded_err_left ho))),
      alt_lift_err (map_err_of (pair_err_left (preceded_err_left ho))),
      alt_lift_err (map_err_of (pair_err_left (preceded_err_left hs)))]
    rw [alt_snd_err (erases_map _ (erases_pair he (erases_lift _))) (map_err_of (pair_err_left ht)),
      alt_snd_err (erases_map _ (erases_pair he (erases_lift _))) (map_err_of (pair_err_left ht)),
      alt_snd_err (erases_map _ (erases_pair he (erases_lift _))) (map_err_of (pair_err_left ht)),
      alt_snd_err (erases_map _ (erases_pair he (erases_lift _))) (map_err_of (pair_err_left ht))]
    simp only [map_snd, pair_lift_snd, h1, PC.alt]

theorem declsCalls_eq (ds : List Declaration) : declsCalls ds = (ds.map Declaration.calls).sum := by
  induction ds with
  | nil => rfl
  | cons d ds ih => simp [declsCalls, ih]

theorem casesCalls_eq (cs : List CaseSpec) : casesCalls cs = (cs.map CaseSpec.calls).sum := by
  induction cs with
  | nil => rfl
  | cons c cs ih => simp [casesCalls, ih]

/-- Only blanks and comments before a bracket: no word. -/
theorem gap_bracket_word {c : Char} {i r : Str} {x : Option (List Str) × Str} (hc : isWord c = false)
    (h : pair comment0 (tag [c]) i = .ok x r) : wordOf i = [] := by
  obtain ⟨m, h1, h2⟩ := pair_ok.1 h
  obtain ⟨g, hg, rfl⟩ := comment0_gap h1
  obtain ⟨_, rfl⟩ := tag_ok.1 h2
  exact wordOf_nil_iff.2 (gap_notHead noGap_word hg (notHead_cons.2 hc))

theorem terminated_ne_out {p : P α} {q : P β} {i : Str} (h : terminated p q i = .err) : p i ≠ .out := by
  intro ho; simp [terminated, P.bind, ho] at h

theorem counts_struct_body (h : TypeCounts tc t) :
    Counts (struct_bodyC tc) (struct_body t) fun ds => declsCalls ds + 4 := by
  refine ⟨erases_struct_body h.counts.erases, fun {i a r} hp => ?_⟩
  obtain ⟨_, m, m', c, h1, h2, h3⟩ := delimited_ok.1 hp
  rw [struct_bodyC, lift_delimited_snd h1]
  obtain ⟨h4, h5⟩ := many1_snd (counts_terminated (counts_declaration h) _) h2
  rw [h4, terminated_lift_snd, declsCalls_eq]
  rw [(declaration_ends h (gap_bracket_word (by decide) h3) (terminated_ne_out h5)).2]

theorem counts_case_spec (h : TypeCounts tc t) :
    Counts (case_specC tc) (case_spec t) CaseSpec.calls :=
  counts_map _ (counts_pair (counts_lift _) (counts_terminated (counts_declaration h) _))
    fun (v, d) => by simp [CaseSpec.calls]

/-- Where something else follows, the keyword does not. -/
theorem comment0_kw_err {c d : Char} {kw i r : Str} {x : Option (List Str)} (hc : (c == d) = false)
    (h : comment0 i = .ok x (c :: r)) {q : P β} : pair comment0 (pair (tag (d :: kw)) q) i = .err :=
  pair_err_right h (pair_err_left (tag_err_of (notHead_cons.2 hc)))

theorem counts_union_body (h : TypeCounts tc t) :
    Counts (union_bodyC tc) (union_body t) UnionBody.calls := by
  refine ⟨erases_union_body h.counts.erases, fun {i a r} hp => ?_⟩
  obtain ⟨⟨c, s, d⟩, hq, rfl⟩ := map_ok.1 hp
  obtain ⟨m, h1, h2⟩ := pair_ok.1 hq
  obtain ⟨m', h3, h4⟩ := pair_ok.1 h2
  obtain ⟨m'', x, h5, h6⟩ := terminated_ok.1 h4
  simp only at h1 h3 h5
  have hd := counts_declaration h
  have hcond := counts_delimited (pair (tag c!"switch") (pair comment0 (pair (tag c!"(") comment0))) hd
    (pair comment0 (pair (tag c!")") (pair comment0 (pair (tag c!"{") comment0))))
  have hcases := counts_terminated (counts_case_spec h) comment0
  have hdef := counts_delimited
    (pair comment0 (pair (tag c!"default") (pair comment0 (pair (tag c!":") comment0)))) hd
    (pair comment0 (tag c!";"))
  obtain ⟨h7, h8⟩ := many1_snd hcases h3
  -- the end of the cases
  have hnext : ∃ x c n, comment0 m' = .ok x (c :: n) ∧ (c == 'c') = false ∧
      (d = none → (c == 'd') = false) := by
    rcases opt_ok.1 h5 with ⟨d', hd', hd''⟩ | ⟨_, hn, hm⟩
    · obtain ⟨_, n1, n2, _, k1, _, _⟩ := delimited_ok.1 hd'
      obtain ⟨n3, k2, k3⟩ := pair_ok.1 k1
      obtain ⟨n4, k4, _⟩ := pair_ok.1 k3
      obtain ⟨_, rfl⟩ := tag_ok.1 k4
      exact ⟨_, 'd', _, k2, by decide, by simp_all⟩
    · obtain ⟨n, k1, k2⟩ := pair_ok.1 h6
      obtain ⟨_, rfl⟩ := tag_ok.1 k2
      exact ⟨_, '}', _, hm ▸ k1, by decide, fun _ => by decide⟩
  obtain ⟨y, c', n, k1, k2, k3⟩ := hnext
  have hend : (case_specC tc m').2 = 0 := by
    rw [case_specC, map_snd]
    exact lift_pair_err (bind_err_of (delimited_err_left (comment0_kw_err k2 k1)))
  have hopt : (PC.opt (PC.delimited
      (lift (pair comment0 (pair (tag c!"default") (pair comment0 (pair (tag c!":") comment0)))))
      (declarationC tc) (lift (pair comment0 (tag c!";")))) m').2 = defaultCalls d := by
    rw [opt_snd]
    rcases opt_ok.1 h5 with ⟨d', hd', hd''⟩ | ⟨_, hn, hm⟩
    · rw [hdef.cost hd', hd'', defaultCalls]
    · rw [lift_delimited_err (comment0_kw_err (k3 hn) k1), hn, defaultCalls]
  rw [union_bodyC, map_snd, PC.pair, bind_snd_ok hcond.erases h1, bind_snd_free (fun _ _ => rfl),
    PC.pair, bind_snd_ok (erases_many1 hcases.erases) h3, bind_snd_free (fun _ _ => rfl), hcond.cost h1,
    h7, terminated_lift_snd, terminated_lift_snd, hend, hopt, UnionBody.calls, casesCalls_eq]
  simp

theorem struct_type_free {i : Str} (h : wordOf i ≠ c!"struct") : (struct_type_specC tc i).2 = 0 :=
  lift_preceded_err (keyword_err (by decide) h)

theorem union_type_free {i : Str} (h : wordOf i ≠ c!"union") : (union_type_specC tc i).2 = 0 :=
  lift_preceded_err (keyword_err (by decide) h)

theorem alt_free {pcs : List (PC α)} {i : Str} (h : ∀ pc ∈ pcs, (pc i).2 = 0) : (PC.alt pcs i).2 = 0 := by
  induction pcs with
  | nil => rfl
  | cons pc pcs ih =>
    have h1 := h pc (by simp)
    have h2 := ih fun q hq => h q (by simp [hq])
    simp only [PC.alt]
    split
    · rename_i k hk
      rw [hk] at h1
      simp only at h1 ⊢
      omega
    · exact h1

theorem counts_typeSpecifierWith (h : TypeCounts tc t) :
    Counts (typeSpecifierWithC tc).tick (typeSpecifierWith t) TypeSpecifier.calls := by
  have he := erases_typeSpecifierWith h.counts.erases
  refine ⟨fun i => he i, fun {i a r} hp => ?_⟩
  have hs : Counts (struct_type_specC tc) (struct_type_spec t) _ :=
    counts_preceded (pair (tag c!"struct") multispace1) (counts_struct_body h)
  have hu : Counts (union_type_specC tc) (union_type_spec t) _ :=
    counts_preceded (pair (tag c!"union") multispace1) (counts_union_body h)
  have key : CountsAt (typeSpecifierWithC tc) (typeSpecifierWith t) (fun a => a.calls - 1) 0 i := by
    unfold typeSpecifierWithC typeSpecifierWith
    iterate 14
      refine countsAt_lift_cons ?_ ?_
      · intro a r hp; obtain ⟨_, _, rfl⟩ := map_ok.1 hp; simp [TypeSpecifier.calls]
    refine countsAt_cons (erases_map _ hs.erases) ?_ fun _ =>
      countsAt_cons (erases_map _ hu.erases) ?_ fun _ =>
      countsAt_cons (erases_lift _) ?_ fun _ => countsAt_nil _ _ _
    · intro a r hp
      obtain ⟨x, hx, rfl⟩ := map_ok.1 hp
      rw [map_snd, hs.cost hx]
      simp [TypeSpecifier.calls]
    · intro a r hp
      obtain ⟨x, hx, rfl⟩ := map_ok.1 hp
      obtain ⟨_, m, h1, h2⟩ := preceded_ok.1 hx
      have hw := keyword_word (by decide) h1
      rw [map_snd, map_snd, hu.cost hx, struct_type_free (by rw [hw]; decide)]
      simp [TypeSpecifier.calls]
    · intro a r hp
      obtain ⟨x, hx, rfl⟩ := map_ok.1 hp
      have hid : Ident (wordOf i) := Classical.byContradiction fun hn => by
        rw [identifier_err_word hn] at hx; simp at hx
      rw [map_snd, map_snd, struct_type_free (ident_not hid (by decide)),
        union_type_free (ident_not hid (by decide))]
      simp [TypeSpecifier.calls, PC.lift]
  have := key a r hp
  simp only at this
  have hpos : 1 ≤ a.calls := by cases a <;> simp [TypeSpecifier.calls]
  simp only [PC.tick]
  omega

theorem typeCounts : ∀ n, TypeCounts (type_specifierC n) (type_specifier n)
  | 0 => ⟨⟨fun _ => rfl, fun h => by simp [type_specifier] at h⟩,
      fun i _ _ h => by simp [type_specifier] at h, fun i a r _ h => by simp [type_specifier] at h⟩
  | n + 1 => by
    refine ⟨counts_typeSpecifierWith (typeCounts n), fun i h1 h2 h3 => ?_, fun i a r hi h => ?_⟩
    · show (typeSpecifierWithC (type_specifierC n) i).2 + 1 = 1
      rw [typeSpecifierWithC, alt_free]
      intro pc hpc
      simp only [List.mem_cons, List.not_mem_nil, or_false] at hpc
      rcases hpc with rfl | rfl | rfl | rfl | rfl | rfl | rfl | rfl | rfl | rfl | rfl | rfl | rfl | rfl |
        rfl | rfl | rfl
      all_goals first
        | rfl
        | (rw [map_snd, struct_type_free h1])
        | (rw [map_snd, union_type_free h2])
    · rw [type_specifier, typeSpecifierWith_fails (.inl hi)] at h
      simp at h

theorem counts_type_def (h : TypeCounts tc t) : Counts (type_defC tc) (type_def t) TypeDef.calls := by
  refine ⟨erases_type_def h.counts.erases, fun {i a r} hp => ?_⟩
  have hd := counts_map (w' := TypeDef.calls) .declaration
    (counts_delimited (pair (tag c!"typedef") multispace1) (counts_declaration h)
      (pair comment0 (tag c!";"))) fun _ => rfl
  have hs := counts_map (w' := TypeDef.calls) (fun (i, v) => .struct i v)
    (counts_delimited (pair (tag c!"struct") multispace1)
      (counts_pair (counts_lift (terminated identifier comment0)) (counts_struct_body h))
      (pair comment0 (tag c!";"))) fun (i, v) => by simp [TypeDef.calls]
  have hu := counts_map (w' := TypeDef.calls) (fun (i, v) => .union i v)
    (counts_delimited (pair (tag c!"union") multispace1)
      (counts_pair (counts_lift (terminated identifier comment0)) (counts_union_body h))
      (pair comment0 (tag c!";"))) fun (i, v) => by simp [TypeDef.calls]
  have key : CountsAt (type_defC tc) (type_def t) TypeDef.calls 0 i := by
    unfold type_defC type_def
    refine countsAt_cons hd.erases (hd.at i) fun _ => countsAt_cons (erases_lift _) ?_ fun _ =>
      countsAt_cons hs.erases ?_ fun _ => countsAt_cons hu.erases ?_ fun _ => countsAt_nil _ _ _
    · intro a r hp
      obtain ⟨x, hx, rfl⟩ := map_ok.1 hp
      obtain ⟨_, m, m', c, h1, h2, h3⟩ := delimited_ok.1 hx
      have hw := keyword_word (by decide) h1
      rw [map_snd, lift_delimited_err (keyword_err (by decide) (by rw [hw]; decide))]
      rfl
    · intro a r hp
      obtain ⟨x, hx, rfl⟩ := map_ok.1 hp
      obtain ⟨_, m, m', c, h1, h2, h3⟩ := delimited_ok.1 hx
      have hw := keyword_word (by decide) h1
      rw [hs.cost hp, map_snd, lift_delimited_err (keyword_err (by decide) (by rw [hw]; decide))]
      simp [PC.lift]
    · intro a r hp
      obtain ⟨x, hx, rfl⟩ := map_ok.1 hp
      obtain ⟨_, m, m', c, h1, h2, h3⟩ := delimited_ok.1 hx
      have hw := keyword_word (by decide) h1
      rw [hu.cost hp, map_snd, map_snd, lift_delimited_err (keyword_err (by decide) (by rw [hw]; decide)),
        lift_delimited_err (keyword_err (by decide) (by rw [hw]; decide))]
      simp [PC.lift]
  have := key a r hp
  omega

theorem counts_typeOrVoid (h : TypeCounts tc t) :
    Counts (typeOrVoidC tc) (typeOrVoid t) TypeSpecifier.calls := by
  have he := h.counts.erases
  refine ⟨by unfold typeOrVoidC typeOrVoid; erase, fun {i a r} hp => ?_⟩
  have key : CountsAt (typeOrVoidC tc) (typeOrVoid t) TypeSpecifier.calls 0 i := by
    unfold typeOrVoidC typeOrVoid
    refine countsAt_cons he (h.counts.at i) fun hi => countsAt_cons (erases_lift _) ?_ fun _ =>
      countsAt_nil _ _ _
    intro a r hp
    obtain ⟨x, hx, rfl⟩ := map_ok.1 hp
    have hpre : c!"void" <+: wordOf i :=
      prefix_wordOf (by decide) (by obtain ⟨_, rfl⟩ := tag_ok.1 hx; exact List.prefix_append _ _)
    rw [h.ends i (by intro hw; rw [hw] at hpre; revert hpre; decide)
      (by intro hw; rw [hw] at hpre; revert hpre; decide) hi]
    rfl
  have := key a r hp
  omega

theorem counts_procedure (h : TypeCounts tc t) :
    Counts (procedureC tc) (procedure t) Procedure.calls :=
  counts_map _ (counts_pair (counts_terminated (counts_typeOrVoid h) _)
    (counts_pair (counts_lift _) (counts_pair (counts_delimited _ (counts_typeOrVoid h) _)
      (counts_lift _)))) fun (a, b, c, d) => by simp [Procedure.calls]

/-- No procedure begins here: one call. -/
theorem procedure_ends (h : TypeCounts tc t) {i : Str} (hi : wordOf i = [])
    (hne : procedure t i ≠ .out) : (procedureC tc i).2 = 1 := by
  have he := h.counts.erases
  have ht : t i = .err := by
    cases ht : t i with
    | err => rfl
    | ok a r => exact absurd ht (h.fails i a r hi)
    | out =>
      refine absurd ?_ hne
      simp [procedure, typeOrVoid, terminated, alt, map, pair, P.bind, ht]
  have h1 := h.ends i (by rw [hi]; decide) (by rw [hi]; decide) ht
  have hv : tag c!"void" i = .err := tag_err_word (by decide) (by rw [hi]; decide)
  have h2 : typeOrVoid t i = .err := by
    rw [typeOrVoid, alt_skip ht, alt_skip (map_err_of hv)]; rfl
  have h3 : (typeOrVoidC tc i).2 = 1 := by
    rw [typeOrVoidC, alt_snd_err he ht, alt_lift_err (map_err_of hv), h1]; rfl
  rw [procedureC, map_snd, PC.pair, bind_snd_err (p := terminated (typeOrVoid t) multispace1)
    (erases_terminated (counts_typeOrVoid h).erases (erases_lift _)) (bind_err_of h2),
    terminated_lift_snd, h3]

theorem counts_version (h : TypeCounts tc t) : Counts (versionC tc) (version t) Version.calls := by
  refine ⟨erases_version h.counts.erases, fun {i a r} hp => ?_⟩
  obtain ⟨⟨a, b, c⟩, hq, rfl⟩ := map_ok.1 hp
  obtain ⟨m, h1, h2⟩ := pair_ok.1 hq
  obtain ⟨m', h3, h4⟩ := pair_ok.1 h2
  obtain ⟨_, m1, m2, x, h5, h6, h7⟩ := delimited_ok.1 h3
  obtain ⟨h8, h9⟩ := many1_snd (counts_terminated (counts_procedure h) multispace0) h6
  have hw : wordOf m2 = [] := by
    obtain ⟨n, k1, k2⟩ := pair_ok.1 h7
    obtain ⟨n', k3, _⟩ := pair_ok.1 k2
    obtain ⟨rfl, hb, _⟩ := multispace0_ok.1 k1
    obtain ⟨_, rfl⟩ := tag_ok.1 k3
    exact wordOf_nil_iff.2 (blank_notHead noGap_word hb (notHead_cons.2 (by decide)))
  rw [versionC, map_snd, lift_pair_snd h1, pair_lift_snd, lift_delimited_snd h5, h8, terminated_lift_snd,
    procedure_ends h hw (terminated_ne_out h9), Version.calls]

theorem counts_program (h : TypeCounts tc t) :
    Counts (programC tc) (program t) fun p => (p.versions.map Version.calls).sum := by
  refine ⟨erases_program h.counts.erases, fun {i a r} hp => ?_⟩
  obtain ⟨⟨a, b, c⟩, hq, rfl⟩ := map_ok.1 hp
  obtain ⟨m, h1, h2⟩ := pair_ok.1 hq
  obtain ⟨m', h3, h4⟩ := pair_ok.1 h2
  obtain ⟨_, m1, m2, x, h5, h6, h7⟩ := delimited_ok.1 h3
  obtain ⟨h8, h9⟩ := many1_snd (counts_version h) h6
  have hw : wordOf m2 = [] := by
    obtain ⟨n, k1, k2⟩ := pair_ok.1 h7
    obtain ⟨n', k3, _⟩ := pair_ok.1 k2
    obtain ⟨rfl, hb, _⟩ := multispace0_ok.1 k1
    obtain ⟨_, rfl⟩ := tag_ok.1 k3
    exact wordOf_nil_iff.2 (blank_notHead noGap_word hb (notHead_cons.2 (by decide)))
  have hend : (versionC tc m2).2 = 0 := by
    rw [versionC, map_snd]
    exact lift_pair_err (preceded_err_left (keyword_err (by decide) (by rw [hw]; decide)))
  rw [programC, map_snd, lift_pair_snd h1, pair_lift_snd, lift_delimited_snd h5, h8, hend]
  rfl

theorem type_def_free {i : Str} (h1 : wordOf i ≠ c!"typedef") (h2 : wordOf i ≠ c!"struct")
    (h3 : wordOf i ≠ c!"union") : (type_defC tc i).2 = 0 := by
  rw [type_defC, alt_free]
  intro pc hpc
  simp only [List.mem_cons, List.not_mem_nil, or_false] at hpc
  rcases hpc with rfl | rfl | rfl | rfl
  · rw [map_snd, lift_delimited_err (keyword_err (by decide) h1)]
  · rfl
  · rw [map_snd, lift_delimited_err (keyword_err (by decide) h2)]
  · rw [map_snd, lift_delimited_err (keyword_err (by decide) h3)]

theorem program_free {i : Str} (h : wordOf i ≠ c!"program") : (programC tc i).2 = 0 := by
  rw [programC, map_snd]
  exact lift_pair_err (preceded_err_left (keyword_err (by decide) h))

theorem counts_definition (h : TypeCounts tc t) :
    Counts (definitionC tc) (definition t) Definition.calls := by
  refine ⟨erases_definition h.counts.erases, fun {i a r} hp => ?_⟩
  have ht := counts_map (w' := Definition.calls) .type (counts_type_def h) fun _ => rfl
  have hpr := counts_map (w' := Definition.calls) .program (counts_program h) fun _ => rfl
  have key : CountsAt (definitionC tc) (definition t) Definition.calls 0 i := by
    unfold definitionC definition
    refine countsAt_lift_cons ?_ (countsAt_cons ht.erases (ht.at i) fun _ =>
      countsAt_cons hpr.erases ?_ fun _ => countsAt_cons (erases_lift _) ?_ fun _ => countsAt_nil _ _ _)
    · intro a r hp; obtain ⟨_, _, rfl⟩ := map_ok.1 hp; rfl
    · intro a r hp
      obtain ⟨x, hx, rfl⟩ := map_ok.1 hp
      obtain ⟨y, hy, _⟩ := map_ok.1 hx
      obtain ⟨m, h1, _⟩ := pair_ok.1 hy
      obtain ⟨_, m', h2, _⟩ := preceded_ok.1 h1
      have hw := keyword_word (by decide) h2
      rw [hpr.cost hp, map_snd, type_def_free (by rw [hw]; decide) (by rw [hw]; decide)
        (by rw [hw]; decide)]
      simp
    · intro a r hp
      obtain ⟨x, hx, rfl⟩ := map_ok.1 hp
      obtain ⟨_, m, m', c, h1, h2, h3⟩ := delimited_ok.1 hx
      obtain ⟨_, rfl⟩ := tag_ok.1 h1
      have hw : wordOf (c!"%" ++ m) = [] := wordOf_nil_iff.2 (notHead_cons.2 (by decide))
      rw [map_snd, map_snd, type_def_free (by rw [hw]; decide) (by rw [hw]; decide)
        (by rw [hw]; decide), program_free (by rw [hw]; decide)]
      rfl
  have := key a r hp
  omega

/-- The calls for a whole text. -/
theorem parseC_snd {n : Nat} {i : Str} {ds : List Definition} (hp : parseWith n i = .ok ds) :
    (parseC n i).2 = fileCalls ds := by
  have h := counts_delimited comment0 (counts_definition (typeCounts n)) comment0
  simp only [parseWith] at hp
  cases hs : specification (type_specifier n) i with
  | err => simp [hs] at hp
  | out => simp [hs] at hp
  | ok as r =>
    rw [hs] at hp
    simp only at hp
    split at hp
    · rename_i hr
      simp only [ParseResult.ok.injEq] at hp
      subst hp
      obtain ⟨h1, h2⟩ := many_snd h hs
      have : r = [] := by simpa using hr
      subst this
      show (PC.manyLoop _ _ i).2 = _
      rw [h1, fileCalls]
      have : (PC.delimited (lift comment0) (definitionC (type_specifierC n)) (lift comment0) []).2 = 0 := by
        obtain ⟨x, hx⟩ := comment0_of_gap (r := []) gap_nil (by intro c cs h; simp at h)
        rw [lift_delimited_snd (show comment0 [] = _ from hx), definitionC, alt_free]
        intro pc hpc
        simp only [List.mem_cons, List.not_mem_nil, or_false] at hpc
        rcases hpc with rfl | rfl | rfl | rfl
        · rfl
        · rw [map_snd, type_def_free (by decide) (by decide) (by decide)]
        · rw [map_snd, program_free (by decide)]
        · rfl
      rw [this]
      rfl
    · simp at hp

end

end Xdr.Rpcgen
