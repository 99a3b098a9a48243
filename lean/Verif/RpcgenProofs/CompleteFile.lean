import Verif.RpcgenProofs.Complete
/-!
# Definitions, programs and files: every text is read back
-/

namespace Xdr.Rpcgen

theorem identGap_of {n g r : Str} (hn : Ident n) (hg : Gap g) (hr : Tight r)
    (hw : NotHead isWord r) : terminated identifier comment0 (n ++ (g ++ r)) = .ok n r := by
  obtain ⟨x, hx⟩ := comment0_of_gap hg hr
  exact terminated_ok.2 ⟨_, x, identifier_of hn (gap_notHead noGap_word hg hw), hx⟩

theorem enumText_open {as : List Assign} {s : Str} (h : EnumText as s) : ∃ x, s = '{' :: x := by
  cases as with
  | nil => simp [EnumText] at h
  | cons a as =>
    obtain ⟨_, _, _, _, _, _, _, _, rfl⟩ := h
    exact ⟨_, rfl⟩

theorem gap_cons_notWord {g r : Str} (hg : Gap g) (hne : g ≠ []) : NotHead isWord (g ++ r) := by
  cases hg with
  | blank hb => exact Blank1.notWord ⟨hb, hne⟩
  | @comment s body rest hs _ _ =>
    simp only [List.append_assoc]
    exact blank_notHead noGap_word hs (notHead_cons.2 (by decide))

theorem type_def_of {ts : P TypeSpecifier} {k : Nat} (h : Good ts k) {d : TypeDef} {s r : Str}
    (hlen : s.length ≤ k) (ht : TypeDefExact d s) :
    type_def ts (s ++ r) = .ok d r := by
  cases d with
  | declaration d =>
    obtain ⟨b, g, t, hb, hg, ht, rfl⟩ := ht
    simp only [List.length_append] at hlen
    simp only [List.append_assoc]
    obtain ⟨x, hx⟩ := end_of (c := ';') (r := r) hg (tight_cons.2 (by decide))
    exact alt_cons_ok.2 (.inl (map_ok.2 ⟨d, delimited_ok.2 ⟨_, _, _, x,
      keyword_of hb (decl_tight ht).notSpace, declaration_of h (by omega) (ht.mono (spaced_of_append (by decide)))
        (gap_notHead noGap_declStop hg (notHead_cons.2 (by decide))), hx⟩, rfl⟩))
  | enum name body =>
    obtain ⟨b, g, g', t, hb, hg, hg', hn, ht, rfl⟩ := ht
    simp only [List.append_assoc]
    obtain ⟨x, hx⟩ := end_of (c := ';') (r := r) hg' (tight_cons.2 (by decide))
    obtain ⟨t', ht'⟩ := enumText_open ht
    have hid : terminated identifier comment0 (name ++ (g ++ (t ++ (g' ++ ';' :: r)))) =
        .ok name (t ++ (g' ++ ';' :: r)) := identGap_of hn hg
      (by rw [ht']; exact tight_cons.2 (by decide)) (by rw [ht']; exact notHead_cons.2 (by decide))
    show type_def ts (c!"enum" ++ (b ++ (name ++ (g ++ (t ++ (g' ++ ';' :: r)))))) = _
    have hw : wordOf (c!"enum" ++ (b ++ (name ++ (g ++ (t ++ (g' ++ ';' :: r)))))) = c!"enum" :=
      wordOf_append (by decide) hb.notWord
    unfold type_def
    rw [alt_skip (map_err_of (delimited_err_left (keyword_err (by decide) (by rw [hw]; decide))))]
    exact alt_cons_ok.2 (.inl (map_ok.2 ⟨(name, body), delimited_ok.2 ⟨_, _, _, x,
      keyword_of hb (ident_notSpace hn), pair_ok.2 ⟨_, hid, enum_body_of ht⟩, hx⟩, rfl⟩))
  | struct name body =>
    obtain ⟨b, g, g1, g', t, hb, hg, hg1, hg', hn, hne, ht, rfl⟩ := ht
    simp only [List.length_append] at hlen
    simp only [List.append_assoc]
    obtain ⟨x, hx⟩ := end_of (c := ';') (r := r) hg' (tight_cons.2 (by decide))
    have hid : terminated identifier comment0
        (name ++ (g ++ '{' :: (g1 ++ (t ++ '}' :: (g' ++ ';' :: r))))) =
        .ok name ('{' :: (g1 ++ (t ++ '}' :: (g' ++ ';' :: r)))) := identGap_of hn hg
      (tight_cons.2 (by decide)) (notHead_cons.2 (by decide))
    show type_def ts
      (c!"struct" ++ (b ++ (name ++ (g ++ '{' :: (g1 ++ (t ++ '}' :: (g' ++ ';' :: r))))))) = _
    have hw : wordOf (c!"struct" ++
        (b ++ (name ++ (g ++ '{' :: (g1 ++ (t ++ '}' :: (g' ++ ';' :: r))))))) = c!"struct" :=
      wordOf_append (by decide) hb.notWord
    unfold type_def
    rw [alt_skip (map_err_of (delimited_err_left (keyword_err (by decide) (by rw [hw]; decide)))),
      alt_skip (map_err_of (delimited_err_left (keyword_err (by decide) (by rw [hw]; decide))))]
    exact alt_cons_ok.2 (.inl (map_ok.2 ⟨(name, body), delimited_ok.2 ⟨_, _, _, x,
      keyword_of hb (ident_notSpace hn), pair_ok.2 ⟨_, hid,
        struct_body_of h (by omega) hg1 hne ht⟩, hx⟩, rfl⟩))
  | union name body =>
    obtain ⟨b, g, g', t, hb, hg, hgne, hg', hn, ht, rfl⟩ := ht
    simp only [List.length_append] at hlen
    simp only [List.append_assoc]
    obtain ⟨x, hx⟩ := end_of (c := ';') (r := r) hg' (tight_cons.2 (by decide))
    obtain ⟨t', ht'⟩ := unionText_switch ht
    have hid : terminated identifier comment0 (name ++ (g ++ (t ++ (g' ++ ';' :: r)))) =
        .ok name (t ++ (g' ++ ';' :: r)) := by
      obtain ⟨y, hy⟩ := comment0_of_gap (r := t ++ (g' ++ ';' :: r)) hg
        (by rw [ht']; exact tight_cons.2 (by decide))
      exact terminated_ok.2 ⟨_, y, identifier_of hn (gap_cons_notWord hg hgne), hy⟩
    show type_def ts (c!"union" ++ (b ++ (name ++ (g ++ (t ++ (g' ++ ';' :: r)))))) = _
    have hw : wordOf (c!"union" ++ (b ++ (name ++ (g ++ (t ++ (g' ++ ';' :: r)))))) = c!"union" :=
      wordOf_append (by decide) hb.notWord
    unfold type_def
    rw [alt_skip (map_err_of (delimited_err_left (keyword_err (by decide) (by rw [hw]; decide)))),
      alt_skip (map_err_of (delimited_err_left (keyword_err (by decide) (by rw [hw]; decide)))),
      alt_skip (map_err_of (delimited_err_left (keyword_err (by decide) (by rw [hw]; decide))))]
    exact alt_cons_ok.2 (.inl (map_ok.2 ⟨(name, body), delimited_ok.2 ⟨_, _, _, x,
      keyword_of hb (ident_notSpace hn), pair_ok.2 ⟨_, hid, union_body_of h (by omega) ht⟩, hx⟩,
      rfl⟩))

/-! ## Programs -/

theorem typeOrVoid_of {ts : P TypeSpecifier} {k : Nat} (h : Good ts k) {ty : TypeSpecifier}
    {s r : Str} (hlen : s.length ≤ k) (ht : TypeOrVoidExact ty s)
    (hf : TypeFollow s ty r) : typeOrVoid ts (s ++ r) = .ok ty r := by
  by_cases hv : ty = .void
  · subst hv
    simp only [TypeOrVoidExact] at ht
    subst ht
    unfold typeOrVoid
    rw [alt_skip (h.fails _ (.inr (wordOf_append (by decide) hf.1)))]
    exact alt_cons_ok.2 (.inl (map_ok.2 ⟨_, tag_ok.2 ⟨rfl, rfl⟩, rfl⟩))
  · have ht' : TypeExact ty s := by cases ty <;> first | exact ht | exact absurd rfl hv
    exact alt_cons_ok.2 (.inl (h.reads ty s r hlen ht' hf))

theorem typeOrVoid_notSpace {ty : TypeSpecifier} {s r : Str} (ht : TypeOrVoidExact ty s) :
    NotHead isSpace (s ++ r) := by
  by_cases hv : ty = .void
  · subst hv
    simp only [TypeOrVoidExact] at ht
    subst ht
    exact notHead_cons.2 (by decide)
  · have ht' : TypeExact ty s := by cases ty <;> first | exact ht | exact absurd rfl hv
    obtain ⟨c, cs, rfl, hc⟩ := type_head ht'
    exact (tight_of_word hc).notSpace

theorem typeOrVoid_head {ty : TypeSpecifier} {s : Str} (ht : TypeOrVoidExact ty s) :
    ∃ c cs, s = c :: cs ∧ isWord c = true := by
  by_cases hv : ty = .void
  · subst hv
    simp only [TypeOrVoidExact] at ht
    subst ht
    exact ⟨_, _, rfl, by decide⟩
  · have ht' : TypeExact ty s := by cases ty <;> first | exact ht | exact absurd rfl hv
    exact type_head ht'

theorem number_of {v : Value} {b1 b2 t r : Str} (hb1 : Blank b1) (hb2 : Blank b2)
    (ht : ValueText v t) :
    delimited (pair (tag c!"=") multispace0) value (pair multispace0 (tag c!";"))
      ('=' :: (b1 ++ (t ++ (b2 ++ ';' :: r)))) = .ok v r :=
  delimited_ok.2 ⟨(c!"=", b1), t ++ (b2 ++ ';' :: r), b2 ++ ';' :: r, (b2, c!";"),
    pair_ok.2 ⟨_, tag_ok.2 ⟨rfl, rfl⟩, multispace0_ok.2 ⟨rfl, hb1, (value_tight ht).notSpace⟩⟩,
    value_of ht (blank_notHead noGap_word hb2 (notHead_cons.2 (by decide))),
    pair_ok.2 ⟨';' :: r, multispace0_ok.2 ⟨rfl, hb2, notHead_cons.2 (by decide)⟩,
      tag_ok.2 ⟨rfl, rfl⟩⟩⟩

theorem notSpaced_cons {c : Char} {r : Str} (hc : isSpace c = false) : ¬ Spaced (c :: r) := by
  intro h
  obtain ⟨b, u, hb, he⟩ := spaced_of_append (g := []) hc h
  exact hb.2 (List.append_eq_nil_iff.1 he.symm).1

theorem procedure_of {ts : P TypeSpecifier} {k : Nat} (h : Good ts k) {p : Procedure} {s r : Str}
    (hlen : s.length ≤ k) (ht : ProcedureExact p s) :
    procedure ts (s ++ r) = .ok p r := by
  obtain ⟨t, u, v, b1, b2, b3, b4, b5, b6, b7, ht, hu, hv, hn, hb1, hb2, hb3, hb4, hb5, hb6, hb7, hk,
    hsh, hun, hsa, rfl⟩ := ht
  simp only [List.length_append] at hlen
  simp only [List.append_assoc]
  have hnum := number_of (r := r) hb6 hb7 hv
  have h2 : typeOrVoid ts
      (u ++ (b4 ++ ')' :: (b5 ++ '=' :: (b6 ++ (v ++ (b7 ++ ';' :: r)))))) =
      .ok p.req_ty (b4 ++ ')' :: (b5 ++ '=' :: (b6 ++ (v ++ (b7 ++ ';' :: r))))) := by
    exact typeOrVoid_of h (by omega) hu (follow_other hb4 (by decide) (by decide) hk hsa)
  have hnw : NotHead isWord (b2 ++ '(' :: (b3 ++
      (u ++ (b4 ++ ')' :: (b5 ++ '=' :: (b6 ++ (v ++ (b7 ++ ';' :: r)))))))) :=
    blank_notHead noGap_word hb2 (notHead_cons.2 (by decide))
  have h1 := typeOrVoid_of h (by omega) ht (follow_name hb1 hn hnw hsh fun h1 h2 hsp => by
    rw [hun h1 h2] at hsp
    exact notSpaced_cons (by decide) hsp)
  exact map_ok.2 ⟨(p.res_ty, p.method, p.req_ty, p.value), pair_ok.2 ⟨_, terminated_ok.2 ⟨_, _, h1,
    multispace1_ok.2 ⟨rfl, hb1, ident_notSpace hn⟩⟩, pair_ok.2 ⟨_, identifier_of hn hnw,
    pair_ok.2 ⟨_, delimited_ok.2 ⟨_, _, _, _, spaces_of hb2 hb3 (by decide) (typeOrVoid_notSpace hu),
      h2, spaces_of hb4 hb5 (by decide) (notHead_cons.2 (by decide))⟩, hnum⟩⟩⟩, rfl⟩

theorem procedure_fails {ts : P TypeSpecifier} {k : Nat} (h : Good ts k) {i : Str}
    (hi : NotHead isWord i) : procedure ts i = .err := by
  have h1 : ts i = .err := h.fails i (.inl (wordOf_nil_iff.2 hi))
  have h2 : tag c!"void" i = .err :=
    tag_err_word (by decide) (by rw [wordOf_nil_iff.2 hi]; decide)
  refine map_err_of (pair_err_left (bind_err_of ?_))
  unfold typeOrVoid
  rw [alt_skip h1, alt_skip (map_err_of h2)]
  rfl

theorem procedureText_head {p : Procedure} {s : Str} (h : ProcedureExact p s) :
    ∃ c cs, s = c :: cs ∧ isWord c = true := by
  obtain ⟨t, u, v, b1, b2, b3, b4, b5, b6, b7, ht, _, _, _, _, _, _, _, _, _, _, _, _, _, _, rfl⟩ := h
  obtain ⟨c, cs, rfl, hc⟩ := typeOrVoid_head ht
  exact ⟨c, _, by simp only [List.append_assoc, List.cons_append]; rfl, hc⟩

theorem procedures_notSpace {ps : List Procedure} {s r : Str} (h : ProceduresExact ps s)
    (hr : NotHead isSpace r) : NotHead isSpace (s ++ r) := by
  cases ps with
  | nil =>
    simp only [ProceduresExact] at h
    subst h
    exact hr
  | cons p ps =>
    obtain ⟨t, b, u, ht, _, _, rfl⟩ := h
    obtain ⟨c, cs, rfl, hc⟩ := procedureText_head ht
    simp only [List.append_assoc, List.cons_append]
    exact (tight_of_word hc).notSpace

theorem procedures_of {ts : P TypeSpecifier} {k : Nat} (h : Good ts k) {ps : List Procedure}
    {s r : Str} (hlen : s.length ≤ k) (ht : ProceduresExact ps s) :
    Reps (terminated (procedure ts) multispace0) (s ++ '}' :: r) ps ('}' :: r) := by
  induction ps generalizing s with
  | nil =>
    simp only [ProceduresExact] at ht
    subst ht
    exact .nil (bind_err_of (procedure_fails h (notHead_cons.2 (by decide))))
  | cons p ps ih =>
    obtain ⟨t, b, u, ht, hb, hu, rfl⟩ := ht
    simp only [List.length_append] at hlen
    simp only [List.append_assoc]
    refine .cons (terminated_ok.2 ⟨_, b, procedure_of h (by omega) ht,
      multispace0_ok.2 ⟨rfl, hb, procedures_notSpace hu (notHead_cons.2 (by decide))⟩⟩) ?_
      (ih (by omega) hu)
    obtain ⟨c, cs, rfl, _⟩ := procedureText_head ht
    simp only [List.length_append, List.length_cons]
    omega

theorem version_of {ts : P TypeSpecifier} {k : Nat} (h : Good ts k) {x : Version} {s r : Str}
    (hlen : s.length ≤ k) (ht : VersionExact x s) :
    version ts (s ++ r) = .ok x r := by
  obtain ⟨t, v, b1, b2, b3, b4, b5, b6, hne, ht, hv, hn, hb1, hb2, hb3, hb4, hb5, hb6, rfl⟩ := ht
  simp only [List.length_append] at hlen
  simp only [List.append_assoc]
  have hnum := number_of (r := r) hb5 hb6 hv
  have hname : preceded (pair (tag c!"version") multispace1) identifier
      (c!"version" ++ (b1 ++ (x.name ++ (b2 ++ '{' :: (b3 ++ (t ++ '}' :: (b4 ++
        '=' :: (b5 ++ (v ++ (b6 ++ ';' :: r)))))))))) = .ok x.name _ :=
    opaque_prefix hb1 hn (blank_notHead noGap_word hb2 (notHead_cons.2 (by decide)))
  have hopen := spaces_of (c := '{')
    (r := t ++ '}' :: (b4 ++ '=' :: (b5 ++ (v ++ (b6 ++ ';' :: r))))) hb2 hb3 (by decide)
    (procedures_notSpace ht (notHead_cons.2 (by decide)))
  have hclose := spaces_of (c := '}') (r := '=' :: (b5 ++ (v ++ (b6 ++ ';' :: r)))) blank_nil hb4
    (by decide) (notHead_cons.2 (by decide))
  refine map_ok.2 ⟨(x.name, x.procedures, x.value), pair_ok.2 ⟨_, hname, pair_ok.2 ⟨_,
    delimited_ok.2 ⟨_, _, _, _, hopen, many1_of ?_ hne (procedures_of h (by omega) ht), hclose⟩,
    hnum⟩⟩, rfl⟩
  intro i a r hi
  obtain ⟨t, b, _, _, rfl⟩ := oneProcedure_text h.sound hi
  simp only [List.length_append]
  omega

theorem versionText_head {x : Version} {s : Str} (h : VersionExact x s) : ∃ y, s = 'v' :: y := by
  obtain ⟨t, v, b1, b2, b3, b4, b5, b6, _, _, _, _, _, _, _, _, _, _, rfl⟩ := h
  exact ⟨_, rfl⟩

theorem versions_notSpace {xs : List Version} {s r : Str} (h : VersionsExact xs s) (hne : xs ≠ []) :
    NotHead isSpace (s ++ r) := by
  cases xs with
  | nil => exact absurd rfl hne
  | cons x xs =>
    obtain ⟨t, u, ht, _, rfl⟩ := h
    obtain ⟨y, rfl⟩ := versionText_head ht
    simp only [List.append_assoc, List.cons_append]
    exact notHead_cons.2 (by decide)

theorem versions_of {ts : P TypeSpecifier} {k : Nat} (h : Good ts k) {xs : List Version}
    {s r : Str} (hlen : s.length ≤ k) (ht : VersionsExact xs s) (hr : NotHead isWord r) :
    Reps (version ts) (s ++ r) xs r := by
  induction xs generalizing s with
  | nil =>
    simp only [VersionsExact] at ht
    subst ht
    refine .nil (map_err_of (pair_err_left (preceded_err_left (keyword_err (by decide) ?_))))
    simp only [List.nil_append]
    rw [wordOf_nil_iff.2 hr]
    decide
  | cons x xs ih =>
    obtain ⟨t, u, ht, hu, rfl⟩ := ht
    simp only [List.length_append] at hlen
    simp only [List.append_assoc]
    refine .cons (version_of h (by omega) ht) ?_
      (ih (by omega) hu)
    obtain ⟨y, rfl⟩ := versionText_head ht
    simp only [List.length_append, List.length_cons]
    omega

theorem program_of {ts : P TypeSpecifier} {k : Nat} (h : Good ts k) {x : Program} {s r : Str}
    (hlen : s.length ≤ k) (ht : ProgramExact x s) : program ts (s ++ r) = .ok x r := by
  obtain ⟨t, v, b1, b2, b3, b4, b5, b6, b7, hne, ht, hv, hn, hb1, hb2, hb3, hb4, hb5, hb6, hb7,
    rfl⟩ := ht
  simp only [List.length_append] at hlen
  simp only [List.append_assoc]
  have hnum := number_of (r := r) hb6 hb7 hv
  have hname : preceded (pair (tag c!"program") multispace1) identifier
      (c!"program" ++ (b1 ++ (x.name ++ (b2 ++ '{' :: (b3 ++ (t ++ (b4 ++ '}' :: (b5 ++
        '=' :: (b6 ++ (v ++ (b7 ++ ';' :: r))))))))))) = .ok x.name _ :=
    opaque_prefix hb1 hn (blank_notHead noGap_word hb2 (notHead_cons.2 (by decide)))
  have hopen := spaces_of (c := '{')
    (r := t ++ (b4 ++ '}' :: (b5 ++ '=' :: (b6 ++ (v ++ (b7 ++ ';' :: r)))))) hb2 hb3 (by decide)
    (versions_notSpace ht hne)
  have hclose := spaces_of (c := '}') (r := '=' :: (b6 ++ (v ++ (b7 ++ ';' :: r)))) hb4 hb5
    (by decide) (notHead_cons.2 (by decide))
  refine map_ok.2 ⟨(x.name, x.versions, x.value), pair_ok.2 ⟨_, hname, pair_ok.2 ⟨_,
    delimited_ok.2 ⟨_, _, _, _, hopen, many1_of ?_ hne (versions_of h (by omega) ht
      (blank_notHead noGap_word hb4 (notHead_cons.2 (by decide)))), hclose⟩, hnum⟩⟩, rfl⟩
  intro i a r hi
  obtain ⟨t, _, rfl⟩ := version_text h.sound hi
  simp only [List.length_append]
  omega

/-! ## Definitions -/

theorem not_line_ending_of {t e r : Str} (ht : ∀ c ∈ t, c ≠ '\r' ∧ c ≠ '\n')
    (he : e = ['\n'] ∨ e = ['\r', '\n']) : not_line_ending (t ++ (e ++ r)) = .ok t (e ++ r) := by
  have hall : t.all (fun c => !(c == '\r' || c == '\n')) = true := by
    simp only [List.all_eq_true]
    intro c hc
    simp [ht c hc]
  have hnh : NotHead (fun c => !(c == '\r' || c == '\n')) (e ++ r) := by
    rcases he with rfl | rfl <;> exact notHead_cons.2 (by decide)
  obtain ⟨h1, h2⟩ := takeWhile_append_of hall hnh
  unfold not_line_ending
  rw [h1, h2]
  rcases he with rfl | rfl <;> rfl

theorem line_ending_of {e r : Str} (he : e = ['\n'] ∨ e = ['\r', '\n']) :
    line_ending (e ++ r) = .ok e r := by
  rcases he with rfl | rfl
  · exact alt_cons_ok.2 (.inl (tag_ok.2 ⟨rfl, rfl⟩))
  · have h1 : tag ['\n'] ('\r' :: '\n' :: r) = .err := tag_err_of (notHead_cons.2 (by decide))
    exact alt_cons_ok.2 (.inr ⟨h1, alt_cons_ok.2 (.inl (tag_ok.2 ⟨rfl, rfl⟩))⟩)

theorem typeDefText_word {d : TypeDef} {s r : Str} (h : TypeDefExact d s) :
    wordOf (s ++ r) ∈ [c!"typedef", c!"enum", c!"struct", c!"union"] ∧
      ∃ c cs, s = c :: cs ∧ isWord c = true := by
  have key : ∀ (w b x : Str), w.all isWord = true → Blank1 b → s = w ++ (b ++ x) →
      wordOf (s ++ r) = w := by
    intro w b x hw hb hs
    rw [hs, List.append_assoc, List.append_assoc]
    exact wordOf_append hw hb.notWord
  cases d with
  | declaration d =>
    obtain ⟨b, g, t, hb, _, _, rfl⟩ := h
    have hw := key c!"typedef" b _ (by decide) hb (by simp only [List.append_assoc]; rfl)
    rw [hw]
    exact ⟨by decide, 't', _, rfl, by decide⟩
  | enum n body =>
    obtain ⟨b, g, g', t, hb, _, _, _, _, rfl⟩ := h
    have hw := key c!"enum" b _ (by decide) hb (by simp only [List.append_assoc]; rfl)
    rw [hw]
    exact ⟨by decide, 'e', _, rfl, by decide⟩
  | struct n body =>
    obtain ⟨b, g, g1, g', t, hb, _, _, _, _, _, _, rfl⟩ := h
    have hw := key c!"struct" b _ (by decide) hb (by simp only [List.append_assoc]; rfl)
    rw [hw]
    exact ⟨by decide, 's', _, rfl, by decide⟩
  | union n body =>
    obtain ⟨b, g, g', t, hb, _, _, _, _, _, rfl⟩ := h
    have hw := key c!"union" b _ (by decide) hb (by simp only [List.append_assoc]; rfl)
    rw [hw]
    exact ⟨by decide, 'u', _, rfl, by decide⟩

theorem constant_def_err {i : Str} (h : wordOf i ≠ c!"const") : constant_def i = .err :=
  preceded_err_left (keyword_err (by decide) h)

theorem type_def_err {ts : P TypeSpecifier} {i : Str}
    (h : wordOf i ∉ [c!"typedef", c!"enum", c!"struct", c!"union"]) : type_def ts i = .err := by
  simp only [List.mem_cons, List.not_mem_nil, or_false, not_or] at h
  obtain ⟨h1, h2, h3, h4⟩ := h
  unfold type_def
  rw [alt_skip (map_err_of (delimited_err_left (keyword_err (by decide) h1))),
    alt_skip (map_err_of (delimited_err_left (keyword_err (by decide) h2))),
    alt_skip (map_err_of (delimited_err_left (keyword_err (by decide) h3))),
    alt_skip (map_err_of (delimited_err_left (keyword_err (by decide) h4)))]
  rfl

theorem program_err {ts : P TypeSpecifier} {i : Str} (h : wordOf i ≠ c!"program") :
    program ts i = .err :=
  map_err_of (pair_err_left (preceded_err_left (keyword_err (by decide) h)))

theorem definition_of {ts : P TypeSpecifier} {k : Nat} (h : Good ts k) {d : Definition} {s r : Str}
    (hlen : s.length ≤ k) (ht : DefinitionExact d s) :
    definition ts (s ++ r) = .ok d r := by
  cases d with
  | constant a =>
    obtain ⟨b, g, t, hb, hg, ht, rfl⟩ := ht
    simp only [List.append_assoc]
    obtain ⟨x, hx⟩ := end_of (c := ';') (r := r) hg (tight_cons.2 (by decide))
    obtain ⟨c, cs, hc, hw⟩ := assignText_head ht
    refine alt_cons_ok.2 (.inl (map_ok.2 ⟨a, preceded_ok.2 ⟨_, _, keyword_of hb ?_,
      terminated_ok.2 ⟨_, x, assign_of ht (gap_notHead noGap_word hg (notHead_cons.2 (by decide))),
        hx⟩⟩, rfl⟩))
    rw [hc]
    exact (tight_of_word hw).notSpace
  | type d =>
    have hw := (typeDefText_word (r := r) ht).1
    unfold definition
    rw [alt_skip (map_err_of (constant_def_err ?_))]
    · exact alt_cons_ok.2 (.inl (map_ok.2 ⟨d, type_def_of h hlen ht, rfl⟩))
    · intro he
      rw [he] at hw
      revert hw
      decide
  | program p =>
    have hw : wordOf (s ++ r) = c!"program" := by
      obtain ⟨t, v, b1, b2, b3, b4, b5, b6, b7, _, _, _, _, hb1, _, _, _, _, _, _, rfl⟩ := ht
      simp only [List.append_assoc]
      exact wordOf_append (by decide) hb1.notWord
    unfold definition
    rw [alt_skip (map_err_of (constant_def_err (by rw [hw]; decide))),
      alt_skip (map_err_of (type_def_err (by rw [hw]; decide)))]
    exact alt_cons_ok.2 (.inl (map_ok.2 ⟨p, program_of h hlen ht, rfl⟩))
  | lineComment =>
    obtain ⟨t, e, ht, he, rfl⟩ := ht
    simp only [List.append_assoc]
    have hw : wordOf (c!"%" ++ (t ++ (e ++ r))) = [] := wordOf_nil_iff.2 (notHead_cons.2 (by decide))
    unfold definition
    rw [alt_skip (map_err_of (constant_def_err (by rw [hw]; decide))),
      alt_skip (map_err_of (type_def_err (by rw [hw]; decide))),
      alt_skip (map_err_of (program_err (by rw [hw]; decide)))]
    exact alt_cons_ok.2 (.inl (map_ok.2 ⟨t, delimited_ok.2 ⟨_, _, _, e, tag_ok.2 ⟨rfl, rfl⟩,
      not_line_ending_of ht he, line_ending_of he⟩, rfl⟩))

theorem definitionText_tight {d : Definition} {s r : Str} (h : DefinitionExact d s) :
    Tight (s ++ r) := by
  cases d with
  | constant a =>
    obtain ⟨b, g, t, _, _, _, rfl⟩ := h
    exact tight_cons.2 (by decide)
  | type d =>
    obtain ⟨c, cs, rfl, hc⟩ := (typeDefText_word (r := r) h).2
    exact tight_of_word hc
  | program p =>
    obtain ⟨t, v, b1, b2, b3, b4, b5, b6, b7, _, _, _, _, _, _, _, _, _, _, _, rfl⟩ := h
    exact tight_cons.2 (by decide)
  | lineComment =>
    obtain ⟨t, e, _, _, rfl⟩ := h
    exact tight_cons.2 (by decide)

theorem definitions_tight {ds : List Definition} {s : Str} (h : DefinitionsExact ds s) : Tight s := by
  cases ds with
  | nil =>
    simp only [DefinitionsExact] at h
    subst h
    exact notHead_nil _
  | cons d ds =>
    obtain ⟨t, g, u, ht, _, _, rfl⟩ := h
    rw [List.append_assoc]
    exact definitionText_tight ht

theorem definition_nil {ts : P TypeSpecifier} :
    delimited comment0 (definition ts) comment0 [] = .err := by
  obtain ⟨x, hx⟩ := comment0_tight (i := []) (notHead_nil _)
  have hw : wordOf ([] : Str) = [] := rfl
  refine bind_err_right hx (bind_err_of ?_)
  unfold definition
  rw [alt_skip (map_err_of (constant_def_err (by rw [hw]; decide))),
    alt_skip (map_err_of (type_def_err (by rw [hw]; decide))),
    alt_skip (map_err_of (program_err (by rw [hw]; decide)))]
  rfl

theorem definitions_of {ts : P TypeSpecifier} {k : Nat} (h : Good ts k) {ds : List Definition}
    {s : Str} (hlen : s.length ≤ k) (ht : DefinitionsExact ds s) :
    Reps (delimited comment0 (definition ts) comment0) s ds [] := by
  induction ds generalizing s with
  | nil =>
    simp only [DefinitionsExact] at ht
    subst ht
    exact .nil definition_nil
  | cons d ds ih =>
    obtain ⟨t, g, u, ht, hg, hu, rfl⟩ := ht
    simp only [List.length_append] at hlen
    simp only [List.append_assoc]
    obtain ⟨x, hx⟩ := comment0_tight (definitionText_tight (r := g ++ u) ht)
    obtain ⟨y, hy⟩ := comment0_of_gap hg (definitions_tight hu)
    refine .cons (delimited_ok.2 ⟨x, _, _, y, hx,
      definition_of h (by omega) ht, hy⟩) ?_
      (ih (by omega) hu)
    have := List.length_pos_iff.2 (definitionText_ne_nil ht)
    simp only [List.length_append]
    omega

/-- Every text of the exact language is read back. -/
theorem parse_of_exact {ds : List Definition} {i : Str} (ht : FileExact ds i) :
    parse i = .ok ds := by
  have hgood := type_specifier_good i.length
  have hreps : Reps (delimited comment0 (definition (type_specifier (i.length + 1))) comment0) i ds
      [] := by
    rcases ht with ⟨rfl, rfl⟩ | ⟨g, s, hne, hg, ht, rfl⟩
    · exact .nil definition_nil
    · cases ds with
      | nil => exact absurd rfl hne
      | cons d ds =>
        obtain ⟨t, g', u, ht, hg', hu, rfl⟩ := ht
        simp only [List.length_append] at hgood ⊢
        simp only [List.append_assoc]
        obtain ⟨x, hx⟩ := comment0_of_gap hg (definitionText_tight (r := g' ++ u) ht)
        obtain ⟨y, hy⟩ := comment0_of_gap hg' (definitions_tight hu)
        refine .cons (delimited_ok.2 ⟨x, _, _, y, hx,
          definition_of hgood (by omega) ht, hy⟩) ?_
          (definitions_of hgood (by omega) hu)
        have := List.length_pos_iff.2 (definitionText_ne_nil ht)
        simp only [List.length_append]
        omega
  have : specification (type_specifier (i.length + 1)) i = .ok ds [] := by
    refine many0_of ?_ hreps
    intro i a r hi
    obtain ⟨g, t, g', _, _, _, rfl⟩ := oneDefinition_text hgood.sound hi
    simp only [List.length_append]
    omega
  unfold parse parseWith
  rw [this]
  rfl

end Xdr.Rpcgen
