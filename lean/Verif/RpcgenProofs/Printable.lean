import Verif.Spec.Printable
import Verif.RpcgenProofs.NoErr
/-!
# Lemmas: when the generator ends with source
-/

namespace Xdr.Rpcgen

/-! ## What comes out with every bound that is large enough -/

/-- With a bound that is large enough, `a` is what comes out. -/
def GR.Comes {α : Type} (f : Nat → GR α) (a : α) : Prop := ∃ m, ∀ n, m ≤ n → f n = .ok a

namespace GR.Comes

theorem const {α : Type} {r : GR α} {a : α} (h : r = .ok a) : GR.Comes (fun _ => r) a := ⟨0, fun _ _ => h⟩

theorem bind {α β : Type} {f : Nat → GR α} {g : Nat → α → GR β} {a : α} {b : β} (hf : GR.Comes f a)
    (hg : GR.Comes (fun n => g n a) b) : GR.Comes (fun n => (f n).bind (g n)) b := by
  obtain ⟨m1, h1⟩ := hf
  obtain ⟨m2, h2⟩ := hg
  refine ⟨max m1 m2, fun n hn => ?_⟩
  simp only [h1 n (by omega), GR.bind]
  exact h2 n (by omega)

theorem bind_ex {α β : Type} {f : Nat → GR α} {g : Nat → α → GR β} {a : α} (hf : GR.Comes f a)
    (hg : ∃ b, GR.Comes (fun n => g n a) b) : ∃ b, GR.Comes (fun n => (f n).bind (g n)) b := by
  obtain ⟨b, hb⟩ := hg
  exact ⟨b, bind hf hb⟩

theorem mapM {α β : Type} {f : Nat → α → GR β} {P : α → β → Prop} {l : List α}
    (h : ∀ x ∈ l, ∃ b, GR.Comes (fun n => f n x) b ∧ P x b) :
    ∃ bs, GR.Comes (fun n => GR.mapM (f n) l) bs ∧ List.Forall₂ P l bs := by
  induction l with
  | nil => exact ⟨[], const rfl, .nil⟩
  | cons x l ih =>
    obtain ⟨b, h1, h2⟩ := h x List.mem_cons_self
    obtain ⟨bs, h3, h4⟩ := ih fun y hy => h y (List.mem_cons_of_mem _ hy)
    exact ⟨b :: bs, bind h1 (bind h3 (const rfl)), .cons h2 h4⟩

end GR.Comes

/-! ## Names -/

theorem camel_letterFirst {s : Str} (h : Ident s) {i : RIdent} (hi : upper_camel_case_ident s = .ok i) :
    LetterFirst s := by
  have h1 := upper_camel_case_letters s
  have hw : ∀ c ∈ upper_camel_case s, isWord c = true := by
    apply isWord_map
    rw [h1]
    exact isWord_lower fun c hc => ident_words h c (List.mem_filter.1 hc).1
  have hok : identOk (upper_camel_case s) = true := by
    unfold upper_camel_case_ident mkIdent at hi
    split at hi
    · next s' hs =>
      rw [hs] at hw
      exact absurd (hw '#' (by simp)) (by decide)
    · split at hi
      · assumption
      · cases hi
  cases hu : upper_camel_case s with
  | nil => rw [hu] at hok; cases hok
  | cons d dr =>
    rw [hu] at h1 hok
    have hf : ∀ c ∈ s.filter (· ≠ '_'), c ≠ '_' := fun c hc => by simpa using (List.mem_filter.1 hc).2
    rw [filter_dropWhile] at h1 hf
    cases hd : s.dropWhile (· = '_') with
    | nil => rw [hd] at h1; cases h1
    | cons c cs =>
      have hc : c ≠ '_' := by
        have := List.head_dropWhile_not (p := (· = '_')) (l := s) (by rw [hd]; simp)
        simp only [hd, List.head_cons] at this
        simpa using this
      rw [hd, List.filter_cons_of_pos (by simpa using hc)] at h1
      simp only [List.map_cons, List.cons.injEq] at h1
      refine ⟨c, cs, hd, ?_⟩
      simp only [identOk, Bool.and_eq_true, Bool.or_eq_true, beq_iff_eq] at hok
      rcases hok.1 with h2 | rfl
      · rw [← isAlpha_toLower, ← h1.1, isAlpha_toLower, h2]
      · have h3 : toLower c = '_' := h1.1.symm.trans (by decide)
        have h4 : (toLower c).toNat = 95 := by rw [h3]; rfl
        rw [toLower_toNat] at h4
        split at h4
        · next hup =>
          have := isUpper_iff.1 hup
          omega
        · exact absurd (show c = '_' from Char.ext (UInt32.toNat_inj.1 h4)) hc

theorem camel_iff {s : Str} (h : Ident s) : (∃ i, upper_camel_case_ident s = .ok i) ↔ LetterFirst s :=
  ⟨fun ⟨_, hi⟩ => camel_letterFirst h hi, camel_ident h⟩

theorem keyword_ident_iff : ∀ f ∈ KEYWORDS_RUST,
    (match snake_case_ident (c!"r#" ++ f) with | .ok _ => true | _ => false) = !pathWords.contains f := by
  decide +kernel

theorem pathWords_reserved : ∀ f ∈ pathWords, f ∈ KEYWORDS_RUST := by decide +kernel

theorem field_ident_iff {f : Str} (h : Ident f) : (∃ i, fieldIdent f = .ok i) ↔ f ∉ pathWords := by
  unfold fieldIdent
  by_cases hr : rust_reserved f = true
  · rw [if_pos hr]
    have := keyword_ident_iff f (by simpa [rust_reserved] using hr)
    constructor
    · rintro ⟨i, hi⟩ hm
      rw [hi] at this
      simp [hm] at this
    · intro hm
      rw [List.contains_iff_mem.not.2 hm |> Bool.eq_false_iff.2] at this
      split at this
      · next i hi => exact ⟨i, hi⟩
      · cases this
  · rw [if_neg hr]
    refine ⟨fun _ hm => hr ?_, fun _ => snake_ident h⟩
    simpa [rust_reserved] using pathWords_reserved f hm

theorem reserved_neg {i : Int} (h : i < 0) : ∀ r, reservedIdent i ≠ .ok r := by
  intro r hr
  unfold reservedIdent mkIdent intToString at hr
  rw [if_pos h] at hr
  simp only [List.cons_append, List.nil_append] at hr
  split at hr
  · next heq => simp at heq
  · rw [if_neg] at hr
    · cases hr
    · simp [identOk, isWord, isAlpha, isLower, isUpper, isDigit]

theorem reservedIdent_iff {i : Int} : (∃ r, reservedIdent i = .ok r) ↔ 0 ≤ i := by
  refine ⟨fun ⟨r, hr⟩ => ?_, reserved_ident⟩
  by_contra hn
  exact reserved_neg (by omega) r hr

/-! ## Types without a Rust type -/

variable {ds : List Definition} {cfg : Config}

theorem value_err_iff {c : Constant} : (∃ e, convert_value_token .usize (.constant c) false = .err e) ↔
    ∀ len, ¬ LenTok (.constant c) len := by
  simp only [← lenTok_iff, convert_value_token, Constant.value]
  cases c.tryInto .usize <;> simp [GR.okOr, GR.bind]

/-- What a refused declaration comes to: an error, or nothing. -/
def GR.Refuses {α : Type} : GR (Option α) → Prop
  | .err _ => True
  | .ok none => True
  | _ => False

theorem spec_err {ct : Declaration → GR (Option (RTy × OpaqueType))} (hrt : cfg.remove_typedef = true)
    (ih : ∀ {d}, (ct d).Refuses → DeclRefused ds d) {ts : TypeSpecifier} {e : GenError}
    (h : convert_primitive_token ct (setup_context ds cfg) ts = .err e) : SpecRefused ds ts := by
  cases ts with
  | quadruple => exact .quadruple
  | enum as => exact .enum as
  | struct ms => exact .struct ms
  | union b => exact .union b
  | identifier name =>
    simp only [convert_primitive_token] at h
    by_cases hd : ∃ d, typeOf ds name = some (.declaration d)
    · obtain ⟨d, hd⟩ := hd
      rw [(resolve_type_eq ct name).1 hrt d hd] at h
      refine .typedef hd (ih ?_)
      revert h
      cases hc : ct d with
      | ok o => cases o <;> simp [GR.bind, GR.okOr, GR.Refuses]
      | err e => simp [GR.Refuses]
      | panic p => simp [GR.bind]
      | depth => simp [GR.bind]
    · rw [(resolve_type_eq ct name).2 fun _ d he => hd ⟨d, he⟩] at h
      exact absurd h (GR.NoErr.bind (GR.NoErr.mkIdent _) (fun _ _ => GR.NoErr.ok _) e)
  | _ => simp [convert_primitive_token] at h

theorem bind_refuses {α β : Type} {m : GR α} {f : α → GR (Option β)} (h : (m.bind f).Refuses) :
    (∃ e, m = .err e) ∨ ∃ a, m = .ok a ∧ (f a).Refuses := by
  cases m with
  | ok a => exact .inr ⟨a, rfl, h⟩
  | err e => exact .inl ⟨e, rfl⟩
  | panic p => exact h.elim
  | depth => exact h.elim

theorem len_refuses {v : Value} {e : GenError} (h : convert_value_token .usize v false = .err e) :
    ∃ c, v = .constant c ∧ ∀ len, ¬ LenTok (.constant c) len := by
  cases v with
  | constant c => exact ⟨c, rfl, value_err_iff.1 ⟨e, h⟩⟩
  | identifier i =>
    exact absurd h (GR.NoErr.bind (GR.NoErr.mkIdent _) (fun _ _ => GR.NoErr.ok _) e)

theorem decl_refused (hrt : cfg.remove_typedef = true) {n : Nat} {d : Declaration}
    (h : (convert_type_token (setup_context ds cfg) n d).Refuses) : DeclRefused ds d := by
  induction n generalizing d with
  | zero => exact h.elim
  | succ n ih =>
    simp only [convert_type_token] at h
    have prim : ∀ {ts e}, convert_primitive_token (convert_type_token (setup_context ds cfg) n)
        (setup_context ds cfg) ts = .err e → SpecRefused ds ts := fun h => spec_err hrt (fun h => ih h) h
    have good : ∀ {ts p}, convert_primitive_token (convert_type_token (setup_context ds cfg) n)
        (setup_context ds cfg) ts = .ok p → SpecType ds true ts p.1 p.2 := by
      intro ts p h
      rw [← hrt]
      exact spec_sound (fun h => decl_sound h) h
    cases d with
    | «variable» ts nm =>
      rcases bind_refuses h with ⟨e, he⟩ | ⟨a, -, h⟩
      · exact .element rfl (prim he)
      · exact h.elim
    | fixedArray ts nm v =>
      rcases bind_refuses h with ⟨e, he⟩ | ⟨a, ha, h⟩
      · exact .element rfl (prim he)
      · rcases bind_refuses h with ⟨e, he⟩ | ⟨a, -, h⟩
        · obtain ⟨c, rfl, hc⟩ := len_refuses he
          exact .length (good ha) hc
        · exact h.elim
    | variableArray ts nm m =>
      rcases bind_refuses h with ⟨e, he⟩ | ⟨a, -, h⟩
      · exact .element rfl (prim he)
      · dsimp only at h
        split at h <;> exact h.elim
    | optionVariable ts nm =>
      rcases bind_refuses h with ⟨e, he⟩ | ⟨a, -, h⟩
      · exact .element rfl (prim he)
      · exact h.elim
    | opaqueFixedArray nm v =>
      rcases bind_refuses h with ⟨e, he⟩ | ⟨a, -, h⟩
      · obtain ⟨c, rfl, hc⟩ := len_refuses he
        exact .opaqueLength hc
      · exact h.elim
    | opaqueVariableArray nm m => exact h.elim
    | string nm m => exact h.elim
    | void => exact .void

theorem cond_refused (hrt : cfg.remove_typedef = true) {n : Nat} {ts : TypeSpecifier} {e : GenError}
    (h : convert_primitive_token (convert_type_token (setup_context ds cfg) n) (setup_context ds cfg) ts = .err e) :
    SpecRefused ds ts := spec_err hrt (fun h => decl_refused hrt h) h

theorem element_err {ct : Declaration → GR (Option (RTy × OpaqueType))} {cxt : Context} {d : Declaration}
    {ts : TypeSpecifier} (hd : d.element = some ts) {e : GenError} (h : convert_primitive_token ct cxt ts = .err e) :
    convertTypeWith ct cxt d = .err e := by
  cases d <;> simp only [Declaration.element, Option.some.injEq, reduceCtorEq] at hd <;> subst hd <;>
    simp only [convertTypeWith, h, GR.bind]

mutual
theorem SpecRefused.convert (hrt : cfg.remove_typedef = true) : ∀ {ts}, SpecRefused ds ts → ∃ m e, ∀ n, m ≤ n →
    convert_primitive_token (convert_type_token (setup_context ds cfg) n) (setup_context ds cfg) ts = .err e
  | _, .quadruple => ⟨0, _, fun _ _ => rfl⟩
  | _, .enum _ => ⟨0, _, fun _ _ => rfl⟩
  | _, .struct _ => ⟨0, _, fun _ _ => rfl⟩
  | _, .union _ => ⟨0, _, fun _ _ => rfl⟩
  | _, .typedef hd h => by
    obtain ⟨m, r, hr, hm⟩ := DeclRefused.convert hrt h
    match r, hr with
    | .err e, _ =>
      refine ⟨m, e, fun n hn => ?_⟩
      simp only [convert_primitive_token, (resolve_type_eq _ _).1 hrt _ hd, hm n hn, GR.bind]
    | .ok none, _ =>
      refine ⟨m, .notSupported, fun n hn => ?_⟩
      simp only [convert_primitive_token, (resolve_type_eq _ _).1 hrt _ hd, hm n hn, GR.bind, GR.okOr]

theorem DeclRefused.convert (hrt : cfg.remove_typedef = true) : ∀ {d}, DeclRefused ds d → ∃ m r, GR.Refuses r ∧
    ∀ n, m ≤ n → convert_type_token (setup_context ds cfg) n d = r
  | _, .element he h => by
    obtain ⟨m, e, hm⟩ := SpecRefused.convert hrt h
    refine ⟨m + 1, .err e, trivial, fun n hn => ?_⟩
    obtain ⟨n, rfl⟩ : ∃ k, n = k + 1 := ⟨n - 1, by omega⟩
    exact element_err he (hm n (by omega))
  | _, .length h hl => by
    obtain ⟨m, hm⟩ := SpecType.convert (cfg := cfg) (hrt ▸ h)
    obtain ⟨e, he⟩ := value_err_iff.2 hl
    refine ⟨m + 1, .err e, trivial, fun n hn => ?_⟩
    obtain ⟨n, rfl⟩ : ∃ k, n = k + 1 := ⟨n - 1, by omega⟩
    simp only [convert_type_token, convertTypeWith, hm n (by omega), he, GR.bind]
  | _, .opaqueLength hl => by
    obtain ⟨e, he⟩ := value_err_iff.2 hl
    refine ⟨1, .err e, trivial, fun n hn => ?_⟩
    obtain ⟨n, rfl⟩ : ∃ k, n = k + 1 := ⟨n - 1, by omega⟩
    simp only [convert_type_token, convertTypeWith, he, GR.bind]
  | _, .void => ⟨1, .ok none, trivial, fun n hn => by
    obtain ⟨n, rfl⟩ : ∃ k, n = k + 1 := ⟨n - 1, by omega⟩
    rfl⟩
end

/-! ## The loop over the members of an enum -/

/-- No negative number lies in a gap: between two members, or between the start and a member. -/
def NoGaps (s : Int) (ks : List Int) : Prop :=
  ∀ i, i < 0 → (s ≤ i ∨ ∃ j ∈ ks, j < i) → (∃ k ∈ ks, i < k) → i ∈ ks

theorem mapM_isOk {α β : Type} {f : α → GR β} {l : List α} : (∃ bs, GR.mapM f l = .ok bs) ↔
    ∀ a ∈ l, ∃ b, f a = .ok b := by
  constructor
  · rintro ⟨bs, h⟩ a ha
    obtain ⟨b, -, hb⟩ := forall₂_mem_left (GR.mapM_ok.1 h) ha
    exact ⟨b, hb⟩
  · intro h
    obtain ⟨bs, ⟨m, hm⟩, -⟩ := GR.Comes.mapM (f := fun _ => f) (P := fun _ _ => True) (l := l) fun a ha => by
      obtain ⟨b, hb⟩ := h a ha
      exact ⟨b, .const hb, trivial⟩
    exact ⟨bs, hm m (Nat.le_refl m)⟩

theorem enumLoop_isOk {c : Bool} {l : List (Int × Assign)} {s : Int} (hs : l.Pairwise fun a b => a.1 ≤ b.1)
    (hid : ∀ x ∈ l, Ident x.2.identifier) (hmax : ∀ x ∈ l, x.1 ≤ 2147483647) :
    (∃ steps, enumLoop c l s = .ok steps) ↔
      (∀ x ∈ l, LetterFirst x.2.identifier ∧ x.1 ≠ 2147483647) ∧ (c = true → NoGaps s (l.map (·.1))) := by
  induction l generalizing s with
  | nil =>
    refine ⟨fun _ => ⟨by simp, fun _ i _ _ h => ?_⟩, fun _ => ⟨[], rfl⟩⟩
    obtain ⟨k, hk, -⟩ := h
    cases hk
  | cons x l ih =>
    obtain ⟨k, a⟩ := x
    rw [List.pairwise_cons] at hs
    have ih := fun s => ih (s := s) hs.2 (fun x hx => hid x (List.mem_cons_of_mem _ hx))
      fun x hx => hmax x (List.mem_cons_of_mem _ hx)
    have hk : k ≤ 2147483647 := hmax _ List.mem_cons_self
    have hM : IntTy.i32.max = 2147483647 := by decide
    have hres : (∃ r, (if c then GR.mapM (fun index => (reservedIdent index).bind fun r => .ok (r, index)) (intRange s k)
        else GR.ok []) = .ok r) ↔ (c = true → ∀ i, s ≤ i → i < k → 0 ≤ i) := by
      cases c with
      | false => simp
      | true =>
        simp only [if_true, mapM_isOk, mem_intRange, GR.bind_eq_ok]
        constructor
        · intro h _ i h1 h2
          obtain ⟨b, r, hr, -⟩ := h i ⟨h1, h2⟩
          exact reservedIdent_iff.1 ⟨r, hr⟩
        · intro h i hi
          obtain ⟨r, hr⟩ := reservedIdent_iff.2 (h trivial i hi.1 hi.2)
          exact ⟨_, r, hr, rfl⟩
    have hloop : (∃ steps, enumLoop c ((k, a) :: l) s = .ok steps) ↔
        (c = true → ∀ i, s ≤ i → i < k → 0 ≤ i) ∧ LetterFirst a.identifier ∧ k ≠ 2147483647 ∧
          ∃ steps, enumLoop c l (k + 1) = .ok steps := by
      rw [← hres, ← camel_iff (hid _ List.mem_cons_self)]
      simp only [enumLoop, GR.bind_eq_ok]
      constructor
      · rintro ⟨steps, r, hr, i, hi, h⟩
        split at h
        · cases h
        · simp only [GR.bind_eq_ok] at h
          obtain ⟨st, hst, -⟩ := h
          exact ⟨⟨r, hr⟩, ⟨i, hi⟩, by omega, st, hst⟩
      · rintro ⟨⟨r, hr⟩, ⟨i, hi⟩, hne, st, hst⟩
        exact ⟨(r, i, k) :: st, r, hr, i, hi, by rw [if_neg (by omega), hst]; rfl⟩
    rw [hloop, ih]
    simp only [List.forall_mem_cons, List.map_cons]
    constructor
    · rintro ⟨h1, h2, h3, h4, h5⟩
      refine ⟨⟨⟨h2, h3⟩, h4⟩, fun hc i hi hlo hhi => ?_⟩
      by_cases hik : i = k
      · subst hik
        exact List.mem_cons_self
      by_cases hlt : i < k
      · rcases hlo with hlo | ⟨j, hj, hji⟩
        · have := h1 hc i hlo hlt
          omega
        · rcases List.mem_cons.1 hj with rfl | hj
          · omega
          · obtain ⟨y, hy, rfl⟩ := List.mem_map.1 hj
            have := hs.1 y hy
            simp only at this
            omega
      · refine List.mem_cons_of_mem _ (h5 hc i hi (.inl (by omega)) ?_)
        obtain ⟨j, hj, hij⟩ := hhi
        rcases List.mem_cons.1 hj with rfl | hj
        · omega
        · exact ⟨j, hj, hij⟩
    · rintro ⟨⟨⟨h2, h3⟩, h4⟩, h5⟩
      refine ⟨fun hc i h1 hik => ?_, h2, h3, h4, fun hc i hi hlo hhi => ?_⟩
      · by_contra hn
        have := h5 hc i (by omega) (.inl h1) ⟨k, List.mem_cons_self, hik⟩
        rcases List.mem_cons.1 this with rfl | hm
        · omega
        · obtain ⟨y, hy, rfl⟩ := List.mem_map.1 hm
          have := hs.1 y hy
          simp only at this
          omega
      · obtain ⟨j, hj, hij⟩ := hhi
        have hki : k < i := by
          rcases hlo with h | ⟨x, hx, hxi⟩
          · omega
          · obtain ⟨y, hy, rfl⟩ := List.mem_map.1 hx
            have := hs.1 y hy
            simp only at this
            omega
        have := h5 hc i hi (.inr ⟨k, List.mem_cons_self, hki⟩) ⟨j, List.mem_cons_of_mem _ hj, hij⟩
        rcases List.mem_cons.1 this with rfl | hm
        · omega
        · exact hm

end Xdr.Rpcgen
