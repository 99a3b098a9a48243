import Verif.Spec.Stops
import Verif.Proofs.Form
import Verif.Proofs.NoPanic
import Verif.Proofs.Utf8
/-! # Lemmas: the readers give up exactly as listed -/

namespace Xdr

namespace Wire

@[simp] theorem ok_eq_stop {α : Type} {a : α} {o : Stop} : (Res.ok a = o.res) = False := by
  cases o <;> simp [Stop.res]

@[simp] theorem depth_eq_stop {α : Type} {o : Stop} : ((Res.depth : Res α) = o.res) = False := by
  cases o <;> simp [Stop.res]

theorem err_eq_stop {α : Type} {e : Error} {o : Stop} : ((Res.err e : Res α) = o.res) = (o = .err e) := by
  cases o <;> simp [Stop.res, eq_comm]

theorem panic_eq_stop {α : Type} {p : PanicSite} {o : Stop} :
    ((Res.panic p : Res α) = o.res) = (o = .panic p) := by
  cases o <;> simp [Stop.res, eq_comm]

theorem bind_eq_stop {α β : Type} {m : M α} {f : α → M β} {s : Bytes} {o : Stop} :
    (m >>= f) s = o.res ↔ m s = o.res ∨ ∃ a s', m s = .ok (a, s') ∧ f a s' = o.res := by
  rw [M.bind_run]
  cases h : m s with
  | ok x =>
    obtain ⟨a, s'⟩ := x
    refine ⟨fun h => .inr ⟨a, s', rfl, h⟩, ?_⟩
    rintro (h | ⟨a', t', h1, h2⟩)
    · simp at h
    · simp only [Res.ok.injEq, Prod.mk.injEq] at h1
      rw [h1.1, h1.2]; exact h2
  | err e => cases o <;> simp [Stop.res]
  | panic q => cases o <;> simp [Stop.res]
  | depth => cases o <;> simp [Stop.res]

theorem bind_stop {α β : Type} {m : M α} {f : α → M β} {s : Bytes} {o : Stop} (h : m s = o.res) :
    (m >>= f) s = o.res := bind_eq_stop.mpr (.inl h)

end Wire

/-- `visitUnwrap` reads as many members as the sequence has, then panics if there are more. -/
theorem visitUnwrap_take (ds : List (De Val)) (n : Nat) :
    visitUnwrap ds { count := n } = (readAll (ds.take n) >>= fun vs =>
      if ds.length ≤ n then pure vs else M.panic .unwrapNone) := by
  induction ds generalizing n with
  | nil => simp [visitUnwrap, readAll]
  | cons d ds ih =>
    cases n with
    | zero => simp [visitUnwrap, Seq.next_zero, readAll]
    | succ n =>
      rw [visitUnwrap, Seq.next_succ, List.take_succ_cons, readAll, M.bind_assoc', M.bind_assoc']
      congr 1
      funext v
      rw [M.pure_bind', M.bind_assoc']
      simp only []
      rw [ih, M.bind_assoc']
      congr 1
      funext vs
      simp only [List.length_cons, Nat.add_le_add_iff_right]
      split <;> rfl

theorem findVariant_missing {α : Type} {vn : String} {vars : List (String × α)} {k : Nat} :
    findVariant vn vars k = none ↔ ∀ x ∈ vars, x.1 ≠ vn := by
  induction vars generalizing k with
  | nil => simp [findVariant]
  | cons x xs ih =>
    obtain ⟨a, b⟩ := x
    rw [findVariant]
    split
    · rename_i h; simp [h]
    · rename_i h; simp [ih, h]

namespace Wire

theorem short_of {n : Nat} {q : Bytes} (h : q.length < padLen n) : Short n q := by
  refine ⟨List.replicate (padLen n - q.length) 0, ?_, (padding_iff _ _).mpr ?_⟩
  · intro h0
    have := congrArg List.length h0
    simp only [List.length_replicate, List.length_nil] at this
    omega
  · simp only [List.length_append, List.length_replicate]; omega

theorem Short.lt {n : Nat} {q : Bytes} (h : Short n q) : q.length < padLen n := by
  obtain ⟨r, hr, hp⟩ := h
  rw [padding_iff, List.length_append] at hp
  have : r.length ≠ 0 := by simpa using hr
  omega

theorem stop_u32 {input : Bytes} {o : Stop} (h : read_u32 input = o.res) :
    input.length < 4 ∧ o = .err (.notEnoughData (4 - input.length)) := by
  by_cases h4 : input.length < 4
  · rw [read_u32_lt h4, err_eq_stop] at h; exact ⟨h4, h⟩
  · obtain ⟨a0, a1, a2, a3, r, rfl⟩ := exists_word (Nat.not_lt.mp h4)
    rw [read_u32_cons] at h; simp at h

theorem stop_i32 {input : Bytes} {o : Stop} (h : read_i32 input = o.res) :
    input.length < 4 ∧ o = .err (.notEnoughData (4 - input.length)) := by
  rw [read_i32_eq] at h
  rcases bind_eq_stop.mp h with h1 | ⟨_, _, _, h2⟩
  · exact stop_u32 h1
  · simp at h2

theorem stop_u64 {input : Bytes} {o : Stop} (h : read_u64 input = o.res) :
    input.length < 8 ∧ o = .err (.notEnoughData (8 - input.length)) := by
  by_cases h8 : input.length < 8
  · rw [read_u64_lt h8, err_eq_stop] at h; exact ⟨h8, h⟩
  · obtain ⟨_, _, _, _, _, _, _, _, r, rfl⟩ := exists_dword (Nat.not_lt.mp h8)
    rw [read_u64_cons] at h; simp at h

theorem stop_i64 {input : Bytes} {o : Stop} (h : read_i64 input = o.res) :
    input.length < 8 ∧ o = .err (.notEnoughData (8 - input.length)) := by
  rw [read_i64_eq] at h
  rcases bind_eq_stop.mp h with h1 | ⟨_, _, _, h2⟩
  · exact stop_u64 h1
  · simp at h2

theorem stop_word {env : Env} {t : Ty} {input : Bytes} {o : Stop} (ht : LedByWord env t)
    (h : input.length < 4 ∧ o = .err (.notEnoughData (4 - input.length))) : Stops env t input o := by
  rw [h.2]; exact .inWord ht h.1

theorem stop_dword {env : Env} {t : Ty} {input : Bytes} {o : Stop} (ht : t = .i64 ∨ t = .u64 ∨ t = .f64)
    (h : input.length < 8 ∧ o = .err (.notEnoughData (8 - input.length))) : Stops env t input o := by
  rw [h.2]; exact .inDword ht h.1

theorem stop_bytes {env : Env} {input : Bytes} {o : Stop} (h : read_bytes input = o.res) :
    Stops env .bytes input o := by
  by_cases h4 : input.length < 4
  · rw [read_bytes_lt h4, err_eq_stop] at h
    exact stop_word trivial ⟨h4, h⟩
  · obtain ⟨a0, a1, a2, a3, r, rfl⟩ := exists_word (Nat.not_lt.mp h4)
    have hlt := (ofBe32 a0 a1 a2 a3).toNat_lt
    have hw := word_of a0 a1 a2 a3
    rw [read_bytes_run a0 a1 a2 a3 r _ rfl] at h
    generalize hn : (ofBe32 a0 a1 a2 a3).toNat = n at h hlt hw
    have hi : a0 :: a1 :: a2 :: a3 :: r = word n ++ r := by rw [← hw]; rfl
    rw [hi]
    split at h
    · rename_i h1
      rw [err_eq_stop] at h
      rw [h]
      exact .bytesCut hlt h1
    split at h
    · rename_i h1 h2
      rw [panic_eq_stop] at h
      have hl : (r.take n).length = n := by rw [List.length_take]; omega
      have := Stops.bytes (env := env) (b := r.take n) (q := r.drop n) (by omega)
        (short_of (by rw [hl, List.length_drop]; omega))
      rwa [hl, List.take_append_drop, ← h] at this
    · simp at h

theorem stop_string {env : Env} {input : Bytes} {o : Stop} (h : read_string input = o.res) :
    Stops env .string input o := by
  by_cases h4 : input.length < 4
  · rw [read_string_lt h4, err_eq_stop] at h
    exact stop_word trivial ⟨h4, h⟩
  · obtain ⟨a0, a1, a2, a3, r, rfl⟩ := exists_word (Nat.not_lt.mp h4)
    have hlt := (ofBe32 a0 a1 a2 a3).toNat_lt
    have hw := word_of a0 a1 a2 a3
    rw [read_string_run a0 a1 a2 a3 r _ rfl] at h
    generalize hn : (ofBe32 a0 a1 a2 a3).toNat = n at h hlt hw
    have hi : a0 :: a1 :: a2 :: a3 :: r = word n ++ r := by rw [← hw]; rfl
    rw [hi]
    split at h
    · rename_i h1
      rw [err_eq_stop] at h
      rw [h]
      exact .stringCut hlt h1
    rename_i h1
    have hl : (r.take n).length = n := by rw [List.length_take]; omega
    split at h
    · rename_i hs
      rw [err_eq_stop] at h
      have := Stops.stringFaulty (env := env) (b := r.take n) (rest := r.drop n) (by omega)
        (utf8Fault_spec hs)
      rwa [hl, List.take_append_drop, ← h] at this
    rename_i s hs
    split at h
    · rename_i h2
      rw [panic_eq_stop] at h
      have hu : utf8Bytes s = r.take n := utf8Bytes_decode hs
      have := Stops.string (env := env) (s := s) (q := r.drop n) (by rw [hu]; omega)
        (by rw [hu]; apply short_of; rw [hl, List.length_drop]; omega)
      rwa [hu, hl, List.take_append_drop, ← h] at this
    · simp at h

theorem stop_char {env : Env} {input : Bytes} {o : Stop} (h : read_char input = o.res) :
    Stops env .char input o := by
  rcases bind_eq_stop.mp h with h1 | ⟨a, mid, h1, h2⟩
  · exact stop_word trivial (stop_u32 h1)
  · rw [inv_u32 h1]
    cases hc : charFromU32 a with
    | some c => simp [hc] at h2
    | none =>
      simp only [hc, M.fail_run, err_eq_stop] at h2
      rw [h2]
      refine .char a.toNat_lt fun c he => ?_
      have : c.val = a := UInt32.toNat_inj.mp he
      unfold charFromU32 at hc
      rw [← this, dif_pos c.valid] at hc
      simp at hc

theorem break_bytes {b q : Bytes} (h : b.length < 2 ^ 32) (hq : Short b.length q) :
    read_bytes (word b.length ++ (b ++ q)) = .panic .paddingSlice := by
  have hl : (UInt32.ofNat b.length).toNat = b.length := by
    rw [UInt32.toNat_ofNat', Nat.mod_eq_of_lt h]
  have := hq.lt
  simp only [word, beBytes4, be32, List.cons_append, List.nil_append]
  rw [read_bytes_run _ _ _ _ _ b.length (by rw [ofBe32_be32, hl])]
  rw [if_neg (by simp), if_pos (by simp; omega)]

theorem break_string {s : List Char} {q : Bytes} (h : (utf8Bytes s).length < 2 ^ 32)
    (hq : Short (utf8Bytes s).length q) :
    read_string (word (utf8Bytes s).length ++ (utf8Bytes s ++ q)) = .panic .paddingSlice := by
  have hl : (UInt32.ofNat (utf8Bytes s).length).toNat = (utf8Bytes s).length := by
    rw [UInt32.toNat_ofNat', Nat.mod_eq_of_lt h]
  have := hq.lt
  simp only [word, beBytes4, be32, List.cons_append, List.nil_append]
  rw [read_string_run _ _ _ _ _ (utf8Bytes s).length (by rw [ofBe32_be32, hl])]
  rw [if_neg (by simp)]
  rw [List.take_append_of_le_length (Nat.le_refl _), List.take_length, utf8Decode_bytes]
  simp only []
  rw [if_pos (by simp; omega)]

theorem toInt_ofNat {k : Nat} (hk : k < 2 ^ 32) :
    (Int32.ofNat k).toInt = if k < 2 ^ 31 then (k : Int) else (k : Int) - 2 ^ 32 := by
  have hz : Int32.size = 4294967296 := rfl
  rw [Int32.toInt_ofNat', Int.bmod_def, hz]
  split <;> split <;> omega

theorem stop_ne_depth {α : Type} {o : Stop} : (o.res : Res α) ≠ .depth := by cases o <;> simp [Stop.res]

/-! ## What happens is listed -/

theorem stopsIn_readAll {env : Env} {n : Nat} {ts : List Ty}
    (h : ∀ t input p, deTy env n t input = p.res → Stops env t input p)
    {input : Bytes} {p : Stop} (hr : readAll (ts.map (deTy env n)) input = p.res) :
    StopsIn env ts input p := by
  induction ts generalizing input with
  | nil => simp [readAll] at hr
  | cons t ts ih =>
    simp only [List.map_cons, readAll] at hr
    rcases bind_eq_stop.mp hr with h1 | ⟨v, mid, h1, h2⟩
    · exact .here (h _ _ _ h1)
    · rcases bind_eq_stop.mp h2 with h3 | ⟨vs, mid', _, h4⟩
      · obtain ⟨bs, rfl, f⟩ := form_of_read env n _ _ _ _ h1
        exact .later f (ih h3)
      · simp at h4

theorem stopsIn_readPairs {env : Env} {n : Nat} {a c : Ty}
    (h : ∀ t input p, deTy env n t input = p.res → Stops env t input p)
    {m : Nat} {input : Bytes} {p : Stop}
    (hr : readPairs (deTy env n a) (deTy env n c) m input = p.res) :
    StopsIn env (List.replicate m [a, c]).flatten input p := by
  induction m generalizing input with
  | zero => simp [readPairs] at hr
  | succ m ih =>
    simp only [readPairs] at hr
    rw [List.replicate_succ, List.flatten_cons]
    rcases bind_eq_stop.mp hr with h1 | ⟨k, m1, h1, h2⟩
    · exact .here (h _ _ _ h1)
    obtain ⟨bs, rfl, f⟩ := form_of_read env n _ _ _ _ h1
    refine .later f ?_
    rcases bind_eq_stop.mp h2 with h3 | ⟨v, m2, h3, h4⟩
    · exact .here (h _ _ _ h3)
    obtain ⟨cs, rfl, g⟩ := form_of_read env n _ _ _ _ h3
    refine .later g ?_
    rcases bind_eq_stop.mp h4 with h5 | ⟨es, m3, _, h6⟩
    · exact ih h5
    · simp at h6

theorem stops_of_res (env : Env) : ∀ (n : Nat) (t : Ty) (input : Bytes) (p : Stop),
    deTy env n t input = p.res → Stops env t input p := by
  intro n
  induction n with
  | zero => intro t input p h; simp [deTy] at h
  | succ n ih =>
    intro t input p h
    cases t with
    | bool =>
      rcases bind_eq_stop.mp h with h1 | ⟨_, _, _, h2⟩
      · exact stop_word trivial (stop_u32 h1)
      · simp at h2
    | i8 =>
      rcases bind_eq_stop.mp h with h1 | ⟨_, _, _, h2⟩
      · exact stop_word trivial (stop_i32 h1)
      · simp at h2
    | i16 =>
      rcases bind_eq_stop.mp h with h1 | ⟨_, _, _, h2⟩
      · exact stop_word trivial (stop_i32 h1)
      · simp at h2
    | i32 =>
      rcases bind_eq_stop.mp h with h1 | ⟨_, _, _, h2⟩
      · exact stop_word trivial (stop_i32 h1)
      · simp at h2
    | i64 =>
      rcases bind_eq_stop.mp h with h1 | ⟨_, _, _, h2⟩
      · exact stop_dword (by simp) (stop_i64 h1)
      · simp at h2
    | u8 =>
      rcases bind_eq_stop.mp h with h1 | ⟨_, _, _, h2⟩
      · exact stop_word trivial (stop_u32 h1)
      · simp at h2
    | u16 =>
      rcases bind_eq_stop.mp h with h1 | ⟨_, _, _, h2⟩
      · exact stop_word trivial (stop_u32 h1)
      · simp at h2
    | u32 =>
      rcases bind_eq_stop.mp h with h1 | ⟨_, _, _, h2⟩
      · exact stop_word trivial (stop_u32 h1)
      · simp at h2
    | u64 =>
      rcases bind_eq_stop.mp h with h1 | ⟨_, _, _, h2⟩
      · exact stop_dword (by simp) (stop_u64 h1)
      · simp at h2
    | f32 =>
      rcases bind_eq_stop.mp h with h1 | ⟨_, _, _, h2⟩
      · exact stop_word trivial (stop_u32 h1)
      · simp at h2
    | f64 =>
      rcases bind_eq_stop.mp h with h1 | ⟨_, _, _, h2⟩
      · exact stop_dword (by simp) (stop_u64 h1)
      · simp at h2
    | char =>
      rcases bind_eq_stop.mp h with h1 | ⟨_, _, _, h2⟩
      · exact stop_char h1
      · simp at h2
    | string =>
      rcases bind_eq_stop.mp h with h1 | ⟨_, _, _, h2⟩
      · exact stop_string h1
      · simp at h2
    | bytes =>
      rcases bind_eq_stop.mp h with h1 | ⟨_, _, _, h2⟩
      · exact stop_bytes h1
      · simp at h2
    | opaqueVar =>
      rcases bind_eq_stop.mp h with h1 | ⟨_, _, _, h2⟩
      · by_cases h4 : input.length < 4
        · rw [variable_deserialize_lt h4, err_eq_stop] at h1
          exact stop_word trivial ⟨h4, h1⟩
        · obtain ⟨a0, a1, a2, a3, r, rfl⟩ := exists_word (Nat.not_lt.mp h4)
          rw [variable_deserialize_run a0 a1 a2 a3 r _ rfl] at h1
          split at h1
          · rename_i hc
            rw [err_eq_stop] at h1
            rw [padLen_add] at hc
            rw [h1]
            have hi : a0 :: a1 :: a2 :: a3 :: r = word (ofBe32 a0 a1 a2 a3).toNat ++ r := by
              rw [← word_of]; rfl
            rw [hi]
            exact .opaqueVar (ofBe32 a0 a1 a2 a3).toNat_lt hc
          · simp at h1
      · simp at h2
    | opaqueFixed m =>
      rcases bind_eq_stop.mp h with h1 | ⟨_, _, _, h2⟩
      · rw [fixed_deserialize_run] at h1
        split at h1
        · rename_i hc
          rw [err_eq_stop] at h1
          rw [padLen_add] at hc
          rw [h1]
          exact .opaqueFixed hc
        · simp at h1
      · simp at h2
    | unit => simp [deTy, deserialize_unit] at h
    | option t =>
      simp only [deTy, deserialize_option] at h
      rcases bind_eq_stop.mp h with h1 | ⟨a, mid, h1, h2⟩
      · exact stop_word trivial (stop_u32 h1)
      have h3 := inv_u32 h1
      split at h2
      · simp at h2
      · rename_i h0
        have e : a.toNat ≠ 0 := by simpa [← UInt32.toNat_inj] using h0
        rcases bind_eq_stop.mp h2 with h4 | ⟨_, _, _, h5⟩
        · rw [h3]
          exact .some a.toNat_lt e (ih _ _ _ h4)
        · simp at h5
    | vec t =>
      rw [deTy_vec] at h
      rcases bind_eq_stop.mp h with h1 | ⟨a, mid, h1, h2⟩
      · exact stop_word trivial (stop_u32 h1)
      rcases bind_eq_stop.mp h2 with h3 | ⟨_, _, _, h4⟩
      · rw [inv_u32 h1]
        rw [← List.map_replicate] at h3
        exact .vec a.toNat_lt (stopsIn_readAll ih h3)
      · simp at h4
    | array m t =>
      rw [deTy_array] at h
      rcases bind_eq_stop.mp h with h3 | ⟨_, _, _, h4⟩
      · rw [← List.map_replicate] at h3
        exact .array (stopsIn_readAll ih h3)
      · simp at h4
    | tuple ts =>
      rw [deTy_tuple] at h
      rcases bind_eq_stop.mp h with h3 | ⟨_, _, _, h4⟩
      · exact .tuple (stopsIn_readAll ih h3)
      · simp at h4
    | map a b =>
      rw [deTy_map] at h
      rcases bind_eq_stop.mp h with h1 | ⟨c, mid, h1, h2⟩
      · exact stop_word trivial (stop_u32 h1)
      rcases bind_eq_stop.mp h2 with h3 | ⟨_, _, _, h4⟩
      · rw [inv_u32 h1]
        exact .map c.toNat_lt (stopsIn_readPairs ih h3)
      · simp at h4
    | signed32 name impl =>
      simp only [deTy, signed32_deserialize] at h
      rcases bind_eq_stop.mp h with h1 | ⟨i, mid, h1, h2⟩
      · rcases bind_eq_stop.mp h1 with h3 | ⟨_, _, _, h4⟩
        · exact stop_word trivial (stop_i32 h3)
        · simp at h4
      obtain ⟨j, mid', h3, h4⟩ := M.bind_eq_ok.mp h1
      simp only [M.pure_run, Res.ok.injEq, Prod.mk.injEq] at h4
      obtain ⟨rfl, rfl⟩ := h4
      obtain ⟨k, hk, rfl, rfl⟩ := inv_i32 h3
      cases e : impl.try_from (Int32.ofNat k) with
      | ok w => simp [e, M.ofRes, M.pure] at h2
      | err _ =>
        simp only [e, M.fail_run, err_eq_stop] at h2
        rw [h2]
        exact .signed32Err hk e
      | panic q =>
        simp only [e, M.ofRes, M.panic_run, panic_eq_stop] at h2
        rw [h2]
        exact .signed32 hk e
      | depth => simp [e, M.ofRes] at h2
    | named x =>
      cases hd : env x with
      | none =>
        simp only [deTy, hd, M.panic_run, panic_eq_stop] at h
        subst h
        exact .undefined hd
      | some d =>
        simp only [deTy, hd] at h
        cases d with
        | unitStruct => simp [deDef, deserialize_unit_struct] at h
        | newtypeStruct t =>
          rcases bind_eq_stop.mp h with h1 | ⟨_, _, _, h2⟩
          · exact .newtypeStruct hd (ih _ _ _ h1)
          · simp at h2
        | tupleStruct ts =>
          simp only [deDef, deserialize_tuple_struct] at h
          rw [visitEach_eq _ _ _ _ (by simp)] at h
          rcases bind_eq_stop.mp h with h1 | ⟨_, _, _, h2⟩
          · exact .tupleStruct hd (stopsIn_readAll ih h1)
          · simp at h2
        | struct fs =>
          simp only [deDef, deserialize_struct] at h
          rw [visitEach_eq _ _ _ _ (by simp)] at h
          have e : (fs.map fun f => deTy env n f.2) = (fs.map (·.2)).map (deTy env n) := by
            rw [List.map_map]; rfl
          rcases bind_eq_stop.mp h with h1 | ⟨_, _, _, h2⟩
          · rw [e] at h1
            exact .struct hd (stopsIn_readAll ih h1)
          · simp at h2
        | enum vars =>
          simp only [deDef, deserialize_enum] at h
          rcases bind_eq_stop.mp h with h1 | ⟨i, mid, h1, h2⟩
          · rcases bind_eq_stop.mp h1 with h3 | ⟨j, mid, h3, h4⟩
            · exact stop_word (.inl ⟨_, hd⟩) (stop_i32 h3)
            · obtain ⟨k, hk, rfl, rfl⟩ := inv_i32 h3
              have hj := toInt_ofNat hk
              split at h4
              · simp only [M.fail_run, err_eq_stop] at h4
                rw [h4]
                exact .enumNegative hd (by omega) hk
              · have hs : k < 2 ^ 31 := by omega
                have ht : (Int32.ofNat k).toInt.toNat = k := by omega
                rw [ht] at h4
                unfold variantIndex at h4
                split at h4
                · simp at h4
                · simp only [M.fail_run, err_eq_stop] at h4
                  rw [h4]
                  exact .enumUnknown hd hs (by omega)
          obtain ⟨i0, i1, _⟩ := seed_used h1
          obtain ⟨_, rfl⟩ := inv_seed h1
          rcases hv : vars[i]? with _ | ⟨vn, sh⟩
          · rw [List.getElem?_eq_none_iff] at hv; omega
          rcases sh with _ | t | ts | fs
          · simp only [hv] at h2
            simp only [Enum_unit_variant] at h2
            rw [M.pure_bind'] at h2
            simp at h2
          · simp only [hv] at h2
            simp only [Enum_newtype_variant] at h2
            rcases bind_eq_stop.mp h2 with h3 | ⟨_, _, _, h4⟩
            · exact .enum hd i1 hv (.here (ih _ _ _ h3))
            · simp at h4
          · simp only [hv] at h2
            simp only [Enum_tuple_variant, deserialize_tuple] at h2
            rw [visitEach_eq _ _ _ _ (by simp)] at h2
            rcases bind_eq_stop.mp h2 with h3 | ⟨_, _, _, h4⟩
            · exact .enum hd i1 hv (stopsIn_readAll ih h3)
            · simp at h4
          · simp only [hv] at h2
            simp only [Enum_struct_variant, deserialize_tuple] at h2
            rw [visitEach_eq _ _ _ _ (by simp)] at h2
            have e : (fs.map fun f => deTy env n f.2) = (fs.map (·.2)).map (deTy env n) := by
              rw [List.map_map]; rfl
            rcases bind_eq_stop.mp h2 with h3 | ⟨_, _, _, h4⟩
            · rw [e] at h3
              exact .enum hd i1 hv (stopsIn_readAll ih h3)
            · simp at h4
        | indexer vars impl =>
          simp only [deDef, deserialize_tuple, visitIndexer] at h
          have e : ∀ d : De Int32, Seq.next_element { count := 10 } d =
              (d >>= fun v => Pure.pure (some v, { count := 9 })) := fun _ => rfl
          rw [e, M.bind_assoc'] at h
          rcases bind_eq_stop.mp h with h1 | ⟨i, mid, h1, h2⟩
          · rcases bind_eq_stop.mp h1 with h3 | ⟨_, _, _, h4⟩
            · exact stop_word (.inr ⟨_, _, hd⟩) (stop_i32 h3)
            · simp at h4
          obtain ⟨j, mid', h3, h4⟩ := M.bind_eq_ok.mp h1
          simp only [M.pure_run, Res.ok.injEq, Prod.mk.injEq] at h4
          obtain ⟨rfl, rfl⟩ := h4
          obtain ⟨k, hk, rfl, rfl⟩ := inv_i32 h3
          rw [M.pure_bind'] at h2
          dsimp only at h2
          rcases hvn : impl.name_by_index (Int32.ofNat k) with vn | _ | q | _
          · simp only [hvn] at h2
            rcases hv : findVariant vn vars 0 with _ | ⟨i, _ | ts⟩
            · simp only [hv, M.panic_run, panic_eq_stop] at h2
              subst h2
              exact .indexerName hd hk hvn (findVariant_missing.mp hv)
            · simp [hv] at h2
            · simp only [hv] at h2
              rw [visitUnwrap_take, ← List.map_take, List.length_map] at h2
              rcases bind_eq_stop.mp h2 with h5 | ⟨_, _, _, h6⟩
              · rcases bind_eq_stop.mp h5 with h6 | ⟨vs, rest, h6, h7⟩
                · exact .indexer (fs := some ts) hd hk hvn (called_of hv) (stopsIn_readAll ih h6)
                · split at h7
                  · simp at h7
                  · rename_i hl
                    simp only [M.panic_run, panic_eq_stop] at h7
                    subst h7
                    obtain ⟨bs, rfl, f⟩ := forms_readAll (form_of_read env n) h6
                    exact .indexerMany (fs := some ts) hd hk hvn (called_of hv)
                      (by simpa using hl) f
              · simp at h6
          · simp only [hvn, M.fail_run, err_eq_stop] at h2
            rw [h2]
            exact .indexerErr hd hk hvn
          · simp only [hvn, M.panic_run, panic_eq_stop] at h2
            subst h2
            exact .indexerUser hd hk hvn
          · simp [hvn] at h2
        | union disc vars impl =>
          simp only [deDef, deserialize_tuple, visitUnion] at h
          have e : ∀ d : De Val, Seq.next_element { count := 10 } d =
              (d >>= fun v => Pure.pure (some v, { count := 9 })) := fun _ => rfl
          rw [e, M.bind_assoc'] at h
          rcases bind_eq_stop.mp h with h1 | ⟨i, mid, h1, h2⟩
          · exact .unionDisc hd (ih _ _ _ h1)
          obtain ⟨bs, rfl, f⟩ := form_of_read env n _ _ _ _ h1
          rw [M.pure_bind'] at h2
          dsimp only at h2
          rcases hvn : impl.name_by_value i with vn | _ | q | _
          · simp only [hvn] at h2
            rcases hv : findVariant vn vars 0 with _ | ⟨j, _ | _ | ⟨d0, ts⟩⟩
            · simp only [hv, M.panic_run, panic_eq_stop] at h2
              subst h2
              exact .unionName hd f hvn (findVariant_missing.mp hv)
            · simp [hv] at h2
            · simp [hv] at h2
            · simp only [hv] at h2
              rw [visitUnwrap_take, ← List.map_take, List.length_map] at h2
              rcases bind_eq_stop.mp h2 with h5 | ⟨_, _, _, h6⟩
              · rcases bind_eq_stop.mp h5 with h6 | ⟨vs, rest, h6, h7⟩
                · exact .union hd f hvn (called_of hv) (stopsIn_readAll ih h6)
                · split at h7
                  · simp at h7
                  · rename_i hl
                    simp only [M.panic_run, panic_eq_stop] at h7
                    subst h7
                    obtain ⟨cs, rfl, g⟩ := forms_readAll (form_of_read env n) h6
                    exact .unionMany hd f hvn (called_of hv) (by simpa using hl) g
              · simp at h6
          · simp only [hvn, M.fail_run, err_eq_stop] at h2
            rw [h2]
            exact .unionErr hd f hvn
          · simp only [hvn, M.panic_run, panic_eq_stop] at h2
            subst h2
            exact .unionUser hd f hvn
          · simp [hvn] at h2

/-! ## What is listed happens -/

theorem stop_mono {env : Env} {n m : Nat} {t : Ty} {b : Bytes} {p : Stop}
    (h : deTy env n t b = p.res) (hm : n ≤ m) : deTy env m t b = p.res := by
  rw [deTy_refines env n m hm t b (by rw [h]; exact stop_ne_depth), h]

theorem readAll_stop_mono {env : Env} {n m : Nat} {ts : List Ty} {b : Bytes} {p : Stop}
    (h : readAll (ts.map (deTy env n)) b = p.res) (hm : n ≤ m) :
    readAll (ts.map (deTy env m)) b = p.res := by
  rw [Refines.readAll ts (deTy_refines env n m hm) b (by rw [h]; exact stop_ne_depth), h]

theorem readAll_of_reads {ds : List (De Val)} {bs : Bytes} {vs : List Val} (h : ReadsAll ds bs vs) :
    Reads (readAll ds) bs vs := by
  induction h with
  | nil => exact Reads.pure _
  | cons h1 _ ih => exact h1.bind (ih.map (Reads.pure _))

theorem readPairs_stop {f : Ty → De Val} {a c : Ty} {m : Nat} {b : Bytes} {p : Stop}
    (h : readAll ((List.replicate m [a, c]).flatten.map f) b = p.res) :
    readPairs (f a) (f c) m b = p.res := by
  induction m generalizing b with
  | zero => simp [readAll] at h
  | succ m ih =>
    simp only [List.replicate_succ, List.flatten_cons, List.cons_append, List.nil_append,
      List.map_cons, readAll] at h
    rw [readPairs]
    rcases bind_eq_stop.mp h with h1 | ⟨k, m1, h1, h2⟩
    · exact bind_stop h1
    rw [M.bind_ok h1]
    rw [M.bind_assoc'] at h2
    rcases bind_eq_stop.mp h2 with h3 | ⟨v, m2, h3, h4⟩
    · exact bind_stop h3
    rw [M.bind_ok h3]
    rw [M.bind_assoc'] at h4
    rcases bind_eq_stop.mp h4 with h5 | ⟨es, m3, _, h6⟩
    · exact bind_stop (ih h5)
    · simp at h6

theorem run_u32 {k : Nat} (hk : k < 2 ^ 32) (b : Bytes) :
    read_u32 (word k ++ b) = .ok (UInt32.ofNat k, b) := (reads_word hk).1 b

theorem indexer_run {field : Ty → De Val} {vars : List (String × Option (List Ty))}
    {impl : IndexerImpl} {k : Nat} (hk : k < 2 ^ 32) (b : Bytes) :
    visitIndexer field vars impl { count := 10 } (word k ++ b) =
      (match impl.name_by_index (Int32.ofNat k) with
      | .err _ => (M.fail (.custom s!"Can not convert from {(Int32.ofNat k).toInt}") : De Val)
      | .panic p => M.panic p
      | .depth => M.depth
      | .ok name =>
        match findVariant name vars 0 with
        | none => M.panic .unimplemented
        | some (i, none) => pure (.variant i [])
        | some (i, some ts) => do
          let vs ← visitUnwrap (ts.map field) { count := 9 }
          pure (.variant i vs)) b := by
  have h1 : Reads (deserialize_i32 (pure : Int32 → De Int32)) (word k) (Int32.ofNat k) :=
    (reads_word_i32 hk).map (Reads.pure _)
  unfold visitIndexer
  rw [M.bind_ok (next_reads (n := 9) h1 b)]
  rfl

theorem union_run {field : Ty → De Val} {disc : Ty} {vars : List (String × Option (List Ty))}
    {impl : UnionImpl} {v : Val} {bs : Bytes} (hr : Reads (field disc) bs v) (b : Bytes) :
    visitUnion field disc vars impl { count := 10 } (bs ++ b) =
      (match impl.name_by_value v with
      | .err _ => (M.fail (.custom "Can not convert from value") : De Val)
      | .panic p => M.panic p
      | .depth => M.depth
      | .ok name =>
        match findVariant name vars 0 with
        | none => M.panic .unimplemented
        | some (i, none) => pure (.variant i [])
        | some (i, some []) => pure (.variant i [])
        | some (i, some (_ :: ts)) => do
          let vs ← visitUnwrap (ts.map field) { count := 9 }
          pure (.variant i (v :: vs))) b := by
  unfold visitUnion
  rw [M.bind_ok (next_reads (n := 9) hr b)]
  rfl

theorem unwrap_stop {f : Ty → De Val} {ts : List Ty} {b : Bytes} {p : Stop}
    (h : readAll ((ts.take 9).map f) b = p.res) : visitUnwrap (ts.map f) { count := 9 } b = p.res := by
  rw [visitUnwrap_take, ← List.map_take]
  exact bind_stop h

theorem unwrap_many {f : Ty → De Val} {ts : List Ty} {b rest : Bytes} {vs : List Val}
    (h : ReadsAll ((ts.take 9).map f) b vs) (hl : 9 < ts.length) :
    visitUnwrap (ts.map f) { count := 9 } (b ++ rest) = .panic .unwrapNone := by
  rw [visitUnwrap_take, ← List.map_take, M.bind_ok (readAll_of_reads h rest), if_neg (by simpa using hl)]
  rfl

end Wire

end Xdr
