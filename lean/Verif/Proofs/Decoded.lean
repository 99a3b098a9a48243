import Verif.Proofs.Recursion
import Verif.Proofs.RoundTrip
import Verif.Props.Maps
/-! # Lemmas: what a decoder returns can be encoded -/

namespace Xdr

/-- `v` encodes at type `t` to `k` bytes, and fits within recursion depth `n`. -/
def Enc (env : Env) (n : Nat) (t : Ty) (v : Val) (k : Nat) : Prop :=
  ∃ s bs, Pres env t v s ∧ Fits env t v ∧ v.depth < n ∧ to_bytes s = .ok bs ∧ bs.length = k

inductive EncEach (env : Env) (n : Nat) : List Ty → List Val → Nat → Prop
  | nil : EncEach env n [] [] 0
  | cons {t ts v vs k l} : Enc env n t v k → EncEach env n ts vs l →
      EncEach env n (t :: ts) (v :: vs) (k + l)

inductive EncEntries (env : Env) (n : Nat) (a b : Ty) : List (Val × Val) → Nat → Prop
  | nil : EncEntries env n a b [] 0
  | cons {v w es k l m} : Enc env n a v k → Enc env n b w l → EncEntries env n a b es m →
      EncEntries env n a b ((v, w) :: es) (k + l + m)

theorem EncEach.out {env : Env} {n : Nat} {ts : List Ty} {vs : List Val} {k : Nat}
    (h : EncEach env n ts vs k) : ∃ ss bs, PresEach env ts vs ss ∧ FitsEach env ts vs ∧
      depthList vs ≤ n ∧ bytesList ss = .ok bs ∧ bs.length = k := by
  induction h with
  | nil => exact ⟨[], [], .nil, by simp [FitsEach], Nat.zero_le _, rfl, rfl⟩
  | cons h _ ih =>
    obtain ⟨s, bs, h1, h2, h3, h4, h5⟩ := h
    obtain ⟨ss, cs, g1, g2, g3, g4, g5⟩ := ih
    refine ⟨s :: ss, bs ++ cs, .cons h1 g1, by simp only [FitsEach]; exact ⟨h2, g2⟩, ?_, ?_, ?_⟩
    · rw [depthList]
      omega
    · rw [bytesList_cons, h4, g4]; rfl
    · rw [List.length_append, h5, g5]

theorem EncEach.all {env : Env} {n : Nat} {t : Ty} {m : Nat} {vs : List Val} {k : Nat}
    (h : EncEach env n (List.replicate m t) vs k) : vs.length = m ∧ ∃ ss bs,
      PresAll env t vs ss ∧ FitsAll env t vs ∧
      depthList vs ≤ n ∧ bytesList ss = .ok bs ∧ bs.length = k := by
  induction m generalizing vs k with
  | zero =>
    cases h
    exact ⟨rfl, [], [], .nil t, by simp [FitsAll], Nat.zero_le _, rfl, rfl⟩
  | succ m ih =>
    rw [List.replicate_succ] at h
    cases h with
    | cons h hs =>
      obtain ⟨s, bs, h1, h2, h3, h4, h5⟩ := h
      obtain ⟨g0, ss, cs, g1, g2, g3, g4, g5⟩ := ih hs
      refine ⟨by simp [g0], s :: ss, bs ++ cs, .cons h1 g1, by simp only [FitsAll]; exact ⟨h2, g2⟩,
        ?_, ?_, ?_⟩
      · rw [depthList]
        omega
      · rw [bytesList_cons, h4, g4]; rfl
      · rw [List.length_append, h5, g5]

theorem EncEntries.out {env : Env} {n : Nat} {a b : Ty} {es : List (Val × Val)} {k : Nat}
    (h : EncEntries env n a b es k) : ∃ ss bs, PresEntries env a b es ss ∧ FitsEntries env a b es ∧
      depthEntries es ≤ n ∧ bytesEntries ss = .ok bs ∧ bs.length = k := by
  induction h with
  | nil => exact ⟨[], [], .nil a b, by simp [FitsEntries], Nat.zero_le _, rfl, rfl⟩
  | cons h g _ ih =>
    obtain ⟨s, bs, h1, h2, h3, h4, h5⟩ := h
    obtain ⟨s', bs', f1, f2, f3, f4, f5⟩ := g
    obtain ⟨ss, cs, g1, g2, g3, g4, g5⟩ := ih
    refine ⟨(s, s') :: ss, (bs ++ bs') ++ cs, .cons h1 f1 g1,
      by simp only [FitsEntries]; exact ⟨h2, f2, g2⟩, ?_, ?_, ?_⟩
    · rw [depthEntries]
      omega
    · have : bytesEntries ((s, s') :: ss) = ((to_bytes s).cat (to_bytes s')).cat (bytesEntries ss) :=
        rfl
      rw [this, h4, f4, g4]; rfl
    · rw [List.length_append, List.length_append, h5, f5, g5]

theorem mapInsert_length (k v : Val) (es : List (Val × Val)) :
    (mapInsert k v es).length ≤ es.length + 1 := by
  induction es with
  | nil => simp [mapInsert]
  | cons e es ih =>
    obtain ⟨a, b⟩ := e
    rw [mapInsert]
    split <;> simp <;> omega

theorem insertAll_length (acc es : List (Val × Val)) :
    (insertAll acc es).length ≤ acc.length + es.length := by
  induction es generalizing acc with
  | nil => simp [insertAll]
  | cons e es ih =>
    have h1 := ih (mapInsert e.1 e.2 acc)
    have h2 := mapInsert_length e.1 e.2 acc
    rw [List.length_cons]
    have : insertAll acc (e :: es) = insertAll (mapInsert e.1 e.2 acc) es := rfl
    rw [this]
    omega

theorem EncEntries.insert {env : Env} {n : Nat} {a b : Ty} {es : List (Val × Val)} {m k l : Nat}
    {v w : Val} (h : EncEntries env n a b es m) (hv : Enc env n a v k) (hw : Enc env n b w l) :
    ∃ m' ≤ m + (k + l), EncEntries env n a b (mapInsert v w es) m' := by
  induction h with
  | nil => exact ⟨k + l + 0, by omega, .cons hv hw .nil⟩
  | @cons v' w' es k' l' m h1 h2 h3 ih =>
    obtain ⟨m', hm, ih⟩ := ih
    rw [mapInsert]
    split
    · exact ⟨k' + l + m, by omega, .cons h1 hw h3⟩
    · exact ⟨k' + l' + m', by omega, .cons h1 h2 ih⟩

theorem EncEntries.insertAll {env : Env} {n : Nat} {a b : Ty} {acc es : List (Val × Val)} {m k : Nat}
    (h : EncEntries env n a b acc m) (h' : EncEntries env n a b es k) :
    ∃ m' ≤ m + k, EncEntries env n a b (insertAll acc es) m' := by
  induction h' generalizing acc m with
  | nil => exact ⟨m, by omega, h⟩
  | cons hv hw _ ih =>
    obtain ⟨m1, h1, h2⟩ := h.insert hv hw
    obtain ⟨m2, h3, h4⟩ := ih h2
    exact ⟨m2, by omega, h4⟩

theorem visitUnwrap_ok {ds : List (De Val)} {n : Nat} {input rest : Bytes} {vs : List Val}
    (h : visitUnwrap ds { count := n } input = .ok (vs, rest)) :
    ds.length ≤ n ∧ readAll ds input = .ok (vs, rest) := by
  have hn : ds.length ≤ n := by
    induction ds generalizing n input vs with
    | nil => simp
    | cons d ds ih =>
      rw [visitUnwrap] at h
      obtain ⟨⟨o, s⟩, mid, h1, h2⟩ := M.bind_eq_ok.mp h
      cases n with
      | zero =>
        have e : Seq.next_element { count := 0 } d = Pure.pure (none, { count := 0 }) := rfl
        rw [e] at h1
        simp only [M.pure_run, Res.ok.injEq, Prod.mk.injEq] at h1
        obtain ⟨⟨rfl, rfl⟩, rfl⟩ := h1
        simp at h2
      | succ n =>
        rw [Seq.next_succ] at h1
        obtain ⟨v, mid', h3, h4⟩ := M.bind_eq_ok.mp h1
        simp only [M.pure_run, Res.ok.injEq, Prod.mk.injEq] at h4
        obtain ⟨⟨rfl, rfl⟩, rfl⟩ := h4
        obtain ⟨ws, mid'', h5, h6⟩ := M.bind_eq_ok.mp h2
        simp only [M.pure_run, Res.ok.injEq, Prod.mk.injEq] at h6
        obtain ⟨rfl, rfl⟩ := h6
        have := ih h5
        rw [List.length_cons]; omega
  exact ⟨hn, by rw [← visitUnwrap_eq _ _ hn]; exact h⟩

theorem findVariant_get {α : Type} {name : String} {vars : List (String × α)} {k i : Nat} {a : α}
    (h : findVariant name vars k = some (i, a)) : k ≤ i ∧ vars[i - k]? = some (name, a) ∧
      ∀ j < i - k, ∀ x, vars[j]? = some x → x.1 ≠ name := by
  induction vars generalizing k with
  | nil => simp [findVariant] at h
  | cons x xs ih =>
    obtain ⟨n, b⟩ := x
    rw [findVariant] at h
    split at h
    · rename_i hn
      simp only [Option.some.injEq, Prod.mk.injEq] at h
      obtain ⟨rfl, rfl⟩ := h
      exact ⟨Nat.le_refl _, by simp [hn], by simp⟩
    · rename_i hn
      obtain ⟨h1, h2, h3⟩ := ih h
      have e : i - k = (i - (k + 1)) + 1 := by omega
      refine ⟨by omega, by rw [e, List.getElem?_cons_succ]; exact h2, ?_⟩
      intro j hj y hy
      cases j with
      | zero =>
        simp only [List.getElem?_cons_zero, Option.some.injEq] at hy
        rw [← hy]; exact hn
      | succ j =>
        rw [List.getElem?_cons_succ] at hy
        exact h3 j (by omega) y hy

/-- The outcome the main lemma establishes. -/
def Normal (env : Env) (maps : Bool) (n : Nat) (t : Ty) (v : Val) (used : Nat) : Prop :=
  ∃ k, Enc env n t v k ∧ k ≤ used ∧ (maps = false → k = used)

theorem normal_readAll {env : Env} {maps : Bool} {n : Nat} {ts : List Ty}
    (h : ∀ t ∈ ts, ∀ input v rest, deTy env n t input = .ok (v, rest) →
      Normal env maps n t v (input.length - rest.length))
    {input rest : Bytes} {vs : List Val} (hr : readAll (ts.map (deTy env n)) input = .ok (vs, rest)) :
    ∃ k, EncEach env n ts vs k ∧ k ≤ input.length - rest.length ∧
      (maps = false → k = input.length - rest.length) := by
  induction ts generalizing input vs with
  | nil =>
    simp only [List.map_nil, readAll, M.pure_run, Res.ok.injEq, Prod.mk.injEq] at hr
    obtain ⟨rfl, rfl⟩ := hr
    exact ⟨0, .nil, by omega, fun _ => by omega⟩
  | cons t ts ih =>
    rw [List.map_cons, readAll] at hr
    obtain ⟨v, mid, h1, h2⟩ := M.bind_eq_ok.mp hr
    obtain ⟨ws, mid', h3, h4⟩ := M.bind_eq_ok.mp h2
    simp only [M.pure_run, Res.ok.injEq, Prod.mk.injEq] at h4
    obtain ⟨rfl, rfl⟩ := h4
    obtain ⟨k, e1, e2, e3⟩ := h t (by simp) _ _ _ h1
    obtain ⟨l, f1, f2, f3⟩ := ih (fun u hu => h u (by simp [hu])) h3
    have g1 := (built_deTy env n t).gen.eats _ _ _ h1
    have g2 := (Gen.readAll (gens env n ts)).eats _ _ _ h3
    refine ⟨k + l, .cons e1 f1, by omega, fun hm => ?_⟩
    have := e3 hm
    have := f3 hm
    omega

theorem normal_readPairs {env : Env} {maps : Bool} {n : Nat} {a b : Ty}
    (ha : ∀ input v rest, deTy env n a input = .ok (v, rest) →
      Normal env maps n a v (input.length - rest.length))
    (hb : ∀ input v rest, deTy env n b input = .ok (v, rest) →
      Normal env maps n b v (input.length - rest.length))
    {m : Nat} {input rest : Bytes} {es : List (Val × Val)}
    (hr : readPairs (deTy env n a) (deTy env n b) m input = .ok (es, rest)) :
    es.length = m ∧ ∃ k, EncEntries env n a b es k ∧ k ≤ input.length - rest.length := by
  induction m generalizing input es with
  | zero =>
    simp only [readPairs, M.pure_run, Res.ok.injEq, Prod.mk.injEq] at hr
    obtain ⟨rfl, rfl⟩ := hr
    exact ⟨rfl, 0, .nil, by omega⟩
  | succ m ih =>
    rw [readPairs] at hr
    obtain ⟨v, mid, h1, h2⟩ := M.bind_eq_ok.mp hr
    obtain ⟨w, mid', h3, h4⟩ := M.bind_eq_ok.mp h2
    obtain ⟨fs, mid'', h5, h6⟩ := M.bind_eq_ok.mp h4
    simp only [M.pure_run, Res.ok.injEq, Prod.mk.injEq] at h6
    obtain ⟨rfl, rfl⟩ := h6
    obtain ⟨k, e1, e2, _⟩ := ha _ _ _ h1
    obtain ⟨l, f1, f2, _⟩ := hb _ _ _ h3
    obtain ⟨i1, o, i2, i3⟩ := ih h5
    have g1 := (built_deTy env n a).gen.eats _ _ _ h1
    have g2 := (built_deTy env n b).gen.eats _ _ _ h3
    have g3 := (Gen.readPairs (built_deTy env n a).gen (built_deTy env n b).gen m).eats _ _ _ h5
    exact ⟨by simp [i1], k + l + o, .cons e1 f1 i2, by omega⟩

theorem u32_used {input rest : Bytes} {v : UInt32} (h : read_u32 input = .ok (v, rest)) :
    input.length = rest.length + 4 := by
  obtain ⟨a, b, c, d, h1, _⟩ := read_u32_ok h
  rw [h1]; simp

theorem i32_used {input rest : Bytes} {v : Int32} (h : read_i32 input = .ok (v, rest)) :
    input.length = rest.length + 4 := by
  rw [read_i32_eq] at h
  obtain ⟨a, mid, h1, h2⟩ := M.bind_eq_ok.mp h
  simp only [M.pure_run, Res.ok.injEq, Prod.mk.injEq] at h2
  rw [← h2.2]; exact u32_used h1

theorem u64_used {input rest : Bytes} {v : UInt64} (h : read_u64 input = .ok (v, rest)) :
    input.length = rest.length + 8 := by
  by_cases h8 : input.length < 8
  · rw [read_u64_lt h8] at h; simp at h
  · obtain ⟨a, b, c, d, e, f, g, i, r, rfl⟩ := exists_dword (Nat.not_lt.mp h8)
    rw [read_u64_cons] at h
    simp only [Res.ok.injEq, Prod.mk.injEq] at h
    rw [← h.2]
    simp

theorem i64_used {input rest : Bytes} {v : Int64} (h : read_i64 input = .ok (v, rest)) :
    input.length = rest.length + 8 := by
  rw [read_i64_eq] at h
  obtain ⟨a, mid, h1, h2⟩ := M.bind_eq_ok.mp h
  simp only [M.pure_run, Res.ok.injEq, Prod.mk.injEq] at h2
  rw [← h2.2]; exact u64_used h1

theorem char_used {input rest : Bytes} {v : Char} (h : read_char input = .ok (v, rest)) :
    input.length = rest.length + 4 := by
  unfold read_char at h
  obtain ⟨a, mid, h1, h2⟩ := M.bind_eq_ok.mp h
  cases hc : charFromU32 a with
  | none => simp [hc] at h2
  | some c =>
    simp only [hc, M.pure_run, Res.ok.injEq, Prod.mk.injEq] at h2
    rw [← h2.2]; exact u32_used h1

theorem opaqueBytes_length (v : Bytes) : (opaqueBytes v).length = 4 + (v.length + padLen v.length) := by
  simp only [opaqueBytes, lenBytes, List.length_append, be32_length, List.length_replicate, padLen]

theorem bytes_used {input rest : Bytes} {v : Bytes} (h : read_bytes input = .ok (v, rest)) :
    v.length < 2 ^ 32 ∧ input.length = rest.length + (opaqueBytes v).length := by
  by_cases h4 : input.length < 4
  · rw [read_bytes_lt h4] at h; simp at h
  · obtain ⟨a, b, c, d, r, rfl⟩ := exists_word (Nat.not_lt.mp h4)
    rw [read_bytes_run a b c d r _ rfl] at h
    have hlt := (ofBe32 a b c d).toNat_lt
    generalize (ofBe32 a b c d).toNat = n at h hlt
    split at h
    · simp at h
    · split at h
      · simp at h
      · simp only [Res.ok.injEq, Prod.mk.injEq] at h
        obtain ⟨rfl, rfl⟩ := h
        have : (r.take n).length = n := by rw [List.length_take]; omega
        rw [opaqueBytes_length, this]
        simp only [List.length_cons, List.length_drop]
        omega

theorem string_used {input rest : Bytes} {v : List Char} (h : read_string input = .ok (v, rest)) :
    (utf8Bytes v).length < 2 ^ 32 ∧ input.length = rest.length + (opaqueBytes (utf8Bytes v)).length := by
  by_cases h4 : input.length < 4
  · rw [read_string_lt h4] at h; simp at h
  · obtain ⟨a, b, c, d, r, rfl⟩ := exists_word (Nat.not_lt.mp h4)
    rw [read_string_run a b c d r _ rfl] at h
    have hlt := (ofBe32 a b c d).toNat_lt
    generalize (ofBe32 a b c d).toNat = n at h hlt
    split at h
    · simp at h
    · split at h
      · simp at h
      · rename_i hs
        split at h
        · simp at h
        · simp only [Res.ok.injEq, Prod.mk.injEq] at h
          obtain ⟨rfl, rfl⟩ := h
          have : (r.take n).length = n := by rw [List.length_take]; omega
          rw [utf8Bytes_decode hs, opaqueBytes_length, this]
          simp only [List.length_cons, List.length_drop]
          omega

theorem variable_used {input rest : Bytes} {v : Bytes} (h : variable_deserialize input = .ok (v, rest)) :
    v.length < 2 ^ 32 ∧ input.length = rest.length + (opaqueBytes v).length := by
  by_cases h4 : input.length < 4
  · rw [variable_deserialize_lt h4] at h; simp at h
  · obtain ⟨a, b, c, d, r, rfl⟩ := exists_word (Nat.not_lt.mp h4)
    rw [variable_deserialize_run a b c d r _ rfl] at h
    have hlt := (ofBe32 a b c d).toNat_lt
    generalize (ofBe32 a b c d).toNat = n at h hlt
    split at h
    · simp at h
    · simp only [Res.ok.injEq, Prod.mk.injEq] at h
      obtain ⟨rfl, rfl⟩ := h
      have : (r.take n).length = n := by rw [List.length_take]; omega
      rw [opaqueBytes_length, this]
      simp only [List.length_cons, List.length_drop]
      omega

theorem seed_used {vars : Nat} {input rest : Bytes} {i : Nat}
    (h : Enum_variant_seed (variantIndex vars) input = .ok (i, rest)) :
    i < vars ∧ i < 2 ^ 31 ∧ input.length = rest.length + 4 := by
  obtain ⟨a, mid, h1, h2⟩ := M.bind_eq_ok.mp h
  have h3 := i32_used h1
  split at h2
  · simp at h2
  · unfold variantIndex at h2
    split at h2
    · rename_i ha hlt
      simp only [M.pure_run, Res.ok.injEq, Prod.mk.injEq] at h2
      obtain ⟨rfl, rfl⟩ := h2
      have := a.toInt_lt
      exact ⟨hlt, by omega, h3⟩
    · simp at h2

theorem consistentAll_iff (env : Env) (maps : Bool) (ts : List Ty) :
    ConsistentAll env maps ts ↔ ∀ t ∈ ts, t.Consistent env maps := by
  induction ts with
  | nil => simp [ConsistentAll]
  | cons t ts ih => simp [ConsistentAll, ih]

theorem Normal.exact {env : Env} {maps : Bool} {n : Nat} {t : Ty} {v : Val} {used k : Nat}
    (h : Enc env n t v k) (hk : k = used) : Normal env maps n t v used :=
  ⟨k, h, by omega, fun _ => hk⟩


/-- What a decoder returns encodes to as many bytes as it consumed (at most, if there are maps). -/
theorem decoded_normal {env : Env} {maps : Bool} (henv : EnvConsistent env maps) :
    ∀ (n : Nat) (t : Ty), t.Consistent env maps → ∀ input v rest,
      deTy env n t input = .ok (v, rest) → Normal env maps n t v (input.length - rest.length) := by
  intro n
  induction n with
  | zero => intro t _ input v rest h; simp [deTy] at h
  | succ n ih =>
    intro t ht input v rest h
    cases t with
    | bool =>
      obtain ⟨a, mid, h1, h2⟩ := M.bind_eq_ok.mp h
      simp only [M.pure_run, Res.ok.injEq, Prod.mk.injEq] at h2
      obtain ⟨rfl, rfl⟩ := h2
      have := u32_used h1
      exact .exact ⟨_, _, .bool _, by simp [Fits], by simp [Val.depth], to_bytes_node _, rfl⟩
        (by simp only [be32_length]; omega)
    | i8 =>
      obtain ⟨a, mid, h1, h2⟩ := M.bind_eq_ok.mp h
      simp only [M.pure_run, Res.ok.injEq, Prod.mk.injEq] at h2
      obtain ⟨rfl, rfl⟩ := h2
      have := i32_used h1
      exact .exact ⟨_, _, .i8 _, by simp [Fits], by simp [Val.depth], to_bytes_node _, rfl⟩
        (by simp only [be32_length]; omega)
    | i16 =>
      obtain ⟨a, mid, h1, h2⟩ := M.bind_eq_ok.mp h
      simp only [M.pure_run, Res.ok.injEq, Prod.mk.injEq] at h2
      obtain ⟨rfl, rfl⟩ := h2
      have := i32_used h1
      exact .exact ⟨_, _, .i16 _, by simp [Fits], by simp [Val.depth], to_bytes_node _, rfl⟩
        (by simp only [be32_length]; omega)
    | i32 =>
      obtain ⟨a, mid, h1, h2⟩ := M.bind_eq_ok.mp h
      simp only [M.pure_run, Res.ok.injEq, Prod.mk.injEq] at h2
      obtain ⟨rfl, rfl⟩ := h2
      have := i32_used h1
      exact .exact ⟨_, _, .i32 _, by simp [Fits], by simp [Val.depth], to_bytes_node _, rfl⟩
        (by simp only [be32_length]; omega)
    | i64 =>
      obtain ⟨a, mid, h1, h2⟩ := M.bind_eq_ok.mp h
      simp only [M.pure_run, Res.ok.injEq, Prod.mk.injEq] at h2
      obtain ⟨rfl, rfl⟩ := h2
      have := i64_used h1
      exact .exact ⟨_, _, .i64 _, by simp [Fits], by simp [Val.depth], to_bytes_node _, rfl⟩
        (by simp only [be64_length]; omega)
    | u8 =>
      obtain ⟨a, mid, h1, h2⟩ := M.bind_eq_ok.mp h
      simp only [M.pure_run, Res.ok.injEq, Prod.mk.injEq] at h2
      obtain ⟨rfl, rfl⟩ := h2
      have := u32_used h1
      exact .exact ⟨_, _, .u8 _, by simp [Fits], by simp [Val.depth], to_bytes_node _, rfl⟩
        (by simp only [be32_length]; omega)
    | u16 =>
      obtain ⟨a, mid, h1, h2⟩ := M.bind_eq_ok.mp h
      simp only [M.pure_run, Res.ok.injEq, Prod.mk.injEq] at h2
      obtain ⟨rfl, rfl⟩ := h2
      have := u32_used h1
      exact .exact ⟨_, _, .u16 _, by simp [Fits], by simp [Val.depth], to_bytes_node _, rfl⟩
        (by simp only [be32_length]; omega)
    | u32 =>
      obtain ⟨a, mid, h1, h2⟩ := M.bind_eq_ok.mp h
      simp only [M.pure_run, Res.ok.injEq, Prod.mk.injEq] at h2
      obtain ⟨rfl, rfl⟩ := h2
      have := u32_used h1
      exact .exact ⟨_, _, .u32 _, by simp [Fits], by simp [Val.depth], to_bytes_node _, rfl⟩
        (by simp only [be32_length]; omega)
    | u64 =>
      obtain ⟨a, mid, h1, h2⟩ := M.bind_eq_ok.mp h
      simp only [M.pure_run, Res.ok.injEq, Prod.mk.injEq] at h2
      obtain ⟨rfl, rfl⟩ := h2
      have := u64_used h1
      exact .exact ⟨_, _, .u64 _, by simp [Fits], by simp [Val.depth], to_bytes_node _, rfl⟩
        (by simp only [be64_length]; omega)
    | f32 =>
      obtain ⟨a, mid, h1, h2⟩ := M.bind_eq_ok.mp h
      simp only [M.pure_run, Res.ok.injEq, Prod.mk.injEq] at h2
      obtain ⟨rfl, rfl⟩ := h2
      have := u32_used h1
      exact .exact ⟨_, _, .f32 _, by simp [Fits], by simp [Val.depth], to_bytes_node _, rfl⟩
        (by simp only [be32_length]; omega)
    | f64 =>
      obtain ⟨a, mid, h1, h2⟩ := M.bind_eq_ok.mp h
      simp only [M.pure_run, Res.ok.injEq, Prod.mk.injEq] at h2
      obtain ⟨rfl, rfl⟩ := h2
      have := u64_used h1
      exact .exact ⟨_, _, .f64 _, by simp [Fits], by simp [Val.depth], to_bytes_node _, rfl⟩
        (by simp only [be64_length]; omega)
    | char =>
      obtain ⟨a, mid, h1, h2⟩ := M.bind_eq_ok.mp h
      simp only [M.pure_run, Res.ok.injEq, Prod.mk.injEq] at h2
      obtain ⟨rfl, rfl⟩ := h2
      have := char_used h1
      exact .exact ⟨_, _, .char _, by simp [Fits], by simp [Val.depth], to_bytes_node _, rfl⟩
        (by simp only [be32_length]; omega)
    | string =>
      obtain ⟨a, mid, h1, h2⟩ := M.bind_eq_ok.mp h
      simp only [M.pure_run, Res.ok.injEq, Prod.mk.injEq] at h2
      obtain ⟨rfl, rfl⟩ := h2
      obtain ⟨h3, h4⟩ := string_used h1
      exact .exact ⟨_, _, .string _, by simp only [Fits]; exact h3, by simp [Val.depth],
        to_bytes_node _, rfl⟩ (by omega)
    | bytes =>
      obtain ⟨a, mid, h1, h2⟩ := M.bind_eq_ok.mp h
      simp only [M.pure_run, Res.ok.injEq, Prod.mk.injEq] at h2
      obtain ⟨rfl, rfl⟩ := h2
      obtain ⟨h3, h4⟩ := bytes_used h1
      exact .exact ⟨_, _, .bytes _, by simp only [Fits]; exact h3, by simp [Val.depth],
        to_bytes_node _, rfl⟩ (by omega)
    | opaqueVar =>
      obtain ⟨a, mid, h1, h2⟩ := M.bind_eq_ok.mp h
      simp only [M.pure_run, Res.ok.injEq, Prod.mk.injEq] at h2
      obtain ⟨rfl, rfl⟩ := h2
      obtain ⟨h3, h4⟩ := variable_used h1
      exact .exact ⟨_, _, .opaqueVar _, by simp only [Fits]; exact h3, by simp [Val.depth],
        to_bytes_variable _, rfl⟩ (by omega)
    | opaqueFixed m =>
      obtain ⟨a, mid, h1, h2⟩ := M.bind_eq_ok.mp h
      simp only [M.pure_run, Res.ok.injEq, Prod.mk.injEq] at h2
      obtain ⟨rfl, rfl⟩ := h2
      rw [fixed_deserialize_run] at h1
      split at h1
      · simp at h1
      · rename_i hm
        simp only [Res.ok.injEq, Prod.mk.injEq] at h1
        obtain ⟨h1, rfl⟩ := h1
        have hl : a.length = m := by rw [← h1, List.length_take]; omega
        refine .exact ⟨_, _, hl ▸ .opaqueFixed a, by simp [Fits], by simp [Val.depth],
          to_bytes_fixed a, rfl⟩ ?_
        rw [List.length_append, List.length_replicate, List.length_drop, hl]
        omega
    | unit =>
      simp only [deTy, deserialize_unit, M.pure_run, Res.ok.injEq, Prod.mk.injEq] at h
      obtain ⟨rfl, rfl⟩ := h
      exact .exact ⟨_, _, .unit, by simp [Fits], by simp [Val.depth], to_bytes_node _, rfl⟩
        (by simp)
    | option t =>
      simp only [Ty.Consistent] at ht
      simp only [deTy, deserialize_option] at h
      obtain ⟨a, mid, h1, h2⟩ := M.bind_eq_ok.mp h
      have h3 := u32_used h1
      split at h2
      · simp only [M.pure_run, Res.ok.injEq, Prod.mk.injEq] at h2
        obtain ⟨rfl, rfl⟩ := h2
        exact .exact ⟨_, _, .none t, by simp [Fits], by simp [Val.depth], to_bytes_node _, rfl⟩
          (by simp only [be32_length]; omega)
      · obtain ⟨b, mid', h4, h5⟩ := M.bind_eq_ok.mp h2
        simp only [M.pure_run, Res.ok.injEq, Prod.mk.injEq] at h5
        obtain ⟨rfl, rfl⟩ := h5
        obtain ⟨k, ⟨s, bs, e1, e2, e3, e4, e5⟩, e6, e7⟩ := ih t ht _ _ _ h4
        have h6 := (built_deTy env n t).gen.eats _ _ _ h4
        refine ⟨4 + k, ⟨.some s, be32 1 ++ bs, .some e1, by simp only [Fits]; exact e2,
          by simp only [Val.depth]; omega, ?_, ?_⟩, by omega, fun hm => ?_⟩
        · rw [to_bytes_node, nodeBytes, e4]; rfl
        · rw [List.length_append, be32_length, e5]
        · have := e7 hm; omega
    | vec t =>
      simp only [Ty.Consistent] at ht
      rw [deTy_vec] at h
      obtain ⟨c, mid, h1, h2⟩ := M.bind_eq_ok.mp h
      obtain ⟨ws, mid', h3, h4⟩ := M.bind_eq_ok.mp h2
      simp only [M.pure_run, Res.ok.injEq, Prod.mk.injEq] at h4
      obtain ⟨rfl, rfl⟩ := h4
      have h5 := u32_used h1
      rw [← List.map_replicate] at h3
      obtain ⟨k, f1, f2, f3⟩ := normal_readAll (maps := maps) (fun u hu => by
        rw [List.eq_of_mem_replicate hu]; exact ih t ht) h3
      have h6 := (Gen.readAll (gens env n _)).eats _ _ _ h3
      obtain ⟨g0, ss, bs, g1, g2, g3, g4, g5⟩ := f1.all
      have hc := c.toNat_lt
      refine ⟨4 + k, ⟨_, lenBytes ws.length ++ bs, .vec g1,
        by simp only [Fits]; exact ⟨by omega, g2⟩, by simp only [Val.depth]; omega, ?_, ?_⟩, by omega,
        fun hm => ?_⟩
      · rw [to_bytes_node, nodeBytes, g4]; rfl
      · rw [List.length_append, lenBytes, be32_length, g5]
      · have := f3 hm; omega
    | array m t =>
      simp only [Ty.Consistent] at ht
      rw [deTy_array] at h
      obtain ⟨ws, mid', h3, h4⟩ := M.bind_eq_ok.mp h
      simp only [M.pure_run, Res.ok.injEq, Prod.mk.injEq] at h4
      obtain ⟨rfl, rfl⟩ := h4
      rw [← List.map_replicate] at h3
      obtain ⟨k, f1, f2, f3⟩ := normal_readAll (maps := maps) (fun u hu => by
        rw [List.eq_of_mem_replicate hu]; exact ih t ht) h3
      obtain ⟨rfl, ss, bs, g1, g2, g3, g4, g5⟩ := f1.all
      refine ⟨k, ⟨_, bs, .array g1, by simp only [Fits]; exact g2, by simp only [Val.depth]; omega,
        ?_, g5⟩, f2, f3⟩
      rw [to_bytes_node, nodeBytes, g4]
    | tuple ts =>
      simp only [Ty.Consistent, consistentAll_iff] at ht
      rw [deTy_tuple] at h
      obtain ⟨ws, mid', h3, h4⟩ := M.bind_eq_ok.mp h
      simp only [M.pure_run, Res.ok.injEq, Prod.mk.injEq] at h4
      obtain ⟨rfl, rfl⟩ := h4
      obtain ⟨k, f1, f2, f3⟩ := normal_readAll (maps := maps) (fun u hu => ih u (ht u hu)) h3
      obtain ⟨ss, bs, g1, g2, g3, g4, g5⟩ := f1.out
      refine ⟨k, ⟨_, bs, .tuple g1, by simp only [Fits]; exact g2, by simp only [Val.depth]; omega,
        ?_, g5⟩, f2, f3⟩
      rw [to_bytes_node, nodeBytes, g4]
    | map a b =>
      simp only [Ty.Consistent] at ht
      rw [deTy_map] at h
      obtain ⟨c, mid, h1, h2⟩ := M.bind_eq_ok.mp h
      obtain ⟨ws, mid', h3, h4⟩ := M.bind_eq_ok.mp h2
      simp only [M.pure_run, Res.ok.injEq, Prod.mk.injEq] at h4
      obtain ⟨rfl, rfl⟩ := h4
      have h5 := u32_used h1
      obtain ⟨f0, k, f1, f2⟩ := normal_readPairs (maps := maps) (ih a ht.2.1) (ih b ht.2.2) h3
      have h6 := (Gen.readPairs (built_deTy env n a).gen (built_deTy env n b).gen _).eats _ _ _ h3
      obtain ⟨m', i1, i2⟩ := EncEntries.insertAll .nil f1
      obtain ⟨ss, bs, g1, g2, g3, g4, g5⟩ := i2.out
      have hc := c.toNat_lt
      have hl := insertAll_length [] ws
      simp only [List.length_nil] at hl
      refine ⟨4 + m', ⟨_, lenBytes (insertAll [] ws).length ++ bs, .map ?_ g1,
        by simp only [Fits]; exact ⟨by omega, g2⟩, by simp only [Val.depth]; omega, ?_, ?_⟩, by omega,
        fun hm => ?_⟩
      · rw [distinctKeys_iff]; exact (insertAll_spec [] ws (by simp)).1
      · rw [to_bytes_node, nodeBytes, g4]; rfl
      · rw [List.length_append, lenBytes, be32_length, g5]
      · rw [ht.1] at hm; simp at hm
    | signed32 name impl =>
      simp only [Ty.Consistent] at ht
      simp only [deTy, signed32_deserialize] at h
      obtain ⟨i, mid, h1, h2⟩ := M.bind_eq_ok.mp h
      obtain ⟨j, mid', h3, h4⟩ := M.bind_eq_ok.mp h1
      simp only [M.pure_run, Res.ok.injEq, Prod.mk.injEq] at h4
      obtain ⟨rfl, rfl⟩ := h4
      have h5 := i32_used h3
      cases e : impl.try_from j with
      | ok w =>
        rw [e] at h2
        simp only [M.ofRes, Res.ok.injEq, Prod.mk.injEq, M.pure] at h2
        obtain ⟨rfl, rfl⟩ := h2
        obtain ⟨g1, vars, k, vn, g2, g3, rfl⟩ := ht j w e
        refine .exact ⟨_, _, .signed32 g2 g3, by simp only [Fits]; exact g1, by simp [Val.depth, depthList],
          to_bytes_node _, rfl⟩ ?_
        simp only [be32_length]; omega
      | err _ => simp [e] at h2
      | panic _ => simp [e, M.ofRes] at h2
      | depth => simp [e, M.ofRes] at h2
    | named x =>
      cases hd : env x with
      | none => simp [deTy, hd] at h
      | some d =>
        simp only [deTy, hd] at h
        obtain ⟨hts, huser⟩ := henv x d hd
        rw [consistentAll_iff] at hts
        cases d with
        | unitStruct =>
          simp only [deDef, deserialize_unit_struct, M.pure_run, Res.ok.injEq, Prod.mk.injEq] at h
          obtain ⟨rfl, rfl⟩ := h
          exact .exact ⟨_, _, .unitStruct hd, by simp [Fits, hd], by simp [Val.depth],
            to_bytes_node _, rfl⟩ (by simp)
        | newtypeStruct t =>
          obtain ⟨a, mid, h1, h2⟩ := M.bind_eq_ok.mp h
          simp only [M.pure_run, Res.ok.injEq, Prod.mk.injEq] at h2
          obtain ⟨rfl, rfl⟩ := h2
          obtain ⟨k, ⟨s, bs, e1, e2, e3, e4, e5⟩, e6, e7⟩ := ih t (hts t (by simp [Def.types])) _ _ _ h1
          refine ⟨k, ⟨_, bs, .newtypeStruct hd e1, by simp only [Fits, hd]; exact e2,
            by simp only [Val.depth, depthList]; omega, ?_, e5⟩, e6, e7⟩
          rw [to_bytes_node, nodeBytes, e4]
        | tupleStruct ts =>
          simp only [deDef, deserialize_tuple_struct] at h
          rw [visitEach_eq _ _ _ _ (by simp)] at h
          obtain ⟨ws, mid', h3, h4⟩ := M.bind_eq_ok.mp h
          simp only [M.pure_run, Res.ok.injEq, Prod.mk.injEq] at h4
          obtain ⟨rfl, rfl⟩ := h4
          obtain ⟨k, f1, f2, f3⟩ := normal_readAll (maps := maps)
            (fun u hu => ih u (hts u (by simpa [Def.types] using hu))) h3
          obtain ⟨ss, bs, g1, g2, g3, g4, g5⟩ := f1.out
          refine ⟨k, ⟨_, bs, .tupleStruct hd g1, by simp only [Fits, hd]; exact g2,
            by simp only [Val.depth]; omega, ?_, g5⟩, f2, f3⟩
          rw [to_bytes_node, nodeBytes, g4]
        | struct fs =>
          simp only [deDef, deserialize_struct] at h
          rw [visitEach_eq _ _ _ _ (by simp)] at h
          obtain ⟨ws, mid', h3, h4⟩ := M.bind_eq_ok.mp h
          simp only [M.pure_run, Res.ok.injEq, Prod.mk.injEq] at h4
          obtain ⟨rfl, rfl⟩ := h4
          have e : (fs.map fun f => deTy env n f.2) = (fs.map (·.2)).map (deTy env n) := by
            rw [List.map_map]; rfl
          rw [e] at h3
          obtain ⟨k, f1, f2, f3⟩ := normal_readAll (maps := maps)
            (fun u hu => ih u (hts u (by simpa [Def.types] using hu))) h3
          obtain ⟨ss, bs, g1, g2, g3, g4, g5⟩ := f1.out
          refine ⟨k, ⟨_, bs, .struct hd g1, by simp only [Fits, hd]; exact g2,
            by simp only [Val.depth]; omega, ?_, g5⟩, f2, f3⟩
          rw [to_bytes_node, nodeBytes, bytesFields_zip _ _ (by simpa using g1.length.2), g4]
        | enum vars =>
          simp only [deDef, deserialize_enum] at h
          obtain ⟨i, mid, h1, h2⟩ := M.bind_eq_ok.mp h
          obtain ⟨i1, i2, i3⟩ := seed_used h1
          have hi : (UInt32.ofNat i).toNat = i := by
            rw [UInt32.toNat_ofNat']; omega
          have hb : indexBytes (UInt32.ofNat i) = .ok (be32 (UInt32.ofNat i)) := by
            unfold indexBytes; rw [hi, if_pos i2]
          have hm : ∀ v, vars[i]? = some v → ∀ t ∈ v.2.types, t.Consistent env maps := by
            intro v hv t ht
            refine hts t ?_
            simp only [Def.types, List.mem_flatMap]
            exact ⟨v, List.mem_of_getElem? hv, ht⟩
          rcases hv : vars[i]? with _ | ⟨vn, sh⟩
          · simp [hv] at h2
          rcases sh with _ | t | ts | fs
          · simp only [hv] at h2
            simp only [Enum_unit_variant] at h2
            rw [M.pure_bind'] at h2
            simp only [M.pure_run, Res.ok.injEq, Prod.mk.injEq] at h2
            obtain ⟨rfl, rfl⟩ := h2
            refine .exact ⟨_, be32 (UInt32.ofNat i), .enumUnit hd hv,
              by simp only [Fits, hd, hv]; exact ⟨by omega, trivial⟩,
              by simp [Val.depth, depthList], ?_, rfl⟩ (by rw [be32_length]; omega)
            rw [to_bytes_node, nodeBytes, hb]
          · simp only [hv] at h2
            obtain ⟨a, mid', h3, h4⟩ := M.bind_eq_ok.mp h2
            simp only [M.pure_run, Res.ok.injEq, Prod.mk.injEq] at h4
            obtain ⟨rfl, rfl⟩ := h4
            simp only [Enum_newtype_variant] at h3
            have h6 := (built_deTy env n t).gen.eats _ _ _ h3
            obtain ⟨k, ⟨s, bs, e1, e2, e3, e4, e5⟩, e6, e7⟩ :=
              ih t (hm _ hv t (by simp [Shape.types])) _ _ _ h3
            refine ⟨4 + k, ⟨_, be32 (UInt32.ofNat i) ++ bs, .enumNewtype hd hv e1,
              by simp only [Fits, hd, hv]; exact ⟨by omega, e2⟩,
              by simp only [Val.depth, depthList]; omega, ?_, ?_⟩, by omega, fun hm => ?_⟩
            · rw [to_bytes_node, nodeBytes, hb, e4]; rfl
            · rw [List.length_append, be32_length, e5]
            · have := e7 hm; omega
          · simp only [hv] at h2
            simp only [Enum_tuple_variant, deserialize_tuple] at h2
            rw [visitEach_eq _ _ _ _ (by simp)] at h2
            obtain ⟨a, mid', h3, h4⟩ := M.bind_eq_ok.mp h2
            simp only [M.pure_run, Res.ok.injEq, Prod.mk.injEq] at h4
            obtain ⟨rfl, rfl⟩ := h4
            have h6 := (Gen.readAll (gens env n _)).eats _ _ _ h3
            obtain ⟨k, f1, f2, f3⟩ := normal_readAll (maps := maps)
              (fun u hu => ih u (hm _ hv u (by simpa [Shape.types] using hu))) h3
            obtain ⟨ss, bs, g1, g2, g3, g4, g5⟩ := f1.out
            refine ⟨4 + k, ⟨_, be32 (UInt32.ofNat i) ++ bs, .enumTuple hd hv g1,
              by simp only [Fits, hd, hv]; exact ⟨by omega, g2⟩,
              by simp only [Val.depth]; omega, ?_, ?_⟩, by omega, fun hm => ?_⟩
            · rw [to_bytes_node, nodeBytes, hb, g4]; rfl
            · rw [List.length_append, be32_length, g5]
            · have := f3 hm; omega
          · simp only [hv] at h2
            simp only [Enum_struct_variant, deserialize_tuple] at h2
            rw [visitEach_eq _ _ _ _ (by simp)] at h2
            obtain ⟨a, mid', h3, h4⟩ := M.bind_eq_ok.mp h2
            simp only [M.pure_run, Res.ok.injEq, Prod.mk.injEq] at h4
            obtain ⟨rfl, rfl⟩ := h4
            have e : (fs.map fun f => deTy env n f.2) = (fs.map (·.2)).map (deTy env n) := by
              rw [List.map_map]; rfl
            rw [e] at h3
            have h6 := (Gen.readAll (gens env n _)).eats _ _ _ h3
            obtain ⟨k, f1, f2, f3⟩ := normal_readAll (maps := maps)
              (fun u hu => ih u (hm _ hv u (by simpa [Shape.types] using hu))) h3
            obtain ⟨ss, bs, g1, g2, g3, g4, g5⟩ := f1.out
            refine ⟨4 + k, ⟨_, be32 (UInt32.ofNat i) ++ bs, .enumStruct hd hv g1,
              by simp only [Fits, hd, hv]; exact ⟨by omega, g2⟩,
              by simp only [Val.depth]; omega, ?_, ?_⟩, by omega, fun hm => ?_⟩
            · rw [to_bytes_node, nodeBytes, hb, bytesFields_zip _ _ (by simpa using g1.length.2), g4]
              rfl
            · rw [List.length_append, be32_length, g5]
            · have := f3 hm; omega
        | indexer vars impl =>
          simp only [] at huser
          simp only [deDef, deserialize_tuple, visitIndexer] at h
          have e : ∀ d : De Int32, Seq.next_element { count := 10 } d =
              (d >>= fun v => Pure.pure (some v, { count := 9 })) := fun _ => rfl
          rw [e, M.bind_assoc'] at h
          obtain ⟨i, mid, h1, h2⟩ := M.bind_eq_ok.mp h
          obtain ⟨j, mid', h3, h4⟩ := M.bind_eq_ok.mp h1
          simp only [M.pure_run, Res.ok.injEq, Prod.mk.injEq] at h4
          obtain ⟨rfl, rfl⟩ := h4
          have h5 := i32_used h3
          rw [M.pure_bind'] at h2
          dsimp only at h2
          rcases hvn : impl.name_by_index j with vn | _ | _ | _
          · simp only [hvn] at h2
            rcases hv : findVariant vn vars 0 with _ | ⟨p, _ | ts⟩
            · simp [hv] at h2
            · simp only [hv] at h2
              obtain ⟨-, hv1, hv2⟩ := findVariant_get hv
              simp only [Nat.sub_zero] at hv1 hv2
              simp only [M.pure_run, Res.ok.injEq, Prod.mk.injEq] at h2
              obtain ⟨rfl, rfl⟩ := h2
              obtain ⟨idx, u1, u2⟩ := huser j vn hvn p none hv1 []
              refine .exact ⟨_, be32 idx.toUInt32, .indexerUnit hd hv1,
                by simp only [Fits, hd, hv1]; exact ⟨⟨idx, u1, u2⟩, hv2, trivial⟩,
                by simp [Val.depth, depthList], ?_, rfl⟩ (by rw [be32_length]; omega)
              rw [u1]
              simp only [SVal.ofUser]
              rw [to_bytes_node, nodeBytes, bytesList_cons, bytesList_nil, Res.cat_nil, to_bytes_node,
                nodeBytes]
            · simp only [hv] at h2
              obtain ⟨-, hv1, hv2⟩ := findVariant_get hv
              simp only [Nat.sub_zero] at hv1 hv2
              obtain ⟨a, mid', h6, h7⟩ := M.bind_eq_ok.mp h2
              simp only [M.pure_run, Res.ok.injEq, Prod.mk.injEq] at h7
              obtain ⟨rfl, rfl⟩ := h7
              obtain ⟨h8, h6⟩ := visitUnwrap_ok h6
              rw [List.length_map] at h8
              have h9 := (Gen.readAll (gens env n _)).eats _ _ _ h6
              obtain ⟨k, f1, f2, f3⟩ := normal_readAll (maps := maps)
                (fun u hu => ih u (hts u (by
                  simp only [Def.types, List.mem_flatMap]
                  exact ⟨_, findVariant_mem hv, hu⟩))) h6
              obtain ⟨ss, bs, g1, g2, g3, g4, g5⟩ := f1.out
              obtain ⟨idx, u1, u2⟩ := huser j vn hvn p _ hv1 a
              refine ⟨4 + k, ⟨_, be32 idx.toUInt32 ++ bs, .indexer hd hv1 g1,
                by simp only [Fits, hd, hv1]; exact ⟨⟨idx, u1, u2⟩, hv2, h8, g2⟩,
                by simp only [Val.depth]; omega, ?_, ?_⟩, by omega, fun hm => ?_⟩
              · rw [u1]
                simp only [SVal.ofUser]
                rw [to_bytes_node, nodeBytes, bytesList_cons, g4, to_bytes_node, nodeBytes]; rfl
              · rw [List.length_append, be32_length, g5]
              · have := f3 hm; omega
          · simp [hvn] at h2
          · simp [hvn] at h2
          · simp [hvn] at h2
        | union disc vars impl =>
          simp only [] at huser
          simp only [deDef, deserialize_tuple, visitUnion] at h
          have e : ∀ d : De Val, Seq.next_element { count := 10 } d =
              (d >>= fun v => Pure.pure (some v, { count := 9 })) := fun _ => rfl
          rw [e, M.bind_assoc'] at h
          obtain ⟨i, mid, h1, h2⟩ := M.bind_eq_ok.mp h
          have h5 := (built_deTy env n disc).gen.eats _ _ _ h1
          rw [M.pure_bind'] at h2
          dsimp only at h2
          rcases hvn : impl.name_by_value i with vn | _ | _ | _
          · simp only [hvn] at h2
            rcases hv : findVariant vn vars 0 with _ | ⟨p, _ | _ | ⟨d0, ts⟩⟩
            · simp [hv] at h2
            · simp only [hv] at h2
              obtain ⟨-, hv1, hv2⟩ := findVariant_get hv
              simp only [Nat.sub_zero] at hv1
              obtain ⟨ts, hts'⟩ := huser i vn hvn p none hv1
              simp at hts'
            · simp only [hv] at h2
              obtain ⟨-, hv1, hv2⟩ := findVariant_get hv
              simp only [Nat.sub_zero] at hv1
              obtain ⟨ts, hts'⟩ := huser i vn hvn p _ hv1
              simp at hts'
            · simp only [hv] at h2
              obtain ⟨-, hv1, hv2⟩ := findVariant_get hv
              simp only [Nat.sub_zero] at hv1 hv2
              obtain ⟨ts', hts'⟩ := huser i vn hvn p _ hv1
              simp only [Option.some.injEq, List.cons.injEq] at hts'
              obtain ⟨rfl, rfl⟩ := hts'
              obtain ⟨a, mid', h6, h7⟩ := M.bind_eq_ok.mp h2
              simp only [M.pure_run, Res.ok.injEq, Prod.mk.injEq] at h7
              obtain ⟨rfl, rfl⟩ := h7
              obtain ⟨h8, h6⟩ := visitUnwrap_ok h6
              rw [List.length_map] at h8
              have h9 := (Gen.readAll (gens env n _)).eats _ _ _ h6
              obtain ⟨k0, d1, d2, d3⟩ := ih d0 (hts d0 (by simp [Def.types])) _ _ _ h1
              obtain ⟨k, f1, f2, f3⟩ := normal_readAll (maps := maps)
                (fun u hu => ih u (hts u (by
                  simp only [Def.types, List.mem_cons, List.mem_flatMap]
                  exact .inr ⟨_, findVariant_mem hv, by simp [hu]⟩))) h6
              obtain ⟨ss, bs, g1, g2, g3, g4, g5⟩ := (EncEach.cons d1 f1).out
              refine ⟨k0 + k, ⟨_, bs, .union hd hv1 g1, ?_,
                by simp only [Val.depth]; omega, ?_, g5⟩, by omega, fun hm => ?_⟩
              · simp only [Fits, hd, hv1]
                exact ⟨⟨ts, i, a, rfl, rfl, h8, hvn⟩, hv2, g2⟩
              · rw [to_bytes_node, nodeBytes, g4]
              · have := f3 hm
                have := d3 hm
                omega
          · simp [hvn] at h2
          · simp [hvn] at h2
          · simp [hvn] at h2

end Xdr
