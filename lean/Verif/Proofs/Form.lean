import Verif.Spec.Form
import Verif.Proofs.Rfc
import Verif.Proofs.Decoded
/-! # Lemmas: the readers take exactly the forms -/

namespace Xdr.Wire

theorem word_eq (v : UInt32) : word v.toNat = be32 v := by
  rw [word, beBytes4, UInt32.ofNat_toNat]

theorem dword_eq (v : UInt64) : dword v.toNat = be64 v := by
  rw [dword, beBytes8, UInt64.ofNat_toNat]

theorem inv_u32 {input rest : Bytes} {v : UInt32} (h : read_u32 input = .ok (v, rest)) :
    input = word v.toNat ++ rest := by
  obtain ⟨a, b, c, d, rfl, rfl⟩ := read_u32_ok h
  rw [word_eq, be32_ofBe32]; rfl

theorem inv_u64 {input rest : Bytes} {v : UInt64} (h : read_u64 input = .ok (v, rest)) :
    input = dword v.toNat ++ rest := by
  obtain ⟨a, b, c, d, e, f, g, i, rfl, rfl⟩ := read_u64_ok h
  rw [dword_eq, be64_ofBe64]; rfl

theorem toInt32_eq (v : UInt32) : v.toInt32 = Int32.ofNat v.toNat := by
  apply Int32.toBitVec_inj.mp; simp

theorem toInt64_eq (v : UInt64) : v.toInt64 = Int64.ofNat v.toNat := by
  apply Int64.toBitVec_inj.mp; simp

theorem toInt8_eq (v : UInt32) : v.toInt32.toInt8 = Int8.ofNat v.toNat := by
  apply Int8.toBitVec_inj.mp
  apply BitVec.eq_of_toNat_eq
  have e : (v.toInt32.toInt8).toBitVec = v.toBitVec.signExtend 8 := rfl
  rw [e, BitVec.signExtend_eq_setWidth_of_le _ (by omega)]
  simp

theorem toInt16_eq (v : UInt32) : v.toInt32.toInt16 = Int16.ofNat v.toNat := by
  apply Int16.toBitVec_inj.mp
  apply BitVec.eq_of_toNat_eq
  have e : (v.toInt32.toInt16).toBitVec = v.toBitVec.signExtend 16 := rfl
  rw [e, BitVec.signExtend_eq_setWidth_of_le _ (by omega)]
  simp

theorem toUInt8_eq (v : UInt32) : v.toUInt8 = UInt8.ofNat v.toNat := by
  apply UInt8.toNat_inj.mp; simp

theorem toUInt16_eq (v : UInt32) : v.toUInt16 = UInt16.ofNat v.toNat := by
  apply UInt16.toNat_inj.mp; simp

theorem inv_i32 {input rest : Bytes} {v : Int32} (h : read_i32 input = .ok (v, rest)) :
    ∃ k < 2 ^ 32, input = word k ++ rest ∧ v = Int32.ofNat k := by
  rw [read_i32_eq] at h
  obtain ⟨a, mid, h1, h2⟩ := M.bind_eq_ok.mp h
  simp only [M.pure_run, Res.ok.injEq, Prod.mk.injEq] at h2
  obtain ⟨rfl, rfl⟩ := h2
  exact ⟨a.toNat, a.toNat_lt, inv_u32 h1, toInt32_eq a⟩

theorem inv_i64 {input rest : Bytes} {v : Int64} (h : read_i64 input = .ok (v, rest)) :
    ∃ k < 2 ^ 64, input = dword k ++ rest ∧ v = Int64.ofNat k := by
  rw [read_i64_eq] at h
  obtain ⟨a, mid, h1, h2⟩ := M.bind_eq_ok.mp h
  simp only [M.pure_run, Res.ok.injEq, Prod.mk.injEq] at h2
  obtain ⟨rfl, rfl⟩ := h2
  exact ⟨a.toNat, a.toNat_lt, inv_u64 h1, toInt64_eq a⟩

theorem inv_char {input rest : Bytes} {c : Char} (h : read_char input = .ok (c, rest)) :
    input = word c.toNat ++ rest := by
  unfold read_char at h
  obtain ⟨a, mid, h1, h2⟩ := M.bind_eq_ok.mp h
  have h3 := inv_u32 h1
  cases hc : charFromU32 a with
  | none => simp [hc] at h2
  | some c' =>
    simp only [hc, M.pure_run, Res.ok.injEq, Prod.mk.injEq] at h2
    obtain ⟨rfl, rfl⟩ := h2
    unfold charFromU32 at hc
    split at hc
    · simp only [Option.some.injEq] at hc
      rw [h3, ← hc]; rfl
    · simp at hc

theorem padding_iff (n : Nat) (p : Bytes) : Padding n p ↔ p.length = padLen n := by
  unfold Padding padLen; omega

/-- An input that has `n` bytes and their padding. -/
theorem split_pad {n : Nat} {r : Bytes} (h : ¬ r.length < n + padLen n) :
    ∃ p, Padding n p ∧ (r.take n).length = n ∧ r = (r.take n ++ p) ++ r.drop (n + padLen n) := by
  refine ⟨(r.drop n).take (padLen n), (padding_iff _ _).mpr ?_, ?_, ?_⟩
  · rw [List.length_take, List.length_drop]; omega
  · rw [List.length_take]; omega
  · rw [← List.take_add, List.take_append_drop]

theorem word_of (a b c d : UInt8) : [a, b, c, d] = word (ofBe32 a b c d).toNat := by
  rw [word_eq, be32_ofBe32]

theorem inv_bytes {input rest b : Bytes} (h : read_bytes input = .ok (b, rest)) :
    ∃ p, b.length < 2 ^ 32 ∧ Padding b.length p ∧ input = (word b.length ++ (b ++ p)) ++ rest := by
  by_cases h4 : input.length < 4
  · rw [read_bytes_lt h4] at h; simp at h
  · obtain ⟨a0, a1, a2, a3, r, rfl⟩ := exists_word (Nat.not_lt.mp h4)
    have hlt := (ofBe32 a0 a1 a2 a3).toNat_lt
    rw [read_bytes_run a0 a1 a2 a3 r _ rfl] at h
    generalize hn : (ofBe32 a0 a1 a2 a3).toNat = n at h hlt
    split at h
    · simp at h
    split at h
    · simp at h
    rename_i h1 h2
    simp only [Res.ok.injEq, Prod.mk.injEq] at h
    obtain ⟨rfl, rfl⟩ := h
    obtain ⟨p, hp, hl, hr⟩ := split_pad h2
    refine ⟨p, by omega, by rw [hl]; exact hp, ?_⟩
    rw [hl, List.append_assoc, ← hr, ← hn, ← word_of]; rfl

theorem inv_variable {input rest b : Bytes} (h : variable_deserialize input = .ok (b, rest)) :
    ∃ p, b.length < 2 ^ 32 ∧ Padding b.length p ∧ input = (word b.length ++ (b ++ p)) ++ rest := by
  by_cases h4 : input.length < 4
  · rw [variable_deserialize_lt h4] at h; simp at h
  · obtain ⟨a0, a1, a2, a3, r, rfl⟩ := exists_word (Nat.not_lt.mp h4)
    have hlt := (ofBe32 a0 a1 a2 a3).toNat_lt
    rw [variable_deserialize_run a0 a1 a2 a3 r _ rfl] at h
    generalize hn : (ofBe32 a0 a1 a2 a3).toNat = n at h hlt
    split at h
    · simp at h
    rename_i h2
    simp only [Res.ok.injEq, Prod.mk.injEq] at h
    obtain ⟨rfl, rfl⟩ := h
    obtain ⟨p, hp, hl, hr⟩ := split_pad h2
    refine ⟨p, by omega, by rw [hl]; exact hp, ?_⟩
    rw [hl, List.append_assoc, ← hr, ← hn, ← word_of]; rfl

theorem inv_fixed {input rest b : Bytes} {n : Nat} (h : fixed_deserialize n input = .ok (b, rest)) :
    ∃ p, b.length = n ∧ Padding b.length p ∧ input = (b ++ p) ++ rest := by
  rw [fixed_deserialize_run] at h
  split at h
  · simp at h
  rename_i h2
  simp only [Res.ok.injEq, Prod.mk.injEq] at h
  obtain ⟨rfl, rfl⟩ := h
  obtain ⟨p, hp, hl, hr⟩ := split_pad h2
  exact ⟨p, hl, by rw [hl]; exact hp, hr⟩

theorem inv_string {input rest : Bytes} {s : List Char} (h : read_string input = .ok (s, rest)) :
    ∃ p, (utf8Bytes s).length < 2 ^ 32 ∧ Padding (utf8Bytes s).length p ∧
      input = (word (utf8Bytes s).length ++ (utf8Bytes s ++ p)) ++ rest := by
  by_cases h4 : input.length < 4
  · rw [read_string_lt h4] at h; simp at h
  · obtain ⟨a0, a1, a2, a3, r, rfl⟩ := exists_word (Nat.not_lt.mp h4)
    have hlt := (ofBe32 a0 a1 a2 a3).toNat_lt
    rw [read_string_run a0 a1 a2 a3 r _ rfl] at h
    generalize hn : (ofBe32 a0 a1 a2 a3).toNat = n at h hlt
    split at h
    · simp at h
    split at h
    · simp at h
    rename_i s' hs
    split at h
    · simp at h
    rename_i h2
    simp only [Res.ok.injEq, Prod.mk.injEq] at h
    obtain ⟨rfl, rfl⟩ := h
    obtain ⟨p, hp, hl, hr⟩ := split_pad h2
    have hu : utf8Bytes s' = r.take n := utf8Bytes_decode hs
    rw [hu]
    refine ⟨p, by omega, by rw [hl]; exact hp, ?_⟩
    rw [hl, List.append_assoc, ← hr, ← hn, ← word_of]; rfl

/-! ## Maps -/

theorem insertAll_snoc (acc ps : List (Val × Val)) (k v : Val) :
    insertAll acc (ps ++ [(k, v)]) = mapInsert k v (insertAll acc ps) := by
  induction ps generalizing acc with
  | nil => rfl
  | cons e ps ih => exact ih _

theorem mapInsert_known (k v w : Val) (es es' : List (Val × Val)) (h : ∀ e ∈ es, e.1 ≠ k) :
    mapInsert k v (es ++ (k, w) :: es') = es ++ (k, v) :: es' := by
  induction es with
  | nil => simp [mapInsert, Val.same_refl]
  | cons e es ih =>
    obtain ⟨a, b⟩ := e
    have hne : a.same k = false := by
      cases hs : a.same k with
      | false => rfl
      | true => exact absurd ((Val.same_iff _ _).mp hs) (h (a, b) (by simp))
    rw [List.cons_append, mapInsert, hne, ih fun e he => h e (by simp [he])]
    simp

theorem Folded.eq {ps es : List (Val × Val)} (h : Folded ps es) : es = insertAll [] ps := by
  induction h with
  | nil => rfl
  | fresh _ hk ih => rw [insertAll_snoc, ← ih, mapInsert_new _ _ _ hk]
  | again _ hk ih => rw [insertAll_snoc, ← ih, mapInsert_known _ _ _ _ _ hk]

theorem known_or_new (k : Val) (es : List (Val × Val)) :
    (∀ e ∈ es, e.1 ≠ k) ∨ ∃ l w r, es = l ++ (k, w) :: r ∧ ∀ e ∈ l, e.1 ≠ k := by
  induction es with
  | nil => exact .inl (by simp)
  | cons e es ih =>
    by_cases h : e.1 = k
    · exact .inr ⟨[], e.2, es, by subst h; rfl, by simp⟩
    · rcases ih with ih | ⟨l, w, r, rfl, hl⟩
      · exact .inl fun x hx => by
          rcases List.mem_cons.mp hx with rfl | hx
          · exact h
          · exact ih x hx
      · refine .inr ⟨e :: l, w, r, rfl, fun x hx => ?_⟩
        rcases List.mem_cons.mp hx with rfl | hx
        · exact h
        · exact hl x hx

theorem folded_snoc {ps es : List (Val × Val)} (h : Folded ps es) (k v : Val) :
    ∃ es', Folded (ps ++ [(k, v)]) es' := by
  rcases known_or_new k es with hk | ⟨l, w, r, rfl, hl⟩
  · exact ⟨_, .fresh h hk⟩
  · exact ⟨_, .again h hl⟩

theorem folded_append {ps es : List (Val × Val)} (h : Folded ps es) (qs : List (Val × Val)) :
    ∃ es', Folded (ps ++ qs) es' := by
  induction qs generalizing ps es with
  | nil => exact ⟨es, by simpa using h⟩
  | cons q qs ih =>
    obtain ⟨es', h'⟩ := folded_snoc h q.1 q.2
    obtain ⟨e2, h2⟩ := ih h'
    exact ⟨e2, by simpa using h2⟩

theorem folded_insertAll (ps : List (Val × Val)) : Folded ps (insertAll [] ps) := by
  obtain ⟨es, h⟩ := folded_append .nil ps
  rw [List.nil_append] at h
  rwa [← h.eq]

/-! ## What is read is a form -/

theorem called_of {α : Type} {vars : List (String × α)} {vn : String} {i : Nat} {a : α}
    (h : findVariant vn vars 0 = some (i, a)) : Called vars vn i a := by
  obtain ⟨-, h1, h2⟩ := findVariant_get h
  simp only [Nat.sub_zero] at h1 h2
  exact ⟨h1, h2⟩

theorem forms_readAll {env : Env} {n : Nat} {ts : List Ty}
    (h : ∀ t input v rest, deTy env n t input = .ok (v, rest) →
      ∃ bs, input = bs ++ rest ∧ Form env t v bs)
    {input rest : Bytes} {vs : List Val} (hr : readAll (ts.map (deTy env n)) input = .ok (vs, rest)) :
    ∃ bs, input = bs ++ rest ∧ Forms env ts vs bs := by
  induction ts generalizing input vs with
  | nil =>
    simp only [List.map_nil, readAll, M.pure_run, Res.ok.injEq, Prod.mk.injEq] at hr
    obtain ⟨rfl, rfl⟩ := hr
    exact ⟨[], rfl, .nil⟩
  | cons t ts ih =>
    simp only [List.map_cons, readAll] at hr
    obtain ⟨v, mid, h1, h2⟩ := M.bind_eq_ok.mp hr
    obtain ⟨ws, mid', h3, h4⟩ := M.bind_eq_ok.mp h2
    simp only [M.pure_run, Res.ok.injEq, Prod.mk.injEq] at h4
    obtain ⟨rfl, rfl⟩ := h4
    obtain ⟨bs, rfl, f1⟩ := h _ _ _ _ h1
    obtain ⟨cs, rfl, f2⟩ := ih h3
    exact ⟨bs ++ cs, by simp, .cons f1 f2⟩

theorem pairs_readPairs {env : Env} {n : Nat} {a b : Ty}
    (h : ∀ t input v rest, deTy env n t input = .ok (v, rest) →
      ∃ bs, input = bs ++ rest ∧ Form env t v bs)
    {m : Nat} {input rest : Bytes} {ps : List (Val × Val)}
    (hr : readPairs (deTy env n a) (deTy env n b) m input = .ok (ps, rest)) :
    ps.length = m ∧ ∃ bs, input = bs ++ rest ∧ Pairs env a b ps bs := by
  induction m generalizing input ps with
  | zero =>
    simp only [readPairs, M.pure_run, Res.ok.injEq, Prod.mk.injEq] at hr
    obtain ⟨rfl, rfl⟩ := hr
    exact ⟨rfl, [], rfl, .nil⟩
  | succ m ih =>
    simp only [readPairs] at hr
    obtain ⟨k, m1, h1, h2⟩ := M.bind_eq_ok.mp hr
    obtain ⟨v, m2, h3, h4⟩ := M.bind_eq_ok.mp h2
    obtain ⟨qs, m3, h5, h6⟩ := M.bind_eq_ok.mp h4
    simp only [M.pure_run, Res.ok.injEq, Prod.mk.injEq] at h6
    obtain ⟨rfl, rfl⟩ := h6
    obtain ⟨bs, rfl, f1⟩ := h _ _ _ _ h1
    obtain ⟨cs, rfl, f2⟩ := h _ _ _ _ h3
    obtain ⟨hl, ds, rfl, f3⟩ := ih h5
    exact ⟨by simp [hl], bs ++ (cs ++ ds), by simp, .cons f1 f2 f3⟩

theorem inv_seed {vars : Nat} {input rest : Bytes} {i : Nat}
    (h : Enum_variant_seed (variantIndex vars) input = .ok (i, rest)) :
    i < 2 ^ 31 ∧ input = word i ++ rest := by
  obtain ⟨a, mid, h1, h2⟩ := M.bind_eq_ok.mp h
  rw [read_i32_eq] at h1
  obtain ⟨w, mid', h3, h4⟩ := M.bind_eq_ok.mp h1
  simp only [M.pure_run, Res.ok.injEq, Prod.mk.injEq] at h4
  obtain ⟨rfl, rfl⟩ := h4
  have h5 := inv_u32 h3
  split at h2
  · simp at h2
  · rename_i hneg
    unfold variantIndex at h2
    split at h2
    · simp only [M.pure_run, Res.ok.injEq, Prod.mk.injEq] at h2
      obtain ⟨rfl, rfl⟩ := h2
      have hw : w.toInt32.toInt = (w.toNat : Int) ∧ w.toNat < 2 ^ 31 := by
        have e : w.toInt32.toInt = w.toBitVec.toInt := rfl
        rw [e] at hneg ⊢
        rw [BitVec.toInt_eq_toNat_cond] at hneg ⊢
        have := w.toNat_lt
        simp only [UInt32.toNat_toBitVec] at hneg ⊢
        split at hneg <;> omega
      rw [hw.1]
      simpa using ⟨hw.2, h5⟩
    · simp at h2

theorem form_of_read (env : Env) : ∀ (n : Nat) (t : Ty) (input : Bytes) (v : Val) (rest : Bytes),
    deTy env n t input = .ok (v, rest) → ∃ bs, input = bs ++ rest ∧ Form env t v bs := by
  intro n
  induction n with
  | zero => intro t input v rest h; simp [deTy] at h
  | succ n ih =>
    intro t input v rest h
    cases t with
    | bool =>
      obtain ⟨a, mid, h1, h2⟩ := M.bind_eq_ok.mp h
      simp only [M.pure_run, Res.ok.injEq, Prod.mk.injEq] at h2
      obtain ⟨rfl, rfl⟩ := h2
      refine ⟨_, inv_u32 h1, ?_⟩
      have e : (a != 0) = (a.toNat != 0) := by
        rw [Bool.eq_iff_iff]; simp [← UInt32.toNat_inj]
      rw [e]
      exact .bool a.toNat_lt
    | i8 =>
      obtain ⟨a, mid, h1, h2⟩ := M.bind_eq_ok.mp h
      simp only [M.pure_run, Res.ok.injEq, Prod.mk.injEq] at h2
      obtain ⟨rfl, rfl⟩ := h2
      rw [read_i32_eq] at h1
      obtain ⟨w, mid', h3, h4⟩ := M.bind_eq_ok.mp h1
      simp only [M.pure_run, Res.ok.injEq, Prod.mk.injEq] at h4
      obtain ⟨rfl, rfl⟩ := h4
      refine ⟨_, inv_u32 h3, ?_⟩
      rw [toInt8_eq]
      exact .i8 w.toNat_lt
    | i16 =>
      obtain ⟨a, mid, h1, h2⟩ := M.bind_eq_ok.mp h
      simp only [M.pure_run, Res.ok.injEq, Prod.mk.injEq] at h2
      obtain ⟨rfl, rfl⟩ := h2
      rw [read_i32_eq] at h1
      obtain ⟨w, mid', h3, h4⟩ := M.bind_eq_ok.mp h1
      simp only [M.pure_run, Res.ok.injEq, Prod.mk.injEq] at h4
      obtain ⟨rfl, rfl⟩ := h4
      refine ⟨_, inv_u32 h3, ?_⟩
      rw [toInt16_eq]
      exact .i16 w.toNat_lt
    | i32 =>
      obtain ⟨a, mid, h1, h2⟩ := M.bind_eq_ok.mp h
      simp only [M.pure_run, Res.ok.injEq, Prod.mk.injEq] at h2
      obtain ⟨rfl, rfl⟩ := h2
      obtain ⟨k, hk, rfl, rfl⟩ := inv_i32 h1
      exact ⟨_, rfl, .i32 hk⟩
    | i64 =>
      obtain ⟨a, mid, h1, h2⟩ := M.bind_eq_ok.mp h
      simp only [M.pure_run, Res.ok.injEq, Prod.mk.injEq] at h2
      obtain ⟨rfl, rfl⟩ := h2
      obtain ⟨k, hk, rfl, rfl⟩ := inv_i64 h1
      exact ⟨_, rfl, .i64 hk⟩
    | u8 =>
      obtain ⟨a, mid, h1, h2⟩ := M.bind_eq_ok.mp h
      simp only [M.pure_run, Res.ok.injEq, Prod.mk.injEq] at h2
      obtain ⟨rfl, rfl⟩ := h2
      refine ⟨_, inv_u32 h1, ?_⟩
      rw [toUInt8_eq]
      exact .u8 a.toNat_lt
    | u16 =>
      obtain ⟨a, mid, h1, h2⟩ := M.bind_eq_ok.mp h
      simp only [M.pure_run, Res.ok.injEq, Prod.mk.injEq] at h2
      obtain ⟨rfl, rfl⟩ := h2
      refine ⟨_, inv_u32 h1, ?_⟩
      rw [toUInt16_eq]
      exact .u16 a.toNat_lt
    | u32 =>
      obtain ⟨a, mid, h1, h2⟩ := M.bind_eq_ok.mp h
      simp only [M.pure_run, Res.ok.injEq, Prod.mk.injEq] at h2
      obtain ⟨rfl, rfl⟩ := h2
      have := Form.u32 (env := env) a.toNat_lt
      rw [UInt32.ofNat_toNat] at this
      exact ⟨_, inv_u32 h1, this⟩
    | u64 =>
      obtain ⟨a, mid, h1, h2⟩ := M.bind_eq_ok.mp h
      simp only [M.pure_run, Res.ok.injEq, Prod.mk.injEq] at h2
      obtain ⟨rfl, rfl⟩ := h2
      have := Form.u64 (env := env) a.toNat_lt
      rw [UInt64.ofNat_toNat] at this
      exact ⟨_, inv_u64 h1, this⟩
    | f32 =>
      obtain ⟨a, mid, h1, h2⟩ := M.bind_eq_ok.mp h
      simp only [M.pure_run, Res.ok.injEq, Prod.mk.injEq] at h2
      obtain ⟨rfl, rfl⟩ := h2
      have := Form.f32 (env := env) a.toNat_lt
      rw [UInt32.ofNat_toNat] at this
      exact ⟨_, inv_u32 h1, this⟩
    | f64 =>
      obtain ⟨a, mid, h1, h2⟩ := M.bind_eq_ok.mp h
      simp only [M.pure_run, Res.ok.injEq, Prod.mk.injEq] at h2
      obtain ⟨rfl, rfl⟩ := h2
      have := Form.f64 (env := env) a.toNat_lt
      rw [UInt64.ofNat_toNat] at this
      exact ⟨_, inv_u64 h1, this⟩
    | char =>
      obtain ⟨a, mid, h1, h2⟩ := M.bind_eq_ok.mp h
      simp only [M.pure_run, Res.ok.injEq, Prod.mk.injEq] at h2
      obtain ⟨rfl, rfl⟩ := h2
      exact ⟨_, inv_char h1, .char a⟩
    | string =>
      obtain ⟨a, mid, h1, h2⟩ := M.bind_eq_ok.mp h
      simp only [M.pure_run, Res.ok.injEq, Prod.mk.injEq] at h2
      obtain ⟨rfl, rfl⟩ := h2
      obtain ⟨p, h3, h4, h5⟩ := inv_string h1
      exact ⟨_, h5, .string h3 h4⟩
    | bytes =>
      obtain ⟨a, mid, h1, h2⟩ := M.bind_eq_ok.mp h
      simp only [M.pure_run, Res.ok.injEq, Prod.mk.injEq] at h2
      obtain ⟨rfl, rfl⟩ := h2
      obtain ⟨p, h3, h4, h5⟩ := inv_bytes h1
      exact ⟨_, h5, .bytes h3 h4⟩
    | opaqueVar =>
      obtain ⟨a, mid, h1, h2⟩ := M.bind_eq_ok.mp h
      simp only [M.pure_run, Res.ok.injEq, Prod.mk.injEq] at h2
      obtain ⟨rfl, rfl⟩ := h2
      obtain ⟨p, h3, h4, h5⟩ := inv_variable h1
      exact ⟨_, h5, .opaqueVar h3 h4⟩
    | opaqueFixed m =>
      obtain ⟨a, mid, h1, h2⟩ := M.bind_eq_ok.mp h
      simp only [M.pure_run, Res.ok.injEq, Prod.mk.injEq] at h2
      obtain ⟨rfl, rfl⟩ := h2
      obtain ⟨p, rfl, h4, h5⟩ := inv_fixed h1
      exact ⟨_, h5, .opaqueFixed h4⟩
    | unit =>
      simp only [deTy, deserialize_unit, M.pure_run, Res.ok.injEq, Prod.mk.injEq] at h
      obtain ⟨rfl, rfl⟩ := h
      exact ⟨[], rfl, .unit⟩
    | option t =>
      simp only [deTy, deserialize_option] at h
      obtain ⟨a, mid, h1, h2⟩ := M.bind_eq_ok.mp h
      have h3 := inv_u32 h1
      split at h2
      · rename_i h0
        simp only [M.pure_run, Res.ok.injEq, Prod.mk.injEq] at h2
        obtain ⟨rfl, rfl⟩ := h2
        have e : a.toNat = 0 := by simpa [← UInt32.toNat_inj] using h0
        rw [e] at h3
        exact ⟨_, h3, .none⟩
      · rename_i h0
        have e : a.toNat ≠ 0 := by simpa [← UInt32.toNat_inj] using h0
        obtain ⟨b, mid', h4, h5⟩ := M.bind_eq_ok.mp h2
        simp only [M.pure_run, Res.ok.injEq, Prod.mk.injEq] at h5
        obtain ⟨rfl, rfl⟩ := h5
        obtain ⟨bs, rfl, f⟩ := ih _ _ _ _ h4
        exact ⟨_, by rw [h3, ← List.append_assoc], .some a.toNat_lt e f⟩
    | vec t =>
      rw [deTy_vec] at h
      obtain ⟨c, mid, h1, h2⟩ := M.bind_eq_ok.mp h
      obtain ⟨ws, mid', h3, h4⟩ := M.bind_eq_ok.mp h2
      simp only [M.pure_run, Res.ok.injEq, Prod.mk.injEq] at h4
      obtain ⟨rfl, rfl⟩ := h4
      rw [← List.map_replicate] at h3
      obtain ⟨bs, rfl, f⟩ := forms_readAll ih h3
      exact ⟨_, by rw [inv_u32 h1, ← List.append_assoc], .vec c.toNat_lt f⟩
    | array m t =>
      rw [deTy_array] at h
      obtain ⟨ws, mid', h3, h4⟩ := M.bind_eq_ok.mp h
      simp only [M.pure_run, Res.ok.injEq, Prod.mk.injEq] at h4
      obtain ⟨rfl, rfl⟩ := h4
      rw [← List.map_replicate] at h3
      obtain ⟨bs, rfl, f⟩ := forms_readAll ih h3
      exact ⟨_, rfl, .array f⟩
    | tuple ts =>
      rw [deTy_tuple] at h
      obtain ⟨ws, mid', h3, h4⟩ := M.bind_eq_ok.mp h
      simp only [M.pure_run, Res.ok.injEq, Prod.mk.injEq] at h4
      obtain ⟨rfl, rfl⟩ := h4
      obtain ⟨bs, rfl, f⟩ := forms_readAll ih h3
      exact ⟨_, rfl, .tuple f⟩
    | map a b =>
      rw [deTy_map] at h
      obtain ⟨c, mid, h1, h2⟩ := M.bind_eq_ok.mp h
      obtain ⟨ps, mid', h3, h4⟩ := M.bind_eq_ok.mp h2
      simp only [M.pure_run, Res.ok.injEq, Prod.mk.injEq] at h4
      obtain ⟨rfl, rfl⟩ := h4
      obtain ⟨hl, bs, rfl, f⟩ := pairs_readPairs ih h3
      have hc := c.toNat_lt
      refine ⟨_, ?_, .map (by omega) f (folded_insertAll ps)⟩
      rw [inv_u32 h1, ← List.append_assoc, hl]
    | signed32 name impl =>
      simp only [deTy, signed32_deserialize] at h
      obtain ⟨i, mid, h1, h2⟩ := M.bind_eq_ok.mp h
      obtain ⟨j, mid', h3, h4⟩ := M.bind_eq_ok.mp h1
      simp only [M.pure_run, Res.ok.injEq, Prod.mk.injEq] at h4
      obtain ⟨rfl, rfl⟩ := h4
      obtain ⟨k, hk, rfl, rfl⟩ := inv_i32 h3
      cases e : impl.try_from (Int32.ofNat k) with
      | ok w =>
        rw [e] at h2
        simp only [M.ofRes, Res.ok.injEq, Prod.mk.injEq, M.pure] at h2
        obtain ⟨rfl, rfl⟩ := h2
        exact ⟨_, rfl, .signed32 hk e⟩
      | err _ => simp [e] at h2
      | panic _ => simp [e, M.ofRes] at h2
      | depth => simp [e, M.ofRes] at h2
    | named x =>
      cases hd : env x with
      | none => simp [deTy, hd] at h
      | some d =>
        simp only [deTy, hd] at h
        cases d with
        | unitStruct =>
          simp only [deDef, deserialize_unit_struct, M.pure_run, Res.ok.injEq, Prod.mk.injEq] at h
          obtain ⟨rfl, rfl⟩ := h
          exact ⟨[], rfl, .unitStruct hd⟩
        | newtypeStruct t =>
          obtain ⟨a, mid, h1, h2⟩ := M.bind_eq_ok.mp h
          simp only [M.pure_run, Res.ok.injEq, Prod.mk.injEq] at h2
          obtain ⟨rfl, rfl⟩ := h2
          obtain ⟨bs, rfl, f⟩ := ih _ _ _ _ h1
          exact ⟨_, rfl, .newtypeStruct hd f⟩
        | tupleStruct ts =>
          simp only [deDef, deserialize_tuple_struct] at h
          rw [visitEach_eq _ _ _ _ (by simp)] at h
          obtain ⟨ws, mid', h3, h4⟩ := M.bind_eq_ok.mp h
          simp only [M.pure_run, Res.ok.injEq, Prod.mk.injEq] at h4
          obtain ⟨rfl, rfl⟩ := h4
          obtain ⟨bs, rfl, f⟩ := forms_readAll ih h3
          exact ⟨_, rfl, .tupleStruct hd f⟩
        | struct fs =>
          simp only [deDef, deserialize_struct] at h
          rw [visitEach_eq _ _ _ _ (by simp)] at h
          obtain ⟨ws, mid', h3, h4⟩ := M.bind_eq_ok.mp h
          simp only [M.pure_run, Res.ok.injEq, Prod.mk.injEq] at h4
          obtain ⟨rfl, rfl⟩ := h4
          have e : (fs.map fun f => deTy env n f.2) = (fs.map (·.2)).map (deTy env n) := by
            rw [List.map_map]; rfl
          rw [e] at h3
          obtain ⟨bs, rfl, f⟩ := forms_readAll ih h3
          exact ⟨_, rfl, .struct hd f⟩
        | enum vars =>
          simp only [deDef, deserialize_enum] at h
          obtain ⟨i, mid, h1, h2⟩ := M.bind_eq_ok.mp h
          obtain ⟨i1, rfl⟩ := inv_seed h1
          rcases hv : vars[i]? with _ | ⟨vn, sh⟩
          · simp [hv] at h2
          rcases sh with _ | t | ts | fs
          · simp only [hv] at h2
            simp only [Enum_unit_variant] at h2
            rw [M.pure_bind'] at h2
            simp only [M.pure_run, Res.ok.injEq, Prod.mk.injEq] at h2
            obtain ⟨rfl, rfl⟩ := h2
            exact ⟨word i ++ [], by simp, .enum hd i1 hv .nil⟩
          · simp only [hv] at h2
            obtain ⟨a, mid', h3, h4⟩ := M.bind_eq_ok.mp h2
            simp only [M.pure_run, Res.ok.injEq, Prod.mk.injEq] at h4
            obtain ⟨rfl, rfl⟩ := h4
            simp only [Enum_newtype_variant] at h3
            obtain ⟨bs, rfl, f⟩ := ih _ _ _ _ h3
            exact ⟨word i ++ (bs ++ []), by simp, .enum hd i1 hv (.cons f .nil)⟩
          · simp only [hv] at h2
            simp only [Enum_tuple_variant, deserialize_tuple] at h2
            rw [visitEach_eq _ _ _ _ (by simp)] at h2
            obtain ⟨a, mid', h3, h4⟩ := M.bind_eq_ok.mp h2
            simp only [M.pure_run, Res.ok.injEq, Prod.mk.injEq] at h4
            obtain ⟨rfl, rfl⟩ := h4
            obtain ⟨bs, rfl, f⟩ := forms_readAll ih h3
            exact ⟨word i ++ bs, by simp, .enum hd i1 hv f⟩
          · simp only [hv] at h2
            simp only [Enum_struct_variant, deserialize_tuple] at h2
            rw [visitEach_eq _ _ _ _ (by simp)] at h2
            obtain ⟨a, mid', h3, h4⟩ := M.bind_eq_ok.mp h2
            simp only [M.pure_run, Res.ok.injEq, Prod.mk.injEq] at h4
            obtain ⟨rfl, rfl⟩ := h4
            have e : (fs.map fun f => deTy env n f.2) = (fs.map (·.2)).map (deTy env n) := by
              rw [List.map_map]; rfl
            rw [e] at h3
            obtain ⟨bs, rfl, f⟩ := forms_readAll ih h3
            exact ⟨word i ++ bs, by simp, .enum hd i1 hv f⟩
        | indexer vars impl =>
          simp only [deDef, deserialize_tuple, visitIndexer] at h
          have e : ∀ d : De Int32, Seq.next_element { count := 10 } d =
              (d >>= fun v => Pure.pure (some v, { count := 9 })) := fun _ => rfl
          rw [e, M.bind_assoc'] at h
          obtain ⟨i, mid, h1, h2⟩ := M.bind_eq_ok.mp h
          obtain ⟨j, mid', h3, h4⟩ := M.bind_eq_ok.mp h1
          simp only [M.pure_run, Res.ok.injEq, Prod.mk.injEq] at h4
          obtain ⟨rfl, rfl⟩ := h4
          obtain ⟨k, hk, rfl, rfl⟩ := inv_i32 h3
          rw [M.pure_bind'] at h2
          dsimp only at h2
          rcases hvn : impl.name_by_index (Int32.ofNat k) with vn | _ | _ | _
          · simp only [hvn] at h2
            rcases hv : findVariant vn vars 0 with _ | ⟨p, _ | ts⟩
            · simp [hv] at h2
            · simp only [hv] at h2
              simp only [M.pure_run, Res.ok.injEq, Prod.mk.injEq] at h2
              obtain ⟨rfl, rfl⟩ := h2
              exact ⟨word k ++ [], by simp, .indexer hd hk hvn (called_of hv) (by simp) .nil⟩
            · simp only [hv] at h2
              obtain ⟨a, mid', h6, h7⟩ := M.bind_eq_ok.mp h2
              simp only [M.pure_run, Res.ok.injEq, Prod.mk.injEq] at h7
              obtain ⟨rfl, rfl⟩ := h7
              obtain ⟨h8, h6⟩ := visitUnwrap_ok h6
              rw [List.length_map] at h8
              obtain ⟨bs, rfl, f⟩ := forms_readAll ih h6
              exact ⟨word k ++ bs, by simp, .indexer hd hk hvn (called_of hv) h8 f⟩
          · simp [hvn] at h2
          · simp [hvn] at h2
          · simp [hvn] at h2
        | union disc vars impl =>
          simp only [deDef, deserialize_tuple, visitUnion] at h
          have e : ∀ d : De Val, Seq.next_element { count := 10 } d =
              (d >>= fun v => Pure.pure (some v, { count := 9 })) := fun _ => rfl
          rw [e, M.bind_assoc'] at h
          obtain ⟨i, mid, h1, h2⟩ := M.bind_eq_ok.mp h
          obtain ⟨bs, rfl, f⟩ := ih _ _ _ _ h1
          rw [M.pure_bind'] at h2
          dsimp only at h2
          rcases hvn : impl.name_by_value i with vn | _ | _ | _
          · simp only [hvn] at h2
            rcases hv : findVariant vn vars 0 with _ | ⟨p, _ | _ | ⟨d0, ts⟩⟩
            · simp [hv] at h2
            · simp only [hv] at h2
              simp only [M.pure_run, Res.ok.injEq, Prod.mk.injEq] at h2
              obtain ⟨rfl, rfl⟩ := h2
              exact ⟨bs, rfl, .unionUnit hd f hvn (called_of hv) rfl⟩
            · simp only [hv] at h2
              simp only [M.pure_run, Res.ok.injEq, Prod.mk.injEq] at h2
              obtain ⟨rfl, rfl⟩ := h2
              exact ⟨bs, rfl, .unionUnit hd f hvn (called_of hv) rfl⟩
            · simp only [hv] at h2
              obtain ⟨a, mid', h6, h7⟩ := M.bind_eq_ok.mp h2
              simp only [M.pure_run, Res.ok.injEq, Prod.mk.injEq] at h7
              obtain ⟨rfl, rfl⟩ := h7
              obtain ⟨h8, h6⟩ := visitUnwrap_ok h6
              rw [List.length_map] at h8
              obtain ⟨cs, rfl, g⟩ := forms_readAll ih h6
              exact ⟨bs ++ cs, by simp, .union hd f hvn (called_of hv) h8 g⟩
          · simp [hvn] at h2
          · simp [hvn] at h2
          · simp [hvn] at h2

/-! ## A form is read -/

theorem Reads_mono {env : Env} {n m : Nat} {t : Ty} {bs : Bytes} {v : Val}
    (h : Reads (deTy env n t) bs v) (hm : n ≤ m) : Reads (deTy env m t) bs v := by
  intro rest
  rw [deTy_refines env n m hm t _ (by rw [h rest]; simp), h rest]

theorem ReadsAll_mono {env : Env} {n m : Nat} {ts : List Ty} {bs : Bytes} {vs : List Val}
    (h : ReadsAll (ts.map (deTy env n)) bs vs) (hm : n ≤ m) : ReadsAll (ts.map (deTy env m)) bs vs := by
  induction ts generalizing bs vs with
  | nil => exact h
  | cons t ts ih =>
    rw [List.map_cons] at h ⊢
    cases h with
    | cons h1 h2 => exact .cons (Reads_mono h1 hm) (ih h2)

theorem ReadsEntries_mono {env : Env} {n m : Nat} {a b : Ty} {bs : Bytes} {ps : List (Val × Val)}
    (h : ReadsEntries (deTy env n a) (deTy env n b) bs ps) (hm : n ≤ m) :
    ReadsEntries (deTy env m a) (deTy env m b) bs ps := by
  induction h with
  | nil => exact .nil
  | cons h1 h2 _ ih => exact .cons (Reads_mono h1 hm) (Reads_mono h2 hm) ih

theorem reads_word {k : Nat} (hk : k < 2 ^ 32) :
    Reads read_u32 (word k) (UInt32.ofNat k) ∧ (UInt32.ofNat k).toNat = k := by
  rw [word, beBytes4]
  exact ⟨reads_u32 _, by rw [UInt32.toNat_ofNat', Nat.mod_eq_of_lt hk]⟩

theorem reads_word_i32 {k : Nat} (hk : k < 2 ^ 32) : Reads read_i32 (word k) (Int32.ofNat k) := by
  rw [read_i32_eq]
  obtain ⟨h1, h2⟩ := reads_word hk
  refine h1.map ?_
  rw [toInt32_eq, h2]
  exact Reads.pure _

theorem reads_dword {k : Nat} (hk : k < 2 ^ 64) :
    Reads read_u64 (dword k) (UInt64.ofNat k) ∧ (UInt64.ofNat k).toNat = k := by
  rw [dword, beBytes8]
  exact ⟨reads_u64 _, by rw [UInt64.toNat_ofNat', Nat.mod_eq_of_lt hk]⟩

theorem reads_dword_i64 {k : Nat} (hk : k < 2 ^ 64) : Reads read_i64 (dword k) (Int64.ofNat k) := by
  rw [read_i64_eq]
  obtain ⟨h1, h2⟩ := reads_dword hk
  refine h1.map ?_
  rw [toInt64_eq, h2]
  exact Reads.pure _

theorem word_len (n : Nat) : word n = lenBytes n := by rw [word, beBytes4]; rfl

theorem reads_seed {α : Type} {vars : List (String × α)} {i : Nat} {x : String × α} (hi : i < 2 ^ 31)
    (hv : vars[i]? = some x) : Reads (Enum_variant_seed (variantIndex vars.length)) (word i) i := by
  have h : indexBytes (UInt32.ofNat i) = .ok (be32 (UInt32.ofNat i)) := by
    have : (UInt32.ofNat i).toNat = i := by rw [UInt32.toNat_ofNat', Nat.mod_eq_of_lt (by omega)]
    unfold indexBytes; rw [this, if_pos hi]
  rw [word, beBytes4]
  exact variant_reads (by omega) h hv

mutual
theorem reads_of_form {env : Env} {t : Ty} {v : Val} {bs : Bytes} :
    Form env t v bs → ∃ n, Reads (deTy env n t) bs v := by
  intro hf
  match hf with
  | .bool (k := k) hk =>
    obtain ⟨h1, h2⟩ := reads_word hk
    refine ⟨1, h1.map ?_⟩
    have e : (UInt32.ofNat k != 0) = (k != 0) := by
      rw [Bool.eq_iff_iff]; simp [← UInt32.toNat_inj, h2]
    rw [e]; exact Reads.pure _
  | .i8 hk =>
    obtain ⟨h1, h2⟩ := reads_word hk
    refine ⟨1, ?_⟩
    simp only [deTy, deserialize_i8, read_i32_eq, M.bind_assoc', M.pure_bind']
    refine h1.map ?_
    rw [toInt8_eq, h2]; exact Reads.pure _
  | .i16 hk =>
    obtain ⟨h1, h2⟩ := reads_word hk
    refine ⟨1, ?_⟩
    simp only [deTy, deserialize_i16, read_i32_eq, M.bind_assoc', M.pure_bind']
    refine h1.map ?_
    rw [toInt16_eq, h2]; exact Reads.pure _
  | .i32 hk => exact ⟨1, (reads_word_i32 hk).map (Reads.pure _)⟩
  | .i64 hk => exact ⟨1, (reads_dword_i64 hk).map (Reads.pure _)⟩
  | .u8 hk =>
    obtain ⟨h1, h2⟩ := reads_word hk
    refine ⟨1, h1.map ?_⟩
    rw [toUInt8_eq, h2]; exact Reads.pure _
  | .u16 hk =>
    obtain ⟨h1, h2⟩ := reads_word hk
    refine ⟨1, h1.map ?_⟩
    rw [toUInt16_eq, h2]; exact Reads.pure _
  | .u32 hk => exact ⟨1, (reads_word hk).1.map (Reads.pure _)⟩
  | .u64 hk => exact ⟨1, (reads_dword hk).1.map (Reads.pure _)⟩
  | .f32 hk => exact ⟨1, (reads_word hk).1.map (Reads.pure _)⟩
  | .f64 hk => exact ⟨1, (reads_dword hk).1.map (Reads.pure _)⟩
  | .char c =>
    have e : word c.toNat = be32 c.val := word_eq c.val
    rw [e]
    exact ⟨1, (reads_char c).map (Reads.pure _)⟩
  | .string h1 h2 =>
    rw [word_len]
    exact ⟨1, (reads_string_pad h1 _ ((padding_iff _ _).mp h2)).map (Reads.pure _)⟩
  | .bytes h1 h2 =>
    rw [word_len]
    exact ⟨1, (reads_bytes_pad h1 _ ((padding_iff _ _).mp h2)).map (Reads.pure _)⟩
  | .opaqueVar h1 h2 =>
    rw [word_len]
    exact ⟨1, (reads_variable_pad h1 _ ((padding_iff _ _).mp h2)).map (Reads.pure _)⟩
  | .opaqueFixed h2 => exact ⟨1, (reads_fixed_pad _ _ ((padding_iff _ _).mp h2)).map (Reads.pure _)⟩
  | .unit => exact ⟨1, Reads.pure _⟩
  | .none => exact ⟨1, (reads_word (k := 0) (by omega)).1.map (Reads.pure _)⟩
  | .some (k := k) hk h0 h =>
    obtain ⟨n, hr⟩ := reads_of_form h
    obtain ⟨h1, h2⟩ := reads_word hk
    refine ⟨n + 1, ?_⟩
    simp only [deTy, deserialize_option]
    refine h1.bind ?_
    rw [if_neg (by simpa [← UInt32.toNat_inj, h2] using h0)]
    exact hr.map (Reads.pure _)
  | .vec (t := t) (k := k) (vs := vs) (bs := cs) hk h =>
    obtain ⟨n, hr⟩ := readsAll_of_forms h
    obtain ⟨h1, h2⟩ := reads_word hk
    refine ⟨n + 1, ?_⟩
    rw [List.map_replicate] at hr
    have : Reads (deserialize_seq fun seq => visitVec (deTy env n t) (seq.count + 1) seq)
        (word k ++ cs) vs := by
      refine h1.bind ?_
      rw [h2]
      exact reads_visitVec hr
    exact this.map (Reads.pure _)
  | .array (k := k) h =>
    obtain ⟨n, hr⟩ := readsAll_of_forms h
    rw [List.map_replicate] at hr
    exact ⟨n + 1, Reads.map (reads_visitEach hr s!"an array of length {k}" 0 k (by simp)) (Reads.pure _)⟩
  | .tuple (ts := ts) h =>
    obtain ⟨n, hr⟩ := readsAll_of_forms h
    exact ⟨n + 1, Reads.map (reads_visitEach hr s!"a tuple of size {ts.length}" 0 ts.length (by simp))
      (Reads.pure _)⟩
  | .map hk h hes =>
    obtain ⟨n, hr⟩ := readsEntries_of_pairs h
    refine ⟨n + 1, ?_⟩
    rw [hes.eq, word_len]
    exact deTy_map_reads env n _ _ _ _ hk hr
  | .signed32 hk h =>
    have : Reads (deserialize_i32 (pure : Int32 → De Int32)) _ _ :=
      (reads_word_i32 hk).map (Reads.pure _)
    refine ⟨1, this.map ?_⟩
    simp only [h]
    exact Reads.pure _
  | .unitStruct he =>
    refine ⟨1, ?_⟩
    simp only [deTy, he, deDef]
    exact Reads.pure _
  | .newtypeStruct he h =>
    obtain ⟨n, hr⟩ := reads_of_form h
    refine ⟨n + 1, ?_⟩
    simp only [deTy, he, deDef]
    exact hr.map (Reads.pure _)
  | .tupleStruct (name := name) (ts := ts) he h =>
    obtain ⟨n, hr⟩ := readsAll_of_forms h
    refine ⟨n + 1, ?_⟩
    simp only [deTy, he, deDef]
    have := reads_visitEach hr s!"tuple struct {name} with {ts.length} elements" 0 ts.length (by simp)
    exact Reads.map this (Reads.pure _)
  | .struct (name := name) (fs := fs) he h =>
    obtain ⟨n, hr⟩ := readsAll_of_forms h
    refine ⟨n + 1, ?_⟩
    simp only [deTy, he, deDef]
    rw [List.map_map] at hr
    have := reads_visitEach hr s!"struct {name} with {fs.length} elements" 0
      (fs.map (·.1)).length (by simp)
    exact Reads.map this (Reads.pure _)
  | .enum (name := name) (vn := vn) (sh := sh) he hi hv h =>
    obtain ⟨n, hr⟩ := readsAll_of_forms h
    refine ⟨n + 1, ?_⟩
    simp only [deTy, he, deDef]
    refine Reads.bind (reads_seed hi hv) ?_
    clear h hf
    match sh, hr, hv with
    | .unit, hr, hv =>
      simp only [hv]
      simp only [Shape.types, List.map_nil] at hr
      cases hr
      exact Reads.pure _
    | .newtype t, hr, hv =>
      simp only [hv]
      simp only [Shape.types, List.map_cons, List.map_nil] at hr
      cases hr with
      | cons h1 h2 =>
        cases h2
        rw [List.append_nil]
        exact h1.map (Reads.pure _)
    | .tuple ts, hr, hv =>
      simp only [hv]
      have := reads_visitEach hr s!"tuple variant {name}::{vn} with {ts.length} elements" 0 ts.length
        (by simp [Shape.types])
      exact Reads.map this (Reads.pure _)
    | .struct fs, hr, hv =>
      simp only [hv]
      simp only [Shape.types] at hr
      rw [List.map_map] at hr
      have := reads_visitEach hr s!"struct variant {name}::{vn} with {fs.length} elements" 0
        (fs.map (·.1)).length (by simp)
      exact Reads.map this (Reads.pure _)
  | .indexer (fs := fs) he hk hn hc hl h =>
    obtain ⟨n, hr⟩ := readsAll_of_forms h
    refine ⟨n + 1, ?_⟩
    simp only [deTy, he, deDef]
    have h1 : Reads (deserialize_i32 (pure : Int32 → De Int32)) _ _ :=
      (reads_word_i32 hk).map (Reads.pure _)
    refine Reads.bind (next_reads (n := 9) h1) ?_
    simp only [hn, findVariant_of hc.1 hc.2 0, Nat.zero_add]
    clear h hf hc
    match fs, hr, hl with
    | none, hr, _ =>
      simp only [Option.getD_none, List.map_nil] at hr
      cases hr
      exact Reads.pure _
    | some ts, hr, hl => exact (reads_visitUnwrap hr 9 (by simpa using hl)).map (Reads.pure _)
  | .union he hd hn hc hl h =>
    obtain ⟨n1, hr1⟩ := reads_of_form hd
    obtain ⟨n2, hr2⟩ := readsAll_of_forms h
    have hr1 := Reads_mono hr1 (Nat.le_max_left n1 n2)
    have hr2 := ReadsAll_mono hr2 (Nat.le_max_right n1 n2)
    refine ⟨max n1 n2 + 1, ?_⟩
    simp only [deTy, he, deDef]
    refine Reads.bind (next_reads (n := 9) hr1) ?_
    simp only [hn, findVariant_of hc.1 hc.2 0, Nat.zero_add]
    exact (reads_visitUnwrap hr2 9 (by simpa using hl)).map (Reads.pure _)
  | .unionUnit (fs := fs) he hd hn hc h0 =>
    obtain ⟨n, hr⟩ := reads_of_form hd
    refine ⟨n + 1, ?_⟩
    simp only [deTy, he, deDef]
    refine Reads.map (next_reads (n := 9) hr) ?_
    simp only [hn, findVariant_of hc.1 hc.2 0, Nat.zero_add]
    clear hf hc hd
    match fs, h0 with
    | none, _ => exact Reads.pure _
    | some [], _ => exact Reads.pure _

theorem readsAll_of_forms {env : Env} {ts : List Ty} {vs : List Val} {bs : Bytes} :
    Forms env ts vs bs → ∃ n, ReadsAll (ts.map (deTy env n)) bs vs := by
  intro hf
  match hf with
  | .nil => exact ⟨0, .nil⟩
  | .cons h hs =>
    obtain ⟨n1, hr1⟩ := reads_of_form h
    obtain ⟨n2, hr2⟩ := readsAll_of_forms hs
    exact ⟨max n1 n2, .cons (Reads_mono hr1 (Nat.le_max_left n1 n2))
      (ReadsAll_mono hr2 (Nat.le_max_right n1 n2))⟩

theorem readsEntries_of_pairs {env : Env} {a b : Ty} {ps : List (Val × Val)} {bs : Bytes} :
    Pairs env a b ps bs → ∃ n, ReadsEntries (deTy env n a) (deTy env n b) bs ps := by
  intro hf
  match hf with
  | .nil => exact ⟨0, .nil⟩
  | .cons h h' hs =>
    obtain ⟨n1, hr1⟩ := reads_of_form h
    obtain ⟨n2, hr2⟩ := reads_of_form h'
    obtain ⟨n3, hr3⟩ := readsEntries_of_pairs hs
    refine ⟨max n1 (max n2 n3), .cons (Reads_mono hr1 (by omega)) (Reads_mono hr2 (by omega))
      (ReadsEntries_mono hr3 (by omega))⟩
end

end Xdr.Wire
